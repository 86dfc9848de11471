import Verif.Spec.Branch
import Verif.Lemmas.History
import Verif.Lemmas.Counts
import Verif.Lemmas.FrameNew
import Verif.Lemmas.UndoExact

/-! # Clients that erase what they undid before they go another way -/

set_option linter.unusedSimpArgs false

namespace Ygo
open Ygo.Spec

/-- `L` is the table of `g` under other names, all of them below `n`. -/
def Named (g : Frame) (L : Layout) (n : Nat) : Prop :=
  ∃ ρ : CardId → CardId, (∀ x, x < g.next → ρ x < n) ∧ (∀ x y, x < g.next → y < g.next → ρ x = ρ y → x = y) ∧ L = g.layout.map ρ

theorem Named.mono {g : Frame} {L : Layout} {n m : Nat} (h : Named g L n) (hm : n ≤ m) : Named g L m := by
  obtain ⟨ρ, h1, h2, h3⟩ := h
  exact ⟨ρ, fun x hx => Nat.lt_of_lt_of_le (h1 x hx) hm, h2, h3⟩

theorem map_congr {g : Frame} (hg : Inv g) {ρ σ : CardId → CardId} (h : ∀ x, x < g.next → ρ x = σ x) : g.layout.map ρ = g.layout.map σ := by
  refine view_inj (funext fun C => ?_)
  rw [Layout.map_view, Layout.map_view]
  apply List.map_congr_left
  intro x hx
  exact h x (hg.fresh x (hg.owns.perm.mem_iff.mp (mem_placed.mpr ⟨C, hx⟩)))

theorem Named.sameButNames {g : Frame} (hg : Inv g) {L : Layout} {n : Nat} (h : Named g L n) : SameButNames g.layout L := by
  obtain ⟨ρ, h1, h2, rfl⟩ := h
  have hlt : ∀ x ∈ placed (view g.layout), x < g.next := fun x hx => hg.fresh x (hg.owns.perm.mem_iff.mp hx)
  exact ⟨ρ, fun C => Layout.map_view ρ _ C, fun x hx y hy => h2 x y (hlt x hx) (hlt y hy)⟩

theorem Inv.map {g : Frame} (hg : Inv g) {ρ : CardId → CardId} (hi : ∀ x y, ρ x = ρ y → x = y) (hn : ∀ x, x < g.next → ρ x < ρ g.next) :
    Inv (g.map ρ) := by
  have hp : placed (view (g.map ρ).layout) = (placed (view g.layout)).map ρ := by
    show placed (view (g.layout.map ρ)) = _
    rw [show view (g.layout.map ρ) = fun C => (view g.layout C).map ρ from funext fun C => Layout.map_view ρ _ C]
    simp [placed, List.map_flatMap]
  refine ⟨?_, ?_, ?_⟩
  · intro x
    rw [hp]
    exact (hg.owns.perm.map ρ).count_eq x
  · exact List.Pairwise.map ρ (fun x y hne e => hne (hi x y e)) hg.nodup
  · intro x hx
    obtain ⟨y, hy, rfl⟩ := List.mem_map.mp hx
    exact hn y (hg.fresh y hy)

theorem Named.step {g : Frame} (hg : Inv g) {f f' : Limbo} {X : FrameOp} (hl : LiveFrame f) (hd : Good f.base.layout f.base.owned)
    (h : Named g f.base.layout f.base.next) (hs : f.step X = .ok f') :
    ∃ g', g.step X = .ok g' ∧ Named g' f'.base.layout f'.base.next ∧ f.base.next ≤ f'.base.next := by
  obtain ⟨ρ, h1, h2, h3⟩ := h
  let σ : CardId → CardId := fun x => if x < g.next then ρ x else x - g.next + f.base.next
  have hσ : σ g.next = f.base.next := by simp [σ]
  have hlt : ∀ x, x < g.next → σ x = ρ x := fun x hx => by simp [σ, hx]
  have hge : ∀ i, σ (g.next + i) = f.base.next + i := fun i => by
    have : ¬ g.next + i < g.next := by omega
    simp only [σ, this, if_false]
    omega
  have hinj : ∀ x y, σ x = σ y → x = y := by
    intro x y e
    by_cases hx : x < g.next <;> by_cases hy : y < g.next
    · rw [hlt x hx, hlt y hy] at e
      exact h2 x y hx hy e
    · obtain ⟨j, rfl⟩ := Nat.exists_eq_add_of_le (Nat.le_of_not_lt hy)
      rw [hlt x hx, hge] at e
      have := h1 x hx
      omega
    · obtain ⟨j, rfl⟩ := Nat.exists_eq_add_of_le (Nat.le_of_not_lt hx)
      rw [hlt y hy, hge] at e
      have := h1 y hy
      omega
    · obtain ⟨i, rfl⟩ := Nat.exists_eq_add_of_le (Nat.le_of_not_lt hx)
      obtain ⟨j, rfl⟩ := Nat.exists_eq_add_of_le (Nat.le_of_not_lt hy)
      rw [hge, hge] at e
      omega
  have hL : f.base.layout = g.layout.map σ := by
    rw [h3]
    exact map_congr hg (fun x hx => (hlt x hx).symm)
  have hI : Inv (g.map σ) := hg.map hinj (fun x hx => by rw [hσ, hlt x hx]; exact h1 x hx)
  have hR : Refines (g.map σ) f := by
    refine ⟨hL, hσ.symm, fun x hx => hd.2 x ?_⟩
    rw [hL]
    exact hI.owns.perm.mem_iff.mpr hx
  obtain ⟨_, _, k, hk, hk2⟩ := Limbo.step_refines hl hI hR hs
  rw [Rename.step ⟨hinj, fun i => by rw [hge, hσ]⟩] at hk
  cases hgs : g.step X with
  | error e => rw [hgs] at hk; cases hk
  | ok g' =>
    rw [hgs] at hk
    cases hk
    have hn := step_next hgs
    obtain ⟨i, hi⟩ := Nat.exists_eq_add_of_le hn
    have hnx : f'.base.next = f.base.next + i := by
      have := hk2.next
      rw [this]
      show σ g'.next = _
      rw [hi, hge]
    refine ⟨g', rfl, ⟨σ, ?_, fun x y _ _ e => hinj x y e, hk2.layout⟩, by omega⟩
    intro x hx
    rw [hnx]
    by_cases hx' : x < g.next
    · rw [hlt x hx']
      have := h1 x hx'
      omega
    · obtain ⟨j, rfl⟩ := Nat.exists_eq_add_of_le (Nat.le_of_not_lt hx')
      rw [hge]
      omega

/-- Every point of the trail is a table of a plain frame under other names. -/
def NamedTrail (T : Trail) (n : Nat) : Prop :=
  ∀ P : Trail, P <+: T → ∃ g, runOps Frame.init (P.map (·.1)) = .ok g ∧ Inv g ∧ Named g (P.last Layout.empty) n

theorem NamedTrail.sub {T T' : Trail} {n m : Nat} (h : NamedTrail T n) (hs : T' <+: T) (hm : n ≤ m) : NamedTrail T' m := by
  intro P hP
  obtain ⟨g, h1, h2, h3⟩ := h P (hP.trans hs)
  exact ⟨g, h1, h2, h3.mono hm⟩

theorem careful_inv {f : Limbo} {past future : List FrameOp} (h : Careful f past future) :
    ∃ T1 T2, HistInv f past future Layout.empty T1 T2 ∧ NamedTrail (T1 ++ T2) f.base.next := by
  induction h with
  | init =>
    refine ⟨[], [], ⟨Between.start (f := Limbo.init) ⟨rfl, rfl⟩, rfl, rfl, ?_, by simp, ?_⟩, ?_⟩
    · exact Inv.init.good (fun _ h => h)
    · simp [Limbo.init, Frame.init]
    · intro P hP
      obtain rfl := List.prefix_nil.mp hP
      refine ⟨Frame.init, rfl, Inv.init, id, ?_, ?_, ?_⟩
      · intro x hx; exact hx
      · intro x y _ _ e; exact e
      · exact view_inj (funext fun C => by rw [Layout.map_view]; simp [Trail.last, Frame.init, view_empty])
  | new h hu hs ih =>
    rename_i f f' past X
    obtain ⟨T1, T2, hi, hn⟩ := ih
    have h2 : T2 = [] := by have := hi.future; simpa using this
    subst h2
    obtain ⟨f1, h3, h4, h5, _⟩ := Between.new hi.between hi.between.live rfl hu hs
    rw [hs] at h3
    cases h3
    obtain ⟨h6, h7⟩ := step_good hi.between.live hi.here hi.fresh hs
    simp only [List.append_nil] at hn
    obtain ⟨g, hg1, hg2, hg3⟩ := hn T1 (List.prefix_refl _)
    rw [← hi.between.last] at hg3
    obtain ⟨g', hg4, hg5, hg6⟩ := hg3.step hg2 hi.between.live hi.here hs
    refine ⟨_, [], ⟨h4, by simp [hi.past], rfl, hi.start.mono h7, ?_, step_fresh hi.between.live hi.fresh hs⟩, ?_⟩
    · intro e he
      simp only [List.append_nil, List.mem_append, List.mem_singleton] at he
      rcases he with he | rfl
      · exact (hi.good e (by simpa using he)).mono h7
      · exact h6
    · intro P hP
      rw [List.append_nil, List.prefix_concat_iff] at hP
      rcases hP with rfl | hP
      · refine ⟨g', ?_, hg2.step hg4, ?_⟩
        · rw [List.map_append, runOps_concat, hg1]
          show runOps _ _ = _
          simp [runOps, FrameLike.step, hg4]
        · simpa [Trail.last] using hg5
      · exact hn.sub (List.prefix_refl _) hg6 P hP
  | undo h hs ih =>
    rename_i f f' past future X
    obtain ⟨T1, T2, hi, hn⟩ := ih
    have hp := hi.past
    obtain ⟨T, ⟨X', L'⟩, rfl⟩ : ∃ T a, T1 = T ++ [a] := by
      have hne : T1 ≠ [] := by intro hT; simp [hT] at hp
      exact ⟨T1.dropLast, T1.getLast hne, (List.dropLast_concat_getLast hne).symm⟩
    simp only [List.map_append, List.map_cons, List.map_nil, List.reverse_cons] at hp
    obtain ⟨hp1, hp2⟩ := List.append_inj' hp (by simp)
    simp at hp2
    subst hp2
    obtain ⟨f1, h3, h4, h5, h6⟩ := hi.between.back
    rw [hs] at h3
    cases h3
    refine ⟨T, _, ⟨h4, hp1, by simp [hi.future], h5 ▸ hi.start, ?_, ?_⟩, ?_⟩
    · intro e he
      rw [h5]
      exact hi.good e (by simpa using he)
    · rw [h5, h6]; exact hi.fresh
    · rw [h6]; simpa using hn
  | redo h hs ih =>
    rename_i f f' past future X
    obtain ⟨T1, T2, hi, hn⟩ := ih
    have hf := hi.future
    obtain ⟨⟨X', L'⟩, T, rfl⟩ : ∃ a T, T2 = a :: T := by
      cases T2 with
      | nil => simp at hf
      | cons a T => exact ⟨a, T, rfl⟩
    simp only [List.map_cons, List.cons.injEq] at hf
    obtain ⟨rfl, hf⟩ := hf
    obtain ⟨f1, h3, h4, h5, h6⟩ := hi.between.forth
    rw [hs] at h3
    cases h3
    refine ⟨_, T, ⟨h4, by simp [hi.past], hf, h5 ▸ hi.start, ?_, ?_⟩, ?_⟩
    · intro e he
      rw [h5]
      exact hi.good e (by simpa using he)
    · rw [h5, h6]; exact hi.fresh
    · rw [h6]; simpa using hn
  | erase h hs ih =>
    rename_i f f' past future
    obtain ⟨T1, T2, hi, hn⟩ := ih
    obtain ⟨h1, h2⟩ := hi.between.erase hs
    refine ⟨T1, [], ⟨h1, hi.past, rfl, h2 ▸ hi.start, ?_, h2 ▸ hi.fresh⟩, ?_⟩
    · intro e he
      rw [h2]
      exact hi.good e (by simp at he; simp [he])
    · rw [h2, List.append_nil]
      exact hn.sub (List.prefix_append _ _) (Nat.le_refl _)

end Ygo
