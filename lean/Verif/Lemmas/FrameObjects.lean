import Verif.Lemmas.FrameRename
import Verif.Lemmas.FrameNew
import Verif.Spec.FrameObjects

/-!
# Frames in memory against frames as values
-/

set_option linter.unusedSimpArgs false

namespace Ygo
open Ygo.Spec Ygo.Rename

variable {α : Type}

/-- Cards to come get addresses not used yet. -/
def extend (ρ : CardId → CardId) (n fresh : CardId) : CardId → CardId := fun c => if c < n then ρ c else fresh + (c - n)

theorem extend_old {ρ : CardId → CardId} {n fresh c : CardId} (h : c < n) : extend ρ n fresh c = ρ c := by simp [extend, h]
theorem extend_new {ρ : CardId → CardId} {n fresh c : CardId} (h : n ≤ c) : extend ρ n fresh c = fresh + (c - n) := by
  simp [extend, show ¬ c < n by omega]

theorem extend_renames {ρ : CardId → CardId} {n fresh : CardId} (hi : ∀ a b, a < n → b < n → ρ a = ρ b → a = b) (hl : ∀ a, a < n → ρ a < fresh) :
    Renames (extend ρ n fresh) n := by
  refine ⟨fun x y e => ?_, fun i => ?_⟩
  · rcases Nat.lt_or_ge x n with hx | hx <;> rcases Nat.lt_or_ge y n with hy | hy
    · rw [extend_old hx, extend_old hy] at e; exact hi x y hx hy e
    · rw [extend_old hx, extend_new hy] at e; have := hl x hx; omega
    · rw [extend_new hx, extend_old hy] at e; have := hl y hy; omega
    · rw [extend_new hx, extend_new hy] at e; omega
  · rw [extend_new (by omega), extend_new (Nat.le_refl n)]; omega

theorem Layout.map_congr {l : Layout} {ρ σ : CardId → CardId} (h : ∀ C, ∀ c ∈ view l C, ρ c = σ c) : l.map ρ = l.map σ := by
  simp only [Layout.map, Layout.mk.injEq]
  refine ⟨funext fun k => List.map_congr_left fun c hc => h (.pile k) c hc, funext fun k => ?_⟩
  rw [show (l.zone k).materials.map ρ = (l.zone k).materials.map σ from List.map_congr_left fun c hc => h (.mats k) c hc]
  have := h (.slot k)
  simp only [view] at this
  cases hz : (l.zone k).card with
  | none => rfl
  | some c => simp [this c (by simp [hz])]

theorem view_map (ρ : CardId → CardId) (l : Layout) (C : Container) : view (l.map ρ) C = (view l C).map ρ := by
  cases C with
  | pile k => rfl
  | mats k => rfl
  | slot k =>
    show ((l.zone k).card.map ρ).toList = (l.zone k).card.toList.map ρ
    cases (l.zone k).card <;> rfl

/-- A frame in memory is a frame of its own, its cards at other addresses. -/
structure FHolds (m : FrameMemory α) (o : Nat) (x : Solo α) (ρ : CardId → CardId) : Prop where
  inv : Inv x.frame
  inj : ∀ a b, a < x.frame.next → b < x.frame.next → ρ a = ρ b → a = b
  low : ∀ a, a < x.frame.next → ρ a < m.fresh
  obj : m.obj o = some (x.frame.layout.map ρ, x.frame.owned.map ρ)
  card : ∀ c ∈ x.frame.owned, m.card (ρ c) = some (x.value c)

/-- What a name stands for in memory. -/
def FStands (m : FrameMemory α) (o : Nat) : Option (Option (Solo α)) → Prop
  | none => m.obj o = none
  | some none => ∃ l, m.obj o = some (l, [])
  | some (some x) => ∃ ρ, FHolds m o x ρ

/-- The frames in memory are frames of their own. -/
structure FShelved (s : Frames α) (m : FrameMemory α) : Prop where
  holds : ∀ o, FStands m o (s o)
  apart : ∀ o p l ow l' ow', o ≠ p → m.obj o = some (l, ow) → m.obj p = some (l', ow') → ∀ c ∈ ow, c ∉ ow'
  low : ∀ o l ow, m.obj o = some (l, ow) → ∀ c ∈ ow, c < m.fresh
  alive : ∀ c, (∃ v, m.card c = some v) ↔ ∃ o l ow, m.obj o = some (l, ow) ∧ c ∈ ow

theorem FShelved.empty : FShelved (α := α) (fun _ => none) FrameMemory.empty :=
  ⟨fun _ => rfl, fun _ _ _ _ _ _ _ h => by simp [FrameMemory.empty] at h, fun _ _ _ h => by simp [FrameMemory.empty] at h,
    fun c => by simp [FrameMemory.empty]⟩

theorem FShelved.there {s : Frames α} {m : FrameMemory α} (h : FShelved s m) {o : Nat} {y : Option (Solo α)} (hs : s o = some y) :
    ∃ l ow, m.obj o = some (l, ow) := by
  have := h.holds o
  rw [hs] at this
  match y, this with
  | none, ⟨l, hl⟩ => exact ⟨l, [], hl⟩
  | some x, ⟨ρ, hx⟩ => exact ⟨_, _, hx.obj⟩

theorem FShelved.used {s : Frames α} {m : FrameMemory α} (h : FShelved s m) {o : Nat} {x : Solo α} (hs : s o = some (some x)) :
    ∃ ρ, FHolds m o x ρ := by
  have := h.holds o
  rwa [hs] at this

theorem FShelved.absent {s : Frames α} {m : FrameMemory α} (h : FShelved s m) {o : Nat} (hs : s o = none) : m.obj o = none := by
  have := h.holds o
  rwa [hs] at this

/-- A frame is not concerned by what happens to cards of others. -/
theorem FStands.frame {m m' : FrameMemory α} {o : Nat} {y : Option (Option (Solo α))} (h : FStands m o y) (ho : m'.obj o = m.obj o)
    (hf : m.fresh ≤ m'.fresh) (hc : ∀ l ow, m.obj o = some (l, ow) → ∀ c ∈ ow, m'.card c = m.card c) : FStands m' o y := by
  match y, h with
  | none, h => exact ho.trans h
  | some none, ⟨l, hl⟩ => exact ⟨l, ho.trans hl⟩
  | some (some x), ⟨ρ, hx⟩ =>
    exact ⟨ρ, hx.inv, hx.inj, fun a ha => Nat.lt_of_lt_of_le (hx.low a ha) hf, ho.trans hx.obj,
      fun c hm => (hc _ _ hx.obj _ (List.mem_map_of_mem hm)).trans (hx.card c hm)⟩

/-- The frame in memory as a frame by itself. -/
theorem FHolds.as_frame {m : FrameMemory α} {o : Nat} {x : Solo α} {ρ : CardId → CardId} (h : FHolds m o x ρ) :
    (⟨x.frame.layout.map ρ, x.frame.owned.map ρ, m.fresh⟩ : Frame) = x.frame.map (extend ρ x.frame.next m.fresh) := by
  simp only [Frame.map, Frame.mk.injEq]
  refine ⟨Layout.map_congr fun C c hc => (extend_old (h.inv.fresh c (h.inv.mem_owned hc))).symm,
    List.map_congr_left fun c hc => (extend_old (h.inv.fresh c hc)).symm, ?_⟩
  rw [extend_new (Nat.le_refl _)]
  omega

theorem FHolds.renames {m : FrameMemory α} {o : Nat} {x : Solo α} {ρ : CardId → CardId} (h : FHolds m o x ρ) :
    Renames (extend ρ x.frame.next m.fresh) x.frame.next := extend_renames h.inj h.low

/-- A call in memory is the call on the frame of its own. -/
theorem FHolds.call_eq {m : FrameMemory α} {o : Nat} {x : Solo α} {ρ : CardId → CardId} (h : FHolds m o x ρ) (op : FrameOp) :
    (⟨x.frame.layout.map ρ, x.frame.owned.map ρ, m.fresh⟩ : Frame).step op =
      mapRes (Frame.map (extend ρ x.frame.next m.fresh)) (x.frame.step op) := by
  rw [h.as_frame]
  exact Rename.step h.renames op

theorem FHolds.call_error {m : FrameMemory α} {o : Nat} {x : Solo α} {ρ : CardId → CardId} (h : FHolds m o x ρ) (op : FrameOp) (d : α) (e : Err) :
    m.call o op d = .error e ↔ x.call op d = .error e := by
  simp only [FrameMemory.call, Solo.call, h.obj, orUb, bind_ok, h.call_eq]
  cases x.frame.step op <;> simp

/-- Reading in memory is reading the frame of its own. -/
theorem FHolds.read {m : FrameMemory α} {o : Nat} {x : Solo α} {ρ : CardId → CardId} (h : FHolds m o x ρ) (p : Place) :
    m.read o p = x.read p := by
  simp only [FrameMemory.read, Solo.read, h.obj, orUb, bind_ok, layout_card]
  cases hc : x.frame.layout.card p with
  | error => rfl
  | ok c =>
    obtain ⟨C, i, _, hi⟩ := Layout.card_eq_ok.mp hc
    have := h.card c (h.inv.mem_owned (List.mem_of_getElem? hi))
    simp [this, orUb]

theorem FShelved.construct {s : Frames α} {m : FrameMemory α} (h : FShelved s m) (o : Nat) (ho : s o = none) (g : CardId → α) :
    FShelved (s.put o (some (some ⟨Frame.init, g⟩))) (m.construct o) := by
  have hn := h.absent ho
  refine ⟨fun p => ?_, fun p q l ow l' ow' hpq hp hq => ?_, fun p l ow hp => ?_, fun c => ?_⟩
  · by_cases hp : p = o
    · subst hp
      simp only [Frames.put, if_true]
      refine ⟨id, Inv.init, fun a b ha => by simp [Frame.init] at ha, fun a ha => by simp [Frame.init] at ha, ?_, fun c hc => by simp [Frame.init] at hc⟩
      simp [FrameMemory.construct, FrameMemory.put, Frame.init, Layout.map, Layout.empty]
    · simp only [Frames.put, if_neg hp]
      exact (h.holds p).frame (by simp [FrameMemory.construct, FrameMemory.put, hp]) (Nat.le_refl _) fun _ _ _ _ _ => rfl
  · simp only [FrameMemory.construct, FrameMemory.put] at hp hq
    split at hp
    · simp only [Option.some.injEq, Prod.mk.injEq] at hp
      simp [← hp.2]
    · split at hq
      · simp only [Option.some.injEq, Prod.mk.injEq] at hq
        simp [← hq.2]
      · exact h.apart p q _ _ _ _ hpq hp hq
  · simp only [FrameMemory.construct, FrameMemory.put] at hp
    split at hp
    · simp only [Option.some.injEq, Prod.mk.injEq] at hp
      simp [← hp.2]
    · exact h.low p _ _ hp
  · refine (h.alive c).trans ⟨?_, ?_⟩
    · rintro ⟨p, l, ow, hp, hc⟩
      have : p ≠ o := fun e => by rw [e, hn] at hp; cases hp
      exact ⟨p, l, ow, by simp [FrameMemory.construct, FrameMemory.put, this, hp], hc⟩
    · rintro ⟨p, l, ow, hp, hc⟩
      simp only [FrameMemory.construct, FrameMemory.put] at hp
      split at hp
      · simp only [Option.some.injEq, Prod.mk.injEq] at hp
        rw [← hp.2] at hc
        cases hc
      · exact ⟨p, l, ow, hp, hc⟩

theorem FShelved.call {s : Frames α} {m : FrameMemory α} (h : FShelved s m) {o : Nat} {x y : Solo α} {op : FrameOp} {d : α}
    (hs : s o = some (some x)) (hy : x.call op d = .ok y) : ∃ m', m.call o op d = .ok m' ∧ FShelved (s.put o (some (some y))) m' := by
  obtain ⟨ρ, hx⟩ := h.used hs
  simp only [Solo.call, bind_eq_ok, pure_eq_ok, Except.ok.injEq] at hy
  obtain ⟨f, hf, rfl⟩ := hy
  have hcall := hx.call_eq op
  rw [hf, mapRes_ok] at hcall
  have hren := hx.renames
  have hn : x.frame.next ≤ f.next := step_next hf
  let σ := extend ρ x.frame.next m.fresh
  have hσ : ∀ c, c < x.frame.next → σ c = ρ c := fun c hc => extend_old hc
  have hσ' : ∀ c, x.frame.next ≤ c → m.fresh ≤ σ c := fun c hc => by
    show m.fresh ≤ extend ρ x.frame.next m.fresh c
    rw [extend_new hc]; omega
  have hnext : σ f.next = m.fresh + (f.next - x.frame.next) := extend_new hn
  have hnew : ∀ c ∈ f.owned.map σ, c ∈ x.frame.owned.map ρ ∨ m.fresh ≤ c := by
    intro c hc
    obtain ⟨a, ha, rfl⟩ := List.mem_map.mp hc
    rcases step_owned hf ha with h1 | h1
    · exact .inl (List.mem_map.mpr ⟨a, h1, (hσ a (hx.inv.fresh a h1)).symm⟩)
    · exact .inr (hσ' a h1)
  have hfi : Inv f := hx.inv.step hf
  have hlow : ∀ c ∈ f.owned.map σ, c < σ f.next := by
    intro c hc
    obtain ⟨a, ha, rfl⟩ := List.mem_map.mp hc
    have hlt := hfi.fresh a ha
    rw [hnext]
    rcases Nat.lt_or_ge a x.frame.next with h1 | h1
    · have := hx.low a h1; rw [hσ a h1]; omega
    · show extend ρ x.frame.next m.fresh a < _
      rw [extend_new h1]; omega
  let m' : FrameMemory α := {
    card := fun c => if c ∈ f.owned.map σ then (if m.fresh ≤ c then some d else m.card c) else if c ∈ x.frame.owned.map ρ then none else m.card c
    obj := fun p => if p = o then some (f.layout.map σ, f.owned.map σ) else m.obj p
    fresh := σ f.next }
  have hfresh : m.fresh ≤ m'.fresh := by show m.fresh ≤ σ f.next; rw [hnext]; omega
  have hobjo : m'.obj o = some (f.layout.map σ, f.owned.map σ) := by simp [m']
  have hobj : ∀ p, p ≠ o → m'.obj p = m.obj p := fun p hp => by simp [m', hp]
  have hother : ∀ p l ow, p ≠ o → m.obj p = some (l, ow) → ∀ c ∈ ow, c ∉ f.owned.map σ ∧ c ∉ x.frame.owned.map ρ := by
    intro p l ow hp hm c hc
    have h1 := h.apart p o _ _ _ _ hp hm hx.obj c hc
    refine ⟨fun h2 => ?_, h1⟩
    rcases hnew c h2 with h3 | h3
    · exact h1 h3
    · have := h.low p _ _ hm c hc; omega
  refine ⟨m', ?_, fun p => ?_, fun p q l ow l' ow' hpq hp hq => ?_, fun p l ow hp => ?_, fun c => ?_⟩
  · simp only [FrameMemory.call, hx.obj, orUb, bind_ok]
    rw [hcall, bind_ok]
    rfl
  · by_cases hp : p = o
    · subst hp
      simp only [Frames.put, if_true]
      refine ⟨σ, hfi, fun a b _ _ e => hren.inj a b e, fun a ha => ?_, hobjo, fun c hc => ?_⟩
      · show σ a < σ f.next
        rcases Nat.lt_or_ge a x.frame.next with h1 | h1
        · have := hx.low a h1; rw [hσ a h1, hnext]; omega
        · rw [hnext, show σ a = m.fresh + (a - x.frame.next) from extend_new h1]
          simp only at ha
          omega
      · have hc : c ∈ f.owned := hc
        have hm : σ c ∈ f.owned.map σ := List.mem_map_of_mem hc
        show (if σ c ∈ f.owned.map σ then _ else _) = _
        rw [if_pos hm]
        show _ = some (if x.frame.next ≤ c then d else x.value c)
        rcases Nat.lt_or_ge c x.frame.next with h1 | h1
        · have hlt := hx.low c h1
          rw [if_neg (by rw [hσ c h1]; omega), if_neg (by omega), hσ c h1]
          rcases step_owned hf hc with h2 | h2
          · exact hx.card c h2
          · omega
        · rw [if_pos (hσ' c h1), if_pos h1]
    · simp only [Frames.put, if_neg hp]
      refine (h.holds p).frame (hobj p hp) hfresh fun l ow hm c hc => ?_
      obtain ⟨h1, h2⟩ := hother p l ow hp hm c hc
      show (if c ∈ f.owned.map σ then _ else _) = _
      rw [if_neg h1, if_neg h2]
  · by_cases h1 : p = o
    · subst h1
      rw [hobjo] at hp
      rw [hobj q (Ne.symm hpq)] at hq
      simp only [Option.some.injEq, Prod.mk.injEq] at hp
      intro c hc hc'
      rw [← hp.2] at hc
      exact (hother q _ _ (Ne.symm hpq) hq c hc').1 hc
    · rw [hobj p h1] at hp
      by_cases h2 : q = o
      · subst h2
        rw [hobjo] at hq
        simp only [Option.some.injEq, Prod.mk.injEq] at hq
        intro c hc
        rw [← hq.2]
        exact (hother p _ _ h1 hp c hc).1
      · rw [hobj q h2] at hq
        exact h.apart p q _ _ _ _ hpq hp hq
  · by_cases h1 : p = o
    · subst h1
      rw [hobjo] at hp
      simp only [Option.some.injEq, Prod.mk.injEq] at hp
      rw [← hp.2]
      exact hlow
    · rw [hobj p h1] at hp
      exact fun c hc => Nat.lt_of_lt_of_le (h.low p _ _ hp c hc) hfresh
  · show (∃ v, (if c ∈ f.owned.map σ then (if m.fresh ≤ c then some d else m.card c) else if c ∈ x.frame.owned.map ρ then none else m.card c) = some v) ↔ _
    by_cases h1 : c ∈ f.owned.map σ
    · rw [if_pos h1]
      refine ⟨fun _ => ⟨o, _, _, hobjo, h1⟩, fun _ => ?_⟩
      split
      · exact ⟨d, rfl⟩
      · rcases hnew c h1 with h2 | h2
        · exact (h.alive c).mpr ⟨o, _, _, hx.obj, h2⟩
        · omega
    · rw [if_neg h1]
      by_cases h2 : c ∈ x.frame.owned.map ρ
      · rw [if_pos h2]
        refine ⟨fun ⟨v, hv⟩ => (by cases hv), fun ⟨p, l, ow, hp, hc⟩ => ?_⟩
        by_cases h3 : p = o
        · subst h3
          rw [hobjo] at hp
          simp only [Option.some.injEq, Prod.mk.injEq] at hp
          rw [← hp.2] at hc
          exact absurd hc h1
        · rw [hobj p h3] at hp
          exact absurd h2 (hother p _ _ h3 hp c hc).2
      · rw [if_neg h2]
        refine (h.alive c).trans ⟨fun ⟨p, l, ow, hp, hc⟩ => ?_, fun ⟨p, l, ow, hp, hc⟩ => ?_⟩
        · have h3 : p ≠ o := fun e => by
            subst e
            rw [hx.obj] at hp
            simp only [Option.some.injEq, Prod.mk.injEq] at hp
            rw [← hp.2] at hc
            exact h2 hc
          exact ⟨p, l, ow, (hobj p h3).trans hp, hc⟩
        · by_cases h3 : p = o
          · subst h3
            rw [hobjo] at hp
            simp only [Option.some.injEq, Prod.mk.injEq] at hp
            rw [← hp.2] at hc
            exact absurd hc h1
          · exact ⟨p, l, ow, (hobj p h3).symm.trans hp, hc⟩

theorem FShelved.write {s : Frames α} {m : FrameMemory α} (h : FShelved s m) {o : Nat} {x y : Solo α} {p : Place} {v : α}
    (hs : s o = some (some x)) (hy : x.write p v = .ok y) : ∃ m', m.write o p v = .ok m' ∧ FShelved (s.put o (some (some y))) m' := by
  obtain ⟨ρ, hx⟩ := h.used hs
  simp only [Solo.write, bind_eq_ok, pure_eq_ok, Except.ok.injEq] at hy
  obtain ⟨c, hc, rfl⟩ := hy
  obtain ⟨C, i, _, hi⟩ := Layout.card_eq_ok.mp hc
  have hown := hx.inv.mem_owned (List.mem_of_getElem? hi)
  have hcard := hx.card c hown
  have hmem : ρ c ∈ x.frame.owned.map ρ := List.mem_map_of_mem hown
  refine ⟨{ m with card := fun c' => if c' = ρ c then some v else m.card c' }, ?_, fun q => ?_, h.apart, h.low, fun c' => ?_⟩
  · simp [FrameMemory.write, hx.obj, orUb, layout_card, hc, hcard]
  · by_cases hq : q = o
    · subst hq
      simp only [Frames.put, if_true]
      refine ⟨ρ, hx.inv, hx.inj, hx.low, hx.obj, fun a ha => ?_⟩
      have ha : a ∈ x.frame.owned := ha
      show (if ρ a = ρ c then some v else m.card (ρ a)) = some (if a = c then v else x.value a)
      by_cases hac : a = c
      · simp [hac]
      · have : ρ a ≠ ρ c := fun e => hac (hx.inj a c (hx.inv.fresh a ha) (hx.inv.fresh c hown) e)
        simp [hac, this, hx.card a ha]
    · simp only [Frames.put, if_neg hq]
      refine (h.holds q).frame rfl (Nat.le_refl _) fun l ow hm a ha => ?_
      have : a ≠ ρ c := fun e => h.apart q o _ _ _ _ hq hm hx.obj a ha (e ▸ hmem)
      show (if a = ρ c then some v else m.card a) = m.card a
      rw [if_neg this]
  · show (∃ w, (if c' = ρ c then some v else m.card c') = some w) ↔ _
    by_cases h1 : c' = ρ c
    · rw [if_pos h1]
      exact ⟨fun _ => ⟨o, _, _, hx.obj, h1 ▸ hmem⟩, fun _ => ⟨v, rfl⟩⟩
    · rw [if_neg h1]
      exact h.alive c'

/-- The cards of a frame die with it. -/
theorem FShelved.destroy {s : Frames α} {m : FrameMemory α} (h : FShelved s m) {o : Nat} {l : Layout} {ow : List CardId} (ho : m.obj o = some (l, ow)) :
    FShelved (s.put o none) ((m.free ow).put o none) := by
  have hobj : ∀ p, p ≠ o → ((m.free ow).put o none).obj p = m.obj p := fun p hp => by simp [FrameMemory.put, FrameMemory.free, hp]
  have hobjo : ((m.free ow).put o none).obj o = none := by simp [FrameMemory.put]
  have hne : ∀ p x, ((m.free ow).put o none).obj p = some x → p ≠ o := fun p x hp e => by rw [e, hobjo] at hp; cases hp
  refine ⟨fun p => ?_, fun p q l1 ow1 l2 ow2 hpq hp hq => ?_, fun p l1 ow1 hp => ?_, fun c => ?_⟩
  · by_cases hp : p = o
    · subst hp; simp only [Frames.put, if_true]; exact hobjo
    · simp only [Frames.put, if_neg hp]
      refine (h.holds p).frame (hobj p hp) (Nat.le_refl _) fun l1 ow1 hm c hc => ?_
      show (if c ∈ ow then none else m.card c) = m.card c
      rw [if_neg (h.apart p o _ _ _ _ hp hm ho c hc)]
  · rw [hobj p (hne p _ hp)] at hp
    rw [hobj q (hne q _ hq)] at hq
    exact h.apart p q _ _ _ _ hpq hp hq
  · rw [hobj p (hne p _ hp)] at hp
    exact h.low p _ _ hp
  · show (∃ v, (if c ∈ ow then none else m.card c) = some v) ↔ _
    by_cases h1 : c ∈ ow
    · rw [if_pos h1]
      refine ⟨fun ⟨v, hv⟩ => (by cases hv), fun ⟨p, l1, ow1, hp, hc⟩ => ?_⟩
      have hpo := hne p _ hp
      rw [hobj p hpo] at hp
      exact absurd h1 (h.apart p o _ _ _ _ hpo hp ho c hc)
    · rw [if_neg h1]
      refine (h.alive c).trans ⟨fun ⟨p, l1, ow1, hp, hc⟩ => ?_, fun ⟨p, l1, ow1, hp, hc⟩ => ?_⟩
      · have h3 : p ≠ o := fun e => by
          rw [e, ho] at hp
          simp only [Option.some.injEq, Prod.mk.injEq] at hp
          exact h1 (hp.2 ▸ hc)
        exact ⟨p, l1, ow1, (hobj p h3).trans hp, hc⟩
      · exact ⟨p, l1, ow1, (hobj p (hne p _ hp)).symm.trans hp, hc⟩

/-- Cards change hands to a name without a frame. -/
theorem FShelved.move {s : Frames α} {m : FrameMemory α} (h : FShelved s m) {o p : Nat} {y : Option (Solo α)} (ho : s o = none) (hp : s p = some y) :
    ∃ m', m.move o p = .ok m' ∧ FShelved ((s.put o (some y)).put p (some none)) m' := by
  obtain ⟨l, ow, hm⟩ := h.there hp
  have hop : o ≠ p := fun e => by rw [e, hp] at ho; cases ho
  have hno := h.absent ho
  let m' := (m.put o (some (l, ow))).put p (some (FrameMemory.leftovers l, []))
  have hobjo : m'.obj o = some (l, ow) := by simp [m', FrameMemory.put, hop]
  have hobjp : m'.obj p = some (FrameMemory.leftovers l, []) := by simp [m', FrameMemory.put]
  have hobj : ∀ q, q ≠ o → q ≠ p → m'.obj q = m.obj q := fun q h1 h2 => by simp [m', FrameMemory.put, h1, h2]
  -- every owner afterwards was one before
  have back : ∀ q l1 ow1, m'.obj q = some (l1, ow1) → ow1 ≠ [] → q ≠ p ∧ m.obj (if q = o then p else q) = some (l1, ow1) := by
    intro q l1 ow1 hq hne
    by_cases h1 : q = p
    · rw [h1, hobjp] at hq
      simp only [Option.some.injEq, Prod.mk.injEq] at hq
      exact absurd hq.2.symm hne
    · refine ⟨h1, ?_⟩
      by_cases h2 : q = o
      · rw [h2, hobjo] at hq
        rw [if_pos h2, hm]; exact hq
      · rw [if_neg h2, ← hobj q h2 h1]; exact hq
  refine ⟨m', by simp [FrameMemory.move, hm, orUb, m'], fun q => ?_, fun q r l1 ow1 l2 ow2 hqr hq hr c hc hc' => ?_, fun q l1 ow1 hq c hc => ?_, fun c => ?_⟩
  · by_cases h1 : q = p
    · subst h1; simp only [Frames.put, if_true]; exact ⟨_, hobjp⟩
    · by_cases h2 : q = o
      · subst h2
        simp only [Frames.put, if_neg h1, if_true]
        have := h.holds p
        rw [hp] at this
        match y, this with
        | none, ⟨l0, h0⟩ =>
          rw [hm] at h0
          simp only [Option.some.injEq, Prod.mk.injEq] at h0
          exact ⟨l, by rw [hobjo, h0.2]⟩
        | some x, ⟨ρ, hx⟩ =>
          exact ⟨ρ, hx.inv, hx.inj, hx.low, by rw [hobjo, ← hm]; exact hx.obj, hx.card⟩
      · simp only [Frames.put, if_neg h1, if_neg h2]
        exact (h.holds q).frame (hobj q h2 h1) (Nat.le_refl _) fun _ _ _ _ _ => rfl
  · obtain ⟨a1, a2⟩ := back q l1 ow1 hq (List.ne_nil_of_mem hc)
    obtain ⟨b1, b2⟩ := back r l2 ow2 hr (List.ne_nil_of_mem hc')
    refine h.apart _ _ _ _ _ _ ?_ a2 b2 c hc hc'
    by_cases h1 : q = o <;> by_cases h2 : r = o <;> simp [h1, h2] <;> first | (exact fun e => by simp_all) | omega
  · exact h.low _ _ _ (back q l1 ow1 hq (List.ne_nil_of_mem hc)).2 c hc
  · refine (h.alive c).trans ⟨fun ⟨q, l1, ow1, hq, hc⟩ => ?_, fun ⟨q, l1, ow1, hq, hc⟩ => ?_⟩
    · have h1 : q ≠ o := fun e => by rw [e, hno] at hq; cases hq
      by_cases h2 : q = p
      · rw [h2, hm] at hq
        simp only [Option.some.injEq, Prod.mk.injEq] at hq
        exact ⟨o, l, ow, hobjo, hq.2 ▸ hc⟩
      · exact ⟨q, l1, ow1, (hobj q h1 h2).trans hq, hc⟩
    · exact ⟨_, _, _, (back q l1 ow1 hq (List.ne_nil_of_mem hc)).2, hc⟩

theorem Frames.put_put (s : Frames α) (o : Nat) (x y : Option (Option (Solo α))) : (s.put o x).put o y = s.put o y := by
  funext p
  simp only [Frames.put]
  split <;> rfl

/-- Move assignment is destruction and construction by move. -/
theorem FShelved.moveAssign {s : Frames α} {m : FrameMemory α} (h : FShelved s m) {o p : Nat} {y z : Option (Solo α)} (ho : s o = some z)
    (hp : s p = some y) : ∃ m', m.moveAssign o p = .ok m' ∧ FShelved ((s.put o (some y)).put p (some none)) m' := by
  obtain ⟨l0, old, hm0⟩ := h.there ho
  obtain ⟨l, ow, hm⟩ := h.there hp
  have hd := h.destroy hm0
  by_cases hop : o = p
  · subst hop
    rw [hm0] at hm
    simp only [Option.some.injEq, Prod.mk.injEq] at hm
    obtain ⟨rfl, rfl⟩ := hm
    refine ⟨_, by simp [FrameMemory.moveAssign, hm0, orUb]; rfl, ?_⟩
    rw [Frames.put_put]
    have hput : (((m.free old).put o (some (l0, old))).put o (some (FrameMemory.leftovers l0, []))) =
        ((m.free old).put o none).put o (some (FrameMemory.leftovers l0, [])) := by
      simp only [FrameMemory.put, FrameMemory.mk.injEq, true_and, and_true]
      funext q
      split <;> rfl
    rw [hput]
    have hput2 : s.put o (some none) = (s.put o none).put o (some none) := (Frames.put_put _ _ _ _).symm
    rw [hput2]
    generalize hk : (m.free old).put o none = k at hd
    have hko : k.obj o = none := by rw [← hk]; simp [FrameMemory.put]
    have hobj : ∀ q, q ≠ o → (k.put o (some (FrameMemory.leftovers l0, []))).obj q = k.obj q := fun q hq => by simp [FrameMemory.put, hq]
    have hobjo : (k.put o (some (FrameMemory.leftovers l0, []))).obj o = some (FrameMemory.leftovers l0, []) := by simp [FrameMemory.put]
    have back : ∀ q l1 ow1, (k.put o (some (FrameMemory.leftovers l0, []))).obj q = some (l1, ow1) → ∀ c ∈ ow1, k.obj q = some (l1, ow1) := by
      intro q l1 ow1 hq c hc
      by_cases h1 : q = o
      · rw [h1, hobjo] at hq
        simp only [Option.some.injEq, Prod.mk.injEq] at hq
        rw [← hq.2] at hc
        cases hc
      · rw [← hobj q h1]; exact hq
    refine ⟨fun q => ?_, fun q r l1 ow1 l2 ow2 hqr hq hr c hc hc' => hd.apart q r _ _ _ _ hqr (back q _ _ hq c hc) (back r _ _ hr c hc') c hc hc',
      fun q l1 ow1 hq c hc => hd.low q _ _ (back q _ _ hq c hc) c hc, fun c => (hd.alive c).trans ⟨fun ⟨q, l1, ow1, hq, hc⟩ => ?_,
        fun ⟨q, l1, ow1, hq, hc⟩ => ⟨q, l1, ow1, back q _ _ hq c hc, hc⟩⟩⟩
    · by_cases h1 : q = o
      · subst h1; simp only [Frames.put, if_true]; exact ⟨_, hobjo⟩
      · have := (hd.holds q).frame (m' := k.put o (some (FrameMemory.leftovers l0, []))) (hobj q h1) (Nat.le_refl _) fun _ _ _ _ _ => rfl
        simp only [Frames.put, if_neg h1] at this ⊢
        exact this
    · have h1 : q ≠ o := fun e => by rw [e, hko] at hq; cases hq
      exact ⟨q, l1, ow1, (hobj q h1).trans hq, hc⟩
  · have h1 : (s.put o none) o = none := by simp [Frames.put]
    have h2 : (s.put o none) p = some y := by simp [Frames.put, Ne.symm hop, hp]
    obtain ⟨m', h3, h4⟩ := hd.move h1 h2
    refine ⟨m', ?_, by rwa [Frames.put_put] at h4⟩
    have h5 : ((m.free old).put o none).obj p = some (l, ow) := by simp [FrameMemory.put, FrameMemory.free, Ne.symm hop, hm]
    simp only [FrameMemory.move, h5, orUb, bind_ok, pure_eq_ok, Except.ok.injEq] at h3
    simp only [FrameMemory.moveAssign, hm0, hm, orUb, bind_ok, pure_eq_ok, Except.ok.injEq]
    rw [← h3]
    simp only [FrameMemory.put, FrameMemory.mk.injEq, true_and, and_true]
    funext q
    split
    · rfl
    · split <;> rfl

theorem FShelved.step [Inhabited α] {s s' : Frames α} {m : FrameMemory α} (h : FShelved s m) (op : FrameObjOp α) (hc : ∀ o p, op ≠ .copy o p)
    (hs : s.step op = some s') : ∃ m', m.step op = .ok m' ∧ FShelved s' m' := by
  cases op with
  | construct o =>
    simp only [Frames.step] at hs
    split at hs
    · rename_i ho
      cases hs
      exact ⟨_, rfl, h.construct o ho _⟩
    · cases hs
  | call o op d =>
    simp only [Frames.step] at hs
    split at hs
    · rename_i x ho
      cases hy : x.call op d with
      | error e => rw [hy] at hs; cases hs
      | ok y => rw [hy] at hs; cases hs; exact h.call ho hy
    · cases hs
  | write o p v =>
    simp only [Frames.step] at hs
    split at hs
    · rename_i x ho
      cases hy : x.write p v with
      | error e => rw [hy] at hs; cases hs
      | ok y => rw [hy] at hs; cases hs; exact h.write ho hy
    · cases hs
  | copy o p => exact absurd rfl (hc o p)
  | move o p =>
    simp only [Frames.step] at hs
    split at hs
    · rename_i y ho hp
      cases hs
      exact h.move ho hp
    · cases hs
  | moveAssign o p =>
    simp only [Frames.step] at hs
    split at hs
    · rename_i z y ho hp
      cases hs
      exact h.moveAssign ho hp
    · cases hs
  | destroy o =>
    simp only [Frames.step] at hs
    split at hs
    · rename_i y ho
      cases hs
      obtain ⟨l, ow, hm⟩ := h.there ho
      exact ⟨_, by simp only [FrameMemory.step, FrameMemory.destroy, hm, orUb, bind_ok]; rfl, h.destroy hm⟩
    · cases hs

theorem FShelved.run [Inhabited α] {s s' : Frames α} {m : FrameMemory α} (h : FShelved s m) (ops : List (FrameObjOp α)) (hc : NoFrameCopy ops)
    (hs : s.run ops = some s') : ∃ m', m.run ops = .ok m' ∧ FShelved s' m' := by
  induction ops generalizing s m with
  | nil =>
    simp only [Frames.run, Option.some.injEq] at hs
    exact ⟨m, rfl, hs ▸ h⟩
  | cons op ops ih =>
    simp only [Frames.run, Option.bind_eq_some_iff] at hs
    obtain ⟨s1, h1, h2⟩ := hs
    obtain ⟨m1, h3, h4⟩ := h.step op (fun o p e => hc o p (by simp [e])) h1
    obtain ⟨m2, h5, h6⟩ := ih h4 (fun o p hm => hc o p (by simp [hm])) h2
    exact ⟨m2, by simp [FrameMemory.run, h3, h5], h6⟩

end Ygo
