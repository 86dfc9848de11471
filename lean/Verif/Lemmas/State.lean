import Verif.Lemmas.History

/-! # Renaming cards: what a new layout depends on -/

set_option linter.unusedSimpArgs false

namespace Ygo
open Ygo.Spec

/-- The same layout up to the shift of card identities from `a` to `b`; both allocators have moved equally far. -/
structure Shifted (a b : Nat) (g1 g2 : Frame) : Prop where
  view : ∀ C, Spec.view g2.layout C = (Spec.view g1.layout C).map fun c => c - a + b
  low : ∀ C, ∀ c ∈ Spec.view g1.layout C, a ≤ c
  next : ∃ m, g1.next = a + m ∧ g2.next = b + m

theorem Layout.cardInsert_returns {l : Layout} {p : Place} {c : CardId} {C : Container} {i : Nat} (hp : At p C i) (hf : Fits (Spec.view l) C i) :
    ∃ l', l.cardInsert p c = .ok l' := by
  cases hp with
  | pile k s o =>
    refine ⟨l.setPile k ((l.pile k).insertIdx i c), ?_⟩
    have h1 : i ≤ (l.pile k).length := hf.1
    simp [Layout.cardInsert, h1]
  | slot k o ho =>
    have h0 : (l.zone k).card = none := by simpa using hf.2 k rfl
    exact ⟨_, by simp [Layout.cardInsert, ho, h0]; rfl⟩
  | mats k =>
    have h1 : i ≤ (l.zone k).materials.length := by simpa using hf.1
    refine ⟨l.setMats k ((l.zone k).materials.insertIdx i c), ?_⟩
    have h2 : ¬ ((i : Int) < 0) := by omega
    simp [Layout.cardInsert, h2, insertAt_ok c h1]

theorem Shifted.length {a b : Nat} {g1 g2 : Frame} (h : Shifted a b g1 g2) (C : Container) :
    (Spec.view g2.layout C).length = (Spec.view g1.layout C).length := by
  rw [h.view]; simp

theorem map_shift_range' (a b m n : Nat) : (List.range' (a + m) n).map (fun c => c - a + b) = List.range' (b + m) n := by
  rw [List.range'_eq_map_range, List.range'_eq_map_range, List.map_map]
  apply List.map_congr_left
  intro x _
  simp only [Function.comp]
  omega

theorem map_insertIdx' {l : List CardId} {i : Nat} {c : CardId} (f : CardId → CardId) :
    (l.insertIdx i c).map f = (l.map f).insertIdx i (f c) := by
  induction l generalizing i with
  | nil => cases i <;> simp
  | cons x l ih => cases i <;> simp [ih]

theorem Shifted.add {a b : Nat} {g1 g2 g1' : Frame} {p : Place} (h : Shifted a b g1 g2) (h1 : g1.step (.add p) = .ok g1') :
    ∃ g2', g2.step (.add p) = .ok g2' ∧ Shifted a b g1' g2' := by
  simp [Frame.step, Frame.cardAdd, Frame.construct] at h1
  obtain ⟨L1, h1, rfl⟩ := h1
  obtain ⟨C, i, hp, hf, hv⟩ := Layout.cardInsert_eq_ok.mp h1
  obtain ⟨m, hn1, hn2⟩ := h.next
  have hf2 : Fits (Spec.view g2.layout) C i := by
    refine ⟨by rw [h.length]; exact hf.1, fun k hk => ?_⟩
    rw [h.view, hf.2 k hk]; rfl
  obtain ⟨L2, h2⟩ : ∃ L2, g2.layout.cardInsert p g2.next = .ok L2 := by
    exact Layout.cardInsert_returns hp hf2
  obtain ⟨C', i', hp', _, hv2⟩ := Layout.cardInsert_eq_ok.mp h2
  obtain ⟨rfl, rfl⟩ := At.unique hp hp'
  refine ⟨⟨L2, g2.next :: g2.owned, g2.next + 1⟩, by simp [Frame.step, Frame.cardAdd, Frame.construct, h2], ?_, ?_, ?_⟩
  · intro D
    simp only [hv, hv2, Board.put, upd_apply]
    split
    · rw [map_insertIdx', h.view, hn1, hn2]
      congr 1
      omega
    · exact h.view D
  · intro D c hc
    simp only [hv, Board.put, upd_apply] at hc
    split at hc
    · rcases (List.mem_insertIdx hf.1).mp hc with rfl | hc
      · omega
      · exact h.low _ c hc
    · exact h.low D c hc
  · exact ⟨m + 1, by simp [hn1]; omega, by simp [hn2]; omega⟩

theorem Shifted.resize {a b : Nat} {g1 g2 g1' : Frame} {p : Place} {n : Nat} (h : Shifted a b g1 g2) (hi : Inv g2)
    (h1 : g1.step (.resize p n) = .ok g1') : ∃ g2', g2.step (.resize p n) = .ok g2' ∧ Shifted a b g1' g2' := by
  obtain ⟨k, hat⟩ := Frame.pileResize_place h1
  obtain ⟨g2', h2⟩ := Frame.pileResize_returns (n := n) hi hat
  obtain ⟨e1, _, e3⟩ := Frame.pileResize_at hat h1
  obtain ⟨f1, _, f3⟩ := Frame.pileResize_at hat h2
  obtain ⟨m, hn1, hn2⟩ := h.next
  have hlen : (g2.layout.pile k).length = (g1.layout.pile k).length := h.length (.pile k)
  have hpile : g2.layout.pile k = (g1.layout.pile k).map fun c => c - a + b := h.view (.pile k)
  refine ⟨g2', h2, ?_, ?_, ?_⟩
  · intro D
    rw [e1, f1]
    simp only [upd_apply]
    split
    · rw [List.map_append, List.map_take, hlen, hn1, hn2, map_shift_range', hpile]
    · exact h.view D
  · intro D c hc
    rw [e1] at hc
    simp only [upd_apply] at hc
    split at hc
    · simp only [List.mem_append, List.mem_range'_1] at hc
      rcases hc with hc | hc
      · exact h.low (.pile k) c (List.mem_of_mem_take hc)
      · omega
    · exact h.low D c hc
  · exact ⟨m + (n - (g1.layout.pile k).length), by omega, by omega⟩

/-- Additions and resizes. -/
def Building : FrameOp → Prop
  | .add _ | .resize _ _ => True
  | _ => False

theorem Shifted.run {a b : Nat} {Xs : List FrameOp} {g1 g2 g1' : Frame} (hb : ∀ X ∈ Xs, Building X) (h : Shifted a b g1 g2) (hi : Inv g2)
    (h1 : runOps g1 Xs = .ok g1') : ∃ g2', runOps g2 Xs = .ok g2' ∧ Shifted a b g1' g2' := by
  induction Xs generalizing g1 g2 with
  | nil => cases h1; exact ⟨g2, rfl, h⟩
  | cons X Xs ih =>
    simp only [runOps, FrameLike.step, bind_eq_ok] at h1 ⊢
    obtain ⟨g, h2, h3⟩ := h1
    have : ∃ g', g2.step X = .ok g' ∧ Shifted a b g g' := by
      have hX := hb X (by simp)
      cases X with
      | add p => exact h.add h2
      | resize p n => exact h.resize hi h2
      | _ => exact hX.elim
    obtain ⟨g', h4, h5⟩ := this
    obtain ⟨g2', h6, h7⟩ := ih (fun X hX => hb X (by simp [hX])) h5 (hi.step h4) h3
    exact ⟨g2', ⟨g', h4, h6⟩, h7⟩

theorem Shifted.state {s : BoardState} {g1 g2 g1' : Frame} (hi1 : Inv g1) (hi2 : Inv g2)
    (h1 : runOps g1 (DuelBoard.stateOps s) = .ok g1') :
    ∃ g2', runOps g2 (DuelBoard.stateOps s) = .ok g2' ∧ Shifted g1.next g2.next g1' g2' := by
  obtain ⟨c1, a1, a2, a3, a4, _⟩ := hi1.clear
  obtain ⟨c2, b1, b2, b3, b4, _⟩ := hi2.clear
  have e1 : g1.step .clear = .ok c1 := a1
  have e2 : g2.step .clear = .ok c2 := b1
  simp only [DuelBoard.stateOps, List.cons_append, runOps, FrameLike.step, e1, e2, bind_ok] at h1 ⊢
  have hs : Shifted g1.next g2.next c1 c2 := ⟨fun C => by rw [a4, b4]; rfl, fun C => by rw [a4]; simp, 0, by omega, by omega⟩
  refine hs.run ?_ b2 h1
  intro X hX
  simp only [List.mem_append, List.mem_map, DuelBoard.resizeOps] at hX
  rcases hX with ⟨_, _, rfl⟩ | ⟨_, _, rfl⟩ <;> trivial

end Ygo
