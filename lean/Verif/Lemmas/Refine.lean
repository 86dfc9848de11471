import Verif.Lemmas.Scrub

/-! # A live `LimboFrame` does what a plain frame does, but keeps every card -/

set_option linter.unusedSimpArgs false

namespace Ygo
open Ygo.Spec

/-- The undoable frame `f` shows what the plain frame `g` shows, and still owns all its cards. -/
structure Refines (g : Frame) (f : Limbo) : Prop where
  layout : f.base.layout = g.layout
  next : f.base.next = g.next
  owned : ∀ x ∈ g.owned, x ∈ f.base.owned

namespace Limbo

/-- A live resize that would copy more cards than the slice has room for. -/
theorem resize_live_ub {f : Limbo} {p : Place} {n : Nat} {k : PileKey} {i : Nat} (hl : LiveFrame f) (hp : At p (.pile k) i)
    (h1 : n < (f.base.layout.pile k).length) (h2 : (f.base.layout.pile k).length < 2 * n) : f.pileResize p n = .error .ub := by
  obtain ⟨⟨L, ow, nx⟩, op, q, pre⟩ := f
  obtain ⟨ha, hb⟩ := hl
  simp only at ha hb h1 h2
  subst ha hb
  have h3 : ¬ (L.pile k).length < n := by omega
  have hc : copyOver ((L.pile k).drop ((L.pile k).length - n)) (resizeSlice [] ((L.pile k).length - n)) = .error .ub := by
    have : ¬ (L.pile k).length - ((L.pile k).length - n) ≤ (L.pile k).length - n := by omega
    simp [copyOver, guardUb, this]
  simp only [pileResize, Spec.At.isPile hp, Spec.At.pileKey hp, massert, if_true, bind_ok, advance, emplace, currentResize, current_mk,
    pure_eq_ok, setCurrent_mk, h3, h1, if_false, hc, bind_error]

/-- A live resize that returns. -/
theorem resize_live {f : Limbo} {p : Place} {n : Nat} {k : PileKey} {i : Nat} (hl : LiveFrame f) (hp : At p (.pile k) i)
    (h : (f.base.layout.pile k).length ≤ n ∨ 2 * n ≤ (f.base.layout.pile k).length) :
    ∃ s : List (Option CardId), f.pileResize p n = .ok ⟨⟨f.base.layout.setPile k ((f.base.layout.pile k).take n ++
        List.range' f.base.next (n - (f.base.layout.pile k).length)),
        (List.range' f.base.next (n - (f.base.layout.pile k).length)).reverse ++ f.base.owned,
        f.base.next + (n - (f.base.layout.pile k).length)⟩, f.op + 1, f.op + 1, f.ops ++ [.resize (f.base.layout.pile k).length s]⟩ ∧
      (n < (f.base.layout.pile k).length → s = ((f.base.layout.pile k).drop ((f.base.layout.pile k).length - n)).map some ++
        List.replicate ((f.base.layout.pile k).length - 2 * n) none) := by
  obtain ⟨⟨L, ow, nx⟩, op, q, pre⟩ := f
  obtain ⟨ha, hb⟩ := hl
  simp only at ha hb h ⊢
  subst ha hb
  by_cases h1 : (L.pile k).length < n
  · obtain ⟨e1, e2, e3⟩ := Frame.growPile_spec k (n - (L.pile k).length) ⟨L, ow, nx⟩
    have e4 : (Frame.growPile k (n - (L.pile k).length) ⟨L, ow, nx⟩).layout = L.setPile k (L.pile k ++ List.range' nx (n - (L.pile k).length)) := by
      apply view_inj; rw [e1, view_setPile]
    have e5 : Frame.growPile k (n - (L.pile k).length) ⟨L, ow, nx⟩ = ⟨L.setPile k (L.pile k ++ List.range' nx (n - (L.pile k).length)),
        (List.range' nx (n - (L.pile k).length)).reverse ++ ow, nx + (n - (L.pile k).length)⟩ := by
      cases hg : Frame.growPile k (n - (L.pile k).length) ⟨L, ow, nx⟩
      rw [hg] at e2 e3 e4
      simp_all
    have h2 : (L.pile k).take n = L.pile k := List.take_of_length_le (by omega)
    refine ⟨[], ?_, fun h => by omega⟩
    simp [pileResize, Spec.At.isPile hp, Spec.At.pileKey hp, massert, advance, emplace, currentResize, current_mk, setCurrent_mk, h1, e5, h2]
  · by_cases h2 : n < (L.pile k).length
    · have h3 : 2 * n ≤ (L.pile k).length := by omega
      have h4 : n - (L.pile k).length = 0 := by omega
      have hc : copyOver ((L.pile k).drop ((L.pile k).length - n)) (resizeSlice [] ((L.pile k).length - n)) =
          .ok (((L.pile k).drop ((L.pile k).length - n)).map some ++ List.replicate ((L.pile k).length - 2 * n) none) := by
        have e1 : (L.pile k).length - ((L.pile k).length - n) ≤ (L.pile k).length - n := by omega
        have e2 : (L.pile k).length - n - ((L.pile k).length - ((L.pile k).length - n)) = (L.pile k).length - 2 * n := by omega
        simp [copyOver, guardUb, e1, resizeSlice, e2]
      refine ⟨_, ?_, fun _ => rfl⟩
      simp only [pileResize, Spec.At.isPile hp, Spec.At.pileKey hp, massert, if_true, bind_ok, advance, emplace, currentResize, current_mk,
        pure_eq_ok, setCurrent_mk, h1, h2, if_false, hc, setLayout, h4]
      simp
    · have h3 : (L.pile k).length = n := by omega
      have h4 : n - (L.pile k).length = 0 := by omega
      have h5 : (L.pile k).take n = L.pile k := List.take_of_length_le (by omega)
      refine ⟨[], ?_, fun h => by omega⟩
      simp [pileResize, Spec.At.isPile hp, Spec.At.pileKey hp, massert, advance, emplace, currentResize, current_mk, setCurrent_mk, h1, h2, h4, h5]

/-- A new operation on a live undoable frame is the same operation on the plain frame; no card is given up. -/
theorem step_refines {g : Frame} {f f' : Limbo} {X : FrameOp} (hl : LiveFrame f) (hi : Inv g) (hr : Refines g f) (h : f.step X = .ok f') :
    LiveFrame f' ∧ (∀ x ∈ f.base.owned, x ∈ f'.base.owned) ∧ ∃ g', g.step X = .ok g' ∧ Refines g' f' := by
  obtain ⟨⟨L, ow, nx⟩, op, q, pre⟩ := f
  obtain ⟨gL, gow, gnx⟩ := g
  obtain ⟨r1, r2, r3⟩ := hr
  simp only at r1 r2 r3
  subst r1 r2
  cases X with
  | add p =>
    obtain ⟨ha, hb⟩ := hl
    simp only at ha hb
    subst ha hb
    simp [step, cardAdd, advance, emplace, Frame.cardAdd, Frame.construct] at h
    obtain ⟨L', h, rfl⟩ := h
    refine ⟨⟨by simp, by simp⟩, fun x hx => List.mem_cons_of_mem _ hx, ⟨L', nx :: gow, nx + 1⟩, ?_, rfl, rfl, ?_⟩
    · simp [Frame.step, Frame.cardAdd, Frame.construct, h]
    · intro x hx
      simp only [List.mem_cons] at hx ⊢
      exact hx.imp_right (r3 x)
  | remove p =>
    obtain ⟨ha, hb⟩ := hl
    simp only at ha hb
    subst ha hb
    simp [step, cardRemove, advance, emplace, setLayout] at h
    obtain ⟨h0, c, L', h, rfl⟩ := h
    obtain ⟨C, i, hp, hc, hv⟩ := Layout.cardErase_eq_ok.mp h
    have hm : c ∈ gow := hi.mem_owned (List.mem_of_getElem? hc)
    refine ⟨⟨by simp, by simp⟩, fun x hx => hx, ⟨L', gow.erase c, nx⟩, ?_, rfl, rfl, ?_⟩
    · exact Frame.cardRemove_eq_ok.mpr ⟨C, i, c, hp, hc, hm, hv, rfl, rfl⟩
    · intro x hx
      exact r3 x (List.mem_of_mem_erase hx)
  | move a b =>
    simp [step, cardMove, Frame.cardMove] at h
    obtain ⟨L', ⟨c, h⟩, rfl⟩ := h
    exact ⟨hl, fun x hx => hx, ⟨L', gow, nx⟩, by simp [Frame.step, Frame.cardMove, h], rfl, rfl, r3⟩
  | shuffle p c n =>
    simp [step, cardShuffle, Frame.cardShuffle] at h
    obtain ⟨L', h, rfl⟩ := h
    exact ⟨hl, fun x hx => hx, ⟨L', gow, nx⟩, by simp [Frame.step, Frame.cardShuffle, h], rfl, rfl, r3⟩
  | swap a b =>
    simp [step, cardSwap, Frame.cardSwap] at h
    obtain ⟨L', h, rfl⟩ := h
    exact ⟨hl, fun x hx => hx, ⟨L', gow, nx⟩, by simp [Frame.step, Frame.cardSwap, h], rfl, rfl, r3⟩
  | resize p n =>
    have h0 := h
    simp only [step, pileResize, bind_eq_ok, massert_eq_ok] at h0
    obtain ⟨_, hp, k, hk, _⟩ := h0
    have hat := isPile_pileKey_iff.mp ⟨hp, hk⟩
    have hcases : (L.pile k).length ≤ n ∨ 2 * n ≤ (L.pile k).length := by
      by_cases h1 : n < (L.pile k).length ∧ (L.pile k).length < 2 * n
      · have := resize_live_ub hl hat h1.1 h1.2
        simp only [step] at h
        rw [this] at h
        cases h
      · omega
    obtain ⟨s, hs, _⟩ := resize_live hl hat hcases
    simp only [step] at h
    rw [hs] at h
    cases h
    obtain ⟨g', hg⟩ := Frame.pileResize_returns (n := n) hi hat
    obtain ⟨e1, e2, e3⟩ := Frame.pileResize_at hat hg
    obtain ⟨ha, hb⟩ := hl
    refine ⟨⟨by simp_all, by simp_all⟩, fun x hx => List.mem_append_right _ hx, g', hg, ?_, e3.symm, ?_⟩
    · apply view_inj
      rw [e1, view_setPile]
    · intro x hx
      rw [e2] at hx
      simp only [List.mem_append] at hx ⊢
      exact hx.imp_right fun h => r3 x (mem_of_mem_eraseAll h)
  | splice a n b r =>
    simp [step, pileSplice, Frame.pileSplice] at h
    obtain ⟨L', h, rfl⟩ := h
    exact ⟨hl, fun x hx => hx, ⟨L', gow, nx⟩, by simp [Frame.step, Frame.pileSplice, h], rfl, rfl, r3⟩
  | pswap a b =>
    simp [step, pileSwap, Frame.pileSwap] at h
    obtain ⟨L', h, rfl⟩ := h
    exact ⟨hl, fun x hx => hx, ⟨L', gow, nx⟩, by simp [Frame.step, Frame.pileSwap, h], rfl, rfl, r3⟩
  | clear =>
    obtain ⟨ha, hb⟩ := hl
    simp only at ha hb
    subst ha hb
    simp [step, clear, advance, emplace, currentClear, current_mk, setCurrent_mk, setLayout] at h
    subst h
    obtain ⟨g', h1, _, h2, h3, h4⟩ := hi.clear
    refine ⟨⟨by simp, by simp⟩, fun x hx => hx, g', h1, ?_, h2.symm, ?_⟩
    · apply view_inj
      funext C
      rw [h3, view_empty]
    · simp [h4]

/-- The other direction: what the plain frame can do the live undoable frame can, except for one kind of shrinking. -/
theorem step_of_plain {g g' : Frame} {f : Limbo} {X : FrameOp} (hl : LiveFrame f) (r1 : g.layout = f.base.layout) (r2 : g.next = f.base.next) (h : g.step X = .ok g')
    (hx : ∀ p n k i, X = .resize p n → At p (.pile k) i → (g.layout.pile k).length ≤ n ∨ 2 * n ≤ (g.layout.pile k).length) :
    ∃ f', f.step X = .ok f' := by
  obtain ⟨⟨L, ow, nx⟩, op, q, pre⟩ := f
  obtain ⟨gL, gow, gnx⟩ := g
  simp only at r1 r2
  subst r1 r2
  have hl' := hl
  obtain ⟨ha, hb⟩ := hl'
  simp only at ha hb
  cases X with
  | add p =>
    subst ha hb
    simp [Frame.step, Frame.cardAdd, Frame.construct] at h
    obtain ⟨L', h, _⟩ := h
    exact ⟨_, by simp [step, cardAdd, advance, emplace, Frame.cardAdd, Frame.construct, h]; rfl⟩
  | remove p =>
    subst ha hb
    obtain ⟨C, i, c, hp, hc, _, hv, _, _⟩ := Frame.cardRemove_eq_ok.mp h
    have h1 : gL.cardErase p = .ok (c, g'.layout) := Layout.cardErase_eq_ok.mpr ⟨C, i, hp, hc, hv⟩
    exact ⟨_, by simp [step, cardRemove, advance, emplace, setLayout, h1, Layout.hasCard_erase h1, massert]; rfl⟩
  | move a b =>
    simp [Frame.step, Frame.cardMove] at h
    obtain ⟨L', ⟨c, h⟩, _⟩ := h
    exact ⟨_, by simp [step, cardMove, Frame.cardMove, h]; rfl⟩
  | shuffle p c n =>
    simp [Frame.step, Frame.cardShuffle] at h
    obtain ⟨L', h, _⟩ := h
    exact ⟨_, by simp [step, cardShuffle, Frame.cardShuffle, h]; rfl⟩
  | swap a b =>
    simp [Frame.step, Frame.cardSwap] at h
    obtain ⟨L', h, _⟩ := h
    exact ⟨_, by simp [step, cardSwap, Frame.cardSwap, h]; rfl⟩
  | resize p n =>
    obtain ⟨k, hat⟩ := Frame.pileResize_place h
    obtain ⟨s, hs, _⟩ := resize_live hl hat (hx p n k _ rfl hat)
    exact ⟨_, hs⟩
  | splice a n b r =>
    simp [Frame.step, Frame.pileSplice] at h
    obtain ⟨L', h, _⟩ := h
    exact ⟨_, by simp [step, pileSplice, Frame.pileSplice, h]; rfl⟩
  | pswap a b =>
    simp [Frame.step, Frame.pileSwap] at h
    obtain ⟨L', h, _⟩ := h
    exact ⟨_, by simp [step, pileSwap, Frame.pileSwap, h]; rfl⟩
  | clear =>
    subst ha hb
    exact ⟨_, by simp [step, clear, advance, emplace, currentClear, current_mk, setCurrent_mk, setLayout]; rfl⟩

end Limbo
end Ygo
