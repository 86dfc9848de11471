import Verif.Model.Limbo
import Verif.Lemmas.FrameSafe
import Verif.Spec.Undo

/-! # `LimboFrame`: what the log means -/

set_option linter.unusedSimpArgs false

namespace Ygo
open Ygo.Spec

/-- `Done X L L' es`: `X` led from `L` to `L'`, and `es` is what lies in the log behind the cursor for it. -/
inductive Done : FrameOp → Layout → Layout → List LimboOp → Prop
  | add {p L L' c} : L.cardInsert p c = .ok L' → Done (.add p) L L' [.card c]
  | remove {p L L' c} : L.cardErase p = .ok (c, L') → Done (.remove p) L L' [.card c]
  | grow {p n k i L} {s : List (Option CardId)} {new : List CardId} : At p (.pile k) i →
      (L.pile k).length + new.length = n →
      Done (.resize p n) L (L.setPile k (L.pile k ++ new)) [.resize (L.pile k).length s]
  | shrink {p n k i L} : At p (.pile k) i → (L.pile k).length = 2 * n → n ≠ 0 →
      Done (.resize p n) L (L.setPile k ((L.pile k).take n)) [.resize (2 * n) (((L.pile k).drop n).map some)]
  | clear {L} : Done .clear L Layout.empty [.clear L]
  | move {a b L L' c} : L.cardMove a b = .ok (L', c) → Done (.move a b) L L' []
  | swap {a b L L'} : L.cardSwap a b = .ok L' → L'.cardSwap a b = .ok L → Done (.swap a b) L L' []
  | splice {a n b r L L'} : L.pileSplice a n b r = .ok L' → Done (.splice a n b r) L L' []
  | pswap {a b L L'} : L.pileSwap a b = .ok L' → Done (.pswap a b) L L' []

/-- `Undone X L L' es`: redoing `X` leads from `L` to `L'`, and `es` is what lies in the log ahead of the cursor. -/
inductive Undone : FrameOp → Layout → Layout → List LimboOp → Prop
  | add {p L L' c} : L.cardInsert p c = .ok L' → Undone (.add p) L L' [.card c]
  | remove {p L L' c} : L.cardErase p = .ok (c, L') → Undone (.remove p) L L' [.card c]
  | grow {p n k i L prev} {new : List CardId} : At p (.pile k) i →
      (L.pile k).length + new.length = n → new ≠ [] →
      Undone (.resize p n) L (L.setPile k (L.pile k ++ new)) [.resize prev (new.map some)]
  | same {p n k i L prev s} : At p (.pile k) i → (L.pile k).length = n → Undone (.resize p n) L L [.resize prev s]
  | shrink {p n k i L prev} {s : List (Option CardId)} : At p (.pile k) i → (L.pile k).length = 2 * n → n ≠ 0 → s.length = n →
      Undone (.resize p n) L (L.setPile k ((L.pile k).take n)) [.resize prev s]
  | clear {L} : Undone .clear L Layout.empty [.clear Layout.empty]
  | move {a b L L' c} : L.cardMove a b = .ok (L', c) → Undone (.move a b) L L' []
  | swap {a b L L'} : L.cardSwap a b = .ok L' → L'.cardSwap a b = .ok L → Undone (.swap a b) L L' []
  | splice {a n b r L L'} : L.pileSplice a n b r = .ok L' → Undone (.splice a n b r) L L' []
  | pswap {a b L L'} : L.pileSwap a b = .ok L' → Undone (.pswap a b) L L' []

namespace Layout

theorem hasCard_insert {l l' : Layout} {p : Place} {c : CardId} (h : l.cardInsert p c = .ok l') : l'.hasCard p = .ok true := by
  obtain ⟨C, i, ha, hf, hv⟩ := cardInsert_eq_ok.mp h
  exact hasCard_true ha (lt_of_getElem?_some (by rw [hv]; exact put_get c hf.1))

theorem erase_insert {l l' : Layout} {p : Place} {c : CardId} (h : l.cardInsert p c = .ok l') : l'.cardErase p = .ok (c, l) := by
  obtain ⟨C, i, ha, hf, hv⟩ := cardInsert_eq_ok.mp h
  refine cardErase_eq_ok.mpr ⟨C, i, ha, ?_, ?_⟩
  · rw [hv]; exact put_get c hf.1
  · rw [hv, put_take_cancel c hf.1]

theorem hasCard_erase {l l' : Layout} {p : Place} {c : CardId} (h : l.cardErase p = .ok (c, l')) : l.hasCard p = .ok true := by
  obtain ⟨C, i, ha, hc, hv⟩ := cardErase_eq_ok.mp h
  exact hasCard_true ha (lt_of_getElem?_some hc)

theorem insert_erase {l l' : Layout} {p : Place} {c : CardId} (h : l.cardErase p = .ok (c, l')) : l'.cardInsert p c = .ok l := by
  obtain ⟨C, i, ha, hc, hv⟩ := cardErase_eq_ok.mp h
  refine cardInsert_eq_ok.mpr ⟨C, i, ha, ⟨?_, ?_⟩, ?_⟩
  · rw [hv]; exact take_length hc
  · rintro k rfl
    rw [hv]
    have h1 := slot_length l k
    have h3 := lt_of_getElem?_some hc
    apply List.eq_nil_of_length_eq_zero
    simp only [Board.take, upd_self, List.length_eraseIdx, h3, if_true]
    omega
  · rw [hv, take_put_cancel hc]

@[simp] theorem setPile_setPile (l : Layout) (k : PileKey) (v w : List CardId) : (l.setPile k v).setPile k w = l.setPile k w := by
  apply view_inj; simp [view_setPile]

@[simp] theorem setPile_same (l : Layout) (k : PileKey) : l.setPile k (l.pile k) = l := by
  apply view_inj; rw [view_setPile, ← view_pile, upd_same]

end Layout

namespace Limbo

theorem current_mk {b : Frame} {q : Nat} {pre post : List LimboOp} {e : LimboOp} :
    (Limbo.mk b (pre.length + 1) q (pre ++ e :: post)).current = .ok e := by
  simp [current, massert, guardUb, orUb]

theorem setCurrent_mk {b : Frame} {q : Nat} {pre post : List LimboOp} {e o : LimboOp} :
    (Limbo.mk b (pre.length + 1) q (pre ++ e :: post)).setCurrent o = ⟨b, pre.length + 1, q, pre ++ o :: post⟩ := by
  simp [setCurrent]

theorem regress_mk {b : Frame} {q n : Nat} {ops : List LimboOp} : (Limbo.mk b (n + 1) q ops).regress = .ok ⟨b, n, q, ops⟩ := by
  simp [regress, massert]

theorem mapM_some (new : List CardId) : (new.map some).mapM id = (some new : Option (List CardId)) := by
  induction new with
  | nil => rfl
  | cons a t ih => simp only [List.map_cons, List.mapM_cons, ih]; rfl

theorem verified_some (new : List CardId) : verified (new.map some) = .ok new := by
  simp only [verified, mapM_some]; rfl

@[simp] theorem length_resizeSlice (s : List (Option CardId)) (n : Nat) : (resizeSlice s n).length = n := by
  simp [resizeSlice]; omega

theorem copyOver_full {src : List CardId} {dst : List (Option CardId)} (h : src.length = dst.length) :
    copyOver src dst = .ok (src.map some) := by
  simp [copyOver, h, guardUb, List.drop_of_length_le]

/-- Undoing what is behind the cursor. -/
theorem undo_done {X : FrameOp} {L L' : Layout} {es : List LimboOp} (h : Done X L L' es) (ow : List CardId) (nx q : Nat)
    (pre post : List LimboOp) :
    ∃ es', (Limbo.mk ⟨L', ow, nx⟩ (pre ++ es).length q (pre ++ es ++ post)).undo X =
        .ok ⟨⟨L, ow, nx⟩, pre.length, q, pre ++ es' ++ post⟩ ∧
      Undone X L L' es' ∧ es'.length = es.length := by
  cases h with
  | add h =>
    rename_i c
    refine ⟨[.card c], ?_, .add h, rfl⟩
    simp [undo, undoCardAdd, Layout.hasCard_insert h, Layout.erase_insert h, massert, currentCard, setLayout, current_mk, regress_mk]
  | remove h =>
    rename_i c
    refine ⟨[.card c], ?_, .remove h, rfl⟩
    simp [undo, undoCardRemove, Layout.hasCard_erase h, Layout.insert_erase h, massert, currentCard, setLayout, current_mk, regress_mk]
  | grow hat hn =>
    rename_i p n k i s new
    by_cases hnew : new = []
    · subst hnew
      refine ⟨[.resize (L.pile k).length s], ?_, ?_, rfl⟩
      · simp [undo, undoPileResize, Spec.At.isPile hat, Spec.At.pileKey hat, massert, currentResize, current_mk, regress_mk]
      · simp only [List.append_nil, Layout.setPile_same]
        exact .same hat (by simpa using hn)
    · have hl : 0 < new.length := List.length_pos_iff.mpr hnew
      refine ⟨[.resize (L.pile k).length (new.map some)], ?_, .grow hat hn hnew, rfl⟩
      have hc := copyOver_full (src := new) (dst := resizeSlice s new.length) (by simp)
      simp [undo, undoPileResize, Spec.At.isPile hat, Spec.At.pileKey hat, massert, currentResize, current_mk, regress_mk, setCurrent_mk,
        hl, setLayout, hc]
      omega
  | shrink hat hl hn =>
    rename_i p n k i
    refine ⟨[.resize (2 * n) (((L.pile k).drop n).map some)], ?_, .shrink hat hl hn (by simp [hl]; omega), rfl⟩
    have hlt : (List.take n (L.pile k)).length < 2 * n := by simp; omega
    simp only [undo, undoPileResize, Spec.At.isPile hat, Spec.At.pileKey hat, massert, currentResize, if_true, bind_ok, List.append_assoc,
      List.cons_append, List.nil_append, List.length_append, List.length_cons, List.length_nil, current_mk, pure_eq_ok,
      Layout.pile_setPile, hlt, verified_some, setLayout, regress_mk, List.take_append_drop, hl, Layout.setPile_setPile, Layout.setPile_same]
    simp [regress_mk]
    omega
  | clear =>
    refine ⟨[.clear Layout.empty], ?_, .clear, rfl⟩
    simp [undo, undoClear, currentClear, current_mk, regress_mk, setCurrent_mk, setLayout]
  | move h =>
    rename_i a b c
    refine ⟨[], ?_, .move h, rfl⟩
    simp [undo, cardMove, Frame.cardMove, Layout.cardMove_back h]
  | swap h h' => exact ⟨[], by simp [undo, cardSwap, Frame.cardSwap, h'], .swap h h', rfl⟩
  | splice h => exact ⟨[], by simp [undo, pileSplice, Frame.pileSplice, Layout.pileSplice_back h], .splice h, rfl⟩
  | pswap h => exact ⟨[], by simp [undo, pileSwap, Frame.pileSwap, Layout.pileSwap_back h], .pswap h, rfl⟩

/-- Redoing what is ahead of the cursor. -/
theorem step_undone {X : FrameOp} {L L' : Layout} {es : List LimboOp} (h : Undone X L L' es) (ow : List CardId) (nx q : Nat)
    (pre post : List LimboOp) (hq : q = (pre ++ es ++ post).length) :
    ∃ es', (Limbo.mk ⟨L, ow, nx⟩ pre.length q (pre ++ es ++ post)).step X =
        .ok ⟨⟨L', ow, nx⟩, (pre ++ es').length, q, pre ++ es' ++ post⟩ ∧
      Done X L L' es' ∧ es'.length = es.length := by
  cases h with
  | add h =>
    rename_i c
    refine ⟨[.card c], ?_, .add h, rfl⟩
    simp [step, cardAdd, advance, hq, h, Layout.hasCard_insert h, massert, currentCard, setLayout, current_mk]
  | remove h =>
    rename_i c
    refine ⟨[.card c], ?_, .remove h, rfl⟩
    simp [step, cardRemove, advance, hq, h, Layout.hasCard_erase h, massert, currentCard, setLayout, current_mk]
  | grow hat hn hnew =>
    rename_i p n k i prev new
    have hl : 0 < new.length := List.length_pos_iff.mpr hnew
    refine ⟨[.resize (L.pile k).length (new.map some)], ?_, .grow hat hn, rfl⟩
    have hlt : (L.pile k).length < n := by omega
    simp [step, pileResize, advance, hq, Spec.At.isPile hat, Spec.At.pileKey hat, massert, currentResize, current_mk, setCurrent_mk,
      hl, setLayout, verified_some, hlt, hn]
  | same hat hn =>
    rename_i p n k i prev s
    refine ⟨[.resize (L.pile k).length s], ?_, ?_, rfl⟩
    · simp [step, pileResize, advance, hq, Spec.At.isPile hat, Spec.At.pileKey hat, massert, currentResize, current_mk, setCurrent_mk, hn]
    · have := Done.grow (L := L) (s := s) (new := []) hat (by simpa using hn)
      simpa using this
  | shrink hat hl hn hs =>
    rename_i p n k i prev s
    refine ⟨[.resize (2 * n) (((L.pile k).drop n).map some)], ?_, .shrink hat hl hn, rfl⟩
    have h1 : ¬ (L.pile k).length < n := by omega
    have h2 : n < (L.pile k).length := by omega
    have h3 : (L.pile k).length - n = n := by omega
    have hc := copyOver_full (src := (L.pile k).drop n) (dst := resizeSlice s n) (by simp; omega)
    have h4 : ¬ 2 * n < n := by omega
    have h5 : n < 2 * n := by omega
    have h6 : 2 * n - n = n := by omega
    rw [List.map_drop] at hc
    simp [step, pileResize, advance, hq, Spec.At.isPile hat, Spec.At.pileKey hat, massert, currentResize, current_mk, setCurrent_mk,
      h4, h5, h6, setLayout, hl, hc]
  | clear =>
    refine ⟨[.clear L], ?_, .clear, rfl⟩
    simp [step, clear, advance, hq, currentClear, current_mk, setCurrent_mk, setLayout]
  | move h =>
    rename_i a b c
    refine ⟨[], ?_, .move h, rfl⟩
    simp [step, cardMove, Frame.cardMove, h]
  | swap h h' => exact ⟨[], by simp [step, cardSwap, Frame.cardSwap, h], .swap h h', rfl⟩
  | splice h => exact ⟨[], by simp [step, pileSplice, Frame.pileSplice, h], .splice h, rfl⟩
  | pswap h => exact ⟨[], by simp [step, pileSwap, Frame.pileSwap, h], .pswap h, rfl⟩

/-- A new operation at the live end. -/
theorem step_live {X : FrameOp} {L : Layout} {ow : List CardId} {nx : Nat} {pre : List LimboOp} {f' : Limbo} (hu : Undoes L X)
    (h : (Limbo.mk ⟨L, ow, nx⟩ pre.length pre.length pre).step X = .ok f') :
    ∃ L' ow' nx' es, Done X L L' es ∧ ∀ pre',
      (Limbo.mk ⟨L, ow, nx⟩ pre'.length pre'.length pre').step X =
        .ok ⟨⟨L', ow', nx'⟩, (pre' ++ es).length, (pre' ++ es).length, pre' ++ es⟩ := by
  cases X with
  | add p =>
    simp [step, cardAdd, advance, emplace, Frame.cardAdd, Frame.construct] at h
    obtain ⟨L', h, rfl⟩ := h
    exact ⟨L', nx :: ow, nx + 1, [.card nx], .add h, fun _ => by
      simp [step, cardAdd, advance, emplace, Frame.cardAdd, Frame.construct, h]⟩
  | remove p =>
    simp [step, cardRemove, advance, emplace, setLayout] at h
    obtain ⟨h0, c, L', h, rfl⟩ := h
    exact ⟨L', ow, nx, [.card c], .remove h, fun _ => by
      simp [step, cardRemove, advance, emplace, setLayout, h0, h, massert]⟩
  | move a b =>
    simp [step, cardMove, Frame.cardMove] at h
    obtain ⟨L', ⟨c, h⟩, rfl⟩ := h
    exact ⟨L', ow, nx, [], .move h, fun _ => by simp [step, cardMove, Frame.cardMove, h]⟩
  | shuffle => exact hu.elim
  | swap a b =>
    simp [step, cardSwap, Frame.cardSwap] at h
    obtain ⟨L', h, rfl⟩ := h
    obtain ⟨⟨C1, i, ha⟩, C2, j, hb⟩ := Layout.cardSwap_places h
    exact ⟨L', ow, nx, [], .swap h (Layout.cardSwap_back ha hb h), fun _ => by simp [step, cardSwap, Frame.cardSwap, h]⟩
  | resize p n =>
    simp only [step, pileResize, bind_eq_ok, massert_eq_ok, advance, if_true] at h
    obtain ⟨_, hp, k, hk, _⟩ := h
    have hat := isPile_pileKey_iff.mp ⟨hp, hk⟩
    generalize p.seq = i at hat
    rcases hu k i hat with hle | hle
    · by_cases hlt : (L.pile k).length < n
      · obtain ⟨h1, h2, h3⟩ := Frame.growPile_spec k (n - (L.pile k).length) ⟨L, ow, nx⟩
        refine ⟨(Frame.growPile k (n - (L.pile k).length) ⟨L, ow, nx⟩).layout, (Frame.growPile k (n - (L.pile k).length) ⟨L, ow, nx⟩).owned, (Frame.growPile k (n - (L.pile k).length) ⟨L, ow, nx⟩).next, [.resize (L.pile k).length []], ?_, ?_⟩
        · have : (Frame.growPile k (n - (L.pile k).length) ⟨L, ow, nx⟩).layout = L.setPile k (L.pile k ++ List.range' nx (n - (L.pile k).length)) := by
            apply view_inj; rw [h1, view_setPile]
          rw [this]
          exact .grow hat (by simp; omega)
        · intro pre'
          simp [step, pileResize, advance, hp, hk, massert, emplace, currentResize, current_mk, setCurrent_mk, hlt]
      · have hge : ¬ n < (L.pile k).length := by omega
        refine ⟨L, ow, nx, [.resize (L.pile k).length []], ?_, ?_⟩
        · have := Done.grow (L := L) (s := []) (new := []) hat (n := n) (by simp; omega)
          simpa using this
        · intro pre'
          simp [step, pileResize, advance, hp, hk, massert, emplace, currentResize, current_mk, setCurrent_mk, hlt, hge]
    · by_cases hn : n = 0
      · subst hn
        have h0 : (L.pile k).length = 0 := by omega
        refine ⟨L, ow, nx, [.resize (L.pile k).length []], ?_, ?_⟩
        · have := Done.grow (L := L) (s := []) (new := []) hat (n := 0) (by simpa using h0)
          simpa using this
        · intro pre'
          simp [step, pileResize, advance, hp, hk, massert, emplace, currentResize, current_mk, setCurrent_mk, h0]
      · have h4 : ¬ 2 * n < n := by omega
        have h5 : n < 2 * n := by omega
        have h6 : 2 * n - n = n := by omega
        have hc := copyOver_full (src := (L.pile k).drop n) (dst := resizeSlice [] n) (by simp; omega)
        refine ⟨_, ow, nx, [.resize (2 * n) (((L.pile k).drop n).map some)], .shrink hat hle hn, ?_⟩
        intro pre'
        simp [step, pileResize, advance, hp, hk, massert, emplace, currentResize, current_mk, setCurrent_mk, hle, h4, h5, h6, hc, setLayout]
  | splice a n b r =>
    simp [step, pileSplice, Frame.pileSplice] at h
    obtain ⟨L', h, rfl⟩ := h
    exact ⟨L', ow, nx, [], .splice h, fun _ => by simp [step, pileSplice, Frame.pileSplice, h]⟩
  | pswap a b =>
    simp [step, pileSwap, Frame.pileSwap] at h
    obtain ⟨L', h, rfl⟩ := h
    exact ⟨L', ow, nx, [], .pswap h, fun _ => by simp [step, pileSwap, Frame.pileSwap, h]⟩
  | clear =>
    exact ⟨Layout.empty, ow, nx, [.clear L], .clear, fun _ => by
      simp [step, clear, advance, emplace, currentClear, current_mk, setCurrent_mk, setLayout]⟩

end Limbo
end Ygo
