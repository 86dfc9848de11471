import Verif.Spec.Kept
import Verif.Lemmas.UndoExact
import Verif.Lemmas.ReleaseWalk
import Verif.Lemmas.History

/-! # How logs and values grow -/

set_option linter.unusedSimpArgs false

namespace Ygo
open Ygo.Spec

/-- The log moved `n` further, and no cards were made if it had been there before. -/
structure Further (f : Limbo) (n : Nat) (f' : Limbo) : Prop where
  op : f'.op = f.op + n
  processed : f'.processed = max f.processed (f.op + n)
  owned : f.op + n ≤ f.processed → f'.base.owned = f.base.owned

namespace Limbo

theorem advance_further {f : Limbo} (hle : f.op ≤ f.processed) :
    f.advance.1.op = f.op + 1 ∧ f.advance.1.processed = max f.processed (f.op + 1) ∧ f.advance.1.base.owned = f.base.owned ∧
    (f.advance.2 = true → f.processed = f.op) := by
  unfold advance
  split
  · rename_i h; exact ⟨rfl, by simp only; omega, rfl, fun _ => h.symm⟩
  · exact ⟨rfl, by simp only; omega, rfl, fun h => by cases h⟩

theorem step_further {f f' : Limbo} {X : FrameOp} (hle : f.op ≤ f.processed) (h : f.step X = .ok f') : Further f X.entries f' := by
  have stay : ∀ {b : Frame}, b.owned = f.base.owned → Further f 0 { f with base := b } := fun hb => ⟨rfl, by simp only; omega, fun _ => hb⟩
  cases X with
  | add p =>
    simp only [step, bind_eq_ok, pure_eq_ok, Except.ok.injEq, Prod.exists] at h
    obtain ⟨_, c, h, rfl⟩ := h
    rw [cardAdd] at h
    have hl := advance_further hle
    revert h hl
    generalize f.advance = a
    obtain ⟨g, fresh⟩ := a
    rintro h ⟨h1, h2, h3, h4⟩
    cases fresh with
    | true =>
      simp only [if_true, bind_eq_ok, pure_eq_ok, Except.ok.injEq, Prod.exists, Prod.mk.injEq] at h
      obtain ⟨b, c', h5, rfl, rfl⟩ := h
      have h4 := h4 rfl
      exact ⟨h1, h2, fun h => by simp only [FrameOp.entries] at h; omega⟩
    | false =>
      simp only [Bool.false_eq_true, if_false, bind_eq_ok, massert_eq_ok, pure_eq_ok, Except.ok.injEq, Prod.mk.injEq] at h
      obtain ⟨c', h5, l, h6, _, _, _, _, rfl, rfl⟩ := h
      exact ⟨h1, h2, fun _ => h3⟩
  | remove p =>
    simp only [step, cardRemove, bind_eq_ok, massert_eq_ok, Prod.exists] at h
    obtain ⟨_, _, _, _, c, l, h0, h⟩ := h
    have hl := advance_further (f := f.setLayout l) hle
    revert h hl
    generalize (f.setLayout l).advance = a
    obtain ⟨g, fresh⟩ := a
    rintro h ⟨h1, h2, h3, h4⟩
    cases fresh with
    | true =>
      simp only [if_true, pure_eq_ok, Except.ok.injEq] at h
      subst h
      exact ⟨h1, h2, fun _ => h3⟩
    | false =>
      simp only [Bool.false_eq_true, if_false, bind_eq_ok, massert_eq_ok, pure_eq_ok, Except.ok.injEq] at h
      obtain ⟨_, _, _, _, rfl⟩ := h
      exact ⟨h1, h2, fun _ => h3⟩
  | move a b =>
    simp only [step, cardMove, Frame.cardMove, bind_eq_ok, pure_eq_ok, Except.ok.injEq, Prod.exists, Prod.mk.injEq] at h
    obtain ⟨_, _, ⟨b', c, ⟨_, _, h1, rfl, _⟩, rfl, rfl⟩, rfl⟩ := h
    exact stay rfl
  | shuffle p c n =>
    simp only [step, cardShuffle, Frame.cardShuffle, bind_eq_ok, pure_eq_ok, Except.ok.injEq] at h
    obtain ⟨b, ⟨_, _, rfl⟩, rfl⟩ := h
    exact stay rfl
  | swap a b =>
    simp only [step, cardSwap, Frame.cardSwap, bind_eq_ok, pure_eq_ok, Except.ok.injEq] at h
    obtain ⟨b, ⟨_, _, rfl⟩, rfl⟩ := h
    exact stay rfl
  | splice a n b r =>
    simp only [step, pileSplice, Frame.pileSplice, bind_eq_ok, pure_eq_ok, Except.ok.injEq] at h
    obtain ⟨b, ⟨_, _, rfl⟩, rfl⟩ := h
    exact stay rfl
  | pswap a b =>
    simp only [step, pileSwap, Frame.pileSwap, bind_eq_ok, pure_eq_ok, Except.ok.injEq] at h
    obtain ⟨b, ⟨_, _, rfl⟩, rfl⟩ := h
    exact stay rfl
  | resize p n =>
    simp only [step, pileResize, bind_eq_ok, massert_eq_ok] at h
    obtain ⟨_, _, h⟩ := h
    have hl := advance_further hle
    revert h hl
    generalize f.advance = a
    obtain ⟨g, fresh⟩ := a
    rintro h ⟨h1, h2, h3, h4⟩
    simp only [bind_eq_ok, Prod.exists] at h
    obtain ⟨k, _, prev, slice, _, h⟩ := h
    have e : (if fresh = true then g.emplace (.resize 0 []) else g).op = f.op + 1 ∧
        (if fresh = true then g.emplace (.resize 0 []) else g).processed = max f.processed (f.op + 1) ∧
        (if fresh = true then g.emplace (.resize 0 []) else g).base.owned = f.base.owned := by
      cases fresh
      · exact ⟨h1, h2, h3⟩
      · exact ⟨h1, h2, h3⟩
    revert h
    generalize (if fresh = true then g.emplace (.resize 0 []) else g) = g' at e
    intro h
    obtain ⟨e1, e2, e3⟩ := e
    split at h
    · split at h
      · rename_i hf
        cases h
        have h4 := h4 hf
        exact ⟨e1, e2, fun h => by simp only [FrameOp.entries] at h; omega⟩
      · simp only [bind_eq_ok, massert_eq_ok, pure_eq_ok, Except.ok.injEq] at h
        obtain ⟨_, _, _, _, rfl⟩ := h
        exact ⟨e1, e2, fun _ => e3⟩
    · split at h
      · simp only [bind_eq_ok, pure_eq_ok, Except.ok.injEq] at h
        obtain ⟨_, _, rfl⟩ := h
        exact ⟨e1, e2, fun _ => e3⟩
      · cases h
        exact ⟨e1, e2, fun _ => e3⟩
  | clear =>
    rw [step, clear] at h
    have hl := advance_further hle
    revert h hl
    generalize f.advance = a
    obtain ⟨g, fresh⟩ := a
    rintro h ⟨h1, h2, h3, h4⟩
    simp only [bind_eq_ok, pure_eq_ok, Except.ok.injEq] at h
    obtain ⟨saved, _, rfl⟩ := h
    cases fresh
    · exact ⟨h1, h2, fun _ => h3⟩
    · exact ⟨h1, h2, fun _ => h3⟩

theorem regress_processed {f f' : Limbo} (h : f.regress = .ok f') : f'.processed = f.processed := by
  simp only [regress, bind_eq_ok, massert_eq_ok, pure_eq_ok, Except.ok.injEq] at h
  obtain ⟨_, _, rfl⟩ := h
  rfl

theorem undo_processed {f f' : Limbo} {op : FrameOp} (h : f.undo op = .ok f') : f'.processed = f.processed := by
  cases op with
  | add p =>
    simp only [undo, undoCardAdd, bind_eq_ok, massert_eq_ok, pure_eq_ok, Except.ok.injEq, Prod.exists, Prod.mk.injEq] at h
    obtain ⟨_, _, ⟨_, _, _, _, c, l, h1, _, _, _, _, g, h2, rfl, rfl⟩, rfl⟩ := h
    exact (regress_processed h2).trans rfl
  | remove p =>
    simp only [undo, undoCardRemove, bind_eq_ok, massert_eq_ok, pure_eq_ok, Except.ok.injEq, Prod.exists, Prod.mk.injEq] at h
    obtain ⟨_, _, ⟨c, h0, l, h1, g, h2, _, _, _, _, rfl, rfl⟩, rfl⟩ := h
    exact (regress_processed h2).trans rfl
  | move a b =>
    simp only [undo, cardMove, bind_eq_ok, pure_eq_ok, Except.ok.injEq, Prod.exists, Prod.mk.injEq] at h
    obtain ⟨_, _, ⟨b', c, h1, rfl, rfl⟩, rfl⟩ := h
    rfl
  | shuffle p c n => cases h
  | swap a b =>
    simp only [undo, cardSwap, bind_eq_ok, pure_eq_ok, Except.ok.injEq] at h
    obtain ⟨b, h1, rfl⟩ := h
    rfl
  | splice a n b r =>
    simp only [undo, pileSplice, bind_eq_ok, pure_eq_ok, Except.ok.injEq] at h
    obtain ⟨b, h1, rfl⟩ := h
    rfl
  | pswap a b =>
    simp only [undo, pileSwap, bind_eq_ok, pure_eq_ok, Except.ok.injEq] at h
    obtain ⟨b, h1, rfl⟩ := h
    rfl
  | resize p n =>
    simp only [undo, undoPileResize, bind_eq_ok, massert_eq_ok, Prod.exists] at h
    obtain ⟨_, _, k, hk, prev, slice, h1, h⟩ := h
    split at h
    · simp only [bind_eq_ok, massert_eq_ok, pure_eq_ok, Except.ok.injEq] at h
      obtain ⟨s, h2, g, h3, _, _, rfl⟩ := h
      exact (regress_processed h3).trans rfl
    · split at h
      · simp only [bind_eq_ok] at h
        obtain ⟨s, h2, h3⟩ := h
        exact (regress_processed h3).trans rfl
      · exact (regress_processed h).trans rfl
  | clear =>
    simp only [undo, undoClear, bind_eq_ok] at h
    obtain ⟨saved, h1, h2⟩ := h
    exact (regress_processed h2).trans rfl

end Limbo

theorem runOps_further {Xs : List FrameOp} {f f' : Limbo} (hle : f.op ≤ f.processed) (h : runOps f Xs = .ok f') : Further f (entriesOf Xs) f' := by
  induction Xs generalizing f with
  | nil => cases h; exact ⟨rfl, by simp only [entriesOf, List.map_nil, List.sum_nil]; omega, fun _ => rfl⟩
  | cons X Xs ih =>
    simp only [runOps, FrameLike.step, bind_eq_ok] at h
    obtain ⟨f1, h1, h2⟩ := h
    have a := Limbo.step_further hle h1
    have a1 := a.op
    have a2 := a.processed
    have b := ih (by omega) h2
    have b1 := b.op
    have b2 := b.processed
    have e : entriesOf (X :: Xs) = X.entries + entriesOf Xs := by simp [entriesOf]
    exact ⟨by omega, by omega, fun h => by rw [b.owned (by omega), a.owned (by omega)]⟩

theorem undoOps_back {Xs : List FrameOp} {f f' : Limbo} (h : UndoBoard.undoOps f Xs = .ok f') :
    f'.op + entriesOf Xs = f.op ∧ f'.processed = f.processed ∧ f'.base.owned = f.base.owned := by
  refine ⟨(undoOps_log h).1, ?_⟩
  induction Xs generalizing f with
  | nil => cases h; exact ⟨rfl, rfl⟩
  | cons X Xs ih =>
    simp only [UndoBoard.undoOps, bind_eq_ok] at h
    obtain ⟨f1, h1, h2⟩ := h
    obtain ⟨e1, e2⟩ := ih h2
    exact ⟨e1.trans (Limbo.undo_processed h1), e2.trans (Limbo.undo_owned h1)⟩

theorem entries_event (e : Event) : entriesOf (frameOps e) = tellsLogged e := by
  have k : ∀ {α : Type} (l : List α) (f : α → FrameOp) (n : Nat), (∀ x, (f x).entries = n) → entriesOf (l.map f) = l.length * n := by
    intro α l f n hf
    induction l with
    | nil => simp [entriesOf]
    | cons x xs ih =>
      have : entriesOf ((x :: xs).map f) = (f x).entries + entriesOf (xs.map f) := by simp [entriesOf]
      rw [this, ih, hf, List.length_cons, Nat.succ_mul]; omega
  have a : ∀ Xs Ys : List FrameOp, entriesOf (Xs ++ Ys) = entriesOf Xs + entriesOf Ys := by intro Xs Ys; simp [entriesOf]
  have c : ∀ X (Xs : List FrameOp), entriesOf (X :: Xs) = X.entries + entriesOf Xs := by intro X Xs; simp [entriesOf]
  cases e with
  | board e =>
    cases e with
    | unset => rfl
    | exchange e =>
      simp only [frameOps, DuelBoard.exchangeOps, DuelBoard.resizeOps, a, tellsLogged]
      rw [k _ _ 1 fun _ => rfl, k _ _ 1 fun _ => rfl, k _ _ 1 fun _ => rfl]; omega
    | state s =>
      simp only [frameOps, DuelBoard.stateOps, DuelBoard.resizeOps, List.cons_append, a, c, tellsLogged]
      rw [k _ _ 1 fun _ => rfl, k _ _ 1 fun _ => rfl]; simp only [FrameOp.entries]; omega
  | card r e =>
    cases e <;> simp only [frameOps, DuelBoard.cardOps, tellsLogged]
    case unset => rfl
    case add ps => rw [k _ _ 1 fun _ => rfl]; omega
    case exchange ops => rw [k _ _ 0 fun _ => rfl]; omega
    case move ops => rw [k _ _ 0 fun _ => rfl]; omega
    case remove ps => rw [k _ _ 1 fun _ => rfl]; omega
    case shuffle p q => rfl
  | pile r e =>
    cases e <;> simp only [frameOps, DuelBoard.pileOps, tellsLogged]
    case unset => rfl
    case exchange ops => rw [k _ _ 0 fun _ => rfl]; omega
    case resize r => rfl
    case splice ops => rw [k _ _ 0 fun _ => rfl]; omega
  | chainStack e => rfl
  | nextTurn c => rfl
  | lp con c => rfl
  | nextPhase p => rfl
  | zoneBlock zs => rfl
  | finish => rfl
  | metaInfo => rfl
  | result => rfl
  | unset => rfl

/-! ## Values -/

/-- A value that is said `n` times. -/
def Said (k b n k' b' : Nat) : Prop := b' = b + n ∧ k' = max k (b + n + 1)

theorem set_said {α : Type} (u : Undoable α) (v : α) (h : u.current < u.values.length) :
    Said u.values.length u.current 1 (u.set v).values.length (u.set v).current := by
  simp only [Said, Undoable.set]
  refine ⟨trivial, ?_⟩
  split
  · simp only [List.length_append, List.length_singleton]; omega
  · omega

theorem same_said {k b : Nat} (h : b < k) : Said k b 0 k b := ⟨rfl, by omega⟩

theorem undo_unsaid {α : Type} {u u' : Undoable α} (h : u.undo = .ok u') : u'.current + 1 = u.current ∧ u'.values.length = u.values.length := by
  simp only [Undoable.undo, bind_eq_ok, massert_eq_ok, pure_eq_ok, Except.ok.injEq] at h
  obtain ⟨_, h, rfl⟩ := h
  exact ⟨by simp only; omega, rfl⟩

theorem lpIdx_eq_ok {con : Int} {i : Fin 2} (h : DuelBoard.lpIdx con = .ok i) : con = i.val := by
  simp only [DuelBoard.lpIdx, bind_eq_ok, massert_eq_ok] at h
  obtain ⟨_, _, h⟩ := h
  exact conIdx_eq_ok.mp h

theorem parse_said {u u' : UndoBoard} {e : Event} (h : u.parseEvent e = .ok u') (hb : ∀ v, valuesBefore u v < valuesKept u v) (v : BoardValue) :
    Said (valuesKept u v) (valuesBefore u v) (tellsValue e v) (valuesKept u' v) (valuesBefore u' v) := by
  have h0 := fun {n : Nat} (hn : n = 0) => hn ▸ same_said (hb v)
  have hv := hb v
  cases e with
  | board e =>
    cases e with
    | unset => cases h; exact same_said hv
    | exchange e =>
      simp only [DuelBoard.parseEvent, DuelBoard.onFrame, bind_eq_ok, pure_eq_ok, Except.ok.injEq] at h
      obtain ⟨f, h, rfl⟩ := h
      cases v <;> exact same_said hv
    | state s =>
      simp only [DuelBoard.parseEvent, DuelBoard.parseState, DuelBoard.onFrame, bind_eq_ok, pure_eq_ok, Except.ok.injEq] at h
      obtain ⟨a, _, b, _, f, _, rfl⟩ := h
      cases v with
      | chainStack =>
        have : ∀ x : UndoBoard, x.chainStack = u.chainStack → Said (valuesKept u .chainStack) (valuesBefore u .chainStack) 1 (x.chainStack.set s.chains).values.length (x.chainStack.set s.chains).current := by
          intro x hx; rw [hx]; exact set_said _ _ hv
        exact this _ (by simp only [DuelBoard.setLp]; split <;> rfl)
      | turn =>
        simp only [tellsValue, valuesKept, valuesBefore, DuelBoard.setLp]
        split
        · exact set_said _ _ hv
        · exact same_said hv
      | turnController =>
        simp only [tellsValue, valuesKept, valuesBefore, DuelBoard.setLp]
        split <;> exact same_said hv
      | lp i =>
        simp only [tellsValue, valuesKept, valuesBefore, DuelBoard.setLp]
        by_cases ht : 0 ≤ s.turnCounter
        · simp only [if_pos ht]
          match i with
          | 0 => exact set_said (u.lp 0) a hv
          | 1 => exact set_said (u.lp 1) b hv
        · simp only [if_neg ht]
          match i with
          | 0 => exact set_said (u.lp 0) a hv
          | 1 => exact set_said (u.lp 1) b hv
      | phase =>
        simp only [tellsValue, valuesKept, valuesBefore, DuelBoard.setLp]
        split <;> exact same_said hv
      | blockedZones =>
        simp only [tellsValue, valuesKept, valuesBefore, DuelBoard.setLp]
        split <;> exact same_said hv
  | card r e =>
    simp only [DuelBoard.parseEvent, DuelBoard.onFrame, bind_eq_ok, pure_eq_ok, Except.ok.injEq] at h
    obtain ⟨f, h, rfl⟩ := h
    cases v <;> exact same_said hv
  | chainStack e =>
    cases e with
    | unset => cases h; exact same_said hv
    | push c => cases h
    | pop x => cases h
  | nextTurn c =>
    simp only [DuelBoard.parseEvent, bind_eq_ok, pure_eq_ok, Except.ok.injEq] at h
    obtain ⟨_, _, rfl⟩ := h
    cases v
    case turn => exact set_said _ _ hv
    case turnController => exact set_said _ _ hv
    all_goals exact same_said hv
  | lp con c =>
    simp only [DuelBoard.parseEvent, DuelBoard.setLp, bind_eq_ok, pure_eq_ok, Except.ok.injEq] at h
    obtain ⟨i, hi, _, _, rfl⟩ := h
    have hi := lpIdx_eq_ok hi
    cases v
    case lp j =>
      simp only [tellsValue, valuesKept, valuesBefore]
      by_cases hj : j = i
      · subst hj; rw [if_pos rfl, if_pos hi]; exact set_said _ _ hv
      · rw [if_neg hj, if_neg (by intro h; exact hj (Fin.ext (by omega)))]; exact same_said hv
    all_goals exact same_said hv
  | nextPhase p =>
    cases h
    cases v
    case phase => exact set_said _ _ hv
    all_goals exact same_said hv
  | pile r e =>
    simp only [DuelBoard.parseEvent, DuelBoard.onFrame, bind_eq_ok, pure_eq_ok, Except.ok.injEq] at h
    obtain ⟨f, h, rfl⟩ := h
    cases v <;> exact same_said hv
  | zoneBlock zs =>
    cases h
    cases v
    case blockedZones => exact set_said _ _ hv
    all_goals exact same_said hv
  | finish => cases h; exact same_said hv
  | metaInfo => cases h; exact same_said hv
  | result => cases h; exact same_said hv
  | unset => cases h; exact same_said hv

theorem undo_unsaid_event {u u' : UndoBoard} {e : Event} (h : u.undoParseEvent e = .ok u') (v : BoardValue) :
    valuesBefore u' v + tellsValue e v = valuesBefore u v ∧ valuesKept u' v = valuesKept u v := by
  cases e with
  | board e =>
    cases e with
    | unset => cases h; exact ⟨rfl, rfl⟩
    | exchange e =>
      simp only [UndoBoard.undoParseEvent, UndoBoard.undoFrame, bind_eq_ok, pure_eq_ok, Except.ok.injEq] at h
      obtain ⟨f, h, rfl⟩ := h
      cases v <;> exact ⟨rfl, rfl⟩
    | state s =>
      simp only [UndoBoard.undoParseEvent, UndoBoard.undoState, UndoBoard.undoFrame, bind_eq_ok, pure_eq_ok, Except.ok.injEq] at h
      obtain ⟨_, ⟨f, h, rfl⟩, c, hc, l1, h1, l0, h0, h'⟩ := h
      have hc := undo_unsaid hc
      have h1 := undo_unsaid h1
      have h0 := undo_unsaid h0
      by_cases ht : 0 ≤ s.turnCounter
      · rw [if_pos ht] at h'
        simp only [bind_eq_ok, pure_eq_ok, Except.ok.injEq] at h'
        obtain ⟨t, ht', rfl⟩ := h'
        have ht' := undo_unsaid ht'
        cases v with
        | chainStack => exact hc
        | turn => simp only [tellsValue, if_pos ht]; exact ht'
        | lp i =>
          match i with
          | 0 => exact h0
          | 1 => exact h1
        | _ => exact ⟨rfl, rfl⟩
      · rw [if_neg ht] at h'
        cases h'
        cases v with
        | chainStack => exact hc
        | turn => simp only [tellsValue, if_neg ht]; exact ⟨rfl, rfl⟩
        | lp i =>
          match i with
          | 0 => exact h0
          | 1 => exact h1
        | _ => exact ⟨rfl, rfl⟩
  | card r e =>
    simp only [UndoBoard.undoParseEvent, UndoBoard.undoFrame, bind_eq_ok, pure_eq_ok, Except.ok.injEq] at h
    obtain ⟨f, h, rfl⟩ := h
    cases v <;> exact ⟨rfl, rfl⟩
  | chainStack e =>
    cases e with
    | unset => cases h; exact ⟨rfl, rfl⟩
    | push c => cases h
    | pop x => cases h
  | nextTurn c =>
    simp only [UndoBoard.undoParseEvent, bind_eq_ok, pure_eq_ok, Except.ok.injEq] at h
    obtain ⟨t, ht, c, hc, rfl⟩ := h
    cases v
    case turn => exact undo_unsaid ht
    case turnController => exact undo_unsaid hc
    all_goals exact ⟨rfl, rfl⟩
  | lp con c =>
    simp only [UndoBoard.undoParseEvent, DuelBoard.setLp, bind_eq_ok, pure_eq_ok, Except.ok.injEq] at h
    obtain ⟨i, hi, l, hl, rfl⟩ := h
    have hi := lpIdx_eq_ok hi
    cases v
    case lp j =>
      simp only [tellsValue, valuesKept, valuesBefore]
      by_cases hj : j = i
      · subst hj; rw [if_pos rfl, if_pos hi]; exact undo_unsaid hl
      · rw [if_neg hj, if_neg (by intro h; exact hj (Fin.ext (by omega)))]; exact ⟨rfl, rfl⟩
    all_goals exact ⟨rfl, rfl⟩
  | nextPhase p =>
    simp only [UndoBoard.undoParseEvent, bind_eq_ok, pure_eq_ok, Except.ok.injEq] at h
    obtain ⟨x, hx, rfl⟩ := h
    cases v
    case phase => exact undo_unsaid hx
    all_goals exact ⟨rfl, rfl⟩
  | pile r e =>
    simp only [UndoBoard.undoParseEvent, UndoBoard.undoFrame, bind_eq_ok, pure_eq_ok, Except.ok.injEq] at h
    obtain ⟨f, h, rfl⟩ := h
    cases v <;> exact ⟨rfl, rfl⟩
  | zoneBlock zs =>
    simp only [UndoBoard.undoParseEvent, bind_eq_ok, pure_eq_ok, Except.ok.injEq] at h
    obtain ⟨x, hx, rfl⟩ := h
    cases v
    case blockedZones => exact undo_unsaid hx
    all_goals exact ⟨rfl, rfl⟩
  | finish => cases h; exact ⟨rfl, rfl⟩
  | metaInfo => cases h; exact ⟨rfl, rfl⟩
  | result => cases h; exact ⟨rfl, rfl⟩
  | unset => cases h; exact ⟨rfl, rfl⟩

end Ygo
