import Verif.Lemmas.ReleaseUndo

/-! # What an undoable board does with asserts, it does without -/

set_option linter.unusedSimpArgs false

namespace Ygo
open Ygo.Spec

namespace Limbo

theorem logged_init : Logged Limbo.init := rfl

theorem regress_logged {f f' : Limbo} (h : f.regress = .ok f') (hl : Logged f) : Logged f' := by
  simp only [regress, bind_eq_ok, massert_eq_ok, pure_eq_ok, Except.ok.injEq] at h
  obtain ⟨_, _, rfl⟩ := h
  exact hl

theorem setCurrent_logged {f : Limbo} {o : LimboOp} (hl : Logged f) : Logged (f.setCurrent o) := by
  simp only [Logged, setCurrent, List.length_set]; exact hl

/-- After `advance`: one entry is missing if the operation is new. -/
theorem advance_logged {f : Limbo} (hl : Logged f) (o : LimboOp) :
    (f.advance.2 = true → Logged (f.advance.1.emplace o)) ∧ (f.advance.2 = false → Logged f.advance.1) := by
  have hl : f.processed = f.ops.length := hl
  unfold advance
  split <;> simp [Logged, emplace, hl]

theorem step_logged {f f' : Limbo} {op : FrameOp} (hl : Logged f) (h : f.step op = .ok f') : Logged f' := by
  cases op with
  | add p =>
    simp only [step, bind_eq_ok, pure_eq_ok, Except.ok.injEq, Prod.exists] at h
    obtain ⟨_, c, h, rfl⟩ := h
    rw [cardAdd] at h
    have hl := fun o => advance_logged hl o
    revert h hl
    generalize f.advance = a
    obtain ⟨g, fresh⟩ := a
    intro h hl
    cases fresh with
    | true =>
      simp only [if_true, bind_eq_ok, pure_eq_ok, Except.ok.injEq, Prod.exists, Prod.mk.injEq] at h
      obtain ⟨b, c', h1, rfl, rfl⟩ := h
      exact (hl (.card c')).1 rfl
    | false =>
      simp only [Bool.false_eq_true, if_false, bind_eq_ok, massert_eq_ok, pure_eq_ok, Except.ok.injEq, Prod.mk.injEq] at h
      obtain ⟨c', h1, l, h2, _, _, _, _, rfl, rfl⟩ := h
      exact (hl (.card c')).2 rfl
  | remove p =>
    simp only [step, cardRemove, bind_eq_ok, massert_eq_ok, Prod.exists] at h
    obtain ⟨_, _, _, _, c, l, h1, h⟩ := h
    have hl := fun o => advance_logged (f := f.setLayout l) hl o
    revert h hl
    generalize (f.setLayout l).advance = a
    obtain ⟨g, fresh⟩ := a
    intro h hl
    cases fresh with
    | true =>
      simp only [if_true, pure_eq_ok, Except.ok.injEq] at h
      subst h
      exact (hl _).1 rfl
    | false =>
      simp only [Bool.false_eq_true, if_false, bind_eq_ok, massert_eq_ok, pure_eq_ok, Except.ok.injEq] at h
      obtain ⟨_, _, _, _, rfl⟩ := h
      exact (hl (.card c)).2 rfl
  | move a b =>
    simp only [step, cardMove, bind_eq_ok, pure_eq_ok, Except.ok.injEq, Prod.exists, Prod.mk.injEq] at h
    obtain ⟨_, _, ⟨b', c, h1, rfl, rfl⟩, rfl⟩ := h
    exact hl
  | shuffle p c n =>
    simp only [step, cardShuffle, bind_eq_ok, pure_eq_ok, Except.ok.injEq] at h
    obtain ⟨b, h1, rfl⟩ := h
    exact hl
  | swap a b =>
    simp only [step, cardSwap, bind_eq_ok, pure_eq_ok, Except.ok.injEq] at h
    obtain ⟨b, h1, rfl⟩ := h
    exact hl
  | splice a n b r =>
    simp only [step, pileSplice, bind_eq_ok, pure_eq_ok, Except.ok.injEq] at h
    obtain ⟨b, h1, rfl⟩ := h
    exact hl
  | pswap a b =>
    simp only [step, pileSwap, bind_eq_ok, pure_eq_ok, Except.ok.injEq] at h
    obtain ⟨b, h1, rfl⟩ := h
    exact hl
  | resize p n =>
    simp only [step, pileResize, bind_eq_ok, massert_eq_ok] at h
    obtain ⟨_, _, h⟩ := h
    have hl := advance_logged hl (.resize 0 [])
    revert h hl
    generalize f.advance = a
    obtain ⟨g, fresh⟩ := a
    intro h hl
    simp only [bind_eq_ok, Prod.exists] at h
    obtain ⟨k, _, prev, slice, _, h⟩ := h
    have hl : Logged (if fresh = true then g.emplace (.resize 0 []) else g) := by cases fresh <;> simp_all
    revert h
    generalize (if fresh = true then g.emplace (.resize 0 []) else g) = g' at hl
    intro h
    have hs : ∀ o, Logged (g'.setCurrent o) := fun o => setCurrent_logged hl
    split at h
    · split at h
      · cases h; exact hs _
      · simp only [bind_eq_ok, massert_eq_ok, pure_eq_ok, Except.ok.injEq] at h
        obtain ⟨_, _, _, _, rfl⟩ := h
        exact hs _
    · split at h
      · simp only [bind_eq_ok, pure_eq_ok, Except.ok.injEq] at h
        obtain ⟨_, _, rfl⟩ := h
        exact setCurrent_logged (hs _)
      · cases h; exact hs _
  | clear =>
    rw [step, clear] at h
    have hl := advance_logged hl (.clear Layout.empty)
    revert h hl
    generalize f.advance = a
    obtain ⟨g, fresh⟩ := a
    intro h hl
    simp only [bind_eq_ok, pure_eq_ok, Except.ok.injEq] at h
    obtain ⟨saved, _, rfl⟩ := h
    have hl : Logged (if fresh = true then g.emplace (.clear Layout.empty) else g) := by cases fresh <;> simp_all
    exact setCurrent_logged hl

theorem undo_logged {f f' : Limbo} {op : FrameOp} (hl : Logged f) (h : f.undo op = .ok f') : Logged f' := by
  cases op with
  | add p =>
    simp only [undo, undoCardAdd, bind_eq_ok, massert_eq_ok, pure_eq_ok, Except.ok.injEq, Prod.exists, Prod.mk.injEq] at h
    obtain ⟨_, _, ⟨_, _, _, _, c, l, h1, _, _, _, _, g, h2, rfl, rfl⟩, rfl⟩ := h
    exact regress_logged h2 hl
  | remove p =>
    simp only [undo, undoCardRemove, bind_eq_ok, massert_eq_ok, pure_eq_ok, Except.ok.injEq, Prod.exists, Prod.mk.injEq] at h
    obtain ⟨_, _, ⟨c, h0, l, h1, g, h2, _, _, _, _, rfl, rfl⟩, rfl⟩ := h
    exact regress_logged h2 hl
  | move a b =>
    simp only [undo, cardMove, bind_eq_ok, pure_eq_ok, Except.ok.injEq, Prod.exists, Prod.mk.injEq] at h
    obtain ⟨_, _, ⟨b', c, h1, rfl, rfl⟩, rfl⟩ := h
    exact hl
  | shuffle p c n => cases h
  | swap a b =>
    simp only [undo, cardSwap, bind_eq_ok, pure_eq_ok, Except.ok.injEq] at h
    obtain ⟨b, h1, rfl⟩ := h
    exact hl
  | splice a n b r =>
    simp only [undo, pileSplice, bind_eq_ok, pure_eq_ok, Except.ok.injEq] at h
    obtain ⟨b, h1, rfl⟩ := h
    exact hl
  | pswap a b =>
    simp only [undo, pileSwap, bind_eq_ok, pure_eq_ok, Except.ok.injEq] at h
    obtain ⟨b, h1, rfl⟩ := h
    exact hl
  | resize p n =>
    simp only [undo, undoPileResize, bind_eq_ok, massert_eq_ok, Prod.exists] at h
    obtain ⟨_, _, k, hk, prev, slice, h1, h⟩ := h
    split at h
    · simp only [bind_eq_ok, massert_eq_ok, pure_eq_ok, Except.ok.injEq] at h
      obtain ⟨s, h2, g, h3, _, _, rfl⟩ := h
      exact regress_logged h3 hl
    · split at h
      · simp only [bind_eq_ok] at h
        obtain ⟨s, h2, h3⟩ := h
        exact regress_logged h3 (setCurrent_logged hl)
      · exact regress_logged h hl
  | clear =>
    simp only [undo, undoClear, bind_eq_ok] at h
    obtain ⟨saved, h1, h2⟩ := h
    exact regress_logged h2 (setCurrent_logged hl)

end Limbo

theorem runOps_same {f f' : Limbo} {ops : List FrameOp} (hl : Logged f) (h : runOps f ops = .ok f') :
    runOps (asRawLimbo f) ops = .ok (asRawLimbo f') ∧ Logged f' := by
  induction ops generalizing f with
  | nil => cases h; exact ⟨rfl, hl⟩
  | cons op ops ih =>
    simp only [runOps, FrameLike.step, bind_eq_ok] at h
    obtain ⟨g, h1, h2⟩ := h
    obtain ⟨h3, h4⟩ := ih (Limbo.step_logged hl h1) h2
    refine ⟨?_, h4⟩
    simp only [runOps, FrameLike.step, Limbo.step_same hl h1, bind_ok]; exact h3

theorem undoOps_same {f f' : Limbo} {ops : List FrameOp} (hl : Logged f) (h : UndoBoard.undoOps f ops = .ok f') :
    RawUndoBoard.undoOps (asRawLimbo f) ops = .ok (asRawLimbo f') ∧ Logged f' := by
  induction ops generalizing f with
  | nil => cases h; exact ⟨rfl, hl⟩
  | cons op ops ih =>
    simp only [UndoBoard.undoOps, bind_eq_ok] at h
    obtain ⟨g, h1, h2⟩ := h
    obtain ⟨h3, h4⟩ := ih (Limbo.undo_logged hl h1) h2
    refine ⟨?_, h4⟩
    simp only [RawUndoBoard.undoOps, Limbo.undo_same h1, bind_ok]; exact h3

theorem asRawCell_set {α : Type} (u : Undoable α) (v : α) : (asRawCell u).set v = asRawCell (u.set v) := rfl

theorem asRawCell_get {α : Type} (u : Undoable α) : (asRawCell u).get = u.get := rfl

theorem asRawCell_undo {α : Type} {u u' : Undoable α} (h : u.undo = .ok u') : (asRawCell u).undo = .ok (asRawCell u') := by
  simp only [Undoable.undo, bind_eq_ok, massert_eq_ok, pure_eq_ok, Except.ok.injEq] at h
  obtain ⟨_, h0, rfl⟩ := h
  simp [RawUndoable.undo, asRawCell, guardUb, h0]

theorem asRawUndo_setLp (b : UndoBoard) (i : Fin 2) (v : Undoable Nat) : (asRawUndo b).setLp i (asRawCell v) = asRawUndo (b.setLp i v) := by
  simp only [DuelBoard.setLp, asRawUndo]
  congr 1
  funext j
  split <;> rfl

theorem onFrame_same {b b' : UndoBoard} {ops : List FrameOp} (hl : Logged b.frame) (h : b.onFrame ops = .ok b') :
    (asRawUndo b).onFrame ops = .ok (asRawUndo b') ∧ Logged b'.frame := by
  simp only [DuelBoard.onFrame, bind_eq_ok, pure_eq_ok, Except.ok.injEq] at h
  obtain ⟨f, h1, rfl⟩ := h
  obtain ⟨h2, h3⟩ := runOps_same hl h1
  refine ⟨?_, h3⟩
  simp only [DuelBoard.onFrame, asRawUndo, h2]; rfl

theorem undoFrame_same {b b' : UndoBoard} {ops : List FrameOp} (hl : Logged b.frame) (h : b.undoFrame ops = .ok b') :
    RawUndoBoard.undoFrame (asRawUndo b) ops = .ok (asRawUndo b') ∧ Logged b'.frame := by
  simp only [UndoBoard.undoFrame, bind_eq_ok, pure_eq_ok, Except.ok.injEq] at h
  obtain ⟨f, h1, rfl⟩ := h
  obtain ⟨h2, h3⟩ := undoOps_same hl h1
  refine ⟨?_, h3⟩
  simp only [RawUndoBoard.undoFrame, asRawUndo, h2]; rfl

theorem parseEvent_same {b b' : UndoBoard} {e : Event} (hl : Logged b.frame) (h : b.parseEvent e = .ok b') :
    RawUndoBoard.parseEvent (asRawUndo b) e = .ok (asRawUndo b') ∧ Logged b'.frame := by
  cases e with
  | board e =>
    cases e with
    | unset => cases h; exact ⟨rfl, hl⟩
    | exchange e => exact onFrame_same hl h
    | state s =>
      simp only [DuelBoard.parseEvent, DuelBoard.parseState, bind_eq_ok, orUb_eq_ok] at h
      obtain ⟨l0, e0, l1, e1, h⟩ := h
      have hg : Logged (DuelBoard.frame (DuelBoard.setLp (DuelBoard.setLp (if 0 ≤ s.turnCounter then { b with turn := Cell.set b.turn s.turnCounter.toNat } else b) 0 (Cell.set (b.lp 0) l0)) 1 (Cell.set (b.lp 1) l1))) := by
        simp only [DuelBoard.setLp]
        split <;> exact hl
      have hlp : ∀ i, (if 0 ≤ s.turnCounter then { b with turn := Cell.set b.turn s.turnCounter.toNat } else b).lp i = b.lp i := by
        intro i; split <;> rfl
      have := onFrame_same (by simp only [DuelBoard.setLp]; split <;> exact hl) h
      refine ⟨?_, this.2⟩
      rw [← this.1]
      simp only [RawUndoBoard.parseEvent, DuelBoard.parseEvent, DuelBoard.parseState, e0, e1, orUb, bind_ok]
      congr 1
      simp only [DuelBoard.setLp, asRawUndo]
      split <;> simp only [asRawUndo] <;> congr 1 <;> funext j <;> (repeat' split) <;> first | rfl | simp_all <;> rfl
  | card r e => exact onFrame_same hl h
  | chainStack e =>
    cases e with
    | unset => cases h; exact ⟨rfl, hl⟩
    | push c => cases h
    | pop x => cases h
  | nextTurn con =>
    simp only [DuelBoard.parseEvent, bind_eq_ok, pure_eq_ok, Except.ok.injEq] at h
    obtain ⟨t, h1, rfl⟩ := h
    refine ⟨?_, hl⟩
    have : (Cell.get (asRawUndo b).turn : Res Nat) = .ok t := h1
    simp only [RawUndoBoard.parseEvent, DuelBoard.parseEvent, this, bind_ok]; rfl
  | lp con c =>
    simp only [DuelBoard.parseEvent, DuelBoard.lpIdx, bind_eq_ok, massert_eq_ok, pure_eq_ok, Except.ok.injEq] at h
    obtain ⟨i, ⟨_, _, h0⟩, v, h1, rfl⟩ := h
    refine ⟨?_, hl⟩
    have : (Cell.get ((asRawUndo b).lp i) : Res Nat) = .ok v := h1
    simp only [RawUndoBoard.parseEvent, h0, bind_ok, this]
    rw [← asRawUndo_setLp]; rfl
  | nextPhase p => cases h; exact ⟨rfl, hl⟩
  | pile r e => exact onFrame_same hl h
  | zoneBlock zs => cases h; exact ⟨rfl, hl⟩
  | finish _ => cases h; exact ⟨rfl, hl⟩
  | metaInfo _ => cases h; exact ⟨rfl, hl⟩
  | result _ => cases h; exact ⟨rfl, hl⟩
  | unset => cases h; exact ⟨rfl, hl⟩

theorem undoState_same {b b' : UndoBoard} {s : BoardState} (hl : Logged b.frame) (h : b.undoState s = .ok b') :
    RawUndoBoard.undoState (asRawUndo b) s = .ok (asRawUndo b') ∧ Logged b'.frame := by
  simp only [UndoBoard.undoState, bind_eq_ok] at h
  obtain ⟨b1, h1, c, h2, l1, h3, l0, h4, h5⟩ := h
  obtain ⟨h6, h7⟩ := undoFrame_same hl h1
  have h2' : (asRawUndo b1).chainStack.undo = .ok (asRawCell c) := asRawCell_undo h2
  have h3' : ((asRawUndo b1).lp 1).undo = .ok (asRawCell l1) := asRawCell_undo h3
  have h4' : ((asRawUndo b1).lp 0).undo = .ok (asRawCell l0) := asRawCell_undo h4
  refine ⟨?_, ?_⟩
  · simp only [RawUndoBoard.undoState, h6, bind_ok, h2', h3', DuelBoard.setLp, show ((0 : Fin 2) = 1) = False from by simp, if_false, h4']
    split at h5
    · rename_i ht
      simp only [bind_eq_ok, pure_eq_ok, Except.ok.injEq] at h5
      obtain ⟨t, h8, rfl⟩ := h5
      have h8' : (asRawUndo b1).turn.undo = .ok (asRawCell t) := asRawCell_undo h8
      simp only [if_pos ht, h8', bind_ok, pure_eq_ok, Except.ok.injEq]
      simp only [asRawUndo, DuelBoard.setLp]
      congr 1
      funext j; (repeat' split) <;> rfl
    · rename_i ht
      simp only [pure_eq_ok, Except.ok.injEq] at h5
      subst h5
      simp only [if_neg ht, pure_eq_ok, Except.ok.injEq]
      simp only [asRawUndo, DuelBoard.setLp]
      congr 1
      funext j; (repeat' split) <;> rfl
  · split at h5
    · simp only [bind_eq_ok, pure_eq_ok, Except.ok.injEq] at h5
      obtain ⟨t, h8, rfl⟩ := h5
      exact h7
    · simp only [pure_eq_ok, Except.ok.injEq] at h5
      subst h5
      exact h7

theorem undoParseEvent_same {b b' : UndoBoard} {e : Event} (hl : Logged b.frame) (h : b.undoParseEvent e = .ok b') :
    RawUndoBoard.undoParseEvent (asRawUndo b) e = .ok (asRawUndo b') ∧ Logged b'.frame := by
  cases e with
  | board e =>
    cases e with
    | unset => cases h; exact ⟨rfl, hl⟩
    | exchange e => exact undoFrame_same hl h
    | state s => exact undoState_same hl h
  | card r e => exact undoFrame_same hl h
  | chainStack e =>
    cases e with
    | unset => cases h; exact ⟨rfl, hl⟩
    | push c => cases h
    | pop x => cases h
  | nextTurn con =>
    simp only [UndoBoard.undoParseEvent, bind_eq_ok, pure_eq_ok, Except.ok.injEq] at h
    obtain ⟨t, h1, c, h2, rfl⟩ := h
    have h1' : (asRawUndo b).turn.undo = .ok (asRawCell t) := asRawCell_undo h1
    have h2' : (asRawUndo b).turnController.undo = .ok (asRawCell c) := asRawCell_undo h2
    refine ⟨?_, hl⟩
    simp only [RawUndoBoard.undoParseEvent, h1', bind_ok, h2']; rfl
  | lp con c =>
    simp only [UndoBoard.undoParseEvent, DuelBoard.lpIdx, bind_eq_ok, massert_eq_ok, pure_eq_ok, Except.ok.injEq] at h
    obtain ⟨i, ⟨_, _, h0⟩, v, h1, rfl⟩ := h
    have h1' : ((asRawUndo b).lp i).undo = .ok (asRawCell v) := asRawCell_undo h1
    refine ⟨?_, hl⟩
    simp only [RawUndoBoard.undoParseEvent, h0, bind_ok, h1']
    rw [← asRawUndo_setLp]; rfl
  | nextPhase p =>
    simp only [UndoBoard.undoParseEvent, bind_eq_ok, pure_eq_ok, Except.ok.injEq] at h
    obtain ⟨t, h1, rfl⟩ := h
    have h1' : (asRawUndo b).phase.undo = .ok (asRawCell t) := asRawCell_undo h1
    refine ⟨?_, hl⟩
    simp only [RawUndoBoard.undoParseEvent, h1', bind_ok]; rfl
  | pile r e => exact undoFrame_same hl h
  | zoneBlock zs =>
    simp only [UndoBoard.undoParseEvent, bind_eq_ok, pure_eq_ok, Except.ok.injEq] at h
    obtain ⟨t, h1, rfl⟩ := h
    have h1' : (asRawUndo b).blockedZones.undo = .ok (asRawCell t) := asRawCell_undo h1
    refine ⟨?_, hl⟩
    simp only [RawUndoBoard.undoParseEvent, h1', bind_ok]; rfl
  | finish _ => cases h; exact ⟨rfl, hl⟩
  | metaInfo _ => cases h; exact ⟨rfl, hl⟩
  | result _ => cases h; exact ⟨rfl, hl⟩
  | unset => cases h; exact ⟨rfl, hl⟩

theorem parseEvents_same {b b' : UndoBoard} {es : List Event} (hl : Logged b.frame) (h : b.parseEvents es = .ok b') :
    RawUndoBoard.parseEvents (asRawUndo b) es = .ok (asRawUndo b') ∧ Logged b'.frame := by
  induction es generalizing b with
  | nil => cases h; exact ⟨rfl, hl⟩
  | cons e es ih =>
    simp only [DuelBoard.parseEvents, bind_eq_ok] at h
    obtain ⟨b1, h1, h2⟩ := h
    obtain ⟨h3, h4⟩ := parseEvent_same hl h1
    obtain ⟨h5, h6⟩ := ih h4 h2
    exact ⟨by simp only [RawUndoBoard.parseEvents, h3, bind_ok]; exact h5, h6⟩

theorem scrub_same {es : List Event} {ms : List Move} {b b' : UndoBoard} {i j : Nat} (hl : Logged b.frame) (h : scrub es b i ms = .ok (b', j)) :
    rawScrub es (asRawUndo b) i ms = .ok (asRawUndo b', j) ∧ Logged b'.frame := by
  induction ms generalizing b i with
  | nil => cases h; exact ⟨rfl, hl⟩
  | cons m ms ih =>
    cases m with
    | forward =>
      simp only [scrub, rawScrub] at h ⊢
      cases he : es[i]? with
      | none => rw [he] at h; exact ih hl h
      | some e =>
        rw [he] at h
        simp only [bind_eq_ok] at h
        obtain ⟨b1, h1, h2⟩ := h
        obtain ⟨h3, h4⟩ := parseEvent_same hl h1
        simp only [h3, bind_ok]
        exact ih h4 h2
    | backward =>
      cases i with
      | zero => exact ih hl h
      | succ i =>
        simp only [scrub, rawScrub] at h ⊢
        cases he : es[i]? with
        | none => rw [he] at h; exact ih hl h
        | some e =>
          rw [he] at h
          simp only [bind_eq_ok] at h
          obtain ⟨b1, h1, h2⟩ := h
          obtain ⟨h3, h4⟩ := undoParseEvent_same hl h1
          simp only [h3, bind_ok]
          exact ih h4 h2

/-! ### Chain links are not seen -/

theorem raw_mute (b : RawUndoBoard) (e : Event) : RawUndoBoard.parseEvent b (mute e) = RawUndoBoard.parseEvent b e := by
  cases e with
  | chainStack e => cases e <;> rfl
  | _ => rfl

theorem raw_undo_mute (b : RawUndoBoard) (e : Event) : RawUndoBoard.undoParseEvent b (mute e) = RawUndoBoard.undoParseEvent b e := by
  cases e <;> rfl

theorem raw_events_mute (b : RawUndoBoard) (es : List Event) : RawUndoBoard.parseEvents b (es.map mute) = RawUndoBoard.parseEvents b es := by
  induction es generalizing b with
  | nil => rfl
  | cons e es ih =>
    simp only [List.map_cons, RawUndoBoard.parseEvents, raw_mute]
    congr 1
    funext b'
    exact ih b'

theorem rawScrub_mute (es : List Event) (ms : List Move) (b : RawUndoBoard) (i : Nat) :
    rawScrub (es.map mute) b i ms = rawScrub es b i ms := by
  induction ms generalizing b i with
  | nil => rfl
  | cons m ms ih =>
    cases m with
    | forward =>
      simp only [rawScrub, List.getElem?_map]
      cases es[i]? with
      | none => exact ih b i
      | some e => simp only [Option.map_some, raw_mute]; congr 1; funext b'; exact ih b' _
    | backward =>
      cases i with
      | zero => exact ih b 0
      | succ i =>
        simp only [rawScrub, List.getElem?_map]
        cases es[i]? with
        | none => exact ih b _
        | some e => simp only [Option.map_some, raw_undo_mute]; congr 1; funext b'; exact ih b' _

/-- The same board with another chain. -/
def withChain (p : PlainBoard) (ch : List Chain) : PlainBoard := { p with chainStack := ⟨ch⟩ }

theorem onFrame_withChain {p p' : PlainBoard} {ops : List FrameOp} (ch : List Chain) (h : p.onFrame ops = .ok p') :
    (withChain p ch).onFrame ops = .ok (withChain p' ch) := by
  simp only [DuelBoard.onFrame, bind_eq_ok, pure_eq_ok, Except.ok.injEq] at h
  obtain ⟨f, h1, rfl⟩ := h
  simp only [DuelBoard.onFrame, withChain, h1]; rfl

theorem parse_withChain {p p' : PlainBoard} {e : Event} (ch : List Chain) (h : p.parseEvent e = .ok p') :
    (withChain p ch).parseEvent (mute e) = .ok (withChain p' (lastChain ch [e])) := by
  cases e with
  | board e =>
    cases e with
    | unset => cases h; rfl
    | exchange e => exact onFrame_withChain ch h
    | state s =>
      simp only [DuelBoard.parseEvent, DuelBoard.parseState, bind_eq_ok, orUb_eq_ok] at h
      obtain ⟨l0, e0, l1, e1, h⟩ := h
      have := onFrame_withChain s.chains h
      simp only [mute, DuelBoard.parseEvent, DuelBoard.parseState, e0, e1, orUb, bind_ok, lastChain]
      rw [← this]
      congr 1
      simp only [DuelBoard.setLp, withChain]
      split <;> rfl
  | card r e => exact onFrame_withChain ch h
  | chainStack e =>
    cases e with
    | unset => cases h; rfl
    | push c => cases h; rfl
    | pop x =>
      simp only [DuelBoard.parseEvent, Cell.pop, bind_eq_ok, guardUb_eq_ok, pure_eq_ok, Except.ok.injEq] at h
      obtain ⟨_, ⟨_, _, rfl⟩, rfl⟩ := h
      rfl
  | nextTurn con => cases h; rfl
  | lp con c =>
    simp only [DuelBoard.parseEvent, bind_eq_ok, pure_eq_ok, Except.ok.injEq] at h
    obtain ⟨i, h0, v, h1, rfl⟩ := h
    have h1' : (Cell.get ((withChain p ch).lp i) : Res Nat) = .ok v := h1
    simp only [mute, DuelBoard.parseEvent, h0, bind_ok, h1']; rfl
  | nextPhase p => cases h; rfl
  | pile r e => exact onFrame_withChain ch h
  | zoneBlock zs => cases h; rfl
  | finish _ => cases h; rfl
  | metaInfo _ => cases h; rfl
  | result _ => cases h; rfl
  | unset => cases h; rfl

theorem lastChain_cons (ch : List Chain) (e : Event) (es : List Event) : lastChain ch (e :: es) = lastChain (lastChain ch [e]) es := by
  cases e with
  | board e => cases e <;> rfl
  | _ => rfl

theorem parseEvents_withChain {p p' : PlainBoard} {es : List Event} (ch : List Chain) (h : p.parseEvents es = .ok p') :
    (withChain p ch).parseEvents (es.map mute) = .ok (withChain p' (lastChain ch es)) := by
  induction es generalizing p ch with
  | nil => cases h; rfl
  | cons e es ih =>
    simp only [DuelBoard.parseEvents, bind_eq_ok] at h
    obtain ⟨p1, h1, h2⟩ := h
    simp only [List.map_cons, DuelBoard.parseEvents, parse_withChain ch h1, bind_ok]
    rw [lastChain_cons ch e es]
    exact ih _ h2

theorem frameOps_mute (e : Event) : frameOps (mute e) = frameOps e := by cases e <;> rfl

theorem noSingleLinks_mute (e : Event) : NoSingleLinks (mute e) := by cases e <;> trivial

theorem halvesAll_mute {p p' : PlainBoard} {es : List Event} (ch : List Chain) (h : p.parseEvents es = .ok p') :
    Followable (withChain p ch) (es.map mute) ↔ HalvesAll p es := by
  induction es generalizing p ch with
  | nil => exact Iff.rfl
  | cons e es ih =>
    simp only [DuelBoard.parseEvents, bind_eq_ok] at h
    obtain ⟨p1, h1, h2⟩ := h
    simp only [List.map_cons, Followable, HalvesAll, frameOps_mute, noSingleLinks_mute, true_and]
    refine and_congr Iff.rfl ⟨fun hf b' hb => ?_, fun hf b' hb => ?_⟩
    · rw [h1] at hb; cases hb
      exact (ih _ h2).mp (hf _ (parse_withChain ch h1))
    · rw [parse_withChain ch h1] at hb; cases hb
      exact (ih _ h2).mpr (hf _ h1)

theorem frameRewindable_mute {p p' : PlainBoard} {es : List Event} (ch : List Chain) (h : p.parseEvents es = .ok p') :
    Rewindable (withChain p ch) (es.map mute) ↔ FrameRewindable p es := by
  induction es generalizing p ch with
  | nil => exact Iff.rfl
  | cons e es ih =>
    simp only [DuelBoard.parseEvents, bind_eq_ok] at h
    obtain ⟨p1, h1, h2⟩ := h
    simp only [List.map_cons, Rewindable, FrameRewindable, frameOps_mute, noSingleLinks_mute, true_and]
    refine and_congr Iff.rfl ⟨fun hf b' hb => ?_, fun hf b' hb => ?_⟩
    · rw [h1] at hb; cases hb
      exact (ih _ h2).mp (hf _ (parse_withChain ch h1))
    · rw [parse_withChain ch h1] at hb; cases hb
      exact (ih _ h2).mpr (hf _ h1)

theorem rawShows_of {p : PlainBoard} {ch : List Chain} {u : UndoBoard} (h : Shows (withChain p ch) u) : RawShows p ch (asRawUndo u) := by
  refine ⟨?_, h.chainStack, h.turn, h.turnController, h.lp, h.phase, h.blockedZones⟩
  show asRawLayout u.frame.base.layout = _
  rw [h.layout]; rfl

end Ygo
