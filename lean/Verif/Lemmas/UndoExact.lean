import Verif.Lemmas.Refine

/-! # What can not be undone -/

set_option linter.unusedSimpArgs false

namespace Ygo
open Ygo.Spec

/-- Number of log entries an operation takes. -/
def FrameOp.entries : FrameOp → Nat
  | .add _ | .remove _ | .resize _ _ | .clear => 1
  | _ => 0

namespace Limbo

/-- New operations only add to the log. -/
theorem step_log {f f' : Limbo} {X : FrameOp} (hl : LiveFrame f) (h : f.step X = .ok f') :
    LiveFrame f' ∧ ∃ es, es.length = X.entries ∧ f'.ops = f.ops ++ es := by
  obtain ⟨⟨L, ow, nx⟩, op, q, pre⟩ := f
  cases X with
  | resize p n =>
    have h0 := h
    simp only [step, pileResize, bind_eq_ok, massert_eq_ok] at h0
    obtain ⟨_, hp, k, hk, _⟩ := h0
    have hat := isPile_pileKey_iff.mp ⟨hp, hk⟩
    have hcases : (L.pile k).length ≤ n ∨ 2 * n ≤ (L.pile k).length := by
      by_cases h1 : n < (L.pile k).length ∧ (L.pile k).length < 2 * n
      · have := resize_live_ub hl hat h1.1 h1.2
        simp only [step] at h
        rw [this] at h
        cases h
      · omega
    obtain ⟨s, hs, _⟩ := resize_live hl hat hcases
    simp only [step] at h
    rw [hs] at h
    cases h
    obtain ⟨ha, hb⟩ := hl
    exact ⟨⟨by simp_all, by simp_all⟩, _, rfl, rfl⟩
  | add p =>
    obtain ⟨ha, hb⟩ := hl
    simp only at ha hb
    subst ha hb
    simp [step, cardAdd, advance, emplace, Frame.cardAdd, Frame.construct] at h
    obtain ⟨L', h, rfl⟩ := h
    exact ⟨⟨by simp, by simp⟩, _, rfl, rfl⟩
  | remove p =>
    obtain ⟨ha, hb⟩ := hl
    simp only at ha hb
    subst ha hb
    simp [step, cardRemove, advance, emplace, setLayout] at h
    obtain ⟨h0, c, L', h, rfl⟩ := h
    exact ⟨⟨by simp, by simp⟩, _, rfl, rfl⟩
  | clear =>
    obtain ⟨ha, hb⟩ := hl
    simp only at ha hb
    subst ha hb
    simp [step, clear, advance, emplace, currentClear, current_mk, setCurrent_mk, setLayout] at h
    subst h
    exact ⟨⟨by simp, by simp⟩, _, rfl, rfl⟩
  | move a b =>
    simp [step, cardMove, Frame.cardMove] at h
    obtain ⟨L', ⟨c, h⟩, rfl⟩ := h
    exact ⟨hl, [], rfl, by simp⟩
  | shuffle p c n =>
    simp [step, cardShuffle, Frame.cardShuffle] at h
    obtain ⟨L', h, rfl⟩ := h
    exact ⟨hl, [], rfl, by simp⟩
  | swap a b =>
    simp [step, cardSwap, Frame.cardSwap] at h
    obtain ⟨L', h, rfl⟩ := h
    exact ⟨hl, [], rfl, by simp⟩
  | splice a n b r =>
    simp [step, pileSplice, Frame.pileSplice] at h
    obtain ⟨L', h, rfl⟩ := h
    exact ⟨hl, [], rfl, by simp⟩
  | pswap a b =>
    simp [step, pileSwap, Frame.pileSwap] at h
    obtain ⟨L', h, rfl⟩ := h
    exact ⟨hl, [], rfl, by simp⟩

theorem regress_log {f f' : Limbo} (h : f.regress = .ok f') : f'.op + 1 = f.op ∧ f'.ops = f.ops := by
  simp only [regress, bind_eq_ok, massert_eq_ok, pure_eq_ok, Except.ok.injEq] at h
  obtain ⟨_, h, rfl⟩ := h
  exact ⟨by simp only; omega, rfl⟩

/-- Undoing leaves the log alone behind the cursor. -/
theorem undo_log {f f' : Limbo} {X : FrameOp} (h : f.undo X = .ok f') :
    f'.op + X.entries = f.op ∧ f'.ops.take f'.op = f.ops.take f'.op := by
  have key : ∀ {g : Limbo} {o : LimboOp} {l : Layout}, ((g.setCurrent o).setLayout l).regress = .ok f' →
      f'.op + 1 = g.op ∧ f'.ops.take f'.op = g.ops.take f'.op := by
    intro g o l h
    obtain ⟨h1, h2⟩ := regress_log h
    have h1 : f'.op + 1 = g.op := h1
    refine ⟨h1, ?_⟩
    rw [h2]
    simp only [setCurrent, setLayout]
    rw [show g.op - 1 = f'.op by omega, List.take_set_of_le (Nat.le_refl _)]
  cases X with
  | add p =>
    simp only [undo, undoCardAdd, bind_eq_ok, pure_eq_ok, Except.ok.injEq] at h
    obtain ⟨⟨f1, c⟩, ⟨_, _, _, _, ⟨_, _⟩, _, _, _, _, _, f2, h, h'⟩, rfl⟩ := h
    cases h'
    obtain ⟨h1, h2⟩ := regress_log h
    exact ⟨h1, by rw [h2]; rfl⟩
  | remove p =>
    simp only [undo, undoCardRemove, bind_eq_ok, pure_eq_ok, Except.ok.injEq] at h
    obtain ⟨⟨f1, c⟩, ⟨_, _, _, _, f2, h, _, _, _, _, h'⟩, rfl⟩ := h
    cases h'
    obtain ⟨h1, h2⟩ := regress_log h
    exact ⟨h1, by rw [h2]; rfl⟩
  | clear =>
    simp only [undo, undoClear, bind_eq_ok] at h
    obtain ⟨_, _, h⟩ := h
    exact key h
  | resize p n =>
    simp only [undo, undoPileResize, bind_eq_ok] at h
    obtain ⟨_, _, k, _, ⟨prev, slice⟩, _, h⟩ := h
    split at h
    · simp only [bind_eq_ok, pure_eq_ok, Except.ok.injEq] at h
      obtain ⟨_, _, f1, h, _, _, rfl⟩ := h
      obtain ⟨h1, h2⟩ := regress_log h
      exact ⟨h1, by rw [h2]; rfl⟩
    · split at h
      · simp only [bind_eq_ok] at h
        obtain ⟨_, _, h⟩ := h
        exact key h
      · obtain ⟨h1, h2⟩ := regress_log h
        exact ⟨h1, by rw [h2]⟩
  | move a b =>
    simp [undo, cardMove, Frame.cardMove] at h
    obtain ⟨L', ⟨c, h⟩, rfl⟩ := h
    exact ⟨rfl, rfl⟩
  | shuffle p c n => simp [undo, undoCardShuffle] at h
  | swap a b =>
    simp [undo, cardSwap, Frame.cardSwap] at h
    obtain ⟨L', h, rfl⟩ := h
    exact ⟨rfl, rfl⟩
  | splice a n b r =>
    simp [undo, pileSplice, Frame.pileSplice] at h
    obtain ⟨L', h, rfl⟩ := h
    exact ⟨rfl, rfl⟩
  | pswap a b =>
    simp [undo, pileSwap, Frame.pileSwap] at h
    obtain ⟨L', h, rfl⟩ := h
    exact ⟨rfl, rfl⟩

end Limbo

/-- Number of log entries several operations take. -/
def entriesOf (Xs : List FrameOp) : Nat := (Xs.map FrameOp.entries).sum

theorem runOps_log {Xs : List FrameOp} {f f' : Limbo} (hl : LiveFrame f) (h : runOps f Xs = .ok f') :
    LiveFrame f' ∧ ∃ es, es.length = entriesOf Xs ∧ f'.ops = f.ops ++ es := by
  induction Xs generalizing f with
  | nil => cases h; exact ⟨hl, [], rfl, by simp⟩
  | cons X Xs ih =>
    simp only [runOps, FrameLike.step, bind_eq_ok] at h
    obtain ⟨f1, h1, h2⟩ := h
    obtain ⟨h3, es, h4, h5⟩ := Limbo.step_log hl h1
    obtain ⟨h6, es', h7, h8⟩ := ih h3 h2
    exact ⟨h6, es ++ es', by simp [entriesOf, h4, h7], by rw [h8, h5, List.append_assoc]⟩

theorem undoOps_log {Xs : List FrameOp} {f f' : Limbo} (h : UndoBoard.undoOps f Xs = .ok f') :
    f'.op + entriesOf Xs = f.op ∧ f'.ops.take f'.op = f.ops.take f'.op := by
  induction Xs generalizing f with
  | nil => cases h; exact ⟨rfl, rfl⟩
  | cons X Xs ih =>
    simp only [UndoBoard.undoOps, bind_eq_ok] at h
    obtain ⟨f1, h1, h2⟩ := h
    obtain ⟨h3, h4⟩ := Limbo.undo_log h1
    obtain ⟨h5, h6⟩ := ih h2
    have e : entriesOf (X :: Xs) = X.entries + entriesOf Xs := by simp [entriesOf]
    refine ⟨by omega, ?_⟩
    have := congrArg (List.take f'.op) h4
    rw [List.take_take, List.take_take, Nat.min_eq_left (by omega)] at this
    rw [h6, this]

theorem undoOps_append (f : Limbo) (Xs Ys : List FrameOp) :
    UndoBoard.undoOps f (Xs ++ Ys) = (UndoBoard.undoOps f Xs).bind fun f => UndoBoard.undoOps f Ys := by
  induction Xs generalizing f with
  | nil => rfl
  | cons X Xs ih =>
    simp only [List.cons_append, UndoBoard.undoOps]
    cases f.undo X with
    | error e => rfl
    | ok f1 => simp only [bind_ok]; exact ih f1

/-- Once everything after it is undone, an operation of the other kind can not be undone. -/
theorem Limbo.not_undone {f f' g : Limbo} {X : FrameOp} (hl : LiveFrame f) (h : f.step X = .ok f') (hx : ¬ Undoes f.base.layout X)
    (h1 : g.base.layout = f'.base.layout) (h2 : g.op = f'.op) (h3 : g.ops.take g.op = f'.ops) : g.undo X = .error .assert := by
  cases X with
  | shuffle => rfl
  | resize p n =>
    simp only [Undoes] at hx
    obtain ⟨k, hx⟩ := Classical.not_forall.mp hx
    obtain ⟨i, hx⟩ := Classical.not_forall.mp hx
    obtain ⟨hp, hx⟩ := Classical.not_imp.mp hx
    simp only [not_or] at hx
    by_cases hn : (f.base.layout.pile k).length < 2 * n
    · have : f.step (.resize p n) = .error .ub := Limbo.resize_live_ub hl hp (by omega) hn
      rw [this] at h
      cases h
    obtain ⟨s, h4, h5⟩ := Limbo.resize_live hl hp (n := n) (.inr (by omega))
    have h5 := h5 (by omega)
    have h : f.pileResize p n = .ok f' := h
    rw [h4] at h
    cases h
    have hnull : Limbo.verified s = .error .assert := by
      obtain ⟨m, hm⟩ : ∃ m, (f.base.layout.pile k).length - 2 * n = m + 1 := ⟨(f.base.layout.pile k).length - 2 * n - 1, by omega⟩
      rw [h5, hm]
      have : ∀ l : List CardId, ((l.map some ++ List.replicate (m + 1) none).mapM id : Option (List CardId)) = none := by
        intro l
        induction l with
        | nil => simp [List.replicate_succ]
        | cons a l ih => simp only [List.map_cons, List.cons_append, List.mapM_cons, ih]; rfl
      simp only [Limbo.verified, this]; rfl
    obtain ⟨gb, op, q, ops⟩ := g
    simp only at h1 h2 h3
    have hop : f.op = f.ops.length := hl.1
    have hops : ops = (f.ops ++ [.resize (f.base.layout.pile k).length s]) ++ ops.drop op := by rw [← h3, List.take_append_drop]
    have e3 : n - (f.base.layout.pile k).length = 0 := by omega
    have e4 : min n (f.base.layout.pile k).length < (f.base.layout.pile k).length := by omega
    rw [hops, h2, hop]
    simp [Limbo.undo, Limbo.undoPileResize, Spec.At.isPile hp, Spec.At.pileKey hp, massert, Limbo.currentResize, Limbo.current_mk, h1, e3, e4, hnull]
  | _ => exact absurd trivial hx

/-- The operations that can be undone one after the other are the supported ones. -/
theorem undoOps_iff {Xs : List FrameOp} {g g' : Limbo} (hl : LiveFrame g) (h : runOps g Xs = .ok g') :
    (∃ f, UndoBoard.undoOps g' Xs.reverse = .ok f) ↔ UndoesAll g Xs := by
  constructor
  · intro hu
    induction Xs generalizing g with
    | nil => trivial
    | cons X Xs ih =>
      simp only [runOps, FrameLike.step, bind_eq_ok] at h
      obtain ⟨g1, h1, h2⟩ := h
      obtain ⟨l1, es, l2, l3⟩ := Limbo.step_log hl h1
      obtain ⟨f, hu⟩ := hu
      rw [List.reverse_cons, undoOps_append] at hu
      cases hf : UndoBoard.undoOps g' Xs.reverse with
      | error e => rw [hf] at hu; cases hu
      | ok f1 =>
        rw [hf] at hu
        have hu : UndoBoard.undoOps f1 [X] = .ok f := hu
        have hall := ih l1 h2 ⟨f1, hf⟩
        refine ⟨?_, fun f' hf' => by rw [h1] at hf'; cases hf'; exact hall⟩
        apply Classical.byContradiction
        intro hx
        obtain ⟨f0, b1, b2, _, _⟩ := Between.news (.start l1) l1 rfl hall h2
        rw [h2] at b1
        cases b1
        obtain ⟨f2, b3, b4, _, _⟩ := Between.backs b2
        rw [trail_ops h2, hf] at b3
        cases b3
        obtain ⟨r1, es', r2, r3⟩ := runOps_log l1 h2
        obtain ⟨u1, u2⟩ := undoOps_log hf
        have hen : entriesOf Xs.reverse = entriesOf Xs := by simp [entriesOf, List.sum_reverse]
        have hop : f1.op = g1.op := by
          have e1 := r1.1
          have e2 := l1.1
          rw [r3, List.length_append] at e1
          omega
        have := Limbo.not_undone (g := f1) hl h1 hx b4.last hop (by rw [u2, r3, hop, l1.1, List.take_left])
        simp only [UndoBoard.undoOps, this, bind_error] at hu
        cases hu
  · intro hu
    obtain ⟨f0, b1, b2, _, _⟩ := Between.news (.start hl) hl rfl hu h
    rw [h] at b1
    cases b1
    obtain ⟨f2, b3, _⟩ := Between.backs b2
    rw [trail_ops h] at b3
    exact ⟨f2, b3⟩

/-! ## Events -/

theorem undo_frame {b b' : UndoBoard} {e : Event} (h : b.undoParseEvent e = .ok b') :
    UndoBoard.undoOps b.frame (frameOps e).reverse = .ok b'.frame := by
  cases e with
  | board e =>
    cases e with
    | unset => cases h; rfl
    | exchange e =>
      simp only [UndoBoard.undoParseEvent, UndoBoard.undoFrame, bind_eq_ok, pure_eq_ok, Except.ok.injEq, exchangeUndo_eq] at h
      obtain ⟨f, h, rfl⟩ := h
      exact h
    | state s =>
      simp only [UndoBoard.undoParseEvent, UndoBoard.undoState, UndoBoard.undoFrame, bind_eq_ok, pure_eq_ok, Except.ok.injEq, stateUndo_eq] at h
      obtain ⟨_, ⟨f, h, rfl⟩, _, _, _, _, _, _, h'⟩ := h
      rw [show frameOps (.board (.state s)) = DuelBoard.stateOps s from rfl, h]
      split at h'
      · simp only [bind_eq_ok, pure_eq_ok, Except.ok.injEq] at h'
        obtain ⟨_, _, rfl⟩ := h'
        rfl
      · cases h'
        rfl
  | card r e =>
    simp only [UndoBoard.undoParseEvent, UndoBoard.undoFrame, bind_eq_ok, pure_eq_ok, Except.ok.injEq, cardUndo_eq] at h
    obtain ⟨f, h, rfl⟩ := h
    exact h
  | chainStack e =>
    cases e with
    | unset => cases h; rfl
    | push c => cases h
    | pop x => cases h
  | nextTurn c =>
    simp only [UndoBoard.undoParseEvent, bind_eq_ok, pure_eq_ok, Except.ok.injEq] at h
    obtain ⟨_, _, _, _, rfl⟩ := h
    rfl
  | lp con c =>
    simp only [UndoBoard.undoParseEvent, DuelBoard.setLp, bind_eq_ok, pure_eq_ok, Except.ok.injEq] at h
    obtain ⟨_, _, _, _, rfl⟩ := h
    rfl
  | nextPhase p =>
    simp only [UndoBoard.undoParseEvent, bind_eq_ok, pure_eq_ok, Except.ok.injEq] at h
    obtain ⟨_, _, rfl⟩ := h
    rfl
  | pile r e =>
    simp only [UndoBoard.undoParseEvent, UndoBoard.undoFrame, bind_eq_ok, pure_eq_ok, Except.ok.injEq, pileUndo_eq] at h
    obtain ⟨f, h, rfl⟩ := h
    exact h
  | zoneBlock zs =>
    simp only [UndoBoard.undoParseEvent, bind_eq_ok, pure_eq_ok, Except.ok.injEq] at h
    obtain ⟨_, _, rfl⟩ := h
    rfl
  | finish => cases h; rfl
  | metaInfo => cases h; rfl
  | result => cases h; rfl
  | unset => cases h; rfl

/-- All frame operations of some events. -/
def allOps (es : List Event) : List FrameOp := es.flatMap frameOps

theorem runOps_concat {F : Type} [FrameLike F] (f : F) (Xs Ys : List FrameOp) :
    runOps f (Xs ++ Ys) = (runOps f Xs).bind fun f => runOps f Ys := by
  induction Xs generalizing f with
  | nil => rfl
  | cons X Xs ih =>
    simp only [List.cons_append, runOps]
    cases FrameLike.step f X with
    | error e => rfl
    | ok f1 => simp only [bind_ok]; exact ih f1

theorem parseEvents_frame {es : List Event} {b b' : UndoBoard} (h : b.parseEvents es = .ok b') :
    runOps b.frame (allOps es) = .ok b'.frame := by
  induction es generalizing b with
  | nil => cases h; rfl
  | cons e es ih =>
    simp only [DuelBoard.parseEvents, bind_eq_ok] at h
    obtain ⟨b1, h1, h2⟩ := h
    rw [allOps, List.flatMap_cons, runOps_concat, parse_frame h1]
    exact ih h2

theorem undoEvents_frame {es : List Event} {b b' : UndoBoard} (h : b.undoEvents es = .ok b') :
    UndoBoard.undoOps b.frame (allOps es).reverse = .ok b'.frame := by
  induction es generalizing b b' with
  | nil => cases h; rfl
  | cons e es ih =>
    simp only [UndoBoard.undoEvents, bind_eq_ok] at h
    obtain ⟨b1, h1, h2⟩ := h
    rw [allOps, List.flatMap_cons, List.reverse_append, undoOps_append, show UndoBoard.undoOps b.frame (es.flatMap frameOps).reverse = .ok b1.frame from ih h1]
    exact undo_frame h2

theorem undoesAll_append {Xs Ys : List FrameOp} {f f' : Limbo} (h : runOps f Xs = .ok f') (hu : UndoesAll f (Xs ++ Ys)) :
    UndoesAll f Xs ∧ UndoesAll f' Ys := by
  induction Xs generalizing f with
  | nil => cases h; exact ⟨trivial, hu⟩
  | cons X Xs ih =>
    simp only [runOps, FrameLike.step, bind_eq_ok] at h
    obtain ⟨f1, h1, h2⟩ := h
    obtain ⟨h3, h4⟩ := ih h2 (hu.2 f1 h1)
    exact ⟨⟨hu.1, fun g hg => by rw [h1] at hg; cases hg; exact h3⟩, h4⟩

theorem supported_of_all {es : List Event} {b b' : UndoBoard} (h : b.parseEvents es = .ok b') (hu : UndoesAll b.frame (allOps es)) :
    Supported b es := by
  induction es generalizing b with
  | nil => trivial
  | cons e es ih =>
    simp only [DuelBoard.parseEvents, bind_eq_ok] at h
    obtain ⟨b1, h1, h2⟩ := h
    obtain ⟨h3, h4⟩ := undoesAll_append (Xs := frameOps e) (Ys := allOps es) (parse_frame h1) hu
    exact ⟨h3, fun b2 hb => by rw [h1] at hb; cases hb; exact ih h2 h4⟩

end Ygo
