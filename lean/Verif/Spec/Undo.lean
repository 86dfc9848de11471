import Verif.Model.Event
import Verif.Spec.Frame

/-! # What can be undone, and what an observer sees -/

namespace Ygo.Spec
open Ygo

/-- Operations that can be undone from a layout: no shuffle, and a resize that shrinks a pile only to exactly half its size. -/
def Undoes (L : Layout) : FrameOp → Prop
  | .shuffle _ _ _ => False
  | .resize p n => ∀ k i, At p (.pile k) i → (L.pile k).length ≤ n ∨ (L.pile k).length = 2 * n
  | _ => True

/-- Every operation of the list can be undone from the layout it is performed on. -/
def UndoesAll (f : Limbo) : List FrameOp → Prop
  | [] => True
  | X :: Xs => Undoes f.base.layout X ∧ ∀ f', f.step X = .ok f' → UndoesAll f' Xs

/-- The log is fully processed: the next operation is a new one. -/
def LiveFrame (f : Limbo) : Prop := f.op = f.ops.length ∧ f.processed = f.ops.length

/-- The cursor of an undoable value is at its last value. -/
def LiveCell {α : Type} (u : Undoable α) : Prop := u.current + 1 = u.values.length

/-- Nothing on the board is undone. -/
structure Live (b : UndoBoard) : Prop where
  frame : LiveFrame b.frame
  chainStack : LiveCell b.chainStack
  turn : LiveCell b.turn
  turnController : LiveCell b.turnController
  lp : ∀ i, LiveCell (b.lp i)
  phase : LiveCell b.phase
  blockedZones : LiveCell b.blockedZones

/-- Two undoable boards show the same: the same cards at the same places and the same values. -/
structure SameSight (a b : UndoBoard) : Prop where
  layout : a.frame.base.layout = b.frame.base.layout
  chainStack : a.chainStack.get = b.chainStack.get
  turn : a.turn.get = b.turn.get
  turnController : a.turnController.get = b.turnController.get
  lp : ∀ i, (a.lp i).get = (b.lp i).get
  phase : a.phase.get = b.phase.get
  blockedZones : a.blockedZones.get = b.blockedZones.get

/-- The frame operations of an event, in the order in which they are performed. -/
def frameOps : Event → List FrameOp
  | .board (.exchange e) => DuelBoard.exchangeOps e
  | .board (.state s) => DuelBoard.stateOps s
  | .card _ e => DuelBoard.cardOps e
  | .pile _ e => DuelBoard.pileOps e
  | _ => []

/-- The events can be undone: each of their frame operations can, on the board it meets. -/
def Supported (b : UndoBoard) : List Event → Prop
  | [] => True
  | e :: es => UndoesAll b.frame (frameOps e) ∧ ∀ b', b.parseEvent e = .ok b' → Supported b' es

/-- Moving through a list of events. -/
inductive Move where
  | forward
  | backward
  deriving DecidableEq, Repr

/-- Move back and forth over `es`, starting at position `pos`: forward parses the next event, backward undoes the last one; at
either end the move does nothing. -/
def scrub (es : List Event) (b : UndoBoard) (pos : Nat) : List Move → Res (UndoBoard × Nat)
  | [] => .ok (b, pos)
  | .forward :: ms => match es[pos]? with
    | some e => do scrub es (← b.parseEvent e) (pos + 1) ms
    | none => scrub es b pos ms
  | .backward :: ms => match pos with
    | 0 => scrub es b 0 ms
    | pos + 1 => match es[pos]? with
      | some e => do scrub es (← b.undoParseEvent e) pos ms
      | none => scrub es b (pos + 1) ms

/-- Histories of an undoable frame as a client makes them: `History f past future` says that `past` (latest first) can be undone
and `future` (next first) redone.  New operations are performed only when there is nothing to redo; an operation after which the client
does not go back may be any operation. -/
inductive History : Limbo → List FrameOp → List FrameOp → Prop
  | init : History Limbo.init [] []
  | new {f f' past X} : History f past [] → Undoes f.base.layout X → f.step X = .ok f' → History f' (X :: past) []
  | barrier {f f' past X} : History f past [] → f.step X = .ok f' → History f' [] []
  | undo {f f' past future X} : History f (X :: past) future → f.undo X = .ok f' → History f' past (X :: future)
  | redo {f f' past future X} : History f past (X :: future) → f.step X = .ok f' → History f' (X :: past) future
  | erase {f f' past future} : History f past future → f.eraseHistory = .ok f' → History f' past []

/-- The plain board `p` shows what the undoable board `u` shows. -/
structure Shows (p : PlainBoard) (u : UndoBoard) : Prop where
  layout : u.frame.base.layout = p.frame.layout
  chainStack : u.chainStack.get = .ok p.chainStack.val
  turn : u.turn.get = .ok p.turn.val
  turnController : u.turnController.get = .ok p.turnController.val
  lp : ∀ i, (u.lp i).get = .ok (p.lp i).val
  phase : u.phase.get = .ok p.phase.val
  blockedZones : u.blockedZones.get = .ok p.blockedZones.val

/-- A value with a past and a future, as an editor's undo list: assigning while there is a future steps into it. -/
structure Editor (α : Type) where
  past : List α
  now : α
  future : List α

/-- Assignment in the editor. -/
def Editor.assign {α : Type} (e : Editor α) (v : α) : Editor α :=
  match e.future with
  | [] => ⟨e.now :: e.past, v, []⟩
  | x :: xs => ⟨e.now :: e.past, x, xs⟩

/-- Undo in the editor. -/
def Editor.undo {α : Type} (e : Editor α) : Option (Editor α) :=
  match e.past with
  | [] => none
  | x :: xs => some ⟨xs, x, e.now :: e.future⟩

end Ygo.Spec
