import Verif.Model.Proto
import Verif.Model.Undoable
import Verif.Model.Limbo

/-!
# Model of `BasicBoard`, `parse_event` and `undo_parse_event`

`parse_event` is a template over the board; here it is generic in the frame type `F` and in the type `V α` of the cells that hold
an `α`.  Two instances: the plain board (`BasicFrame`, plain values, `std::vector`) and the undoable board (`LimboFrame`,
`BasicUndoable`).
-/

namespace Ygo

/-- The frame operations `parse_event` uses (parse_event.hpp:37-47). -/
class FrameLike (F : Type) where
  step : F → FrameOp → Res F

instance : FrameLike Frame := ⟨Frame.step⟩
instance : FrameLike Limbo := ⟨Limbo.step⟩

/-- Several frame operations in order (the range-for loops of parse_event.hpp). -/
def runOps {F : Type} [FrameLike F] (f : F) : List FrameOp → Res F
  | [] => .ok f
  | op :: ops => do
    let f ← FrameLike.step f op
    runOps f ops

/-- What `parse_event` needs from the types of board members (parse_event.hpp:16-35). -/
class Cell (V : Type → Type) where
  get {α : Type} : V α → Res α
  set {α : Type} : V α → α → V α
  push {α : Type} : V (List α) → α → Res (V (List α))
  pop {α : Type} : V (List α) → Res (V (List α))

/-- A plain value or a `std::vector`. -/
structure Plain (α : Type) where
  val : α
  deriving DecidableEq, Repr

/-- Plain values; `pop_back` on an empty vector is undefined. -/
instance : Cell Plain where
  get c := .ok c.val
  set _ v := ⟨v⟩
  push c x := .ok ⟨c.val ++ [x]⟩
  pop c := do
    guardUb (c.val.length ≠ 0)
    return ⟨c.val.dropLast⟩

/-- Undoable values; push and pop are `assert(false)`. -/
instance : Cell Undoable where
  get := Undoable.get
  set := Undoable.set
  push c _ := c.unsupported
  pop c := c.unsupported

/-- `BasicBoard` members (board.hpp:131-138). -/
structure DuelBoard (F : Type) (V : Type → Type) where
  frame : F
  chainStack : V (List Chain)
  turn : V Nat
  turnController : V Int
  lp : Fin 2 → V Nat
  phase : V Nat
  blockedZones : V (List Place)

namespace DuelBoard
variable {F : Type} {V : Type → Type}

/-- Index used by the non-const `lp` (board.hpp:107-112): negative controllers convert to huge numbers and fail the assert,
which lets 2 through. -/
def lpIdx (con : Int) : Res (Fin 2) := do
  massert (0 ≤ con ∧ con ≤ 2)
  conIdx con

/-- Write to `lp_[i]`. -/
def setLp (b : DuelBoard F V) (i : Fin 2) (v : V Nat) : DuelBoard F V :=
  { b with lp := fun j => if j = i then v else b.lp j }

/-- Value computed for an LP event (parse_event.hpp:200-224), in `uint32_t`. -/
def lpAfter (lpv : Nat) : LPChange → Nat
  | .unset => lpv
  | .become n => n
  | .damage n => if lpv < n then 0 else lpv - n
  | .pay n => if lpv < n then 0 else lpv - n
  | .recover n => (lpv + n) % 2 ^ 32

/-- `for(auto const& op : ...resize().ops()) frame.pile_resize(op.place(), op.count())`. -/
def resizeOps (rs : List ResizeOp) : List FrameOp := rs.map fun r => .resize r.place r.count

/-- Frame operations of an exchange event, in order (parse_event.hpp:96-101). -/
def exchangeOps (e : BoardExchange) : List FrameOp := resizeOps e.resize ++ e.remove.map .remove ++ e.add.map .add

/-- Frame operations of a state event, in order (parse_event.hpp:113-117). -/
def stateOps (s : BoardState) : List FrameOp := .clear :: s.add.map .add ++ resizeOps s.resize

/-- Frame operations of a card event (parse_event.hpp:129-165). -/
def cardOps : CardEvent → List FrameOp
  | .unset => []
  | .add ps => ps.map .add
  | .exchange ops => ops.map fun o => .swap o.fst o.snd
  | .move ops => ops.map fun o => .move o.fst o.snd
  | .remove ps => ps.map .remove
  | .shuffle prev cur => [.shuffle prev cur prev.length]

/-- Frame operations of a pile event (parse_event.hpp:237-253); a resize is ignored. -/
def pileOps : PileEvent → List FrameOp
  | .unset => []
  | .exchange ops => ops.map fun o => .pswap o.fst o.snd
  | .resize _ => []
  | .splice ops => ops.map fun o => .splice o.src o.count o.dst o.reverse

variable [FrameLike F] [Cell V]

/-- Run frame operations on `board.frame()`. -/
def onFrame (b : DuelBoard F V) (ops : List FrameOp) : Res (DuelBoard F V) := do
  return { b with frame := ← runOps b.frame ops }

/-- State event (parse_event.hpp:104-119). `state.lps(i)` beyond the end is undefined. -/
def parseState (b : DuelBoard F V) (s : BoardState) : Res (DuelBoard F V) := do
  let b := if 0 ≤ s.turnCounter then { b with turn := Cell.set b.turn s.turnCounter.toNat } else b
  let b := b.setLp 0 (Cell.set (b.lp 0) (← orUb s.lps[0]?))
  let b := b.setLp 1 (Cell.set (b.lp 1) (← orUb s.lps[1]?))
  let b := { b with chainStack := Cell.set b.chainStack s.chains }
  b.onFrame (stateOps s)

/-- `parse_event` (parse_event.hpp:79-267). -/
def parseEvent (b : DuelBoard F V) : Event → Res (DuelBoard F V)
  | .board .unset => .ok b
  | .board (.exchange e) => b.onFrame (exchangeOps e)
  | .board (.state s) => b.parseState s
  | .card _ e => b.onFrame (cardOps e)
  | .chainStack .unset => .ok b
  | .chainStack (.push c) => do return { b with chainStack := ← Cell.push b.chainStack c }
  | .chainStack (.pop _) => do return { b with chainStack := ← Cell.pop b.chainStack }
  | .nextTurn con => do
    let next := ((← Cell.get b.turn) + 1) % 2 ^ 32
    return { b with turn := Cell.set b.turn next, turnController := Cell.set b.turnController con }
  | .lp con c => do
    let i ← lpIdx con
    let lpv ← Cell.get (b.lp i)
    return b.setLp i (Cell.set (b.lp i) (lpAfter lpv c))
  | .nextPhase p => .ok { b with phase := Cell.set b.phase p }
  | .pile _ e => b.onFrame (pileOps e)
  | .zoneBlock zs => .ok { b with blockedZones := Cell.set b.blockedZones zs }
  | .finish _ | .metaInfo _ | .result _ | .unset => .ok b

/-- Parsing a sequence of events. -/
def parseEvents (b : DuelBoard F V) : List Event → Res (DuelBoard F V)
  | [] => .ok b
  | e :: es => do
    let b ← b.parseEvent e
    b.parseEvents es

end DuelBoard

/-- The plain board. -/
abbrev PlainBoard := DuelBoard Frame Plain
/-- The undoable board. -/
abbrev UndoBoard := DuelBoard Limbo Undoable

/-- A new plain board: everything value-initialised (board.hpp:40-47). -/
def PlainBoard.init : PlainBoard := ⟨Frame.init, ⟨[]⟩, ⟨0⟩, ⟨0⟩, fun _ => ⟨0⟩, ⟨0⟩, ⟨[]⟩⟩

/-- A new undoable board. -/
def UndoBoard.init : UndoBoard :=
  ⟨Limbo.init, .init [], .init 0, .init 0, fun _ => .init 0, .init 0, .init []⟩

namespace UndoBoard

/-- Undo the given operations, in the given order. -/
def undoOps (f : Limbo) : List FrameOp → Res Limbo
  | [] => .ok f
  | op :: ops => do
    let f ← f.undo op
    undoOps f ops

/-- Undo frame operations on `board.frame()`. -/
def undoFrame (b : UndoBoard) (ops : List FrameOp) : Res UndoBoard := do
  return { b with frame := ← undoOps b.frame ops }

/-- Order in which an exchange event is undone (undo_parse_event.hpp:59-69); `reverse` is `ReverseView`. -/
def exchangeUndo (e : BoardExchange) : List FrameOp :=
  e.add.reverse.map .add ++ e.remove.reverse.map .remove ++ DuelBoard.resizeOps e.resize.reverse

/-- Order in which the frame part of a state event is undone (undo_parse_event.hpp:73-77). -/
def stateUndo (s : BoardState) : List FrameOp :=
  DuelBoard.resizeOps s.resize.reverse ++ s.add.reverse.map .add ++ [.clear]

/-- What is undone for a card event (undo_parse_event.hpp:95-131). -/
def cardUndo : CardEvent → List FrameOp
  | .unset => []
  | .add ps => ps.reverse.map .add
  | .exchange ops => ops.reverse.map fun o => .swap o.fst o.snd
  | .move ops => ops.reverse.map fun o => .move o.fst o.snd
  | .remove ps => ps.reverse.map .remove
  | .shuffle prev cur => [.shuffle prev cur prev.length]

/-- What is undone for a pile event (undo_parse_event.hpp:175-192). -/
def pileUndo : PileEvent → List FrameOp
  | .unset => []
  | .exchange ops => ops.reverse.map fun o => .pswap o.fst o.snd
  | .resize _ => []
  | .splice ops => ops.reverse.map fun o => .splice o.src o.count o.dst o.reverse

/-- Undoing a state event (undo_parse_event.hpp:70-85). -/
def undoState (b : UndoBoard) (s : BoardState) : Res UndoBoard := do
  let b ← b.undoFrame (stateUndo s)
  let b := { b with chainStack := ← b.chainStack.undo }
  let b := b.setLp 1 (← (b.lp 1).undo)
  let b := b.setLp 0 (← (b.lp 0).undo)
  if 0 ≤ s.turnCounter then return { b with turn := ← b.turn.undo } else return b

/-- `undo_parse_event` (undo_parse_event.hpp:41-204). -/
def undoParseEvent (b : UndoBoard) : Event → Res UndoBoard
  | .board .unset => .ok b
  | .board (.exchange e) => b.undoFrame (exchangeUndo e)
  | .board (.state s) => b.undoState s
  | .card _ e => b.undoFrame (cardUndo e)
  | .chainStack .unset => .ok b
  | .chainStack (.push _) => do return { b with chainStack := ← b.chainStack.unsupported }
  | .chainStack (.pop _) => do return { b with chainStack := ← b.chainStack.unsupported }
  | .nextTurn _ => do
    let b := { b with turn := ← b.turn.undo }
    return { b with turnController := ← b.turnController.undo }
  | .lp con _ => do
    let i ← DuelBoard.lpIdx con
    return b.setLp i (← (b.lp i).undo)
  | .nextPhase _ => do return { b with phase := ← b.phase.undo }
  | .pile _ e => b.undoFrame (pileUndo e)
  | .zoneBlock _ => do return { b with blockedZones := ← b.blockedZones.undo }
  | .finish _ | .metaInfo _ | .result _ | .unset => .ok b

/-- Undoing a sequence of events, last one first. -/
def undoEvents (b : UndoBoard) : List Event → Res UndoBoard
  | [] => .ok b
  | e :: es => do
    let b ← b.undoEvents es
    b.undoParseEvent e

end UndoBoard
end Ygo
