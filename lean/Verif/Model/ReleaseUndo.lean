import Verif.Model.Release

/-!
# The undoable board in a build without asserts

`LimboFrame`, `BasicUndoable` and `undo_parse_event` with `NDEBUG` defined.  What is only an `assert(false)` does nothing then.  A
`std::get` of another alternative throws out of a `noexcept` function; `std::terminate` is the outcome `assert` of the model.  Lines are
those of `frame_limbo.hpp` unless said otherwise.
-/

namespace Ygo

/-- `std::variant<CardOp, ResizeOp, ClearOp>` (194-215). -/
inductive RawLimboOp where
  | card (c : CardId)
  | resize (prevSize : Nat) (slice : List Ptr)
  | clear (saved : RawLayout)

/-- `LimboFrame` (218-220).  Without its assert, `op_` may wrap below zero: `-1` stands for `2^64 - 1`, and so on. -/
structure RawLimbo where
  base : RawFrame
  op : Int
  processed : Nat
  ops : List RawLimboOp

namespace RawLimbo
open Raw

/-- Constructor (26-28). -/
def init : RawLimbo := ⟨RawFrame.init, 0, 0, []⟩

/-- `advance_op_` (222-225). -/
def advance (f : RawLimbo) : RawLimbo × Bool :=
  if f.op = f.processed then ({ f with op := f.op + 1, processed := f.processed + 1 }, true)
  else ({ f with op := f.op + 1 }, false)

/-- `regress_op_` (227-231). -/
def regress (f : RawLimbo) : RawLimbo := { f with op := f.op - 1 }

/-- `operations_[op_ - 1]` (83, 118, 153, 178, 253), with its index; wrapped indices are far beyond the end. -/
def current (f : RawLimbo) : Res (Nat × RawLimboOp) := do
  guardUb (1 ≤ f.op)
  return ((f.op - 1).toNat, ← orUb f.ops[(f.op - 1).toNat]?)

/-- Write through a reference to an element of `operations_`. -/
def setAt (f : RawLimbo) (i : Nat) (o : RawLimboOp) : RawLimbo := { f with ops := f.ops.set i o }

/-- `emplace_op_` (256-260). -/
def emplace (f : RawLimbo) (o : RawLimboOp) : RawLimbo := { f with ops := f.ops ++ [o] }

/-- `current_op_as_card_` (249-254). -/
def currentCard (f : RawLimbo) : Res CardId := do
  match ← f.current with
  | (_, .card c) => return c
  | _ => .error .assert

/-- `std::get<ResizeOp>(operations_[op_ - 1])` (83, 153). -/
def currentResize (f : RawLimbo) : Res (Nat × Nat × List Ptr) := do
  match ← f.current with
  | (i, .resize n s) => return (i, n, s)
  | _ => .error .assert

/-- `std::get<ClearOp>(operations_[op_ - 1])` (118, 178). -/
def currentClear (f : RawLimbo) : Res (Nat × RawLayout) := do
  match ← f.current with
  | (i, .clear l) => return (i, l)
  | _ => .error .assert

/-- Replace the layout of the base frame. -/
def setLayout (f : RawLimbo) (l : RawLayout) : RawLimbo := { f with base := { f.base with layout := l } }

/-- `erase_history` (34-43): `resize` to a wrapped number throws out of a `noexcept` function; the last case does not
occur (`C89_erase_defined`). -/
def eraseHistory (f : RawLimbo) : Res RawLimbo :=
  if f.op = f.processed then .ok f
  else if f.op < 0 then .error .assert
  else if f.op.toNat ≤ f.ops.length then .ok { f with ops := f.ops.take f.op.toNat, processed := f.op.toNat }
  else ub

/-- `card_add` (45-57). -/
def cardAdd (f : RawLimbo) (p : Place) : Res RawLimbo := do
  let (f, fresh) := f.advance
  if fresh then
    let c := f.base.next
    let base ← f.base.cardAdd p
    return { f with base := base }.emplace (.card c)
  else
    let c ← f.currentCard
    let l ← f.base.layout.cardInsert p c
    return f.setLayout l

/-- `card_remove` (59-69). -/
def cardRemove (f : RawLimbo) (p : Place) : Res RawLimbo := do
  let (c, l) ← f.base.layout.cardErase p
  let (f, fresh) := (f.setLayout l).advance
  if fresh then return f.emplace (.card c)
  else return f

/-- `rsz_op.slice.resize(diff)` (101, 162). -/
def resizeSlice (s : List Ptr) (n : Nat) : List Ptr := s.take n ++ List.replicate (n - s.length) none

/-- `std::copy` of `src` over the beginning of `dst` (102, 163). -/
def copyOver (src dst : List Ptr) : Res (List Ptr) := do
  guardUb (src.length ≤ dst.length)
  return src ++ dst.drop src.length

/-- The `ResizeOp` of a resize and its index (77-84): a new one at the end, or the one under the cursor. -/
def resizeOp (f : RawLimbo) (fresh : Bool) : Res (RawLimbo × Nat × List Ptr) :=
  if fresh then .ok (f.emplace (.resize 0 []), f.ops.length, [])
  else do
    let (i, _, s) ← f.currentResize
    return (f, i, s)

/-- `pile_resize` (71-107). -/
def pileResize (f : RawLimbo) (place : Place) (count : Nat) : Res RawLimbo := do
  let (f, fresh) := f.advance
  let k ← pileOf place
  let (f, i, slice) ← f.resizeOp fresh
  let p := f.base.layout.pile k
  let f := f.setAt i (.resize p.length slice)
  if p.length < count then
    if fresh then
      return { f with base := RawFrame.growPile k (count - p.length) f.base }
    else
      return f.setLayout (f.base.layout.setPile k (p ++ slice))
  else if count < p.length then
    let diff := p.length - count
    let slice ← copyOver (p.drop diff) (resizeSlice slice diff)
    return (f.setAt i (.resize p.length slice)).setLayout (f.base.layout.setPile k (p.take count))
  else
    return f

/-- The `ClearOp` of a clear and its index (112-119). -/
def clearOp (f : RawLimbo) (fresh : Bool) : Res (RawLimbo × Nat × RawLayout) :=
  if fresh then .ok (f.emplace (.clear RawLayout.empty), f.ops.length, RawLayout.empty)
  else do
    let (i, l) ← f.currentClear
    return (f, i, l)

/-- `clear` (109-121) with `swap_clear_op_` (233-247). -/
def clear (f : RawLimbo) : Res RawLimbo := do
  let (f, fresh) := f.advance
  let (f, i, saved) ← f.clearOp fresh
  return (f.setAt i (.clear f.base.layout)).setLayout saved

/-- `undo_card_add` (125-132). -/
def undoCardAdd (f : RawLimbo) (p : Place) : Res RawLimbo := do
  let (_, l) ← f.base.layout.cardErase p
  return (f.setLayout l).regress

/-- `undo_card_remove` (134-141). -/
def undoCardRemove (f : RawLimbo) (p : Place) : Res RawLimbo := do
  let c ← f.currentCard
  let l ← f.base.layout.cardInsert p c
  return (f.setLayout l).regress

/-- `undo_pile_resize` (143-170). -/
def undoPileResize (f : RawLimbo) (place : Place) : Res RawLimbo := do
  let k ← pileOf place
  let p := f.base.layout.pile k
  let (i, prev, slice) ← f.currentResize
  if p.length < prev then
    return (f.setLayout (f.base.layout.setPile k (p ++ slice))).regress
  else if prev < p.length then
    let diff := p.length - prev
    let slice ← copyOver (p.drop (p.length - diff)) (resizeSlice slice diff)
    return ((f.setAt i (.resize prev slice)).setLayout (f.base.layout.setPile k (p.take prev))).regress
  else
    return f.regress

/-- `undo_clear` (172-182). -/
def undoClear (f : RawLimbo) : Res RawLimbo := do
  let (i, saved) ← f.currentClear
  return ((f.setAt i (.clear f.base.layout)).setLayout saved).regress

/-- `undo_card_shuffle` (184-189): nothing. -/
def undoCardShuffle (f : RawLimbo) : RawLimbo := f

/-- An inherited operation. -/
def inherited (f : RawLimbo) (op : FrameOp) : Res RawLimbo := do return { f with base := ← f.base.step op }

/-- One call of a public forward operation. -/
def step (f : RawLimbo) : FrameOp → Res RawLimbo
  | .add p => f.cardAdd p
  | .remove p => f.cardRemove p
  | .resize p n => f.pileResize p n
  | .clear => f.clear
  | op => f.inherited op

/-- How a call is undone, as in undo_parse_event.hpp:49-167. -/
def undo (f : RawLimbo) : FrameOp → Res RawLimbo
  | .add p => f.undoCardAdd p
  | .remove p => f.undoCardRemove p
  | .move a b => f.inherited (.move b a)
  | .shuffle _ _ _ => .ok f.undoCardShuffle
  | .swap a b => f.inherited (.swap a b)
  | .resize p _ => f.undoPileResize p
  | .splice a n b r => f.inherited (.splice b n a r)
  | .pswap a b => f.inherited (.pswap a b)
  | .clear => f.undoClear

end RawLimbo

instance : FrameLike RawLimbo := ⟨RawLimbo.step⟩

/-- `BasicUndoable` (undoable.hpp:90-92). -/
structure RawUndoable (α : Type) where
  values : List α
  current : Nat
  deriving DecidableEq, Repr

namespace RawUndoable
variable {α : Type}

/-- Constructor (undoable.hpp:22-24). -/
def init (default : α) : RawUndoable α := ⟨[default], 0⟩

/-- `operator ValueType const&` (undoable.hpp:26-29). -/
def get (u : RawUndoable α) : Res α := orUb u.values[u.current]?

/-- `operator=` and `assign` (undoable.hpp:31-38, 60-66). -/
def set (u : RawUndoable α) (v : α) : RawUndoable α :=
  ⟨if u.current + 1 = u.values.length then u.values ++ [v] else u.values, u.current + 1⟩

/-- `undo` (undoable.hpp:46-50): decrementing the first iterator is undefined. -/
def undo (u : RawUndoable α) : Res (RawUndoable α) := do
  guardUb (u.current ≠ 0)
  return ⟨u.values, u.current - 1⟩

end RawUndoable

/-- `push_back` and `pop_back` (undoable.hpp:68-77): nothing. -/
instance : Cell RawUndoable where
  get := RawUndoable.get
  set := RawUndoable.set
  push c _ := .ok c
  pop c := .ok c

/-- The undoable board in a build without asserts. -/
abbrev RawUndoBoard := DuelBoard RawLimbo RawUndoable

def RawUndoBoard.init : RawUndoBoard := ⟨RawLimbo.init, .init [], .init 0, .init 0, fun _ => .init 0, .init 0, .init []⟩

namespace RawUndoBoard

/-- `parse_event` (parse_event.hpp:79-267); see `RawBoard.parseEvent`. -/
def parseEvent (b : RawUndoBoard) : Event → Res RawUndoBoard
  | .lp con c => do
    let i ← conIdx con
    let lpv ← Cell.get (b.lp i)
    return b.setLp i (Cell.set (b.lp i) (DuelBoard.lpAfter lpv c))
  | e => DuelBoard.parseEvent b e

/-- Parsing a sequence of events. -/
def parseEvents (b : RawUndoBoard) : List Event → Res RawUndoBoard
  | [] => .ok b
  | e :: es => do
    let b ← parseEvent b e
    parseEvents b es

/-- Undo the given operations, in the given order. -/
def undoOps (f : RawLimbo) : List FrameOp → Res RawLimbo
  | [] => .ok f
  | op :: ops => do
    let f ← f.undo op
    undoOps f ops

/-- Undo frame operations on `board.frame()`. -/
def undoFrame (b : RawUndoBoard) (ops : List FrameOp) : Res RawUndoBoard := do
  return { b with frame := ← undoOps b.frame ops }

/-- Undoing a state event (undo_parse_event.hpp:70-85). -/
def undoState (b : RawUndoBoard) (s : BoardState) : Res RawUndoBoard := do
  let b ← undoFrame b (UndoBoard.stateUndo s)
  let b := { b with chainStack := ← b.chainStack.undo }
  let b := b.setLp 1 (← (b.lp 1).undo)
  let b := b.setLp 0 (← (b.lp 0).undo)
  if 0 ≤ s.turnCounter then return { b with turn := ← b.turn.undo } else return b

/-- `undo_parse_event` (undo_parse_event.hpp:41-204). -/
def undoParseEvent (b : RawUndoBoard) : Event → Res RawUndoBoard
  | .board .unset => .ok b
  | .board (.exchange e) => undoFrame b (UndoBoard.exchangeUndo e)
  | .board (.state s) => undoState b s
  | .card _ e => undoFrame b (UndoBoard.cardUndo e)
  | .chainStack _ => .ok b
  | .nextTurn _ => do
    let b := { b with turn := ← b.turn.undo }
    return { b with turnController := ← b.turnController.undo }
  | .lp con _ => do
    let i ← conIdx con
    return b.setLp i (← (b.lp i).undo)
  | .nextPhase _ => do return { b with phase := ← b.phase.undo }
  | .pile _ e => undoFrame b (UndoBoard.pileUndo e)
  | .zoneBlock _ => do return { b with blockedZones := ← b.blockedZones.undo }
  | .finish _ | .metaInfo _ | .result _ | .unset => .ok b

end RawUndoBoard
end Ygo
