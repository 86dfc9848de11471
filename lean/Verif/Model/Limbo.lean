import Verif.Model.Frame

/-!
# Model of `LimboFrame` (`include/ygopen/client/frame_limbo.hpp`)
-/

namespace Ygo

/-- `std::variant<CardOp, ResizeOp, ClearOp>` (frame_limbo.hpp:194-215).  A slice may hold null pointers. The saved piles and
field of a `ClearOp` form a layout. -/
inductive LimboOp where
  | card (c : CardId)
  | resize (prevSize : Nat) (slice : List (Option CardId))
  | clear (saved : Layout)

/-- `LimboFrame`: the base frame and the log (frame_limbo.hpp:218-220). -/
structure Limbo where
  base : Frame
  op : Nat
  processed : Nat
  ops : List LimboOp

namespace Limbo

/-- Constructor (frame_limbo.hpp:26-28). -/
def init : Limbo := ⟨Frame.init, 0, 0, []⟩

/-- `advance_op_` (frame_limbo.hpp:222-225): whether the operation is a new one. -/
def advance (f : Limbo) : Limbo × Bool :=
  if f.op = f.processed then ({ f with op := f.op + 1, processed := f.processed + 1 }, true)
  else ({ f with op := f.op + 1 }, false)

/-- `regress_op_` (frame_limbo.hpp:227-231). -/
def regress (f : Limbo) : Res Limbo := do
  massert (f.op > 0)
  return { f with op := f.op - 1 }

/-- `operations_[op_ - 1]` after `assert(operations_.size() >= op_)` (frame_limbo.hpp:81-83, 251-253); with
`op_ = 0` the index wraps around. -/
def current (f : Limbo) : Res LimboOp := do
  massert (f.ops.length ≥ f.op)
  guardUb (f.op ≠ 0)
  orUb f.ops[f.op - 1]?

/-- Write to `operations_[op_ - 1]`. -/
def setCurrent (f : Limbo) (o : LimboOp) : Limbo := { f with ops := f.ops.set (f.op - 1) o }

/-- `emplace_op_` (frame_limbo.hpp:256-260). -/
def emplace (f : Limbo) (o : LimboOp) : Limbo := { f with ops := f.ops ++ [o] }

/-- `current_op_as_card_` (frame_limbo.hpp:249-254). -/
def currentCard (f : Limbo) : Res CardId := do
  match ← f.current with
  | .card c => return c
  | _ => .error .assert

/-- Access to the `ResizeOp` under the cursor (frame_limbo.hpp:81-83, 151-153). -/
def currentResize (f : Limbo) : Res (Nat × List (Option CardId)) := do
  match ← f.current with
  | .resize n s => return (n, s)
  | _ => .error .assert

/-- Access to the `ClearOp` under the cursor (frame_limbo.hpp:116-118, 176-178). -/
def currentClear (f : Limbo) : Res Layout := do
  match ← f.current with
  | .clear l => return l
  | _ => .error .assert

/-- Replace the layout of the base frame. -/
def setLayout (f : Limbo) (l : Layout) : Limbo := { f with base := { f.base with layout := l } }

/-- `erase_history` (frame_limbo.hpp:34-43). -/
def eraseHistory (f : Limbo) : Res Limbo := do
  if f.op = f.processed then return f
  massert (f.op ≤ f.ops.length)
  massert (f.op < f.processed)
  -- `operations_.resize(op_)`; given the assert it only truncates.
  return { f with ops := f.ops.take f.op, processed := f.op }

/-- `card_add` (frame_limbo.hpp:45-57). -/
def cardAdd (f : Limbo) (p : Place) : Res (Limbo × CardId) := do
  let (f, fresh) := f.advance
  if fresh then
    let (base, c) ← f.base.cardAdd p
    return ({ f with base := base }.emplace (.card c), c)
  else
    let c ← f.currentCard
    let l ← f.base.layout.cardInsert p c
    massert ((← l.hasCard p) = true)
    return (f.setLayout l, c)

/-- `card_remove` (frame_limbo.hpp:59-69). -/
def cardRemove (f : Limbo) (p : Place) : Res Limbo := do
  massert ((← f.base.layout.hasCard p) = true)
  let (c, l) ← f.base.layout.cardErase p
  let f := f.setLayout l
  let (f, fresh) := f.advance
  if fresh then return f.emplace (.card c)
  else
    massert ((← f.currentCard) = c)
    return f

/-- A range of possibly null cards becomes pile contents only if `verify_pile_` (frame.hpp:583-587) finds no
null card. -/
def verified (s : List (Option CardId)) : Res (List CardId) := orAssert (s.mapM id)

/-- `rsz_op.slice.resize(diff)`: truncate, or pad with null (frame_limbo.hpp:101, 162). -/
def resizeSlice (s : List (Option CardId)) (n : Nat) : List (Option CardId) :=
  s.take n ++ List.replicate (n - s.length) none

/-- `std::copy` of `src` over the beginning of `dst` (frame_limbo.hpp:102, 163): writing beyond the end is undefined. -/
def copyOver (src : List CardId) (dst : List (Option CardId)) : Res (List (Option CardId)) := do
  guardUb (src.length ≤ dst.length)
  return src.map some ++ dst.drop src.length

/-- `pile_resize` (frame_limbo.hpp:71-107). -/
def pileResize (f : Limbo) (place : Place) (count : Nat) : Res Limbo := do
  massert (place.isPile = true)
  let (f, fresh) := f.advance
  let k ← place.pileKey
  let f := if fresh then f.emplace (.resize 0 []) else f
  let (_, slice) ← f.currentResize
  let p := f.base.layout.pile k
  let f := f.setCurrent (.resize p.length slice)
  if p.length < count then
    if fresh then
      return { f with base := Frame.growPile k (count - p.length) f.base }
    else
      let s ← verified slice
      massert ((p ++ s).length = count)
      return f.setLayout (f.base.layout.setPile k (p ++ s))
  else if count < p.length then
    let diff := p.length - count
    let slice := resizeSlice slice diff
    let slice ← copyOver (p.drop diff) slice
    return (f.setCurrent (.resize p.length slice)).setLayout (f.base.layout.setPile k (p.take count))
  else
    return f

/-- `clear` (frame_limbo.hpp:109-121); `swap_clear_op_` (233-247) swaps all ten piles and the field. -/
def clear (f : Limbo) : Res Limbo := do
  let (f, fresh) := f.advance
  let f := if fresh then f.emplace (.clear Layout.empty) else f
  let saved ← f.currentClear
  return (f.setCurrent (.clear f.base.layout)).setLayout saved

/-- `undo_card_add` (frame_limbo.hpp:125-132). -/
def undoCardAdd (f : Limbo) (p : Place) : Res (Limbo × CardId) := do
  massert ((← f.base.layout.hasCard p) = true)
  let (c, l) ← f.base.layout.cardErase p
  let f := f.setLayout l
  massert ((← f.currentCard) = c)
  let f ← f.regress
  return (f, c)

/-- `undo_card_remove` (frame_limbo.hpp:134-141). -/
def undoCardRemove (f : Limbo) (p : Place) : Res (Limbo × CardId) := do
  let c ← f.currentCard
  let l ← f.base.layout.cardInsert p c
  let f ← (f.setLayout l).regress
  massert ((← l.hasCard p) = true)
  return (f, c)

/-- `undo_pile_resize` (frame_limbo.hpp:143-170); the count is unused. -/
def undoPileResize (f : Limbo) (place : Place) (_count : Nat) : Res Limbo := do
  massert (place.isPile = true)
  let k ← place.pileKey
  let p := f.base.layout.pile k
  let (prev, slice) ← f.currentResize
  if p.length < prev then
    let s ← verified slice
    let f ← (f.setLayout (f.base.layout.setPile k (p ++ s))).regress
    massert ((p ++ s).length = prev)
    return f
  else if prev < p.length then
    let diff := p.length - prev
    let slice := resizeSlice slice diff
    let slice ← copyOver (p.drop (p.length - diff)) slice
    ((f.setCurrent (.resize prev slice)).setLayout (f.base.layout.setPile k (p.take prev))).regress
  else
    f.regress

/-- `undo_clear` (frame_limbo.hpp:172-182). -/
def undoClear (f : Limbo) : Res Limbo := do
  let saved ← f.currentClear
  ((f.setCurrent (.clear f.base.layout)).setLayout saved).regress

/-- `undo_card_shuffle` (frame_limbo.hpp:184-189): `assert(false)`. -/
def undoCardShuffle (_f : Limbo) (_prev _cur : List Place) (_count : Nat) : Res Limbo := .error .assert

/-! The inherited operations act on the base frame and leave the log alone. -/

/-- Inherited `card_move`. -/
def cardMove (f : Limbo) (a b : Place) : Res (Limbo × CardId) := do
  let (base, c) ← f.base.cardMove a b
  return ({ f with base := base }, c)

/-- Inherited `card_swap`. -/
def cardSwap (f : Limbo) (a b : Place) : Res Limbo := do return { f with base := ← f.base.cardSwap a b }

/-- Inherited `card_shuffle`. -/
def cardShuffle (f : Limbo) (prev cur : List Place) (n : Nat) : Res Limbo := do
  return { f with base := ← f.base.cardShuffle prev cur n }

/-- Inherited `pile_splice`. -/
def pileSplice (f : Limbo) (a : Place) (n : Nat) (b : Place) (r : Bool) : Res Limbo := do
  return { f with base := ← f.base.pileSplice a n b r }

/-- Inherited `pile_swap`. -/
def pileSwap (f : Limbo) (a b : Place) : Res Limbo := do return { f with base := ← f.base.pileSwap a b }

end Limbo

/-! ## Histories -/

namespace Limbo

/-- One call of a public forward operation (new or redone, depending on the cursor). -/
def step (f : Limbo) : FrameOp → Res Limbo
  | .add p => do let (f, _) ← f.cardAdd p; return f
  | .remove p => f.cardRemove p
  | .move a b => do let (f, _) ← f.cardMove a b; return f
  | .shuffle p c n => f.cardShuffle p c n
  | .swap a b => f.cardSwap a b
  | .resize p n => f.pileResize p n
  | .splice a n b r => f.pileSplice a n b r
  | .pswap a b => f.pileSwap a b
  | .clear => f.clear

/-- How a call is undone: the logged operations by their `undo_` counterpart, the others by the mirrored
operation, as in undo_parse_event.hpp:49-167. -/
def undo (f : Limbo) : FrameOp → Res Limbo
  | .add p => do let (f, _) ← f.undoCardAdd p; return f
  | .remove p => do let (f, _) ← f.undoCardRemove p; return f
  | .move a b => do let (f, _) ← f.cardMove b a; return f
  | .shuffle p c n => f.undoCardShuffle p c n
  | .swap a b => f.cardSwap a b
  | .resize p n => f.undoPileResize p n
  | .splice a n b r => f.pileSplice b n a r
  | .pswap a b => f.pileSwap a b
  | .clear => f.undoClear

end Limbo
end Ygo
