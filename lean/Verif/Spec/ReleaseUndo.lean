import Verif.Model.ReleaseUndo
import Verif.Spec.Release
import Verif.Spec.Rewind

/-!
# The undoable board with and without asserts
-/

namespace Ygo.Spec
open Ygo

/-- Piles and field, as in a build without asserts. -/
def asRawLayout (l : Layout) : RawLayout :=
  ⟨fun k => (l.pile k).map some, fun k => ⟨(l.zone k).card, (l.zone k).materials.map some⟩⟩

/-- An entry of the log, as in a build without asserts. -/
def asRawOp : LimboOp → RawLimboOp
  | .card c => .card c
  | .resize n s => .resize n s
  | .clear l => .clear (asRawLayout l)

/-- A frame with its log, as in a build without asserts. -/
def asRawLimbo (f : Limbo) : RawLimbo := ⟨asRaw f.base, f.op, f.processed, f.ops.map asRawOp⟩

/-- An undoable value, as in a build without asserts. -/
def asRawCell {α : Type} (u : Undoable α) : RawUndoable α := ⟨u.values, u.current⟩

/-- An undoable board, as in a build without asserts. -/
def asRawUndo (b : UndoBoard) : RawUndoBoard :=
  ⟨asRawLimbo b.frame, asRawCell b.chainStack, asRawCell b.turn, asRawCell b.turnController, fun i => asRawCell (b.lp i), asRawCell b.phase,
    asRawCell b.blockedZones⟩

/-- Every operation has its entry in the log. -/
def Logged (f : Limbo) : Prop := f.processed = f.ops.length

/-- An event without its chain link. -/
def mute : Event → Event
  | .chainStack _ => .chainStack .unset
  | e => e

/-- The chain of the last state in a list of events, `ch` if there is none. -/
def lastChain (ch : List Chain) : List Event → List Chain
  | [] => ch
  | .board (.state s) :: es => lastChain s.chains es
  | _ :: es => lastChain ch es

/-- Going back and forth in a build without asserts. -/
def rawScrub (es : List Event) (b : RawUndoBoard) (pos : Nat) : List Move → Res (RawUndoBoard × Nat)
  | [] => .ok (b, pos)
  | .forward :: ms => match es[pos]? with
    | some e => do rawScrub es (← RawUndoBoard.parseEvent b e) (pos + 1) ms
    | none => rawScrub es b pos ms
  | .backward :: ms => match pos with
    | 0 => rawScrub es b 0 ms
    | pos + 1 => match es[pos]? with
      | some e => do rawScrub es (← RawUndoBoard.undoParseEvent b e) pos ms
      | none => rawScrub es b (pos + 1) ms

/-- The undoable board of a build without asserts shows what the board `p` shows, except that the chain is `ch`. -/
structure RawShows (p : PlainBoard) (ch : List Chain) (u : RawUndoBoard) : Prop where
  layout : u.frame.base.layout = asRawLayout p.frame.layout
  chainStack : u.chainStack.get = .ok ch
  turn : u.turn.get = .ok p.turn.val
  turnController : u.turnController.get = .ok p.turnController.val
  lp : ∀ i, (u.lp i).get = .ok (p.lp i).val
  phase : u.phase.get = .ok p.phase.val
  blockedZones : u.blockedZones.get = .ok p.blockedZones.val

/-- Piles that shrink lose at least half of their cards. -/
def HalvesAll (b : PlainBoard) : List Event → Prop
  | [] => True
  | e :: es => ShrinksByHalf b.frame (frameOps e) ∧ ∀ b', b.parseEvent e = .ok b' → HalvesAll b' es

/-- Every frame operation can be undone. -/
def FrameRewindable (b : PlainBoard) : List Event → Prop
  | [] => True
  | e :: es => RewindableOps b.frame (frameOps e) ∧ ∀ b', b.parseEvent e = .ok b' → FrameRewindable b' es

/-- A buffer from the core that does not start with `MSG_SHUFFLE_SET_CARD` or `MSG_TAG_SWAP`. -/
def NoShuffleNoSwap (d : List UInt8) : Prop := ∀ b rest, d = b :: rest → b ≠ 36 ∧ b ≠ 161

/-- What can be called on the frame. -/
inductive LimboCall where
  | do (op : FrameOp)
  | undo (op : FrameOp)
  | erase

/-- A history of calls in a build without asserts. -/
def rawCalls (f : RawLimbo) : List LimboCall → Res RawLimbo
  | [] => .ok f
  | .do op :: cs => do rawCalls (← f.step op) cs
  | .undo op :: cs => do rawCalls (← f.undo op) cs
  | .erase :: cs => do rawCalls (← f.eraseHistory) cs

/-- What can be called on the board. -/
inductive BoardCall where
  | do (e : Event)
  | undo (e : Event)

/-- A history of events parsed or undone, in any order, in a build without asserts. -/
def rawBoardCalls (b : RawUndoBoard) : List BoardCall → Res RawUndoBoard
  | [] => .ok b
  | .do e :: cs => do rawBoardCalls (← RawUndoBoard.parseEvent b e) cs
  | .undo e :: cs => do rawBoardCalls (← RawUndoBoard.undoParseEvent b e) cs

/-- The cards an entry of the log refers to. -/
def inEntry (x : CardId) : RawLimboOp → Prop
  | .card c => x = c
  | .resize _ s => some x ∈ s
  | .clear l => x ∈ cardsOn (rawView l)

end Ygo.Spec
