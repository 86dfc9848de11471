import Verif.Spec.System

/-!
# Going back and forth in a duel
-/

namespace Ygo.Spec
open Ygo

/-- The events in the results of the server, in order. -/
def events (rs : List Encoded) : List Event := (messages rs).filterMap Msg.event?

/-- Every operation of the list can be undone on the frame it is performed on. -/
def RewindableOps (f : Frame) : List FrameOp → Prop
  | [] => True
  | X :: Xs => Undoes f.layout X ∧ ∀ f', f.step X = .ok f' → RewindableOps f' Xs

/-- Events that can be undone, on the boards they happen on: no chain links are added or removed, and every frame operation can be
undone. -/
def Rewindable (b : PlainBoard) : List Event → Prop
  | [] => True
  | e :: es => NoSingleLinks e ∧ RewindableOps b.frame (frameOps e) ∧ ∀ b', b.parseEvent e = .ok b' → Rewindable b' es

/-- A buffer from the core that does not start with `MSG_SHUFFLE_SET_CARD`, `MSG_CHAINING`, `MSG_CHAIN_SOLVED` or `MSG_TAG_SWAP`. -/
def Ordinary (d : List UInt8) : Prop := ∀ b rest, d = b :: rest → b ≠ 36 ∧ b ≠ 70 ∧ b ≠ 73 ∧ b ≠ 161

end Ygo.Spec
