import Verif.Spec.System
import Verif.Spec.Frame

/-!
# Clients that have lost track
-/

namespace Ygo.Spec
open Ygo

/-- The client gets through the messages: no assert fails, and nothing is done that is undefined. -/
def GetsThrough (cache : Bool) (s : Client) (ms : List Msg) : Prop := ∃ t, Client.follow cache s ms = .ok t

/-- Whatever the first client gets through, the other gets through: if the first one is right, the other is never found out by failing. -/
def NeverFoundOut (s' s : Client) : Prop := ∀ cache ms, GetsThrough cache s' ms → GetsThrough cache s ms

/-- How two numbers of cards compare: in piles there may be more, in zones and beneath them there are as many. -/
def EnoughIn : Container → Nat → Nat → Prop
  | .pile _, a, b => a ≤ b
  | _, a, b => a = b

/-- As many cards in and beneath each zone, and in each pile at least as many. -/
def Enough (B' B : Board) : Prop := ∀ C, EnoughIn C (B' C).length (B C).length

/-- Enough cards for what the other does, and as many links in the chain or more. -/
structure KeepsUp (s' s : Client) : Prop where
  table : Enough (view s'.board.frame.layout) (view s.board.frame.layout)
  chain : s'.board.chainStack.val.length ≤ s.board.chainStack.val.length

/-- Events about nothing on the table and no link of the chain. -/
def AboutValues : Event → Prop
  | .board (.exchange _) | .board (.state _) => False
  | .card _ e => e = .unset
  | .chainStack e => e = .unset
  | .pile _ e => e = .unset
  | _ => True

end Ygo.Spec
