import Verif.Spec.System
import Verif.Spec.Frame

/-!
# How many cards lie where

Tables, boards, servers and clients that may have different cards but as many of them in each place.
-/

namespace Ygo.Spec
open Ygo

/-- As many cards in each pile, in each zone and below it. -/
def SameCounts (l l' : Layout) : Prop := ∀ C, (view l C).length = (view l' C).length

/-- As many cards everywhere, and the same beside the table; who has the turn and which zones are blocked may differ. -/
structure CountsAlike (b b' : PlainBoard) : Prop where
  table : SameCounts b.frame.layout b'.frame.layout
  chain : b.chainStack = b'.chainStack
  turn : b.turn = b'.turn
  lp : b.lp = b'.lp
  phase : b.phase = b'.phase

/-- Servers with boards that are alike, that have noted the same; what they know about cards may differ. -/
structure ServersAlike (c c' : BasicContext) : Prop where
  board : CountsAlike c.board c'.board
  reason : c.matchWinReason = c'.matchWinReason
  left : c.left = c'.left
  deferred : c.deferred = c'.deferred

/-- Both fail in the same way, or both succeed with results in the given relation. -/
def Together {α β : Type} (R : α → β → Prop) : Res α → Res β → Prop
  | .ok a, .ok b => R a b
  | .error e, .error e' => e = e'
  | _, _ => False

end Ygo.Spec
