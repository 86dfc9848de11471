import Verif.Spec.CatchUp

/-!
# How much there is to catch up with
-/

namespace Ygo.Spec
open Ygo

/-- All cards that a client shows. -/
def onShow (s : Client) : List (Card Plain) := containers.flatMap (Client.screen s)

/-- The targets that all cards have. -/
def targetsShown (s : Client) : Nat := ((onShow s).map fun c => c.targets.val.length).sum

/-- The kinds of counters that all cards have. -/
def countersShown (s : Client) : Nat := ((onShow s).map fun c => c.counters.val.length).sum

/-- An upper bound for the bytes of each message that tells where a client is. -/
def catchUpBytes (s : Client) : Nat :=
  2000 + 2820 * (onShow s).length + 100 * targetsShown s + 60 * countersShown s + 280 * s.board.chainStack.val.length +
    100 * s.board.blockedZones.val.length

end Ygo.Spec
