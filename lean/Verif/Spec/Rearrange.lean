import Verif.Spec.Tracked

/-!
# Arrangements of the same cards
-/

namespace Ygo.Spec
open Ygo

/-- `B` is a table with exactly the cards of `A`, each lying about as often as there, in whatever places and order; zones hold at most one card. -/
structure Arranges (A B : Board) : Prop where
  cards : ∀ x, (placed B).count x = (placed A).count x
  zones : ∀ k, (B (.slot k)).length ≤ 1

/-- Calls that neither make cards nor take any away. -/
def OnlyRearranges : FrameOp → Prop
  | .move .. | .shuffle .. | .swap .. | .splice .. | .pswap .. => True
  | .add _ | .remove _ | .resize .. | .clear => False

end Ygo.Spec
