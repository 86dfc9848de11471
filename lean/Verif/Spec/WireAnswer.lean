import Verif.Spec.Dialog

/-!
# How much an answer lists
-/

namespace Ygo.Spec
open Ygo

/-- How many things an answer lists. -/
def listed : Answer → Nat
  | .selectCard (.indexes is) | .sort (.indexes is) => is.length
  | .selectCounter cs => cs.length
  | .selectZone ps => ps.length
  | _ => 0

end Ygo.Spec
