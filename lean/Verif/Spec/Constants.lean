/-!
# What it means to combine flags
-/

namespace Ygo.Spec

/-- The value with the bits of all the flags. -/
def allOf : List Nat → Nat
  | [] => 0
  | v :: vs => v ||| allOf vs

end Ygo.Spec
