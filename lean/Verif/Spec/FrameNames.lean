import Verif.Model.FrameObjects

/-! # Names of frames -/

namespace Ygo.Spec
open Ygo

/-- Names in use before and after an operation: frames are made where there is none, and only frames that are there are used. -/
def useFrameNames {α : Type} (live : Nat → Bool) : FrameObjOp α → Option (Nat → Bool)
  | .construct o => if live o then none else some fun q => decide (q = o) || live q
  | .call o _ _ | .write o _ _ => if live o then some live else none
  | .copy o p | .move o p => if live p && !live o then some fun q => decide (q = o) || live q else none
  | .moveAssign o p => if live o && live p then some live else none
  | .destroy o => if live o then some fun q => !decide (q = o) && live q else none

/-- Names in use after a program. -/
def frameNamesAfter {α : Type} (live : Nat → Bool) : List (FrameObjOp α) → Option (Nat → Bool)
  | [] => some live
  | op :: ops => (useFrameNames live op).bind (frameNamesAfter · ops)

end Ygo.Spec
