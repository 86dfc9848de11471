import Verif.Spec.Frame
import Verif.Model.FrameObjects

/-! # Frames as values of their own -/

namespace Ygo.Spec
open Ygo

/-- A frame that nothing else shares anything with, and what is on its cards. -/
structure Solo (α : Type) where
  frame : Frame
  value : CardId → α

namespace Solo
variable {α : Type}

/-- A call; new cards have the contents `d`. -/
def call (x : Solo α) (op : FrameOp) (d : α) : Res (Solo α) := do
  let f ← x.frame.step op
  return ⟨f, fun c => if x.frame.next ≤ c then d else x.value c⟩

/-- What is on the card at a place. -/
def read (x : Solo α) (p : Place) : Res α := do return x.value (← x.frame.layout.card p)

/-- Write on the card at a place. -/
def write (x : Solo α) (p : Place) (v : α) : Res (Solo α) := do
  let c ← x.frame.layout.card p
  return ⟨x.frame, fun c' => if c' = c then v else x.value c'⟩

/-- What is on the cards of every container. -/
def shown (x : Solo α) (C : Container) : List α := (view x.frame.layout C).map x.value

end Solo

/-- The frames of a program: `none` for a name without a frame, `some none` for one whose contents were moved away. -/
abbrev Frames (α : Type) := Nat → Option (Option (Solo α))

/-- A name stands for something else. -/
def Frames.put {α : Type} (s : Frames α) (o : Nat) (x : Option (Option (Solo α))) : Frames α :=
  fun p => if p = o then x else s p

/-- What an operation means if every frame is a value of its own. `none` if it makes no sense: a frame that is not there or whose contents
were moved away is used, a name is taken, or the call fails. -/
def Frames.step {α : Type} [Inhabited α] (s : Frames α) : FrameObjOp α → Option (Frames α)
  | .construct o =>
    match s o with
    | none => some (s.put o (some (some ⟨Frame.init, fun _ => default⟩)))
    | some _ => none
  | .call o op d =>
    match s o with
    | some (some x) => (x.call op d).toOption.map fun y => s.put o (some (some y))
    | _ => none
  | .write o p v =>
    match s o with
    | some (some x) => (x.write p v).toOption.map fun y => s.put o (some (some y))
    | _ => none
  | .copy o p =>
    match s o, s p with
    | none, some (some x) => some (s.put o (some (some x)))
    | _, _ => none
  | .move o p =>
    match s o, s p with
    | none, some x => some ((s.put o (some x)).put p (some none))
    | _, _ => none
  | .moveAssign o p =>
    match s o, s p with
    | some _, some x => some ((s.put o (some x)).put p (some none))
    | _, _ => none
  | .destroy o =>
    match s o with
    | some _ => some (s.put o none)
    | none => none

/-- A program. -/
def Frames.run {α : Type} [Inhabited α] (s : Frames α) : List (FrameObjOp α) → Option (Frames α)
  | [] => some s
  | op :: ops => (s.step op).bind (·.run ops)

/-- No frame is copied. -/
def NoFrameCopy {α : Type} (ops : List (FrameObjOp α)) : Prop := ∀ o p, .copy o p ∉ ops

/-- `std::swap`: over a temporary frame. -/
def swapFrames {α : Type} (tmp a b : Nat) : List (FrameObjOp α) := [.move tmp a, .moveAssign a b, .moveAssign b tmp, .destroy tmp]

end Ygo.Spec
