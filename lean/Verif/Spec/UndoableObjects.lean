import Verif.Spec.Undo
import Verif.Model.UndoableObjects

/-! # Undoable objects as values of their own -/

namespace Ygo.Spec
open Ygo

/-- The undoable values of a program: `none` for a name without an object, `some none` for an object whose value was moved away. -/
abbrev Shelf (α : Type) := Nat → Option (Option (Editor α))

/-- A name stands for something else. -/
def Shelf.put {α : Type} (s : Shelf α) (o : Nat) (x : Option (Option (Editor α))) : Shelf α :=
  fun p => if p = o then x else s p

/-- What an operation means if every object is a value of its own, with a past and a future. `none` if it makes no sense: an object that is
not there or whose value was moved away is used, or there is nothing to undo. -/
def Shelf.step {α : Type} (s : Shelf α) : UndoableOp α → Option (Shelf α)
  | .construct o d => some (s.put o (some (some ⟨[], d, []⟩)))
  | .assign o v =>
    match s o with
    | some (some e) => some (s.put o (some (some (e.assign v))))
    | _ => none
  | .undo o =>
    match s o with
    | some (some e) => e.undo.map fun e' => s.put o (some (some e'))
    | _ => none
  | .copy o p =>
    match s p with
    | some (some e) => some (s.put o (some (some e)))
    | _ => none
  | .move o p =>
    match s p with
    | some x => if o = p then none else some ((s.put o (some x)).put p (some none))
    | none => none
  | .moveAssign o p =>
    match s o, s p with
    | some _, some x => some ((s.put o (some x)).put p (some none))
    | _, _ => none
  | .destroy o =>
    match s o with
    | some _ => some (s.put o none)
    | none => none

/-- A program. -/
def Shelf.run {α : Type} (s : Shelf α) : List (UndoableOp α) → Option (Shelf α)
  | [] => some s
  | op :: ops => (s.step op).bind (·.run ops)

/-- No object is copied. -/
def NoCopy {α : Type} (ops : List (UndoableOp α)) : Prop := ∀ o p, .copy o p ∉ ops

/-- `std::swap`: over a temporary object. -/
def swapOps {α : Type} (tmp a b : Nat) : List (UndoableOp α) := [.move tmp a, .moveAssign a b, .moveAssign b tmp, .destroy tmp]

/-- The elements of a growing vector move to new storage, and the old ones are destroyed. -/
def relocateOps {α : Type} (ps : List (Nat × Nat)) : List (UndoableOp α) :=
  ps.map (fun p => .move p.2 p.1) ++ ps.map fun p => .destroy p.1

/-- Names in use before and after an operation: objects are made where there is none, and only objects that are there are used. -/
def useNames {α : Type} (live : Nat → Bool) : UndoableOp α → Option (Nat → Bool)
  | .construct o _ => if live o then none else some fun q => decide (q = o) || live q
  | .assign o _ | .undo o => if live o then some live else none
  | .copy o p | .move o p => if live p && !live o then some fun q => decide (q = o) || live q else none
  | .moveAssign o p => if live o && live p then some live else none
  | .destroy o => if live o then some fun q => !decide (q = o) && live q else none

/-- Names in use after a program. -/
def namesAfter {α : Type} (live : Nat → Bool) : List (UndoableOp α) → Option (Nat → Bool)
  | [] => some live
  | op :: ops => (useNames live op).bind (namesAfter · ops)

end Ygo.Spec
