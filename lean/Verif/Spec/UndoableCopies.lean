import Verif.Spec.UndoableObjects

/-! # Undoable objects some of which are copies -/

namespace Ygo.Spec
open Ygo

/-- What is to be known of an object: the value it stands for, which list it has and into which list its iterator points. Lists are numbered
as they are made. -/
structure Sheet (α : Type) where
  value : Editor α
  home : Nat
  within : Nat

/-- The objects of a program: `none` for a name without an object, `some none` for an object whose list was moved away; and how many lists
were made. -/
structure Ledger (α : Type) where
  entry : Nat → Option (Option (Sheet α))
  lists : Nat

namespace Ledger
variable {α : Type}

def empty : Ledger α := ⟨fun _ => none, 0⟩

/-- A name stands for something else. -/
def put (l : Ledger α) (o : Nat) (x : Option (Option (Sheet α))) : Ledger α := { l with entry := fun p => if p = o then x else l.entry p }

/-- What an operation does. A copy has a list of its own, but its iterator points to where the other one's does. Only objects whose iterator points
into their own list may be assigned to or undone. -/
def step (l : Ledger α) : UndoableOp α → Option (Ledger α)
  | .construct o d => some { l.put o (some (some ⟨⟨[], d, []⟩, l.lists, l.lists⟩)) with lists := l.lists + 1 }
  | .assign o v =>
    match l.entry o with
    | some (some t) => if t.home = t.within then some (l.put o (some (some { t with value := t.value.assign v }))) else none
    | _ => none
  | .undo o =>
    match l.entry o with
    | some (some t) => if t.home = t.within then t.value.undo.map fun e => l.put o (some (some { t with value := e })) else none
    | _ => none
  | .copy o p =>
    match l.entry p with
    | some (some t) => some { l.put o (some (some ⟨t.value, l.lists, t.within⟩)) with lists := l.lists + 1 }
    | _ => none
  | .move o p =>
    match l.entry p with
    | some x => if o = p then none else some ((l.put o (some x)).put p (some none))
    | none => none
  | .moveAssign o p =>
    match l.entry o, l.entry p with
    | some _, some x => some ((l.put o (some x)).put p (some none))
    | _, _ => none
  | .destroy o =>
    match l.entry o with
    | some _ => some (l.put o none)
    | none => none

/-- A program. -/
def run (l : Ledger α) : List (UndoableOp α) → Option (Ledger α)
  | [] => some l
  | op :: ops => (l.step op).bind (·.run ops)

/-- Some object has the list. -/
def Has (l : Ledger α) (i : Nat) : Prop := ∃ o t, l.entry o = some (some t) ∧ t.home = i

end Ledger
end Ygo.Spec
