import Verif.Core.Res

/-!
# `BasicUndoable` as objects in memory (`include/ygopen/client/undoable.hpp`)

`Model/Undoable.lean` takes an undoable value as a list with an index. Here the class is modelled as what it is in memory: a `std::list`
of nodes that live at addresses of their own, and an iterator, which is the address of a node (undoable.hpp:91-92). The class declares no
copy or move operations, so it has the implicit ones, which copy or move the list and copy the iterator.
-/

namespace Ygo

/-- The nodes that live, the undoable objects that live (the addresses of the nodes of `values_` in order, and `current_`), and an address
from which on none was used yet. -/
structure Memory (α : Type) where
  node : Nat → Option α
  obj : Nat → Option (List Nat × Nat)
  fresh : Nat

namespace Memory
variable {α : Type}

/-- Nothing lives. -/
def empty : Memory α := ⟨fun _ => none, fun _ => none, 0⟩

/-- A new node. -/
def alloc (m : Memory α) (v : α) : Memory α :=
  { m with node := fun a => if a = m.fresh then some v else m.node a, fresh := m.fresh + 1 }

/-- Nodes die. -/
def free (m : Memory α) (ns : List Nat) : Memory α :=
  { m with node := fun a => if a ∈ ns then none else m.node a }

/-- An object gets new members. -/
def put (m : Memory α) (o : Nat) (x : Option (List Nat × Nat)) : Memory α :=
  { m with obj := fun p => if p = o then x else m.obj p }

/-- Constructor (undoable.hpp:22-24): a list of one value-initialised node. -/
def construct (m : Memory α) (o : Nat) (d : α) : Memory α :=
  (m.alloc d).put o (some ([m.fresh], m.fresh))

/-- `operator ValueType const&` (undoable.hpp:26-29): the iterator is dereferenced, wherever its node is. -/
def read (m : Memory α) (o : Nat) : Res α := do
  let (_, cur) ← orUb (m.obj o)
  orUb (m.node cur)

/-- `operator=(U&&)` (undoable.hpp:31-38): `--values_.cend()` needs a node, and only iterators of the same list may be compared. -/
def assign (m : Memory α) (o : Nat) (v : α) : Res (Memory α) := do
  let (ns, cur) ← orUb (m.obj o)
  let last ← orUb ns.getLast?
  guardUb (cur ∈ ns)
  let (m, ns) := if cur = last then (m.alloc v, ns ++ [m.fresh]) else (m, ns)
  let cur ← orUb ns[ns.idxOf cur + 1]?
  return m.put o (some (ns, cur))

/-- `undo` (undoable.hpp:46-50). -/
def undo (m : Memory α) (o : Nat) : Res (Memory α) := do
  let (ns, cur) ← orUb (m.obj o)
  guardUb (cur ∈ ns)
  massert (ns.head? ≠ some cur)
  let cur ← orUb ns[ns.idxOf cur - 1]?
  return m.put o (some (ns, cur))

/-- Nodes with the same values, for a copied list. -/
def clone (m : Memory α) : List Nat → Memory α × List Nat
  | [] => (m, [])
  | a :: as =>
    match m.node a with
    | none => clone m as
    | some v =>
      let (m', ns) := clone (m.alloc v) as
      (m', m.fresh :: ns)

/-- The implicit copy constructor: the list is copied, and so is the iterator, which still points into the old list. -/
def copy (m : Memory α) (o p : Nat) : Res (Memory α) := do
  let (ns, cur) ← orUb (m.obj p)
  let (m, ns') := m.clone ns
  return m.put o (some (ns', cur))

/-- The implicit move constructor: the nodes change hands, the old list is left without. -/
def move (m : Memory α) (o p : Nat) : Res (Memory α) := do
  let (ns, cur) ← orUb (m.obj p)
  return (m.put o (some (ns, cur))).put p (some ([], cur))

/-- The implicit move assignment: the nodes of the target die first. -/
def moveAssign (m : Memory α) (o p : Nat) : Res (Memory α) := do
  let (old, oldCur) ← orUb (m.obj o)
  let m := (m.free old).put o (some ([], oldCur))
  let (ns, cur) ← orUb (m.obj p)
  return (m.put o (some (ns, cur))).put p (some ([], cur))

/-- The implicit destructor. -/
def destroy (m : Memory α) (o : Nat) : Res (Memory α) := do
  let (ns, _) ← orUb (m.obj o)
  return (m.free ns).put o none

end Memory

/-- What a program can do with undoable objects. -/
inductive UndoableOp (α : Type) where
  | construct (o : Nat) (d : α)
  | assign (o : Nat) (v : α)
  | undo (o : Nat)
  | copy (o p : Nat)
  | move (o p : Nat)
  | moveAssign (o p : Nat)
  | destroy (o : Nat)
  deriving DecidableEq

/-- One thing done. -/
def Memory.step {α : Type} (m : Memory α) : UndoableOp α → Res (Memory α)
  | .construct o d => .ok (m.construct o d)
  | .assign o v => m.assign o v
  | .undo o => m.undo o
  | .copy o p => m.copy o p
  | .move o p => m.move o p
  | .moveAssign o p => m.moveAssign o p
  | .destroy o => m.destroy o

/-- A program. -/
def Memory.run {α : Type} (m : Memory α) : List (UndoableOp α) → Res (Memory α)
  | [] => .ok m
  | op :: ops => do (← m.step op).run ops

end Ygo
