import Verif.Core.Res

/-!
# Model of `BasicUndoable` (`include/ygopen/client/undoable.hpp`)

The list of values with an iterator is a list with an index.
-/

namespace Ygo

/-- `BasicUndoable` members (undoable.hpp:88-90). -/
structure Undoable (α : Type) where
  values : List α
  current : Nat
  deriving DecidableEq, Repr

namespace Undoable
variable {α : Type}

/-- Constructor: one value-initialised value (undoable.hpp:22-24). -/
def init (default : α) : Undoable α := ⟨[default], 0⟩

/-- `operator ValueType const&` (undoable.hpp:26-29): dereference of the iterator. -/
def get (u : Undoable α) : Res α := orUb u.values[u.current]?

/-- `operator=` and `assign` (undoable.hpp:31-38, 62-68): append only when at the last value, then advance. -/
def set (u : Undoable α) (v : α) : Undoable α :=
  let values := if u.current + 1 = u.values.length then u.values ++ [v] else u.values
  ⟨values, u.current + 1⟩

/-- `undo` (undoable.hpp:46-50). -/
def undo (u : Undoable α) : Res (Undoable α) := do
  massert (u.current ≠ 0)
  return ⟨u.values, u.current - 1⟩

/-- `push_back`, `pop_back`, `undo_push_back`, `undo_pop_back` (undoable.hpp:70-92): `assert(false)`. -/
def unsupported (_u : Undoable α) : Res (Undoable α) := .error .assert

end Undoable
end Ygo
