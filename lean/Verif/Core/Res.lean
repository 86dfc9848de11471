/-!
# Outcomes of modelled C++ code

`Res α` is the result of a piece of modelled C++ code that may return a value, abort on a failed
`assert`, or reach undefined behaviour (including `YGOPEN_UNREACHABLE`).  The failures are kept
apart: an abort is a detected contract violation, undefined behaviour is not.
-/

namespace Ygo

/-- How a call can fail to return. -/
inductive Err where
  /-- A failed `assert` (asserts are modelled as enabled). -/
  | assert
  /-- Undefined behaviour: out-of-bounds access, null dereference, `YGOPEN_UNREACHABLE`,
  read past the supplied buffer, read of an uninitialised value. -/
  | ub
  /-- A loop did not end within the given number of iterations (the dice loop of the room, which takes such a bound), or
  never ends (`MSG_SWAP_GRAVE_DECK` with 2^32 or more cards in the graveyard). -/
  | hang
  deriving DecidableEq, Repr

abbrev Res (α : Type) := Except Err α

instance {α : Type} [DecidableEq α] : DecidableEq (Res α) := fun a b =>
  match a, b with
  | .ok x, .ok y => if h : x = y then isTrue (by rw [h]) else isFalse (by intro e; cases e; exact h rfl)
  | .error x, .error y => if h : x = y then isTrue (by rw [h]) else isFalse (by intro e; cases e; exact h rfl)
  | .ok _, .error _ => isFalse (by intro e; cases e)
  | .error _, .ok _ => isFalse (by intro e; cases e)

/-- Undefined behaviour. -/
def ub {α : Type} : Res α := .error .ub

/-- `assert(p)`. -/
def massert (p : Prop) [Decidable p] : Res Unit := if p then .ok () else .error .assert

/-- A check whose failure is undefined behaviour (an unchecked index, a dereference). -/
def guardUb (p : Prop) [Decidable p] : Res Unit := if p then .ok () else .error .ub

/-- Dereference of a possibly null pointer, or unchecked element access. -/
def orUb {α : Type} : Option α → Res α
  | some a => .ok a
  | none => .error .ub

/-- `assert(x != nullptr)` followed by a use of `x`. -/
def orAssert {α : Type} : Option α → Res α
  | some a => .ok a
  | none => .error .assert

section lemmas
variable {α β : Type}

@[simp] theorem bind_ok (a : α) (f : α → Res β) : ((Except.ok a : Res α) >>= f) = f a := rfl
@[simp] theorem bind_error (e : Err) (f : α → Res β) :
    ((Except.error e : Res α) >>= f) = Except.error e := rfl
@[simp] theorem pure_eq_ok (a : α) : (pure a : Res α) = Except.ok a := rfl

@[simp] theorem bind_eq_ok {x : Res α} {f : α → Res β} {b : β} :
    (x >>= f) = .ok b ↔ ∃ a, x = .ok a ∧ f a = .ok b := by
  cases x <;> simp

@[simp] theorem bind_eq_error {x : Res α} {f : α → Res β} {e : Err} :
    (x >>= f) = .error e ↔ x = .error e ∨ ∃ a, x = .ok a ∧ f a = .error e := by
  cases x <;> simp

@[simp] theorem massert_eq_ok {p : Prop} [Decidable p] {u : Unit} : massert p = .ok u ↔ p := by
  unfold massert; split <;> simp [*]

theorem massert_true {p : Prop} [Decidable p] (h : p) : massert p = .ok () := by
  simp [h]

theorem massert_false {p : Prop} [Decidable p] (h : ¬ p) : massert p = .error .assert := by
  simp [massert, h]

@[simp] theorem massert_eq_error {p : Prop} [Decidable p] {e : Err} :
    massert p = .error e ↔ ¬ p ∧ e = .assert := by
  unfold massert; split <;> simp [*, eq_comm]

@[simp] theorem guardUb_eq_ok {p : Prop} [Decidable p] {u : Unit} : guardUb p = .ok u ↔ p := by
  unfold guardUb; split <;> simp [*]

@[simp] theorem guardUb_eq_error {p : Prop} [Decidable p] {e : Err} :
    guardUb p = .error e ↔ ¬ p ∧ e = .ub := by
  unfold guardUb; split <;> simp [*, eq_comm]

@[simp] theorem orUb_eq_ok {o : Option α} {a : α} : orUb o = .ok a ↔ o = some a := by
  cases o <;> simp [orUb]

@[simp] theorem orUb_eq_error {o : Option α} {e : Err} : orUb o = .error e ↔ o = none ∧ e = .ub := by
  cases o <;> simp [orUb, eq_comm]

@[simp] theorem orAssert_eq_ok {o : Option α} {a : α} : orAssert o = .ok a ↔ o = some a := by
  cases o <;> simp [orAssert]

@[simp] theorem orAssert_eq_error {o : Option α} {e : Err} :
    orAssert o = .error e ↔ o = none ∧ e = .assert := by
  cases o <;> simp [orAssert, eq_comm]

@[simp] theorem ub_eq : (ub : Res α) = .error .ub := rfl

@[simp] theorem map_eq_bind (f : α → β) (x : Res α) : f <$> x = x >>= fun a => .ok (f a) := by
  cases x <;> rfl

end lemmas

/-- A call returned (neither abort nor undefined behaviour). -/
def Returns {α : Type} (r : Res α) : Prop := ∃ a, r = .ok a

end Ygo
