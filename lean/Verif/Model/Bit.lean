import Verif.Core.Res

/-!
# Model of `include/ygopen/bit.hpp`

A value of an unsigned type `T` with `digits` bits is a natural number below `2 ^ digits`.
-/

namespace Ygo.Bit

theorem and_pred_lt {x : Nat} (h : x ≠ 0) : x &&& (x - 1) < x :=
  Nat.lt_of_le_of_lt Nat.and_le_right (by omega)

/-- `popcnt`, portable branch (bit.hpp:18-38, loop at 30-36): clear the lowest set bit until zero.
The other two preprocessor branches call `std::popcount` / `__builtin_popcount`, which are trusted to
compute the same function. -/
def popcnt (x : Nat) : Nat :=
  if h : x = 0 then 0 else 1 + popcnt (x &&& (x - 1))
termination_by x
decreasing_by exact and_pred_lt h

/-- `1U << k` (bit.hpp:50, :68): `1U` is a 32-bit `unsigned`, so a shift by 32 or more is undefined. -/
def shl1U (k : Nat) : Res Nat := if k < 32 then .ok (2 ^ k) else ub

/-- Loop of `choosel` (bit.hpp:48-54), `i` counting down. -/
def choosel.loop (count x : Nat) : (i chosen : Nat) → Res Nat
  | 0, chosen => .ok chosen
  | i + 1, chosen => do
    let m ← shl1U i
    let chosen := chosen ||| (x &&& m)
    if popcnt chosen ≥ count then .ok chosen else choosel.loop count x i chosen

/-- `choosel` (bit.hpp:42-56) for a type with `digits` bits. -/
def choosel (digits count x : Nat) : Res Nat := choosel.loop count x digits 0

/-- Loop of `chooser` (bit.hpp:66-70), `i` counting up to `digits`. -/
def chooser.loop (digits count x i chosen : Nat) : Res Nat :=
  if i < digits ∧ popcnt chosen < count then do
    let m ← shl1U i
    chooser.loop digits count x (i + 1) (chosen ||| (x &&& m))
  else .ok chosen
termination_by digits - i

/-- `chooser` (bit.hpp:60-72) for a type with `digits` bits. -/
def chooser (digits count x : Nat) : Res Nat := chooser.loop digits count x 0 0

end Ygo.Bit
