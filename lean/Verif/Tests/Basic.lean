import Verif.Model.Bit
import Verif.Model.Place
import Verif.Model.Undoable

/-!
# The unit tests of the repository, run on the model: `test/bit.cpp`, `test/place.cpp`, `test/undoable.cpp`

A failed expectation is the outcome `hang`, which none of the tested code has.  Every test passes on the model as it does on the code,
so the model is not only read off the code but also agrees with it where its authors wrote down what it does.
-/

namespace Ygo.Tests
open Ygo

/-- `EXPECT_TRUE` and `ASSERT_TRUE`. -/
def expect (b : Prop) [Decidable b] : Res Unit := if b then .ok () else .error .hang

/-- `EXPECT_DEATH`. -/
def dies {α : Type} (r : Res α) : Res Unit :=
  match r with
  | .ok _ => .error .hang
  | .error _ => .ok ()

/-- The test ran to its end. -/
def passes (t : Res Unit) : Bool := t.toOption.isSome

/-! ## test/bit.cpp -/

/-- `PopcntWorks`. -/
def popcntWorks : Res Unit := do
  expect (Bit.popcnt 0 = 0)
  expect (Bit.popcnt (2 ^ 32 - 1) = 32)
  expect (Bit.popcnt (2 ^ 64 - 1) = 64)
  expect (Bit.popcnt 0b10100101 = 4)
example : passes popcntWorks = true := by decide +kernel

/-- `ChooseLWorks`. -/
def chooseLWorks : Res Unit := do
  expect ((← Bit.choosel 32 0 0b11111111) = 0b00000000)
  expect ((← Bit.choosel 32 1 0b11111111) = 0b10000000)
  expect ((← Bit.choosel 32 4 0b00111111) = 0b00111100)
  expect ((← Bit.choosel 32 2 0b00000101) = 0b00000101)
  expect ((← Bit.choosel 32 9 0b11111111) = 0b11111111)
example : passes chooseLWorks = true := by decide +kernel

/-- `ChooseRWorks`. -/
def chooseRWorks : Res Unit := do
  expect ((← Bit.chooser 32 0 0b11111111) = 0b00000000)
  expect ((← Bit.chooser 32 1 0b11111111) = 0b00000001)
  expect ((← Bit.chooser 32 4 0b00111111) = 0b00001111)
  expect ((← Bit.chooser 32 2 0b10100000) = 0b10100000)
  expect ((← Bit.chooser 32 9 0b11111111) = 0b11111111)
example : passes chooseRWorks = true := by decide +kernel

/-! ## test/place.cpp -/

/-- `ZeroInitializedWorks`. -/
example : (⟨0, 0, 0, 0⟩ : Place).isEmpty = true := by decide

/-- `PlaceLessWorks`. -/
def placeLessWorks : Res Unit := do
  let equivalent (p1 p2 : Place) : Res Unit := do
    expect (p1.less p2 = false)
    expect (p2.less p1 = false)
  let greater (p1 p2 : Place) : Res Unit := do
    expect (p1.less p2 = false)
    expect (p2.less p1 = true)
  equivalent ⟨0, 0, 0, 0⟩ ⟨0, 0, 0, 0⟩
  greater ⟨1, 0, 0, 0⟩ ⟨0, 0, 0, 0⟩
  equivalent ⟨1, 0, 0, 0⟩ ⟨1, 0, 0, 0⟩
  greater ⟨1, Loc.mainDeck, 0, 0⟩ ⟨1, 0, 0, 0⟩
  equivalent ⟨1, Loc.mainDeck, 0, 0⟩ ⟨1, Loc.mainDeck, 0, 0⟩
  greater ⟨1, Loc.mainDeck, 1, 0⟩ ⟨1, Loc.mainDeck, 0, 0⟩
  equivalent ⟨1, Loc.mainDeck, 1, 0⟩ ⟨1, Loc.mainDeck, 1, 0⟩
  greater ⟨1, Loc.mainDeck, 1, 1⟩ ⟨1, Loc.mainDeck, 1, 0⟩
  equivalent ⟨1, Loc.mainDeck, 1, 1⟩ ⟨1, Loc.mainDeck, 1, 1⟩
  greater ⟨1, Loc.mainDeck, 1, 1⟩ ⟨1, Loc.mainDeck, 1, -1⟩
example : passes placeLessWorks = true := by decide +kernel

/-! ## test/undoable.cpp -/

/-- `AppendingWorks`. -/
def appendingWorks : Res Unit := do
  let v := Undoable.init 0
  expect ((← v.get) = 0)
  let v := v.set 123
  expect ((← v.get) = 123)
  let v := v.set 456
  expect ((← v.get) = 456)
  let v ← v.undo
  expect ((← v.get) = 123)
  let v ← v.undo
  expect ((← v.get) = 0)
example : passes appendingWorks = true := by decide +kernel

/-- `NoOpWhenNotAtLast`. -/
def noOpWhenNotAtLast : Res Unit := do
  let v := (Undoable.init 0).set 123
  let v ← v.undo
  let v := v.set 456
  expect ((← v.get) = 123)
example : passes noOpWhenNotAtLast = true := by decide +kernel

/-- `UndoCalledTooMuchDies`. -/
def undoCalledTooMuchDies : Res Unit := do
  let v := (Undoable.init 0).set 123
  dies do
    let v ← v.undo
    v.undo
example : passes undoCalledTooMuchDies = true := by decide +kernel

end Ygo.Tests
