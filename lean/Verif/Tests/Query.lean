import Verif.Model.Query
import Verif.Tests.Basic

/-!
# The unit tests of the repository, run on the model: `test/parse_query.cpp`, `test/parse_event.cpp`

The twenty-one tests of `test/parse_query.cpp` differ only in the field and in the values.
-/

namespace Ygo.Tests
open Ygo

/-- A new card. -/
def blank : Card Plain := ⟨fun f => ⟨f.zero⟩, ⟨[]⟩, ⟨[]⟩⟩

/-- A query about one field. -/
def only (f : QField) (v : f.Val) : QueryData := ⟨fun g => if h : g = f then some (h ▸ v) else none, none, none⟩

/-- A query about nothing. -/
def nothing : QueryData := ⟨fun _ => none, none, none⟩

/-- `…SettingWorks`, for one field and the two values used. -/
def settingWorks (f : QField) (v1 v2 : f.Val) : Res Unit := do
  expect ((blank.single f).val = f.zero)
  let (hits, c) ← blank.parseData false (only f v1)
  expect ((c.single f).val = v1)
  expect (hits = 0)
  let (hits, c) ← c.parseData false (only f v1)
  expect (hits = 0)
  let (hits, c) ← c.parseData false nothing
  expect ((c.single f).val = v1)
  expect (hits = 0)
  let (hits, c) ← c.parseData true (only f v1)
  expect ((c.single f).val = v1)
  expect (hits = f.flag)
  let (hits, c) ← c.parseData true (only f v2)
  expect ((c.single f).val = v2)
  expect (hits = 0)

example : passes (settingWorks .owner (1 : Int) (0 : Int)) = true := by decide +kernel
example : passes (settingWorks .isPublic true false) = true := by decide +kernel
example : passes (settingWorks .isHidden true false) = true := by decide +kernel
example : passes (settingWorks .position (12345 : Nat) (67890 : Nat)) = true := by decide +kernel
example : passes (settingWorks .cover (12345 : Nat) (67890 : Nat)) = true := by decide +kernel
example : passes (settingWorks .status (12345 : Nat) (67890 : Nat)) = true := by decide +kernel
example : passes (settingWorks .code (12345 : Nat) (67890 : Nat)) = true := by decide +kernel
example : passes (settingWorks .alias (12345 : Nat) (67890 : Nat)) = true := by decide +kernel
example : passes (settingWorks .type (12345 : Nat) (67890 : Nat)) = true := by decide +kernel
example : passes (settingWorks .level (12345 : Int) (67890 : Int)) = true := by decide +kernel
example : passes (settingWorks .xyzRank (12345 : Nat) (67890 : Nat)) = true := by decide +kernel
example : passes (settingWorks .attribute (12345 : Nat) (67890 : Nat)) = true := by decide +kernel
example : passes (settingWorks .race (12345 : Nat) (67890 : Nat)) = true := by decide +kernel
example : passes (settingWorks .baseAtk (12345 : Int) (67890 : Int)) = true := by decide +kernel
example : passes (settingWorks .atk (12345 : Int) (67890 : Int)) = true := by decide +kernel
example : passes (settingWorks .baseDef (12345 : Int) (67890 : Int)) = true := by decide +kernel
example : passes (settingWorks .def_ (12345 : Int) (67890 : Int)) = true := by decide +kernel
example : passes (settingWorks .pendLScale (12345 : Nat) (67890 : Nat)) = true := by decide +kernel
example : passes (settingWorks .pendRScale (12345 : Nat) (67890 : Nat)) = true := by decide +kernel
example : passes (settingWorks .linkRate (12345 : Nat) (67890 : Nat)) = true := by decide +kernel
example : passes (settingWorks .linkArrow (12345 : Nat) (67890 : Nat)) = true := by decide +kernel

/-- `BoardExchangeWorks` and `BoardStateWorks`: both play and undo an empty event. -/
def emptyEventWorks : Res Unit := do
  let b ← UndoBoard.init.parseEvent .unset
  let _ ← UndoBoard.undoParseEvent b .unset
example : passes emptyEventWorks = true := by decide +kernel

end Ygo.Tests
