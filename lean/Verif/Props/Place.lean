import Verif.Spec.Place

/-!
# C04, C05: places and locations
-/

namespace Ygo.Props
open Ygo Ygo.Spec

/-- **C04.** The comparison is the lexicographic order on (controller, location, sequence, overlay sequence). -/
theorem C04_less_is_lexicographic (a b : Place) : Place.less a b = true ↔ PlaceLt a b := by
  unfold Place.less PlaceLt
  split
  · simp_all
  split
  · simp; omega
  split
  · simp; omega
  split
  · simp; omega
  split
  · simp; omega
  split
  · simp; omega
  split
  · simp; omega
  · simp; omega

/-- **C04.** `operator==` is equality of all four fields. -/
theorem C04_eq_is_field_equality (a b : Place) :
    Place.eqv a b = true ↔ a.con = b.con ∧ a.loc = b.loc ∧ a.seq = b.seq ∧ a.oseq = b.oseq := by
  have h1 := C04_less_is_lexicographic a b
  have h2 := C04_less_is_lexicographic b a
  unfold Place.eqv
  unfold PlaceLt at *
  cases ha : Place.less a b <;> cases hb : Place.less b a <;> simp_all <;> omega

/-- **C04.** Strict total order: irreflexive, transitive, and any two different places are comparable, so no two
different places are merged by an ordered container. -/
theorem C04_less_strict_total_order :
    (∀ a, Place.less a a = false) ∧
    (∀ a b c, Place.less a b = true → Place.less b c = true → Place.less a c = true) ∧
    (∀ a b, Place.less a b = true ∨ a = b ∨ Place.less b a = true) := by
  refine ⟨?_, ?_, ?_⟩
  · intro a
    rw [Bool.eq_false_iff]
    intro h
    rw [C04_less_is_lexicographic] at h
    unfold PlaceLt at h; omega
  · intro a b c h1 h2
    rw [C04_less_is_lexicographic] at *
    unfold PlaceLt at *; omega
  · intro a b
    rw [C04_less_is_lexicographic, C04_less_is_lexicographic]
    unfold PlaceLt
    rcases a with ⟨a1, a2, a3, a4⟩
    rcases b with ⟨b1, b2, b3, b4⟩
    simp only [Place.mk.injEq]
    omega

example : Place.less ⟨-1, 4, 2, -1⟩ ⟨-1, 4, 2, 0⟩ = true ∧ Place.eqv ⟨0, 4, 2, -1⟩ ⟨0, 4, 2, 0⟩ = false := by decide

/-- **C05.** The bit tests decide "has a pile bit" / "has a zone bit": for every value, `is_pile` holds iff one of the
five pile bits is set, and `is_zone` iff one of the five zone bits is set. -/
theorem C05_classification_bits (loc : Nat) :
    (locIsPile loc = true ↔ loc.testBit 0 ∨ loc.testBit 1 ∨ loc.testBit 4 ∨ loc.testBit 5 ∨ loc.testBit 6) ∧
    (locIsZone loc = true ↔ loc.testBit 2 ∨ loc.testBit 3 ∨ loc.testBit 8 ∨ loc.testBit 9 ∨ loc.testBit 10) := by
  have key : ∀ m : Nat, (loc &&& m ≠ 0) ↔ ∃ i, loc.testBit i = true ∧ m.testBit i = true := by
    intro m
    constructor
    · intro h
      obtain ⟨i, hi⟩ := Nat.exists_testBit_of_ne_zero h
      rw [Nat.testBit_and] at hi
      exact ⟨i, by simpa using hi⟩
    · rintro ⟨i, h1, h2⟩ h
      have : (loc &&& m).testBit i = true := by simp [h1, h2]
      rw [h] at this; simp at this
  have bits : ∀ (m : Nat), m < 2 ^ 11 → ∀ i, m.testBit i = true → i < 11 := by
    intro m hm i hi
    apply Classical.byContradiction
    intro h
    have : m.testBit i = false :=
      Nat.testBit_lt_two_pow (Nat.lt_of_lt_of_le hm (Nat.pow_le_pow_right (by omega) (by omega)))
    simp [this] at hi
  constructor
  · have e : locIsPile loc = true ↔ loc &&& 0x73 ≠ 0 := by
      rw [show locIsPile loc = ((loc &&& 0x73) != 0) from rfl]; simp
    rw [e, key]
    constructor
    · rintro ⟨i, h1, h2⟩
      have := bits _ (by decide) i h2
      have hi : i = 0 ∨ i = 1 ∨ i = 2 ∨ i = 3 ∨ i = 4 ∨ i = 5 ∨ i = 6 ∨ i = 7 ∨ i = 8 ∨ i = 9 ∨ i = 10 := by omega
      rcases hi with rfl | rfl | rfl | rfl | rfl | rfl | rfl | rfl | rfl | rfl | rfl <;>
        first | exact absurd h2 (by decide) | simp_all
    · rintro (h | h | h | h | h)
      · exact ⟨0, h, by decide⟩
      · exact ⟨1, h, by decide⟩
      · exact ⟨4, h, by decide⟩
      · exact ⟨5, h, by decide⟩
      · exact ⟨6, h, by decide⟩
  · have e : locIsZone loc = true ↔ loc &&& 0x70c ≠ 0 := by
      rw [show locIsZone loc = ((loc &&& 0x70c) != 0) from rfl]; simp
    rw [e, key]
    constructor
    · rintro ⟨i, h1, h2⟩
      have := bits _ (by decide) i h2
      have hi : i = 0 ∨ i = 1 ∨ i = 2 ∨ i = 3 ∨ i = 4 ∨ i = 5 ∨ i = 6 ∨ i = 7 ∨ i = 8 ∨ i = 9 ∨ i = 10 := by omega
      rcases hi with rfl | rfl | rfl | rfl | rfl | rfl | rfl | rfl | rfl | rfl | rfl <;>
        first | exact absurd h2 (by decide) | simp_all
    · rintro (h | h | h | h | h)
      · exact ⟨2, h, by decide⟩
      · exact ⟨3, h, by decide⟩
      · exact ⟨8, h, by decide⟩
      · exact ⟨9, h, by decide⟩
      · exact ⟨10, h, by decide⟩

/-- **C05.** Each pile constant is a pile and nothing else, each zone constant is a zone and nothing else. -/
theorem C05_constants_classified :
    (∀ l ∈ pileLocs, locIsPile l = true ∧ locIsZone l = false ∧ locIsEmpty l = false) ∧
    (∀ l ∈ zoneLocs, locIsPile l.1 = false ∧ locIsZone l.1 = true ∧ locIsEmpty l.1 = false) := by
  constructor <;> decide

/-- **C05.** `is_empty` holds exactly for 0, which is neither a pile nor a zone. -/
theorem C05_empty_iff (loc : Nat) :
    (locIsEmpty loc = true ↔ loc = 0) ∧ (locIsEmpty loc = true → locIsPile loc = false ∧ locIsZone loc = false) := by
  constructor
  · simp [locIsEmpty]
  · intro h
    have : loc = 0 := by simpa [locIsEmpty] using h
    subst this; decide

/-- **C05.** The sequence limit is the row length for exactly the five zone locations; for every other value it is
`YGOPEN_UNREACHABLE`. -/
theorem C05_zone_limits (loc n : Nat) :
    (zoneSeqLim loc = .ok n ↔ (loc, n) ∈ zoneLocs) ∧
    (zoneSeqLim loc = .error .ub ↔ ¬ ∃ m, (loc, m) ∈ zoneLocs) := by
  unfold zoneSeqLim zoneLocs
  simp only [Loc.monsterZone, Loc.spellZone, Loc.fieldZone, Loc.pendulumZone, Loc.skillZone]
  repeat' split
  all_goals subst_vars; simp_all; try omega
  all_goals rintro _ (h | h | h | h | h) <;> omega

end Ygo.Props
