import Verif.Lemmas.Bit

/-!
# C01, C02, C03: bit utilities
-/

namespace Ygo.Props
open Ygo.Bit Ygo.Spec

/-- **C01.** The portable `popcnt` loop terminates and returns the number of 1 bits, for every width. -/
theorem C01_popcnt_counts_ones (w x : Nat) (h : x < 2 ^ w) : popcnt x = ones w x :=
  popcnt_eq_ones w x h

example : popcnt 0xF0F1 = 9 ∧ ones 16 0xF0F1 = 9 := by
  constructor
  · rw [C01_popcnt_counts_ones 16 _ (by decide)]; decide
  · decide

/-- **C02.** For types of at most 32 bits `chooser` returns, and what it returns is the lowest
`min count (ones x)` bits of `x`. -/
theorem C02_chooser_picks_lowest (w count x : Nat) (hw : w ≤ 32) (hx : x < 2 ^ w) :
    ∃ r, chooser w count x = .ok r ∧ LowestBits w count x r := by
  have := chooser_loop_spec (count := count) (i := 0) hw hx (by omega) (by rw [ones_zero]; omega)
  simpa [chooser, low, Nat.mod_one] using this

/-- The specification determines the result, so C02 pins `chooser` down completely. -/
theorem C02_lowest_unique (w count x r s : Nat) (hr : r < 2 ^ w) (hs : s < 2 ^ w)
    (h1 : LowestBits w count x r) (h2 : LowestBits w count x s) : r = s := by
  have mono : ∀ (v a b : Nat), (∀ i, i < v → a.testBit i = true → b.testBit i = true) →
      ones v a ≤ ones v b ∧ (ones v a = ones v b → ∀ i, i < v → b.testBit i = true → a.testBit i = true) := by
    intro v
    induction v with
    | zero => intro a b _; exact ⟨Nat.le_refl _, fun _ i hi => absurd hi (by omega)⟩
    | succ v ih =>
      intro a b hab
      obtain ⟨l, e⟩ := ih a b (fun i hi => hab i (by omega))
      have hv := hab v (by omega)
      rw [ones_succ, ones_succ]
      refine ⟨by split <;> split <;> simp_all <;> omega, ?_⟩
      intro heq i hi hb
      by_cases hiv : i = v
      · subst hiv
        by_cases ha : a.testBit i = true
        · exact ha
        · simp [ha, hb] at heq; omega
      · refine e ?_ i (by omega) hb
        by_cases ha : a.testBit v = true
        · simp [ha, hv ha] at heq; omega
        · simp [ha] at heq; split at heq <;> omega
  have sub : ∀ (a b : Nat), a < 2 ^ w → b < 2 ^ w → LowestBits w count x a → LowestBits w count x b →
      (∀ i, a.testBit i = true → b.testBit i = true) := by
    intro a b ha hb h1 h2
    apply Classical.byContradiction
    intro hcon
    obtain ⟨i, hcon⟩ := Classical.not_forall.mp hcon
    obtain ⟨hai, hbi⟩ := Classical.not_imp.mp hcon
    have hiw : i < w := by
      apply Classical.byContradiction
      intro hge
      have : a.testBit i = false := Nat.testBit_lt_two_pow (Nat.lt_of_lt_of_le ha (Nat.pow_le_pow_right (by omega) (by omega)))
      simp [this] at hai
    -- every bit of b is below i, hence chosen in a
    have hba : ∀ j, j < w → b.testBit j = true → a.testBit j = true := by
      intro j _ hj
      rcases Nat.lt_trichotomy j i with h | h | h
      · exact h1.lowest j i h hai (h2.sub j hj)
      · subst h; exact absurd hj hbi
      · exact absurd (h2.lowest i j h hj (h1.sub i hai)) hbi
    have := (mono w b a hba).2 (by rw [h1.card, h2.card]) i hiw hai
    exact hbi this
  apply Nat.eq_of_testBit_eq
  intro i
  have a := sub r s hr hs h1 h2 i
  have b := sub s r hs hr h2 h1 i
  cases hx : r.testBit i <;> cases hy : s.testBit i <;> simp_all

example : chooser 8 2 0b11010110 = .ok 0b110 := by
  simp [chooser, chooser.loop, shl1U, popcnt_eq_ones 8]; decide

/-- **C02, outside the 32-bit range.** For a 64-bit type, `chooser` reaches an undefined shift exactly
when the low half does not hold enough bits. -/
theorem C02_chooser64_ub_iff (count x : Nat) (hx : x < 2 ^ 64) :
    chooser 64 count x = .error .ub ↔ ones 32 x < count := by
  have key : ∀ n i, n = 32 - i → i ≤ 32 → ones i x ≤ count →
      (chooser.loop 64 count x i (low i x) = .error .ub ↔ ones 32 x < count) := by
    intro n
    induction n with
    | zero =>
      intro i hn hi hc
      have : i = 32 := by omega
      subst this
      rw [chooser.loop, popcnt_eq_ones 64 _ (low_lt 32 64 x hx), ones_low (by omega)]
      by_cases h : ones 32 x < count <;> simp [h, shl1U]
    | succ n ih =>
      intro i hn hi hc
      rw [chooser.loop, popcnt_eq_ones 64 _ (low_lt i 64 x hx), ones_low (by omega)]
      by_cases h : ones i x < count
      · rw [if_pos ⟨by omega, h⟩]
        simp only [shl1U, if_pos (show i < 32 by omega), bind_ok, low_step]
        apply ih (i + 1) (by omega) (by omega)
        rw [ones_succ]; split <;> omega
      · rw [if_neg (by omega)]
        have := ones_mono_width (x := x) hi
        simp; omega
  have := key 32 0 rfl (by omega) (by rw [ones_zero]; omega)
  simpa [chooser, low, Nat.mod_one] using this

example : chooser 64 1 (2 ^ 40) = .error .ub :=
  (C02_chooser64_ub_iff 1 (2 ^ 40) (by decide)).mpr (by decide)

/-- **C03 (partial: `count` must be positive).** For types of at most 32 bits `choosel` returns the highest
`min count (ones x)` bits of `x`.  Missing from the full claim: `count = 0`, where it is false, see
`C03_choosel_zero_not_empty`. -/
theorem C03_choosel_picks_highest_partial (w count x : Nat) (hw : w ≤ 32) (hx : x < 2 ^ w)
    (hc : 0 < count) : ∃ r, choosel w count x = .ok r ∧ HighestBits w count x r := by
  have hz : high w x = 0 := by simp [high, Nat.div_eq_of_lt hx]
  have := choosel_loop_spec (count := count) (i := w) hw hx (Nat.le_refl _) (by rw [hz, ones_zero_right]; exact hc)
  rw [hz] at this
  exact this

example : choosel 8 2 0b01010110 = .ok 0b01010000 := by
  simp [choosel, choosel.loop, shl1U, popcnt_eq_ones 8]; decide

/-- **C03, the defect.** With `count = 0` and at least one bit of width, the result is the top bit of `x`
if that bit is set, and empty otherwise. -/
theorem C03_choosel_zero_exact (w x : Nat) (hw : w + 1 ≤ 32) :
    choosel (w + 1) 0 x = .ok (if x.testBit w then 2 ^ w else 0) := by
  simp only [choosel, choosel.loop, shl1U, if_pos (show w < 32 by omega), bind_ok]
  rw [if_pos (Nat.zero_le _)]
  congr 1
  apply Nat.eq_of_testBit_eq
  intro j
  by_cases h : x.testBit w <;> simp [h, Nat.testBit_two_pow]
  · intro h1; subst h1; exact h
  · intro h1 h2; subst h2; exact h h1

/-- **C03 is false as stated**: choosing at most zero bits can return one bit. -/
theorem C03_choosel_zero_not_empty :
    ¬ ∀ w count x, w ≤ 32 → x < 2 ^ w → ∃ r, choosel w count x = .ok r ∧ HighestBits w count x r := by
  intro h
  obtain ⟨r, hr, hs⟩ := h 8 0 0x80 (by decide) (by decide)
  rw [C03_choosel_zero_exact 7 _ (by decide)] at hr
  have : r = 0x80 := by
    have : (if (0x80 : Nat).testBit 7 then 2 ^ 7 else 0) = r := by simpa using hr
    rw [← this]; decide
  subst this
  exact absurd hs.card (by decide)

/-- **C03, outside the 32-bit range.** For a 64-bit type every call of `choosel` is undefined. -/
theorem C03_choosel64_always_ub (count x : Nat) : choosel 64 count x = .error .ub := by
  rw [choosel, choosel.loop, shl1U, if_neg (by decide)]
  rfl

end Ygo.Props
