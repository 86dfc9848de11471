import Verif.Model.Bit
import Verif.Spec.Bit

namespace Ygo.Bit
open Ygo.Spec

theorem ones_zero (x : Nat) : ones 0 x = 0 := rfl

theorem ones_succ (w x : Nat) : ones (w + 1) x = ones w x + if x.testBit w then 1 else 0 := by
  unfold ones
  rw [List.range_succ, List.filter_append, List.length_append]
  by_cases h : x.testBit w <;> simp [h]

theorem ones_le (w x : Nat) : ones w x ≤ w := by
  induction w with
  | zero => simp [ones_zero]
  | succ w ih => rw [ones_succ]; split <;> omega

theorem ones_zero_right (w : Nat) : ones w 0 = 0 := by
  induction w with
  | zero => rfl
  | succ w ih => rw [ones_succ, ih]; simp

theorem ones_congr {w x y : Nat} (h : ∀ i, i < w → x.testBit i = y.testBit i) : ones w x = ones w y := by
  induction w with
  | zero => rfl
  | succ w ih => rw [ones_succ, ones_succ, ih (fun i hi => h i (by omega)), h w (by omega)]

theorem ones_mono_width {w v x : Nat} (h : w ≤ v) : ones w x ≤ ones v x := by
  induction h with
  | refl => exact Nat.le_refl _
  | step _ ih => rw [ones_succ]; omega

/-- Peel the lowest bit. -/
theorem ones_succ' (w x : Nat) : ones (w + 1) x = (if x.testBit 0 then 1 else 0) + ones w (x / 2) := by
  induction w with
  | zero => rw [ones_succ, ones_zero, ones_zero]; omega
  | succ w ih =>
    rw [ones_succ, ih, ones_succ w]
    rw [show x.testBit (w + 1) = (x / 2).testBit w from Nat.testBit_succ ..]
    omega

theorem and_pred_odd (y : Nat) : (2 * y + 1) &&& (2 * y + 1 - 1) = 2 * y := by
  apply Nat.eq_of_testBit_eq
  intro i
  rw [Nat.testBit_and]
  cases i with
  | zero => simp
  | succ i =>
    simp only [Nat.testBit_succ]
    rw [show (2 * y + 1) / 2 = y by omega, show (2 * y + 1 - 1) / 2 = y by omega, show 2 * y / 2 = y by omega]
    simp

theorem and_pred_even {y : Nat} (_ : y ≠ 0) : (2 * y) &&& (2 * y - 1) = 2 * (y &&& (y - 1)) := by
  apply Nat.eq_of_testBit_eq
  intro i
  rw [Nat.testBit_and]
  cases i with
  | zero => simp
  | succ i =>
    rw [Nat.testBit_succ, Nat.testBit_succ, Nat.testBit_succ]
    rw [show 2 * y / 2 = y by omega, show (2 * y - 1) / 2 = y - 1 by omega,
      show 2 * (y &&& (y - 1)) / 2 = y &&& (y - 1) by omega, Nat.testBit_and]

theorem popcnt_zero : popcnt 0 = 0 := by rw [popcnt]; simp

theorem popcnt_double (y : Nat) : popcnt (2 * y) = popcnt y := by
  induction y using Nat.strongRecOn with
  | _ y ih =>
    by_cases h : y = 0
    · subst h; rfl
    · rw [popcnt, dif_neg (by omega), and_pred_even h, ih _ (and_pred_lt h)]
      conv => rhs; rw [popcnt, dif_neg h]

theorem popcnt_double_succ (y : Nat) : popcnt (2 * y + 1) = 1 + popcnt y := by
  rw [popcnt, dif_neg (by omega), and_pred_odd, popcnt_double]

theorem popcnt_eq_ones (w x : Nat) (h : x < 2 ^ w) : popcnt x = ones w x := by
  induction w generalizing x with
  | zero => rw [show x = 0 by simpa using h, popcnt_zero, ones_zero]
  | succ w ih =>
    rw [Nat.pow_succ] at h
    rw [ones_succ', ← ih (x / 2) (by omega)]
    rcases Nat.mod_two_eq_zero_or_one x with h0 | h1
    · have e : x = 2 * (x / 2) := by omega
      have t : x.testBit 0 = false := by simp [Nat.testBit_zero, h0]
      rw [t]
      conv => lhs; rw [e, popcnt_double]
      simp
    · have e : x = 2 * (x / 2) + 1 := by omega
      have t : x.testBit 0 = true := by simp [Nat.testBit_zero, h1]
      rw [t]
      conv => lhs; rw [e, popcnt_double_succ]
      simp

/-! ## The loop states -/

/-- Lowest `i` bits of `x`. -/
def low (i x : Nat) : Nat := x % 2 ^ i
/-- `x` without its lowest `i` bits. -/
def high (i x : Nat) : Nat := x / 2 ^ i * 2 ^ i

theorem testBit_low (i x j : Nat) : (low i x).testBit j = (decide (j < i) && x.testBit j) := by
  simp [low, Nat.testBit_mod_two_pow]

theorem testBit_high (i x j : Nat) : (high i x).testBit j = (decide (i ≤ j) && x.testBit j) := by
  rw [high, Nat.mul_comm, Nat.testBit_two_pow_mul, Nat.testBit_div_two_pow]
  by_cases h : i ≤ j
  · simp [h, show j - i + i = j by omega]
  · simp [h]

theorem low_step (i x : Nat) : low i x ||| (x &&& 2 ^ i) = low (i + 1) x := by
  apply Nat.eq_of_testBit_eq
  intro j
  rw [Nat.testBit_or, Nat.testBit_and, testBit_low, testBit_low, Nat.testBit_two_pow]
  by_cases h : j = i
  · subst h; simp
  · by_cases h2 : j < i
    · have : ¬ i = j := by omega
      simp [h2, this, show j < i + 1 by omega]
    · have : ¬ i = j := by omega
      simp [h2, this, show ¬ j < i + 1 by omega]

theorem high_step (i x : Nat) : high (i + 1) x ||| (x &&& 2 ^ i) = high i x := by
  apply Nat.eq_of_testBit_eq
  intro j
  rw [Nat.testBit_or, Nat.testBit_and, testBit_high, testBit_high, Nat.testBit_two_pow]
  by_cases h : j = i
  · subst h; simp
  · have h' : ¬ i = j := by omega
    by_cases h2 : i ≤ j
    · simp [h2, h', show i + 1 ≤ j by omega]
    · simp [h2, h', show ¬ i + 1 ≤ j by omega]

theorem low_lt (i w x : Nat) (h : x < 2 ^ w) : low i x < 2 ^ w :=
  Nat.lt_of_le_of_lt (Nat.mod_le _ _) h

theorem high_le (i x : Nat) : high i x ≤ x := Nat.div_mul_le_self _ _

theorem ones_low {i w x : Nat} (h : i ≤ w) : ones w (low i x) = ones i x := by
  induction w with
  | zero => rw [show i = 0 by omega]; rfl
  | succ w ih =>
    by_cases hi : i ≤ w
    · rw [ones_succ, ih hi, testBit_low]
      simp [show ¬ w < i by omega]
    · have : i = w + 1 := by omega
      subst this
      apply ones_congr
      intro j hj
      simp [testBit_low, hj]

theorem ones_high {i w x : Nat} (h : i ≤ w) : ones w (high i x) + ones i x = ones w x := by
  induction w with
  | zero => rw [show i = 0 by omega]; simp [ones_zero]
  | succ w ih =>
    by_cases hi : i ≤ w
    · rw [ones_succ, ones_succ w x, ← ih hi, testBit_high]
      simp [hi]; omega
    · have : i = w + 1 := by omega
      subst this
      have : ones (w + 1) (high (w + 1) x) = ones (w + 1) 0 := by
        apply ones_congr
        intro j hj
        simp [testBit_high, show ¬ w + 1 ≤ j by omega]
      rw [this, ones_zero_right]; omega

theorem low_spec {w count x i : Nat} (hi : i ≤ w) (hc : ones i x = min count (ones w x)) :
    LowestBits w count x (low i x) where
  sub := by intro j hj; rw [testBit_low] at hj; simp at hj; exact hj.2
  card := by rw [ones_low hi, hc]
  lowest := by
    intro a b hab hb ha
    rw [testBit_low] at *
    simp at *
    exact ⟨by omega, ha⟩

theorem high_spec {w count x i : Nat} (hc : ones w (high i x) = min count (ones w x)) :
    HighestBits w count x (high i x) where
  sub := by intro j hj; rw [testBit_high] at hj; simp at hj; exact hj.2
  card := hc
  highest := by
    intro a b hab ha hb
    rw [testBit_high] at *
    simp at *
    exact ⟨by omega, hb⟩

theorem chooser_loop_spec {w count x i : Nat} (hw : w ≤ 32) (hx : x < 2 ^ w) (hi : i ≤ w)
    (hc : ones i x ≤ count) :
    ∃ r, chooser.loop w count x i (low i x) = .ok r ∧ LowestBits w count x r := by
  induction hn : w - i generalizing i with
  | zero =>
    have : i = w := by omega
    subst this
    rw [chooser.loop, if_neg (by omega)]
    exact ⟨_, rfl, low_spec (Nat.le_refl _) (by omega)⟩
  | succ n ih =>
    rw [chooser.loop]
    rw [popcnt_eq_ones w _ (low_lt i w x hx), ones_low hi]
    by_cases h : ones i x < count
    · rw [if_pos ⟨by omega, h⟩]
      simp only [shl1U, if_pos (show i < 32 by omega), bind_ok, low_step]
      apply ih (by omega) _ (by omega)
      rw [ones_succ]; split <;> omega
    · rw [if_neg (by omega)]
      refine ⟨_, rfl, low_spec hi ?_⟩
      have := ones_mono_width (x := x) hi
      omega

theorem choosel_loop_spec {w count x i : Nat} (hw : w ≤ 32) (hx : x < 2 ^ w) (hi : i ≤ w)
    (hc : ones w (high i x) < count) :
    ∃ r, choosel.loop count x i (high i x) = .ok r ∧ HighestBits w count x r := by
  induction i with
  | zero =>
    refine ⟨_, rfl, high_spec ?_⟩
    have := ones_high (x := x) (i := 0) (w := w) (by omega)
    rw [ones_zero] at this
    omega
  | succ i ih =>
    rw [choosel.loop]
    simp only [shl1U, if_pos (show i < 32 by omega), bind_ok, high_step]
    rw [popcnt_eq_ones w _ (Nat.lt_of_le_of_lt (high_le i x) hx)]
    by_cases h : ones w (high i x) ≥ count
    · rw [if_pos h]
      refine ⟨_, rfl, high_spec ?_⟩
      have h1 := ones_high (x := x) hi
      have h2 := ones_high (x := x) (show i ≤ w by omega)
      rw [ones_succ] at h1
      split at h1 <;> omega
    · rw [if_neg h]
      exact ih (by omega) (by omega)

end Ygo.Bit
