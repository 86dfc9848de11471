import Verif.Spec.Core
import Mathlib.Tactic.IntervalCases

/-!
# Readers undo writers

`f (bytes ++ s) = ok (value, s)` for every reader of the encoder and the corresponding bytes of the specification.
-/

set_option linter.unusedSimpArgs false

namespace Ygo
open P Spec

namespace P
variable {α β : Type}

@[simp] theorem pure_run (a : α) (s : List UInt8) : (pure a : P α) s = .ok (a, s) := rfl

theorem bind_run (p : P α) (f : α → P β) (s : List UInt8) :
    (p >>= f) s = match p s with
      | .ok (a, r) => f a r
      | .error e => .error e := rfl

theorem bind_run_ok {p : P α} {f : α → P β} {s r : List UInt8} {a : α} (h : p s = .ok (a, r)) : (p >>= f) s = f a r := by
  rw [bind_run, h]

theorem bind_eq_ok_iff {p : P α} {f : α → P β} {s r : List UInt8} {b : β} :
    (p >>= f) s = .ok (b, r) ↔ ∃ a t, p s = .ok (a, t) ∧ f a t = .ok (b, r) := by
  rw [bind_run]
  cases h : p s with
  | error e => simp
  | ok x => obtain ⟨a, t⟩ := x; simp

@[simp] theorem lift_ok (a : α) (s : List UInt8) : lift (.ok a) s = .ok (a, s) := rfl
@[simp] theorem lift_error (e : Err) (s : List UInt8) : (lift (.error e) : P α) s = .error e := rfl

theorem lift_eq_ok {x : Res α} {a : α} {s r : List UInt8} : lift x s = .ok (a, r) ↔ x = .ok a ∧ s = r := by
  cases x <;> simp [lift]

theorem leVal_le (n v : Nat) : leVal (le n v) = v % 256 ^ n := by
  induction n generalizing v with
  | zero => simp [le, leVal, Nat.mod_one]
  | succ n ih =>
    simp only [le, leVal, ih, UInt8.toNat_ofNat']
    have := Nat.mod_mul (x := v) (a := 256) (b := 256 ^ n)
    rw [show 256 ^ (n + 1) = 256 * 256 ^ n by rw [Nat.pow_succ, Nat.mul_comm], this]
    omega

@[simp] theorem length_le (n v : Nat) : (le n v).length = n := by
  induction n generalizing v with
  | zero => rfl
  | succ n ih => simp [le, ih]

theorem read_append {n : Nat} {bs s : List UInt8} (h : bs.length = n) : read n (bs ++ s) = .ok (leVal bs, s) := by
  subst h; simp [read]

theorem skip_append {n : Nat} {bs s : List UInt8} (h : bs.length = n) : skip n (bs ++ s) = .ok ((), s) := by
  subst h; simp [skip]

theorem read_le {n v : Nat} (s : List UInt8) (h : v < 256 ^ n) : read n (le n v ++ s) = .ok (v, s) := by
  rw [read_append (length_le n v), leVal_le, Nat.mod_eq_of_lt h]

@[simp] theorem length_b8 (v : UInt8) : (b8 v).length = 1 := rfl
@[simp] theorem length_b16 (v : UInt16) : (b16 v).length = 2 := length_le ..
@[simp] theorem length_b32 (v : UInt32) : (b32 v).length = 4 := length_le ..
@[simp] theorem length_b64 (v : UInt64) : (b64 v).length = 8 := length_le ..

@[simp] theorem read_b8 (v : UInt8) (s : List UInt8) : read 1 (b8 v ++ s) = .ok (v.toNat, s) := by
  rw [read_append (length_b8 v)]; simp [b8, leVal]
@[simp] theorem read_b16 (v : UInt16) (s : List UInt8) : read 2 (b16 v ++ s) = .ok (v.toNat, s) :=
  read_le s v.toNat_lt
@[simp] theorem read_b32 (v : UInt32) (s : List UInt8) : read 4 (b32 v ++ s) = .ok (v.toNat, s) :=
  read_le s v.toNat_lt
@[simp] theorem read_b64 (v : UInt64) (s : List UInt8) : read 8 (b64 v ++ s) = .ok (v.toNat, s) :=
  read_le s v.toNat_lt

@[simp] theorem skip_b8 (v : UInt8) (s : List UInt8) : skip 1 (b8 v ++ s) = .ok ((), s) := skip_append (length_b8 v)
@[simp] theorem skip_b16 (v : UInt16) (s : List UInt8) : skip 2 (b16 v ++ s) = .ok ((), s) := skip_append (length_b16 v)
@[simp] theorem skip_b32 (v : UInt32) (s : List UInt8) : skip 4 (b32 v ++ s) = .ok ((), s) := skip_append (length_b32 v)
@[simp] theorem skip_b64 (v : UInt64) (s : List UInt8) : skip 8 (b64 v ++ s) = .ok ((), s) := skip_append (length_b64 v)

theorem read_cnt1 {n : Nat} (s : List UInt8) (h : n < 2 ^ 8) : read 1 (le 1 n ++ s) = .ok (n, s) := read_le s h
theorem read_cnt2 {n : Nat} (s : List UInt8) (h : n < 2 ^ 16) : read 2 (le 2 n ++ s) = .ok (n, s) := read_le s h
theorem read_cnt4 {n : Nat} (s : List UInt8) (h : n < 2 ^ 32) : read 4 (le 4 n ++ s) = .ok (n, s) := read_le s h

@[simp] theorem length_locInfo (i : LocInfo) : i.bytes.length = 10 := by simp [LocInfo.bytes]
@[simp] theorem skip_locInfo (i : LocInfo) (s : List UInt8) : skip 10 (i.bytes ++ s) = .ok ((), s) := skip_append (length_locInfo i)

theorem many_map {p : P α} {γ : Type} {f : γ → List UInt8} {g : γ → α} (xs : List γ) (s : List UInt8)
    (h : ∀ x ∈ xs, ∀ s, p (f x ++ s) = .ok (g x, s)) : many p xs.length (xs.flatMap f ++ s) = .ok (xs.map g, s) := by
  induction xs with
  | nil => simp [many]
  | cons x xs ih =>
    simp only [List.length_cons, many, List.flatMap_cons, List.append_assoc, List.map_cons]
    rw [bind_run_ok (h x (by simp) _), bind_run_ok (ih fun y hy => h y (by simp [hy]))]
    rfl

theorem skipMany_map {p : P Unit} {γ : Type} {f : γ → List UInt8} (xs : List γ) (s : List UInt8)
    (h : ∀ x ∈ xs, ∀ s, p (f x ++ s) = .ok ((), s)) : skipMany p xs.length (xs.flatMap f ++ s) = .ok ((), s) := by
  induction xs with
  | nil => simp [skipMany]
  | cons x xs ih =>
    simp only [List.length_cons, skipMany, List.flatMap_cons, List.append_assoc]
    rw [bind_run_ok (h x (by simp) _), ih fun y hy => h y (by simp [hy])]

theorem skipMany_add (p : P Unit) (m n : Nat) (s : List UInt8) :
    skipMany p (m + n) s = (skipMany p m >>= fun _ => skipMany p n) s := by
  induction m generalizing s with
  | zero => simp [skipMany, bind_run]
  | succ m ih =>
    rw [Nat.succ_add]
    simp only [skipMany, bind_run]
    cases h : p s with
    | error e => rfl
    | ok x =>
      obtain ⟨_, r⟩ := x
      simp only [ih, bind_run]

theorem listOf_map {p : P α} {γ : Type} {f : γ → List UInt8} {g : γ → α} {xs : List γ} (hl : xs.length < 2 ^ 32) (s : List UInt8)
    (h : ∀ x ∈ xs, ∀ s, p (f x ++ s) = .ok (g x, s)) : listOf p (list32 f xs ++ s) = .ok (xs.map g, s) := by
  simp only [listOf, list32, List.append_assoc]
  rw [bind_run_ok (read_cnt4 _ hl), many_map xs s h]

theorem slistOf_map {p : P α} {γ : Type} {f : γ → List UInt8} {g : γ → α} {xs : List γ} (hl : xs.length < 2 ^ 8) (s : List UInt8)
    (h : ∀ x ∈ xs, ∀ s, p (f x ++ s) = .ok (g x, s)) : slistOf p (list8 f xs ++ s) = .ok (xs.map g, s) := by
  simp only [slistOf, list8, List.append_assoc]
  rw [bind_run_ok (read_cnt1 _ hl), many_map xs s h]

end P

/-! ## Small readers -/

theorem toInt32_bmod {n : Nat} (h : n < 2 ^ 32) : toInt32 n = (n : Int).bmod (2 ^ 32) := by
  unfold toInt32 Int.bmod
  have h1 : (n : Int) % ((2 ^ 32 : Nat) : Int) = n := Int.emod_eq_of_lt (by omega) (by omega)
  simp only [h1]
  split <;> split <;> omega

@[simp] theorem toInt32_eq (v : UInt32) : toInt32 v.toNat = signed32 v := toInt32_bmod v.toNat_lt

theorem toInt32_small {n : Nat} (h : n < 2 ^ 31) : toInt32 n = n := by simp only [toInt32, h, if_true]

theorem land_pow_ne (n i : Nat) : (n &&& 2 ^ i) ≠ 0 ↔ n.testBit i = true := by
  constructor
  · intro h
    by_contra hn
    apply h
    apply Nat.eq_of_testBit_eq
    intro j
    rw [Nat.testBit_and, Nat.testBit_two_pow]
    by_cases e : i = j
    · subst e; simpa using hn
    · simp [e]
  · intro h e
    have := congrArg (fun x => x.testBit i) e
    simp [h] at this

theorem fixSpell_eq (loc seq : Nat) : fixSpell loc seq = slot loc seq := by
  have h8 : (loc &&& 8) ≠ 0 ↔ loc.testBit 3 = true := land_pow_ne loc 3
  unfold fixSpell slot
  simp only [Loc.spellZone, Loc.fieldZone, Loc.pendulumZone, h8]
  by_cases h : loc.testBit 3 = true
  · simp only [h, true_and, if_true]
    by_cases h5 : seq < 5
    · rw [if_neg (by omega), if_pos h5]
    · rw [if_pos (by omega), if_neg h5]
      by_cases h6 : seq = 5
      · simp [h6]
      · rw [if_neg h6, if_neg h6]; rw [show seq - 1 - 5 = seq - 6 by omega]
  · simp [h]

theorem land_mask {n : Nat} (h : n < 2 ^ 32) : n &&& 0xFFFFFF7F = n / 256 * 256 + n % 128 := by
  apply Nat.eq_of_testBit_eq
  intro i
  have hm : Nat.testBit 0xFFFFFF7F i = decide (i < 32 ∧ i ≠ 7) := by
    by_cases hi : i < 32
    · interval_cases i <;> decide
    · rw [Nat.testBit_lt_two_pow]
      · simp [hi]
      · exact Nat.lt_of_lt_of_le (by decide) (Nat.pow_le_pow_right (by decide) (by omega : 32 ≤ i))
  have hr : n / 256 * 256 + n % 128 = 2 ^ 8 * (n / 2 ^ 8) + n % 2 ^ 7 := by omega
  rw [hr, Nat.testBit_and, hm, Nat.testBit_two_pow_mul_add _ (by omega)]
  by_cases h8 : i < 8
  · simp only [h8, if_true, Nat.testBit_mod_two_pow]
    by_cases h7 : i = 7
    · simp [h7]
    · have : i < 7 := by omega
      simp [this, h7, show i < 32 by omega]
  · simp only [h8, if_false, Nat.testBit_div_two_pow]
    rw [show i - 8 + 8 = i by omega]
    by_cases h32 : i < 32
    · simp [h32, show i ≠ 7 by omega]
    · rw [Nat.testBit_lt_two_pow (Nat.lt_of_lt_of_le h (Nat.pow_le_pow_right (by decide) (by omega)))]; simp

theorem land_mask_small (v : UInt8) : v.toNat &&& 0xFFFFFF7F = v.toNat % 128 := by
  have := v.toNat_lt
  rw [land_mask (by omega)]; omega

@[simp] theorem readCon_b8 (v : UInt8) (s : List UInt8) : readCon (b8 v ++ s) = .ok ((v.toNat : Int), s) := by
  simp [readCon, bind_run]

@[simp] theorem readBool_b8 (v : UInt8) (s : List UInt8) : readBool (b8 v ++ s) = .ok (decide (v ≠ 0), s) := by
  simp only [readBool, bind_run, read_b8, pure_run]
  congr 2
  rw [Bool.eq_iff_iff]
  simp [← UInt8.toNat_inj]

@[simp] theorem readEffect_b64 (v : UInt64) (s : List UInt8) : readEffect (b64 v ++ s) = .ok (effectOf v, s) := by
  simp only [readEffect, bind_run, read_b64, pure_run, effectOf, Nat.shiftRight_eq_div_pow]
  rw [show (0xFFFFF : Nat) = 2 ^ 20 - 1 from rfl, Nat.and_two_pow_sub_one_eq_mod]

@[simp] theorem readLocInfo_bytes (i : LocInfo) (s : List UInt8) : readLocInfo (i.bytes ++ s) = .ok (i.place, s) := by
  simp only [readLocInfo, readLoc, bind_run, LocInfo.bytes, List.append_assoc, readCon_b8, read_b8, read_b32, pure_run, fixSpell_eq,
    land_mask_small, LocInfo.place, LocInfo.base, toInt32_eq]
  have : ((i.loc.toNat &&& 0x80) ≠ 0) = (i.loc.toNat.testBit 7 = true) := propext (land_pow_ne i.loc.toNat 7)
  simp only [this]

@[simp] theorem readLocSeq_bytes (i : CardLoc) (s : List UInt8) : readLocSeq (i.bytes ++ s) = .ok (i.place, s) := by
  simp only [readLocSeq, readLoc, bind_run, CardLoc.bytes, List.append_assoc, readCon_b8, read_b8, read_b32, pure_run, fixSpell_eq,
    land_mask_small, CardLoc.place]

@[simp] theorem readLocSSeq_bytes (i : CardLocS) (s : List UInt8) : readLocSSeq (i.bytes ++ s) = .ok (i.place, s) := by
  simp only [readLocSSeq, readLoc, bind_run, CardLocS.bytes, List.append_assoc, readCon_b8, read_b8, read_b32, pure_run, fixSpell_eq,
    land_mask_small, CardLocS.place]

@[simp] theorem readLocL_bytes (i : CardLocL) (s : List UInt8) : readLoc 4 4 none (i.bytes ++ s) = .ok (i.place, s) := by
  simp only [readLoc, bind_run, CardLocL.bytes, List.append_assoc, readCon_b8, read_b8, read_b32, pure_run, fixSpell_eq,
    land_mask i.loc.toNat_lt, CardLocL.place, CardLocL.base]

@[simp] theorem readCounter_bytes (t n : UInt16) (s : List UInt8) :
    readCounter (b16 t ++ (b16 n ++ s)) = .ok (⟨t.toNat, n.toNat⟩, s) := by
  have ht := t.toNat_lt
  have hn := n.toNat_lt
  have h : read 4 (b16 t ++ (b16 n ++ s)) = .ok (t.toNat + 65536 * n.toNat, s) := by
    rw [← List.append_assoc, read_append (by simp)]
    simp only [b16, le, leVal, List.cons_append, List.nil_append, UInt8.toNat_ofNat']
    congr 2
    omega
  simp only [readCounter, bind_run, h, pure_run, Nat.shiftRight_eq_div_pow]
  rw [show (0xFFFF : Nat) = 2 ^ 16 - 1 from rfl, Nat.and_two_pow_sub_one_eq_mod]
  congr 3 <;> omega

end Ygo
