import Verif.Props.Encode
import Verif.Spec.Answer
import Mathlib.Tactic.Linarith

/-!
# Answers (C47 - C49, C60)
-/

namespace Ygo.Props
open Ygo.Spec

set_option linter.unusedSimpArgs false

theorem writeLE_length (n : Nat) (v : Int) : (writeLE n v).length = n := by
  induction n generalizing v with
  | zero => rfl
  | succ n ih => simp [writeLE, ih]

theorem num_writeLE (n : Nat) (v : Int) : (num (writeLE n v) : Int) = v % (256 ^ n : Nat) := by
  induction n generalizing v with
  | zero => simp [writeLE, num, Int.emod_one]
  | succ n ih =>
    have h1 : (UInt8.ofNat (v % 256).toNat).toNat = (v % 256).toNat := by
      simp only [UInt8.toNat_ofNat', Nat.reducePow]
      omega
    simp only [writeLE, num, h1]
    have e : v % ((256 ^ (n + 1) : Nat) : Int) = v % 256 + 256 * (v / 256 % ((256 ^ n : Nat) : Int)) := by
      rw [show ((256 ^ (n + 1) : Nat) : Int) = 256 * ((256 ^ n : Nat) : Int) by rw [Nat.pow_succ, Nat.mul_comm]; push_cast; rfl]
      rw [Int.emod_def, Int.emod_def (v / 256), Int.ediv_ediv_of_nonneg (by omega)]
      have := Int.emod_add_mul_ediv v 256
      linarith [Int.mul_assoc 256 ((256 ^ n : Nat) : Int) (v / (256 * ((256 ^ n : Nat) : Int)))]
    rw [e, ← ih]
    push_cast
    have : 0 ≤ v % 256 := by omega
    omega

theorem num_writeLE_nat (n : Nat) (v : Nat) : num (writeLE n v) = v % 256 ^ n := by
  have h := num_writeLE n v
  exact_mod_cast h

theorem nums_writeLE (k : Nat) (is : List Nat) :
    nums k is.length (is.flatMap fun (i : Nat) => writeLE k i) = some (is.map (· % 256 ^ k)) := by
  induction is with
  | nil => rfl
  | cons i is ih =>
    rw [List.flatMap_cons, List.length_cons]
    unfold nums
    have hl := writeLE_length k i
    rw [if_neg (by simp [hl])]
    have h1 : (writeLE k ↑i ++ List.flatMap (fun (i : Nat) => writeLE k ↑i) is).drop k = List.flatMap (fun (i : Nat) => writeLE k ↑i) is := by
      rw [List.drop_append_of_le_length (by omega), List.drop_of_length_le (by omega)]; rfl
    have h2 : (writeLE k ↑i ++ List.flatMap (fun (i : Nat) => writeLE k ↑i) is).take k = writeLE k ↑i := by
      rw [List.take_append_of_le_length (by omega), List.take_of_length_le (by omega)]
    rw [h1, h2, ih, num_writeLE_nat]
    rfl

/-! ## C47 -/

/-- A request to select cards all at once. -/
def AtOnce : Request → Prop
  | .selectCard (.recursive ..) => False
  | .selectCard _ => True
  | _ => False

/-- A request to select cards one by one. -/
def OneByOne : Request → Prop
  | .selectCard (.recursive ..) => True
  | _ => False

theorem decode_at_once (r : Request) (hr : AtOnce r) (is : List Nat) (h0 : is ≠ []) (out : List UInt8) :
    decodeOneAnswer r (.selectCard (.indexes is)) out =
      .ok (writeLE 4 1 ++ writeLE 4 is.length ++ is.flatMap fun (i : Nat) => writeLE 2 i) := by
  have h0 : 0 < is.length := List.length_pos_iff.mpr h0
  cases r <;> try exact hr.elim
  case selectCard s =>
    cases s <;> first | exact hr.elim | (simp only [decodeOneAnswer, massert, h0, if_true]; rfl)

theorem selectedCards_bytes (is : List Nat) (hn : is.length < 2 ^ 32) :
    selectedCards (writeLE 4 1 ++ writeLE 4 is.length ++ is.flatMap fun (i : Nat) => writeLE 2 i) = some (is.map (· % 2 ^ 16)) := by
  have hl := writeLE_length 4 1
  have hl' := writeLE_length 4 is.length
  unfold selectedCards
  have e1 : ∀ X : List UInt8, (writeLE 4 1 ++ writeLE 4 ↑is.length ++ X).take 4 = writeLE 4 1 := by
    intro X
    rw [List.append_assoc, List.take_append_of_le_length (by omega), List.take_of_length_le (by omega)]
  have e2 : ∀ X : List UInt8, ((writeLE 4 1 ++ writeLE 4 ↑is.length ++ X).drop 4).take 4 = writeLE 4 is.length := by
    intro X
    rw [List.append_assoc, List.drop_append_of_le_length (by omega), List.drop_of_length_le (by omega), List.nil_append,
      List.take_append_of_le_length (by omega), List.take_of_length_le (by omega)]
  have e3 : ∀ X : List UInt8, (writeLE 4 1 ++ writeLE 4 ↑is.length ++ X).drop 8 = X := by
    intro X
    rw [List.drop_append_of_le_length (by simp [hl, hl']), List.drop_of_length_le (by simp [hl, hl'])]; rfl
  rw [if_pos ⟨by simp [hl, hl']; omega, by rw [e1]; decide⟩, e2, e3, num_writeLE_nat, Nat.mod_eq_of_lt (by omega), nums_writeLE]
  rfl

/-- **C47.** The core reads the indexes of the selected cards, each reduced to 16 bits. -/
theorem C47_selected_mod (r : Request) (hr : AtOnce r) (is : List Nat) (h0 : is ≠ []) (hn : is.length < 2 ^ 32) (out : List UInt8) :
    ∃ bs, decodeOneAnswer r (.selectCard (.indexes is)) out = .ok bs ∧ selectedCards bs = some (is.map (· % 2 ^ 16)) :=
  ⟨_, decode_at_once r hr is h0 out, selectedCards_bytes is hn⟩

/-- **C47.** Indexes that fit in 16 bits are read unchanged. -/
theorem C47_selected (r : Request) (hr : AtOnce r) (is : List Nat) (h0 : is ≠ []) (hn : is.length < 2 ^ 32) (hi : ∀ i ∈ is, i < 2 ^ 16)
    (out : List UInt8) : ∃ bs, decodeOneAnswer r (.selectCard (.indexes is)) out = .ok bs ∧ selectedCards bs = some is := by
  obtain ⟨bs, h1, h2⟩ := C47_selected_mod r hr is h0 hn out
  refine ⟨bs, h1, ?_⟩
  rw [h2, List.map_congr_left (g := id) fun i h => (Nat.mod_eq_of_lt (hi i h) : i % _ = id i), List.map_id]

/-- **C47.** Selecting card by card, the first index is read. -/
theorem C47_stepped (r : Request) (hr : OneByOne r) (i : Nat) (hi : i < 2 ^ 32) (is : List Nat) (out : List UInt8) :
    ∃ bs, decodeOneAnswer r (.selectCard (.indexes (i :: is))) out = .ok bs ∧ steppedCard bs = some i := by
  cases r <;> try exact hr.elim
  case selectCard s =>
    cases s <;> try exact hr.elim
    case recursive a b c d e f =>
      refine ⟨writeLE 4 1 ++ writeLE 4 i, ?_, ?_⟩
      · simp only [decodeOneAnswer, massert, List.length_cons, Nat.zero_lt_succ, if_true]; rfl
      · have hl := writeLE_length 4 1
        have hl' := writeLE_length 4 i
        unfold steppedCard
        rw [if_pos ⟨by simp [hl, hl'], by rw [List.take_append_of_le_length (by omega), List.take_of_length_le (by omega)]; decide⟩,
          List.drop_append_of_le_length (by omega), List.drop_of_length_le (by omega), List.nil_append, num_writeLE_nat,
          Nat.mod_eq_of_lt (by omega)]

/-- **C47.** Without any index the answer is refused. -/
theorem C47_none (r : Request) (out : List UInt8) : decodeOneAnswer r (.selectCard (.indexes [])) out = .error .assert := rfl

/-- **C47.** The order of up to 255 cards is read as given, each index reduced to 8 bits. -/
theorem C47_sorted_mod (r : Request) (is : List Nat) (hn : is.length < 2 ^ 8) (out : List UInt8) :
    ∃ bs, decodeOneAnswer r (.sort (.indexes is)) out = .ok bs ∧ sortedCards bs = some (is.map (· % 2 ^ 8)) := by
  refine ⟨_, rfl, ?_⟩
  have h1 : (UInt8.ofNat ((is.length : Int) % 256).toNat).toNat = is.length := by
    simp only [UInt8.toNat_ofNat', Nat.reducePow]
    omega
  simp only [writeLE, List.cons_append, List.nil_append, sortedCards, h1]
  exact nums_writeLE 1 is

/-- **C47.** Indexes that fit in 8 bits are read unchanged. -/
theorem C47_sorted (r : Request) (is : List Nat) (hn : is.length < 2 ^ 8) (hi : ∀ i ∈ is, i < 2 ^ 8) (out : List UInt8) :
    ∃ bs, decodeOneAnswer r (.sort (.indexes is)) out = .ok bs ∧ sortedCards bs = some is := by
  obtain ⟨bs, h1, h2⟩ := C47_sorted_mod r is hn out
  refine ⟨bs, h1, ?_⟩
  rw [h2, List.map_congr_left (g := id) fun i h => (Nat.mod_eq_of_lt (hi i h) : i % _ = id i), List.map_id]

example : selectedCards (writeLE 4 1 ++ writeLE 4 2 ++ writeLE 2 300 ++ writeLE 2 7) = some [300, 7] := by decide
example : ∃ bs, decodeOneAnswer (.selectCard (.uniqueRange false 1 2 [])) (.selectCard (.indexes [300, 7])) [9] = .ok bs ∧
    selectedCards bs = some [300, 7] := C47_selected (.selectCard (.uniqueRange false 1 2 [])) trivial _ (by simp) (by decide) (by decide) _
example : ∃ bs, decodeOneAnswer (.selectCard (.uniqueRange false 1 2 [])) (.selectCard (.indexes [65541])) [] = .ok bs ∧
    selectedCards bs = some [5] := C47_selected_mod (.selectCard (.uniqueRange false 1 2 [])) trivial _ (by simp) (by decide) _
example : ∃ bs, decodeOneAnswer (.sort []) (.sort (.indexes [2, 0, 1])) [9] = .ok bs ∧ sortedCards bs = some [2, 0, 1] :=
  C47_sorted _ _ (by decide) (by decide) _

/-! ## C48 -/

theorem packed (a t : Nat) (ha : a < 2 ^ 16) (ht : t < 2 ^ 16) :
    num ((responseI (((a &&& 0xFFFF) <<< 16 ||| (t &&& 0xFFFF) : Nat) : Int)).take 2) = t ∧
    num ((responseI (((a &&& 0xFFFF) <<< 16 ||| (t &&& 0xFFFF) : Nat) : Int)).drop 2) = a ∧
    (responseI (((a &&& 0xFFFF) <<< 16 ||| (t &&& 0xFFFF) : Nat) : Int)).length = 4 := by
  have e1 : a &&& 0xFFFF = a := by
    rw [show (0xFFFF : Nat) = 2 ^ 16 - 1 from rfl, Nat.and_two_pow_sub_one_eq_mod, Nat.mod_eq_of_lt ha]
  have e2 : t &&& 0xFFFF = t := by
    rw [show (0xFFFF : Nat) = 2 ^ 16 - 1 from rfl, Nat.and_two_pow_sub_one_eq_mod, Nat.mod_eq_of_lt ht]
  have e3 : a <<< 16 ||| t = a * 65536 + t := by
    rw [Nat.shiftLeft_eq, show (2 : Nat) ^ 16 = 65536 from rfl, Nat.mul_comm]
    exact (Nat.two_pow_add_eq_or_of_lt (i := 16) ht a).symm
  rw [e1, e2, e3]
  refine ⟨?_, ?_, writeLE_length _ _⟩
  · have : (responseI ((a * 65536 + t : Nat) : Int)).take 2 = writeLE 2 ((a * 65536 + t : Nat) : Int) := rfl
    rw [this, num_writeLE_nat]
    omega
  · have : (responseI ((a * 65536 + t : Nat) : Int)).drop 2 = writeLE 2 (((a * 65536 + t : Nat) : Int) / 256 / 256) := rfl
    rw [this, show (((a * 65536 + t : Nat) : Int) / 256 / 256) = (a : Int) by omega, num_writeLE_nat]
    omega

/-- **C48.** When idle, the core reads back the action chosen, with its index. -/
theorem C48_idle (s : SelectIdle) (hs : s.isBattleCmd = false) (ch : IdleChoice) (hi : ch.IndexBelow (2 ^ 16)) (out : List UInt8) :
    ∃ bs, decodeOneAnswer (.selectIdle s) ch.answer out = .ok bs ∧ readIdle bs = some ch := by
  have act : ∀ (a : IdleAction) (t i : Nat), actionCode false a = t → t < 2 ^ 16 → i < 2 ^ 16 → a ≠ .shuffle → a ≠ .phase →
      decodeOneAnswer (.selectIdle s) (.selectIdle (.cardAction a i)) out =
        .ok (responseI (((i &&& 0xFFFF) <<< 16 ||| (t &&& 0xFFFF) : Nat) : Int)) := by
    intro a t i ha ht hi h1 h2
    subst ha
    have hb : Request.isBattleCmd (.selectIdle s) = false := hs
    simp only [decodeOneAnswer, Request.isSelectIdle, massert, h1, h2, hb, if_true, ne_eq, not_false_eq_true]
    rfl
  cases ch
  case toBattle => exact ⟨_, by simp [decodeOneAnswer, IdleChoice.answer, Request.isSelectIdle, Request.isBattleCmd, hs, massert]; rfl, rfl⟩
  case toEnd => exact ⟨_, by simp [decodeOneAnswer, IdleChoice.answer, Request.isSelectIdle, Request.isBattleCmd, hs, massert]; rfl, rfl⟩
  case shuffle => exact ⟨_, rfl, rfl⟩
  case summon i =>
    obtain ⟨h1, h2, h3⟩ := packed i 0 hi (by decide)
    exact ⟨_, act .summon 0 i rfl (by decide) hi (by simp) (by simp), by unfold readIdle; rw [if_pos h3]; simp only [h1, h2]⟩
  case spsummon i =>
    obtain ⟨h1, h2, h3⟩ := packed i 1 hi (by decide)
    exact ⟨_, act .spsummon 1 i rfl (by decide) hi (by simp) (by simp), by unfold readIdle; rw [if_pos h3]; simp only [h1, h2]⟩
  case reposition i =>
    obtain ⟨h1, h2, h3⟩ := packed i 2 hi (by decide)
    exact ⟨_, act .reposition 2 i rfl (by decide) hi (by simp) (by simp), by unfold readIdle; rw [if_pos h3]; simp only [h1, h2]⟩
  case mset i =>
    obtain ⟨h1, h2, h3⟩ := packed i 3 hi (by decide)
    exact ⟨_, act .mset 3 i rfl (by decide) hi (by simp) (by simp), by unfold readIdle; rw [if_pos h3]; simp only [h1, h2]⟩
  case sset i =>
    obtain ⟨h1, h2, h3⟩ := packed i 4 hi (by decide)
    exact ⟨_, act .sset 4 i rfl (by decide) hi (by simp) (by simp), by unfold readIdle; rw [if_pos h3]; simp only [h1, h2]⟩
  case activate i =>
    obtain ⟨h1, h2, h3⟩ := packed i 5 hi (by decide)
    exact ⟨_, act .activate 5 i rfl (by decide) hi (by simp) (by simp), by unfold readIdle; rw [if_pos h3]; simp only [h1, h2]⟩

/-- **C48.** In the battle phase, the core reads back the action chosen, with its index. -/
theorem C48_battle (s : SelectIdle) (hs : s.isBattleCmd = true) (ch : BattleChoice) (hi : ch.IndexBelow (2 ^ 16)) (out : List UInt8) :
    ∃ bs, decodeOneAnswer (.selectIdle s) ch.answer out = .ok bs ∧ readBattle bs = some ch := by
  have act : ∀ (a : IdleAction) (t i : Nat), actionCode true a = t → a ≠ .shuffle → a ≠ .phase →
      decodeOneAnswer (.selectIdle s) (.selectIdle (.cardAction a i)) out =
        .ok (responseI (((i &&& 0xFFFF) <<< 16 ||| (t &&& 0xFFFF) : Nat) : Int)) := by
    intro a t i ha h1 h2
    subst ha
    have hb : Request.isBattleCmd (.selectIdle s) = true := hs
    simp only [decodeOneAnswer, Request.isSelectIdle, massert, h1, h2, hb, if_true, ne_eq, not_false_eq_true]
    rfl
  cases ch
  case toMain2 => exact ⟨_, by simp [decodeOneAnswer, BattleChoice.answer, Request.isSelectIdle, Request.isBattleCmd, hs, massert]; rfl, rfl⟩
  case toEnd => exact ⟨_, by simp [decodeOneAnswer, BattleChoice.answer, Request.isSelectIdle, Request.isBattleCmd, hs, massert]; rfl, rfl⟩
  case activate i =>
    obtain ⟨h1, h2, h3⟩ := packed i 0 hi (by decide)
    exact ⟨_, act .activate 0 i rfl (by simp) (by simp), by unfold readBattle; rw [if_pos h3]; simp only [h1, h2]⟩
  case attack i =>
    obtain ⟨h1, h2, h3⟩ := packed i 1 hi (by decide)
    exact ⟨_, act .attack 1 i rfl (by simp) (by simp), by unfold readBattle; rw [if_pos h3]; simp only [h1, h2]⟩

/-- **C48.** Different choices give different responses. -/
theorem C48_idle_distinct (s : SelectIdle) (hs : s.isBattleCmd = false) (a b : IdleChoice) (ha : a.IndexBelow (2 ^ 16))
    (hb : b.IndexBelow (2 ^ 16)) (out out' : List UInt8)
    (h : decodeOneAnswer (.selectIdle s) a.answer out = decodeOneAnswer (.selectIdle s) b.answer out') : a = b := by
  obtain ⟨x, h1, h2⟩ := C48_idle s hs a ha out
  obtain ⟨y, h3, h4⟩ := C48_idle s hs b hb out'
  rw [h1, h3, Except.ok.injEq] at h
  rw [h, h4] at h2
  exact (Option.some.inj h2).symm

theorem C48_battle_distinct (s : SelectIdle) (hs : s.isBattleCmd = true) (a b : BattleChoice) (ha : a.IndexBelow (2 ^ 16))
    (hb : b.IndexBelow (2 ^ 16)) (out out' : List UInt8)
    (h : decodeOneAnswer (.selectIdle s) a.answer out = decodeOneAnswer (.selectIdle s) b.answer out') : a = b := by
  obtain ⟨x, h1, h2⟩ := C48_battle s hs a ha out
  obtain ⟨y, h3, h4⟩ := C48_battle s hs b hb out'
  rw [h1, h3, Except.ok.injEq] at h
  rw [h, h4] at h2
  exact (Option.some.inj h2).symm

/-- **C48.** The bound is needed: an index of 2^16 is read as 0. -/
theorem C48_index_cut (s : SelectIdle) (out : List UInt8) :
    decodeOneAnswer (.selectIdle s) (IdleChoice.summon 65536).answer out = decodeOneAnswer (.selectIdle s) (IdleChoice.summon 0).answer out := rfl

/-- **C48.** A phase that is never offered leaves the response buffer as it was. -/
theorem C48_other_phase (s : SelectIdle) (hs : s.isBattleCmd = false) (p : Nat) (h7 : p &&& 0x80 = 0) (h9 : p &&& 0x200 = 0) (out : List UInt8) :
    decodeOneAnswer (.selectIdle s) (.selectIdle (.phase p)) out = .ok out := by
  have hb : Request.isBattleCmd (.selectIdle s) = false := hs
  simp [decodeOneAnswer, Request.isSelectIdle, hb, massert, h7, h9]

/-- **C48.** When an answer names several phases, the core goes to the battle phase rather than to the end phase. -/
theorem C48_idle_phases (s : SelectIdle) (hs : s.isBattleCmd = false) (p : Nat) (out : List UInt8) :
    ∃ bs, decodeOneAnswer (.selectIdle s) (.selectIdle (.phase p)) out = .ok bs ∧
      (p &&& 0x80 ≠ 0 → readIdle bs = some .toBattle) ∧ (p &&& 0x80 = 0 → p &&& 0x200 ≠ 0 → readIdle bs = some .toEnd) ∧
      (p &&& 0x80 = 0 → p &&& 0x200 = 0 → bs = out) := by
  have hb : Request.isBattleCmd (.selectIdle s) = false := hs
  by_cases h7 : p &&& 0x80 = 0
  · by_cases h9 : p &&& 0x200 = 0
    · exact ⟨out, C48_other_phase s hs p h7 h9 out, fun h => absurd h7 h, fun _ h => absurd h9 h, fun _ _ => rfl⟩
    · refine ⟨responseI 7, ?_, fun h => absurd h7 h, fun _ _ => rfl, fun _ h => absurd h h9⟩
      simp [decodeOneAnswer, Request.isSelectIdle, hb, massert, h7, h9]
  · refine ⟨responseI 6, ?_, fun _ => rfl, fun h => absurd h h7, fun h => absurd h h7⟩
    simp [decodeOneAnswer, Request.isSelectIdle, hb, massert, h7]

/-- **C48.** In the battle phase it goes to the end phase rather than to the second main phase. -/
theorem C48_battle_phases (s : SelectIdle) (hs : s.isBattleCmd = true) (p : Nat) (out : List UInt8) :
    ∃ bs, decodeOneAnswer (.selectIdle s) (.selectIdle (.phase p)) out = .ok bs ∧
      (p &&& 0x200 ≠ 0 → readBattle bs = some .toEnd) ∧ (p &&& 0x200 = 0 → p &&& 0x100 ≠ 0 → readBattle bs = some .toMain2) ∧
      (p &&& 0x200 = 0 → p &&& 0x100 = 0 → bs = out) := by
  have hb : Request.isBattleCmd (.selectIdle s) = true := hs
  by_cases h9 : p &&& 0x200 = 0
  · by_cases h8 : p &&& 0x100 = 0
    · refine ⟨out, ?_, fun h => absurd h9 h, fun _ h => absurd h8 h, fun _ _ => rfl⟩
      simp [decodeOneAnswer, Request.isSelectIdle, hb, massert, h9, h8]
    · refine ⟨responseI 2, ?_, fun h => absurd h9 h, fun _ _ => rfl, fun _ h => absurd h h8⟩
      simp [decodeOneAnswer, Request.isSelectIdle, hb, massert, h9, h8]
  · refine ⟨responseI 3, ?_, fun _ => rfl, fun h => absurd h h9, fun h => absurd h h9⟩
    simp [decodeOneAnswer, Request.isSelectIdle, hb, massert, h9]

example : ∃ bs, decodeOneAnswer (.selectIdle {}) (IdleChoice.activate 513).answer [] = .ok bs ∧ bs = [5, 0, 1, 2] := ⟨_, rfl, rfl⟩

/-! ## C49 -/

/-- **C49.** In general the core reads the low 8 bits of each of the three numbers. -/
theorem C49_bytes (r : Request) (ps : List Place) (out : List UInt8) :
    ∃ bs, decodeOneAnswer r (.selectZone ps) out = .ok bs ∧
      selectedZones bs = some (ps.map fun p => ⟨(p.con % 256).toNat, p.loc % 256, p.seq % 256⟩) := by
  refine ⟨_, rfl, ?_⟩
  induction ps with
  | nil => rfl
  | cons p ps ih =>
    have h1 : ∀ v : Int, (UInt8.ofNat (v % 256).toNat).toNat = (v % 256).toNat := by
      intro v
      simp only [UInt8.toNat_ofNat', Nat.reducePow]
      omega
    have h2 : ∀ n : Nat, ((n : Int) % 256).toNat = n % 256 := by intro n; omega
    rw [List.flatMap_cons]
    show (selectedZones (List.flatMap (fun p => writeLE 1 p.con ++ writeLE 1 ↑p.loc ++ writeLE 1 ↑p.seq) ps)).map (CoreZone.mk _ _ _ :: ·) = _
    rw [ih, h1, h1, h1, h2, h2]
    rfl

/-- **C49** (partial: monster zones and the five spell zones). The core reads exactly the zones chosen. -/
theorem C49_zones_partial (r : Request) (ps : List Place)
    (h : ∀ p ∈ ps, (p.con = 0 ∨ p.con = 1) ∧ (p.loc = 4 ∧ p.seq < 7 ∨ p.loc = 8 ∧ p.seq < 5)) (out : List UInt8) :
    ∃ bs, decodeOneAnswer r (.selectZone ps) out = .ok bs ∧ (selectedZones bs).map (·.map some) = some (ps.map coreZone) := by
  obtain ⟨bs, h1, h2⟩ := C49_bytes r ps out
  refine ⟨bs, h1, ?_⟩
  rw [h2, Option.map_some, List.map_map]
  congr 1
  refine List.map_congr_left fun p hp => ?_
  obtain ⟨hc, hz⟩ := h p hp
  have hcon : (p.con % 256).toNat = p.con.toNat := by omega
  simp only [Function.comp_apply, coreZone, hcon]
  rcases hz with ⟨hl, hs⟩ | ⟨hl, hs⟩
  · rw [if_pos ⟨hl, hs⟩, hl, Nat.mod_eq_of_lt (by omega : p.seq < 256)]
  · rw [if_neg (by omega), if_pos ⟨hl, hs⟩, hl, Nat.mod_eq_of_lt (by omega : p.seq < 256)]

/-- **C49.** Of the zones the encoder offers, exactly these are read back as chosen. -/
theorem C49_offered (mask : UInt32) (who : Nat) (hw : who < 2) (p : Place) (hp : p ∈ unpackZones mask.toNat who) (r : Request)
    (out : List UInt8) : ∃ bs z, decodeOneAnswer r (.selectZone [p]) out = .ok bs ∧ selectedZones bs = some [z] ∧
      (coreZone p = some z ↔ p.loc = 4 ∨ p.loc = 8) := by
  obtain ⟨ho, i, hz, hc⟩ := (C37_clear_bits mask who hw p).mp hp
  obtain ⟨bs, h1, h2⟩ := C49_bytes r [p] out
  refine ⟨bs, _, h1, h2, ?_⟩
  have hcon : (p.con % 256).toNat = p.con.toNat := by omega
  unfold coreZone
  unfold zoneBit at hz
  simp only [hcon]
  split at hz
  · next h => rw [if_pos h, h.1, Nat.mod_eq_of_lt (by omega : p.seq < 256)]; simp
  split at hz
  · next h0 h => rw [if_neg h0, if_pos h, h.1, Nat.mod_eq_of_lt (by omega : p.seq < 256)]; simp
  split at hz
  · next h0 h1 h => rw [if_neg h0, if_neg h1, if_pos h, h.1]; simp
  split at hz
  · next h0 h1 h2 h => rw [if_neg h0, if_neg h1, if_neg h2, if_pos h, h.1]; simp
  · cases hz

/-- **C49, negation.** The field zone and the first pendulum zone are offered as different zones, but choosing either gives the same
response, which names location 0. -/
theorem C49_confused :
    (⟨0, 0x100, 0, -1⟩ : Place) ∈ unpackZones 0 0 ∧ (⟨0, 0x200, 0, -1⟩ : Place) ∈ unpackZones 0 0 ∧
    ∀ r out, decodeOneAnswer r (.selectZone [⟨0, 0x100, 0, -1⟩]) out = .ok [0, 0, 0] ∧
      decodeOneAnswer r (.selectZone [⟨0, 0x200, 0, -1⟩]) out = .ok [0, 0, 0] :=
  ⟨by decide, by decide, fun _ _ => ⟨rfl, rfl⟩⟩

example : decodeOneAnswer (.selectZone false 2 []) (.selectZone [⟨1, 4, 6, -1⟩, ⟨0, 8, 2, -1⟩]) [7] = .ok [1, 4, 6, 0, 8, 2] := rfl

/-! ## C60 -/

/-- What an answer that is a single number says; races have up to 64 bits. -/
def single : Answer → Option Int
  | .selectAttribute v | .selectCardCode v | .selectEffect v | .selectNumber v | .selectPosition v | .selectRace v => some v
  | .selectToChain (.index i) => some i
  | .selectToChain (.noOp _) => some (-1)
  | .selectCard (.cancel _) | .selectCard (.finish _) | .sort (.skip _) => some (-1)
  | .selectYesNo b => some (if b then 1 else 0)
  | .selectRockPaperScissors v => some v
  | _ => none

theorem oneNumber_responseI (v : Int) : oneNumber (responseI v) = some (v.bmod (2 ^ 32)) := by
  have hl : (responseI v).length = 4 := writeLE_length 4 v
  unfold oneNumber
  rw [if_pos hl]
  have h := num_writeLE 4 v
  have e : (num (responseI v) : Int) = v % 2 ^ 32 := by
    rw [show responseI v = writeLE 4 v from rfl, h]; norm_num
  congr 1
  unfold signed
  rw [Int.bmod_def]
  split <;> split <;> omega

theorem single_response (r : Request) (a : Answer) (v : Int) (h : single a = some v) (out : List UInt8) :
    decodeOneAnswer r a out = .ok (responseI v) := by
  cases a <;> simp only [single, Option.some.injEq, reduceCtorEq] at h <;> try (subst h; rfl)
  case selectCard a => cases a <;> simp only [single, Option.some.injEq, reduceCtorEq] at h <;> subst h <;> rfl
  case selectToChain a => cases a <;> simp only [single, Option.some.injEq, reduceCtorEq] at h <;> subst h <;> rfl
  case sort a => cases a <;> simp only [single, Option.some.injEq, reduceCtorEq] at h; subst h; rfl

/-- **C60.** An answer that is a single number is read by the core as that number, provided it is a 32-bit number. -/
theorem C60_single (r : Request) (a : Answer) (v : Int) (h : single a = some v) (hv : -2 ^ 31 ≤ v ∧ v < 2 ^ 31) (out : List UInt8) :
    ∃ bs, decodeOneAnswer r a out = .ok bs ∧ oneNumber bs = some v := by
  refine ⟨_, single_response r a v h out, ?_⟩
  rw [oneNumber_responseI, Int.bmod_def]
  congr 1
  split <;> omega

/-- **C60.** In general the core reads the 32-bit number with the same remainder. -/
theorem C60_single_mod (r : Request) (a : Answer) (v : Int) (h : single a = some v) (out : List UInt8) :
    ∃ bs, decodeOneAnswer r a out = .ok bs ∧ oneNumber bs = some (v.bmod (2 ^ 32)) :=
  ⟨_, single_response r a v h out, oneNumber_responseI v⟩

/-- **C60.** Races beyond the 32nd bit do not reach the core: this answer is read as 0. -/
theorem C60_race_cut (r : Request) (out : List UInt8) : decodeOneAnswer r (.selectRace (2 ^ 32)) out = .ok [0, 0, 0, 0] := rfl

/-- **C60.** Declining to chain, cancelling, finishing and skipping a sort are read as -1, which no index is. -/
theorem C60_declining (r : Request) (b : Bool) (out : List UInt8) :
    ∀ a ∈ [Answer.selectToChain (.noOp b), .selectCard (.cancel b), .selectCard (.finish b), .sort (.skip b)],
      ∃ bs, decodeOneAnswer r a out = .ok bs ∧ oneNumber bs = some (-1) := by
  intro a ha
  simp only [List.mem_cons, List.not_mem_nil, or_false] at ha
  rcases ha with rfl | rfl | rfl | rfl <;> exact ⟨_, rfl, by decide⟩

example : ∃ bs, decodeOneAnswer .unset (.selectNumber 70000) [1, 2] = .ok bs ∧ bs = [0x70, 0x11, 1, 0] := ⟨_, rfl, rfl⟩

end Ygo.Props
