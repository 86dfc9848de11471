import Verif.Model.Constants
import Verif.Spec.Constants
import Verif.Props.Bit
import Verif.Props.Dialog
import Verif.Props.Place

/-!
# The constants are flags (C86)
-/

namespace Ygo.Props
open Ygo Ygo.Bit Ygo.Spec

variable {C : Type} [EncodeContext C]

theorem and_bit_ne_zero (x k : Nat) : x &&& 2 ^ k ≠ 0 ↔ x.testBit k = true := by
  constructor
  · intro h
    obtain ⟨j, hj⟩ := Nat.exists_testBit_of_ne_zero h
    rw [Nat.testBit_and, Nat.testBit_two_pow] at hj
    simp at hj
    obtain ⟨h1, rfl⟩ := hj
    exact h1
  · intro h h0
    have : (x &&& 2 ^ k).testBit k = true := by simp [Nat.testBit_and, h]
    rw [h0] at this; simp at this

/-- **C86.** Every named value of every enumeration is a single bit of its type, and no two names share one. -/
theorem C86_single_bits (e : FlagEnum) : (∀ v ∈ e.values, ∃ k, k < e.digits ∧ v = 2 ^ k) ∧ e.values.Nodup := by
  cases e <;> decide +kernel

/-- **C86.** Races, reasons and queries are numbers of 64 bits, all others of 32. -/
theorem C86_widths (e : FlagEnum) : e.digits = if e = .race ∨ e = .reason ∨ e = .query then 64 else 32 := by
  cases e <;> decide +kernel

theorem allOf_testBit (vs : List Nat) (k : Nat) : (allOf vs).testBit k = true ↔ ∃ v ∈ vs, v.testBit k = true := by
  induction vs with
  | nil => simp [allOf]
  | cons v vs ih => simp [allOf, Nat.testBit_or, ih]

theorem allOf_bit {e : FlagEnum} {vs : List Nat} (h : ∀ v ∈ vs, v ∈ e.values) (k : Nat) :
    (allOf vs).testBit k = true ↔ 2 ^ k ∈ vs := by
  rw [allOf_testBit]
  constructor
  · rintro ⟨v, hv, hb⟩
    obtain ⟨j, _, rfl⟩ := (C86_single_bits e).1 v (h v hv)
    rw [Nat.testBit_two_pow] at hb
    have : j = k := by simpa using hb
    subst this; exact hv
  · intro hv
    exact ⟨_, hv, by simp⟩

/-- **C86.** Testing a value made of named flags for one of the names tells whether that flag is among them. -/
theorem C86_test (e : FlagEnum) (vs : List Nat) (h : ∀ v ∈ vs, v ∈ e.values) (v : Nat) (hv : v ∈ e.values) :
    allOf vs &&& v ≠ 0 ↔ v ∈ vs := by
  obtain ⟨k, _, rfl⟩ := (C86_single_bits e).1 v hv
  rw [← allOf_bit h, and_bit_ne_zero]

/-- **C86.** Values made of different flags are different. -/
theorem C86_determined (e : FlagEnum) (vs ws : List Nat) (h : ∀ v ∈ vs, v ∈ e.values) (h' : ∀ v ∈ ws, v ∈ e.values)
    (heq : allOf vs = allOf ws) (v : Nat) : v ∈ vs ↔ v ∈ ws := by
  constructor
  · intro hv
    exact (C86_test e ws h' v (h v hv)).1 (heq ▸ (C86_test e vs h v (h v hv)).2 hv)
  · intro hv
    exact (C86_test e vs h v (h' v hv)).1 (heq ▸ (C86_test e ws h' v (h' v hv)).2 hv)

theorem allOf_lt {vs : List Nat} {w : Nat} (h : ∀ v ∈ vs, v < 2 ^ w) : allOf vs < 2 ^ w := by
  induction vs with
  | nil => simp [allOf]
  | cons v vs ih => exact Nat.or_lt_two_pow (h v (by simp)) (ih (fun x hx => h x (by simp [hx])))

theorem named_lt {e : FlagEnum} {vs : List Nat} (h : ∀ v ∈ vs, v ∈ e.values) : allOf vs < 2 ^ e.digits := by
  refine allOf_lt fun v hv => ?_
  obtain ⟨k, hk, rfl⟩ := (C86_single_bits e).1 v (h v hv)
  exact Nat.pow_lt_pow_right (by omega) hk

theorem ones_add_bit {w k x : Nat} (hk : k < w) (hx : x.testBit k = false) : ones w (2 ^ k ||| x) = ones w x + 1 := by
  induction w with
  | zero => omega
  | succ w ih =>
    rw [ones_succ, ones_succ]
    by_cases hkw : k = w
    · subst hkw
      rw [ones_congr (y := x) (fun i hi => by rw [Nat.testBit_or, Nat.testBit_two_pow]; simp; omega)]
      simp [Nat.testBit_or, hx]
    · rw [ih (by omega), Nat.testBit_or, Nat.testBit_two_pow]
      simp [hkw]; omega

/-- **C86.** `popcnt` of a value made of different flags is how many there are. -/
theorem C86_count (e : FlagEnum) (vs : List Nat) (h : ∀ v ∈ vs, v ∈ e.values) (hn : vs.Nodup) : popcnt (allOf vs) = vs.length := by
  rw [C01_popcnt_counts_ones e.digits _ (named_lt h)]
  induction vs with
  | nil => exact ones_zero_right _
  | cons v vs ih =>
    have hvs : ∀ x ∈ vs, x ∈ e.values := fun x hx => h x (by simp [hx])
    obtain ⟨k, hk, rfl⟩ := (C86_single_bits e).1 v (h v (by simp))
    rw [List.nodup_cons] at hn
    rw [allOf, ones_add_bit hk, ih hvs hn.2, List.length_cons]
    have := (not_congr (allOf_bit hvs k)).2 hn.1
    simpa using this

/-- **C86.** Whatever bits are taken from a value made of named flags, they are again some of those flags. -/
theorem C86_part (e : FlagEnum) (vs : List Nat) (h : ∀ v ∈ vs, v ∈ e.values) (x : Nat) (hx : x &&& allOf vs = x) :
    x = allOf (vs.filter fun v => x &&& v != 0) := by
  apply Nat.eq_of_testBit_eq
  intro k
  rw [Bool.eq_iff_iff, allOf_bit (e := e) (fun v hv => h v ((List.mem_filter.1 hv).1)), List.mem_filter, ← allOf_bit h k]
  have : (x &&& allOf vs).testBit k = x.testBit k := by rw [hx]
  rw [Nat.testBit_and] at this
  rw [bne_iff_ne, and_bit_ne_zero]
  cases hb : x.testBit k <;> simp_all

/-- **C86.** Named values fit the numbers in which the core sends them: races and reasons in 32 bits although their type has 64, phases
in 16, positions in 8. -/
theorem C86_fit (vs : List Nat) :
    ((∀ v ∈ vs, v ∈ FlagEnum.race.values) → allOf vs < 2 ^ 32) ∧ ((∀ v ∈ vs, v ∈ FlagEnum.reason.values) → allOf vs < 2 ^ 32) ∧
    ((∀ v ∈ vs, v ∈ FlagEnum.phase.values) → allOf vs < 2 ^ 16) ∧ ((∀ v ∈ vs, v ∈ FlagEnum.position.values) → allOf vs < 2 ^ 8) := by
  have fits : ∀ (e : FlagEnum) (w : Nat), (∀ v ∈ e.values, v < 2 ^ w) → (∀ v ∈ vs, v ∈ e.values) → allOf vs < 2 ^ w :=
    fun e w he h => allOf_lt fun v hv => he v (h v hv)
  exact ⟨fits .race 32 (by decide +kernel), fits .reason 32 (by decide +kernel), fits .phase 16 (by decide +kernel),
    fits .position 8 (by decide +kernel)⟩

/-- **C86.** Asked to choose among named races, a client may choose any of them: the core reads exactly the races chosen. -/
theorem C86_races_chosen (c : C) (p n : UInt8) (race : UInt64) (more : List UInt8) (vs ws : List Nat)
    (hv : ∀ v ∈ vs, v ∈ FlagEnum.race.values) (hr : race.toNat = allOf vs) (hw : ∀ v ∈ ws, v ∈ vs) (hne : ws ≠ []) (out : List UInt8) :
    encodeOne c ((CoreMsg.announceRace p n race).bytes ++ more) =
      .ok (⟨.ok, (CoreMsg.announceRace p n race).bytes.length, some ⟨.request p.toNat (.selectRace n.toNat (allOf vs)), []⟩⟩, c) ∧
    ∃ bs, decodeOneAnswer (.selectRace n.toNat (allOf vs)) (.selectRace (allOf ws)) out = .ok bs ∧
      coreReads (.announceRace p n race) bs = some (.race (allOf ws)) := by
  have hw' : ∀ v ∈ ws, v ∈ FlagEnum.race.values := fun v h => hv v (hw v h)
  refine C72_understood c (.announceRace p n race) trivial p.toNat (.selectRace n.toNat (allOf vs))
    (by simp [CoreMsg.meaning, hr]) more (.selectRace (allOf ws)) _ ?_ ((C86_fit ws).1 hw') out
  simp only [clientMeans]
  rw [if_pos]
  refine ⟨?_, ?_⟩
  · obtain ⟨w, ws', rfl⟩ := List.exists_cons_of_ne_nil hne
    intro h0
    have := (C86_test .race _ hw' w (hw' w (by simp))).2 (by simp)
    rw [h0] at this; simp at this
  · apply Nat.eq_of_testBit_eq
    intro k
    rw [Nat.testBit_and, Bool.eq_iff_iff, Bool.and_eq_true, allOf_bit hw', allOf_bit hv]
    exact ⟨fun h => h.1, fun h => ⟨h, hw _ h⟩⟩

/-- **C86.** And the classification of locations asks for the right flags: a value made of named locations is a pile if one of them is a
deck, hand, graveyard or banished pile, and a zone if one of them is a row of zones. -/
theorem C86_locations (vs : List Nat) (h : ∀ v ∈ vs, v ∈ FlagEnum.location.values) :
    (locIsPile (allOf vs) = true ↔ ∃ v ∈ vs, v ∈ [Loc.mainDeck, Loc.hand, Loc.graveyard, Loc.banished, Loc.extraDeck]) ∧
    (locIsZone (allOf vs) = true ↔
      ∃ v ∈ vs, v ∈ [Loc.monsterZone, Loc.spellZone, Loc.fieldZone, Loc.pendulumZone, Loc.skillZone]) := by
  obtain ⟨hp, hz⟩ := C05_classification_bits (allOf vs)
  rw [hp, hz]
  simp only [allOf_bit h]
  constructor
  · constructor
    · rintro (h | h | h | h | h) <;> exact ⟨_, h, by decide⟩
    · rintro ⟨v, hv, hm⟩
      simp only [List.mem_cons, List.not_mem_nil, or_false] at hm
      rcases hm with rfl | rfl | rfl | rfl | rfl <;> simp_all
  · constructor
    · rintro (h | h | h | h | h) <;> exact ⟨_, h, by decide⟩
    · rintro ⟨v, hv, hm⟩
      simp only [List.mem_cons, List.not_mem_nil, or_false] at hm
      rcases hm with rfl | rfl | rfl | rfl | rfl <;> simp_all

/-- **C86.** A single named location is a pile or a row of zones, not both. -/
theorem C86_location_kinds : ∀ v ∈ FlagEnum.location.values, locIsPile v = !locIsZone v := by decide +kernel

/-- **C86.** The constants that the code itself uses are among the named ones. -/
theorem C86_in_use : (∀ v ∈ [Reason.summon, Reason.effect, Reason.spsummon, Reason.flip, Reason.draw], v ∈ FlagEnum.reason.values) ∧
    (∀ v ∈ [Phase.battle, Phase.main2, Phase.end_], v ∈ FlagEnum.phase.values) ∧
    (∀ v, v ∈ FlagEnum.location.values ↔
      v ∈ [Loc.mainDeck, Loc.hand, Loc.monsterZone, Loc.spellZone, Loc.graveyard, Loc.banished, Loc.extraDeck, Loc.fieldZone,
        Loc.pendulumZone, Loc.skillZone]) ∧
    ∀ f : QField, f.flag ∈ FlagEnum.query.values :=
  ⟨by decide, by decide, fun _ => Iff.rfl, fun f => by cases f <;> decide +kernel⟩

example : FlagEnum.race.values.length = 32 ∧ FlagEnum.type.values.length = 26 ∧ FlagEnum.status.values.length = 30 := by decide

/-- Dragons and spellcasters. -/
example : allOf [0x2000, 0x2] = 0x2002 ∧ popcnt (allOf [0x2000, 0x2]) = 2 :=
  ⟨by decide, C86_count .race [0x2000, 0x2] (by decide) (by decide)⟩

example : ∃ bs, decodeOneAnswer (.selectRace 1 (allOf FlagEnum.race.values)) (.selectRace (allOf [0x80000000])) [] = .ok bs ∧
    coreReads (.announceRace 0 1 0xFFFFFFFF) bs = some (.race 0x80000000) :=
  (C86_races_chosen BasicContext.init 0 1 0xFFFFFFFF [] FlagEnum.race.values [0x80000000] (fun _ h => h) (by decide +kernel)
    (by decide +kernel) (by decide) []).2

end Ygo.Props
