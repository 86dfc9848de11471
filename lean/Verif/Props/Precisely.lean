import Verif.Props.Bit
import Verif.Props.Decode

/-! C03 and C49 hold exactly where the code does not go wrong. -/

namespace Ygo.Props

open Ygo.Spec Ygo.Bit

/-- **C03.** `choosel` is right except when no bits are asked for and the top bit is set. -/
theorem C03_exactly (w count x : Nat) (hw : w + 1 ≤ 32) (hx : x < 2 ^ (w + 1)) :
    (∃ r, choosel (w + 1) count x = .ok r ∧ HighestBits (w + 1) count x r) ↔ 0 < count ∨ x.testBit w = false := by
  constructor
  · rintro ⟨r, hr, hs⟩
    rcases Nat.eq_zero_or_pos count with rfl | h
    · right
      rw [C03_choosel_zero_exact w x hw] at hr
      cases ht : x.testBit w with
      | false => rfl
      | true =>
        rw [ht, if_pos rfl] at hr
        cases hr
        have := hs.card
        rw [Nat.zero_min, ones_succ, Nat.testBit_two_pow_self, if_pos rfl] at this
        omega
    · exact .inl h
  · intro h
    rcases Nat.eq_zero_or_pos count with rfl | hc
    · rw [C03_choosel_zero_exact w x hw]
      obtain ht : x.testBit w = false := by rcases h with h | h; (· cases h); exact h
      rw [ht]
      refine ⟨0, rfl, fun i hi => ?_, ?_, fun i j _ hi => ?_⟩
      · simp at hi
      · rw [Nat.zero_min, ones_zero_right]
      · simp at hi
    · exact C03_choosel_picks_highest_partial (w + 1) count x hw hx hc

example : (∃ r, choosel 8 0 0x7f = .ok r ∧ HighestBits 8 0 0x7f r) ∧ ¬ ∃ r, choosel 8 0 0x80 = .ok r ∧ HighestBits 8 0 0x80 r :=
  ⟨(C03_exactly 7 0 _ (by decide) (by decide)).mpr (.inr (by decide)),
    fun h => by rcases (C03_exactly 7 0 _ (by decide) (by decide)).mp h with h | h <;> revert h <;> decide⟩

/-- **C49.** Of answers made of zones that were offered, the core reads exactly those as chosen that name only monster zones and the
five spell zones. -/
theorem C49_exactly (mask : UInt32) (who : Nat) (hw : who < 2) (ps : List Place) (hp : ∀ p ∈ ps, p ∈ unpackZones mask.toNat who)
    (r : Request) (out : List UInt8) :
    ∃ bs, decodeOneAnswer r (.selectZone ps) out = .ok bs ∧
      ((selectedZones bs).map (·.map some) = some (ps.map coreZone) ↔ ∀ p ∈ ps, p.loc = 4 ∨ p.loc = 8) := by
  obtain ⟨bs, h1, h2⟩ := C49_bytes r ps out
  refine ⟨bs, h1, ?_⟩
  rw [h2, Option.map_some, List.map_map, Option.some_inj, List.map_inj_left]
  refine forall₂_congr fun p hm => ?_
  obtain ⟨b, z, e1, e2, e3⟩ := C49_offered mask who hw p (hp p hm) r out
  obtain ⟨b', e4, e5⟩ := C49_bytes r [p] out
  rw [e1] at e4
  cases e4
  rw [e2] at e5
  cases e5
  rw [← e3, Function.comp_apply]
  exact eq_comm

example : ∀ p ∈ [(⟨0, 4, 6, -1⟩ : Place), ⟨1, 0x100, 0, -1⟩], p ∈ unpackZones 0 0 := by decide

end Ygo.Props
