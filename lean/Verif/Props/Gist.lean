import Verif.Spec.Gist
import Verif.Spec.Inert
import Verif.Props.Encode

/-!
# C104: what is passed on of the core's messages
-/

namespace Ygo.Props
open Ygo Ygo.Spec

/-! ### Back from places -/

private def unslot (loc seq : Nat) : Nat × Nat :=
  if loc = 0x100 then (8, seq + 5) else if loc = 0x200 then (8, seq + 6) else (loc, seq)

private theorem base_bit (l : Nat) : (l % 128).testBit 3 = l.testBit 3 := by
  have := Nat.testBit_mod_two_pow l 7 3
  simpa using this

private theorem unslot_slot (loc : UInt8) (seq : Nat) :
    unslot (slot (loc.toNat % 128) seq).1 (slot (loc.toNat % 128) seq).2 = (gistLoc loc seq, seq) := by
  have hl : loc.toNat % 128 < 128 := Nat.mod_lt _ (by decide)
  unfold slot gistLoc unslot
  rw [base_bit]
  generalize loc.toNat % 128 = b at hl
  have h1 : b ≠ 256 := by omega
  have h2 : b ≠ 512 := by omega
  by_cases h : loc.toNat.testBit 3 = true
  · by_cases h5 : seq < 5
    · have h5' : ¬ 5 ≤ seq := by omega
      simp [h, h5, h5', h1, h2]
    · by_cases h6 : seq = 5
      · subst h6; simp [h]
      · have h5' : 5 ≤ seq := by omega
        have h7 : seq - 6 + 6 = seq := by omega
        simp [h, h5, h6, h5', h7]
  · simp [h, h1, h2]

private theorem gistLoc_lt (loc : UInt8) (seq : Nat) : gistLoc loc seq < 128 := by
  unfold gistLoc
  split
  · omega
  · exact Nat.mod_lt _ (by decide)

/-- The slot only depends on the gist. -/
private theorem slot_gist (loc : UInt8) (seq : Nat) : slot (gistLoc loc seq) seq = slot (loc.toNat % 128) seq := by
  unfold gistLoc
  split
  case isFalse => rfl
  case isTrue h =>
    have h5 : ¬ seq < 5 := by omega
    simp [slot, base_bit, h.1, h5, show Nat.testBit 8 3 = true from rfl]

private theorem toNat_ofNat8 {n : Nat} (h : n < 256) : (UInt8.ofNat n).toNat = n := by
  simp [Nat.mod_eq_of_lt h]

def pos32 (z : Int) : UInt32 := UInt32.ofNat (z % (2 ^ 32)).toNat

theorem pos32_signed (v : UInt32) : pos32 (signed32 v) = v := by
  unfold pos32 signed32
  have := v.toNat_lt
  have e : ((v.toNat : Int).bmod (2 ^ 32)) % (2 ^ 32) = v.toNat := by
    rw [Int.bmod_def]
    split <;> omega
  rw [e]
  simp

def backInfo (p : Place) : LocInfo :=
  ⟨UInt8.ofNat p.con.toNat, UInt8.ofNat ((unslot p.loc p.seq).1 + 128), UInt32.ofNat (unslot p.loc p.seq).2, pos32 p.oseq⟩

theorem back_info (i : LocInfo) : backInfo i.place = i.gist := by
  unfold backInfo LocInfo.place LocInfo.gist LocInfo.base
  simp only [unslot_slot]
  congr 1
  · simp
  · simp
  · split
    · exact pos32_signed _
    · rfl

private theorem bit7 {n : Nat} (h : n < 128) : (n + 128).testBit 7 = true := by
  have := Nat.testBit_two_pow_add_eq n 7
  rw [show n + 128 = 2 ^ 7 + n by omega, this]
  simp [Nat.testBit_lt_two_pow (show n < 2 ^ 7 by omega)]

theorem gist_info (i : LocInfo) : i.gist.place = i.place := by
  have hl := gistLoc_lt i.loc i.seq.toNat
  have h1 : (UInt8.ofNat (gistLoc i.loc i.seq.toNat + 128)).toNat = gistLoc i.loc i.seq.toNat + 128 := toNat_ofNat8 (by omega)
  have h2 : (gistLoc i.loc i.seq.toNat + 128) % 128 = gistLoc i.loc i.seq.toNat := by omega
  unfold LocInfo.gist LocInfo.place LocInfo.base
  simp only [h1, h2, slot_gist, bit7 hl, if_true, Place.mk.injEq, true_and]
  split
  · rfl
  · decide

private def backLoc (p : Place) : CardLoc :=
  ⟨UInt8.ofNat p.con.toNat, UInt8.ofNat (unslot p.loc p.seq).1, UInt32.ofNat (unslot p.loc p.seq).2⟩

private theorem back_loc (i : CardLoc) : backLoc i.place = i.gist := by
  unfold backLoc CardLoc.place CardLoc.gist
  simp only [unslot_slot]
  congr 1 <;> simp

private theorem gist_loc (i : CardLoc) : i.gist.place = i.place := by
  have hl := gistLoc_lt i.loc i.seq.toNat
  have h1 : (UInt8.ofNat (gistLoc i.loc i.seq.toNat)).toNat = gistLoc i.loc i.seq.toNat := toNat_ofNat8 (by omega)
  unfold CardLoc.gist CardLoc.place
  simp only [h1, Nat.mod_eq_of_lt hl, slot_gist]

private def backLocS (p : Place) : CardLocS :=
  ⟨UInt8.ofNat p.con.toNat, UInt8.ofNat (unslot p.loc p.seq).1, UInt8.ofNat (unslot p.loc p.seq).2⟩

private theorem back_locS (i : CardLocS) : backLocS i.place = i.gist := by
  unfold backLocS CardLocS.place CardLocS.gist
  simp only [unslot_slot]
  congr 1 <;> simp

private theorem gist_locS (i : CardLocS) : i.gist.place = i.place := by
  have hl := gistLoc_lt i.loc i.seq.toNat
  have h1 : (UInt8.ofNat (gistLoc i.loc i.seq.toNat)).toNat = gistLoc i.loc i.seq.toNat := toNat_ofNat8 (by omega)
  unfold CardLocS.gist CardLocS.place
  simp only [h1, Nat.mod_eq_of_lt hl, slot_gist]

private theorem back_long (i : CardLocS) : backLoc i.place = i.gistLong := by
  unfold backLoc CardLocS.place CardLocS.gistLong
  simp only [unslot_slot]
  congr 1; simp

private theorem gist_long (i : CardLocS) : i.gistLong.place = i.place := by
  have hl := gistLoc_lt i.loc i.seq.toNat
  have h1 : (UInt8.ofNat (gistLoc i.loc i.seq.toNat)).toNat = gistLoc i.loc i.seq.toNat := toNat_ofNat8 (by omega)
  have h2 : (UInt32.ofNat i.seq.toNat).toNat = i.seq.toNat := by
    have := i.seq.toNat_lt
    simp
  unfold CardLocS.gistLong CardLoc.place CardLocS.place
  simp only [h1, h2, Nat.mod_eq_of_lt hl, slot_gist]

private def backLocL (p : Place) : CardLocL := ⟨UInt8.ofNat p.con.toNat, UInt32.ofNat p.loc, UInt32.ofNat p.seq⟩

private theorem back_locL (i : CardLocL) : backLocL i.place = i.gist := by
  unfold backLocL CardLocL.place CardLocL.gist
  congr 1; simp

private theorem gist_locL (i : CardLocL) : i.gist.place = i.place := by
  have hb : i.base < 2 ^ 32 := by have := i.loc.toNat_lt; unfold CardLocL.base; omega
  have hs := i.seq.toNat_lt
  have key : ∀ b s : Nat, b < 2 ^ 32 → s < 2 ^ 32 → b % 256 < 128 → (slot b s).1 < 2 ^ 32 ∧ (slot b s).2 < 2 ^ 32 ∧
      (slot b s).1 % 256 < 128 ∧ slot (slot b s).1 (slot b s).2 = slot b s := by
    intro b s hb hs hm
    unfold slot
    by_cases h : b.testBit 3 = true
    · by_cases h5 : s < 5
      · simp [h, h5]; omega
      · by_cases h6 : s = 5
        · subst h6; simp [h]
        · simp only [h, h5, h6, if_true, if_false]
          refine ⟨by decide, by omega, by decide, ?_⟩
          simp [show Nat.testBit 512 3 = false from rfl]
    · simp [h]; omega
  have hm : i.base % 256 < 128 := by unfold CardLocL.base; omega
  obtain ⟨k1, k2, k3, k4⟩ := key i.base i.seq.toNat hb hs hm
  have e1 : (UInt32.ofNat (slot i.base i.seq.toNat).1).toNat = (slot i.base i.seq.toNat).1 := by simp; omega
  have e2 : (UInt32.ofNat (slot i.base i.seq.toNat).2).toNat = (slot i.base i.seq.toNat).2 := by simp; omega
  have e3 : i.gist.base = (slot i.base i.seq.toNat).1 := by
    show (UInt32.ofNat (slot i.base i.seq.toNat).1).toNat / 256 * 256 + (UInt32.ofNat (slot i.base i.seq.toNat).1).toNat % 128 = _
    rw [e1]; omega
  unfold CardLocL.place
  rw [e3]
  show Place.mk _ (slot _ (UInt32.ofNat (slot i.base i.seq.toNat).2).toNat).1 (slot _ (UInt32.ofNat (slot i.base i.seq.toNat).2).toNat).2 _ = _
  rw [e2, k4]
  rfl

/-! ### Effects, bits and masks -/

private def backEffect (e : Effect) : UInt64 := UInt64.ofNat (e.code * 2 ^ 20 + e.index)

private theorem back_effect (d : UInt64) : backEffect (effectOf d) = gistEffect d := by
  unfold backEffect effectOf gistEffect
  congr 1
  simp only
  omega

private theorem gist_effect (d : UInt64) : effectOf (gistEffect d) = effectOf d := by
  have h : (gistEffect d).toNat = d.toNat % 2 ^ 52 := by
    unfold gistEffect
    simp
    omega
  unfold effectOf
  rw [h]
  congr 1 <;> omega

def boolByte (b : Bool) : UInt8 := if b then 1 else 0

theorem back_bool (b : UInt8) : boolByte (CoreMsg.yes b) = gistBool b := by
  unfold boolByte CoreMsg.yes gistBool
  by_cases h : b = 0 <;> simp [h]

theorem gist_bool (b : UInt8) : CoreMsg.yes (gistBool b) = CoreMsg.yes b := by
  unfold CoreMsg.yes gistBool
  by_cases h : b = 0 <;> simp [h]

private def bitsUsed : List Nat := [0, 1, 2, 3, 4, 5, 6, 8, 9, 10, 11, 12, 13, 14, 15]

private theorem filterMap_same {α β : Type} {f g : α → Option β} : ∀ {l : List α}, (∀ x ∈ l, f x = g x) → l.filterMap f = l.filterMap g
  | [], _ => rfl
  | x :: xs, h => by
    rw [List.filterMap_cons, List.filterMap_cons, h x (by simp), filterMap_same fun y hy => h y (by simp [hy])]

private theorem clearZones_congr (con : Int) (f g : Nat → Bool) (h : ∀ i ∈ bitsUsed, f i = g i) : clearZones con f = clearZones con g := by
  unfold clearZones
  apply filterMap_same
  intro x hx
  have : f x.1 = g x.1 := h x.1 (by
    revert x
    decide)
  obtain ⟨i, loc, seq⟩ := x
  simp only at this ⊢
  rw [this]

private theorem con_clearZones (con : Int) (f : Nat → Bool) (p : Place) :
    p ∈ clearZones con f → p.con = con := by
  unfold clearZones
  simp only [List.mem_filterMap]
  rintro ⟨x, -, h⟩
  obtain ⟨i, loc, seq⟩ := x
  simp only at h
  split at h
  · cases h
  · cases h; rfl

private theorem clearZones_inj {con : Int} {f g : Nat → Bool} (h : clearZones con f = clearZones con g) : ∀ i ∈ bitsUsed, f i = g i := by
  have key : ∀ (f : Nat → Bool), ∀ x ∈ ([(0, 4, 0), (1, 4, 1), (2, 4, 2), (3, 4, 3), (4, 4, 4), (5, 4, 5), (6, 4, 6), (8, 8, 0), (9, 8, 1),
      (10, 8, 2), (11, 8, 3), (12, 8, 4), (13, 0x100, 0), (14, 0x200, 0), (15, 0x200, 1)] : List (Nat × Nat × Nat)),
      (Place.mk con x.2.1 x.2.2 (-1) ∈ clearZones con f ↔ f x.1 = false) := by
    intro f x hx
    unfold clearZones
    simp only [List.mem_filterMap]
    constructor
    · rintro ⟨y, hy, e⟩
      have : y = x := by
        obtain ⟨i, loc, seq⟩ := y
        obtain ⟨i', loc', seq'⟩ := x
        simp only at e
        split at e
        · cases e
        · simp only [Option.some.injEq, Place.mk.injEq, true_and, and_true] at e
          obtain ⟨rfl, rfl⟩ := e
          simp only [List.mem_cons, Prod.mk.injEq, List.not_mem_nil, or_false] at hx hy
          have : i = i' := by omega
          rw [this]
      subst this
      obtain ⟨i, loc, seq⟩ := y
      simp only at e
      split at e
      · cases e
      · rename_i hn; simpa using hn
    · intro hf
      refine ⟨x, hx, ?_⟩
      obtain ⟨i, loc, seq⟩ := x
      simp only at hf ⊢
      simp [hf]
  intro i hi
  have : ∃ x ∈ ([(0, 4, 0), (1, 4, 1), (2, 4, 2), (3, 4, 3), (4, 4, 4), (5, 4, 5), (6, 4, 6), (8, 8, 0), (9, 8, 1),
      (10, 8, 2), (11, 8, 3), (12, 8, 4), (13, 0x100, 0), (14, 0x200, 0), (15, 0x200, 1)] : List (Nat × Nat × Nat)), x.1 = i := by
    revert i
    decide
  obtain ⟨x, hx, rfl⟩ := this
  have e1 := key f x hx
  have e2 := key g x hx
  rw [h, e2] at e1
  cases hf : f x.1 <;> cases hg : g x.1 <;> simp_all

private theorem half_filter (con con' : Int) (hc : con ≠ con') (f g : Nat → Bool) :
    (clearZones con f ++ clearZones con' g).filter (fun p => p.con = con) = clearZones con f ∧
    (clearZones con f ++ clearZones con' g).filter (fun p => p.con = con') = clearZones con' g := by
  rw [List.filter_append, List.filter_append]
  have a (con : Int) (f : Nat → Bool) : (clearZones con f).filter (fun p => p.con = con) = clearZones con f := by
    rw [List.filter_eq_self]
    intro p hp
    simpa using con_clearZones con f p hp
  have b (con con' : Int) (hc : con ≠ con') (f : Nat → Bool) : (clearZones con f).filter (fun p => p.con = con') = [] := by
    rw [List.filter_eq_nil_iff]
    intro p hp
    simp [con_clearZones con f p hp, hc]
  rw [a, b con' con hc.symm, a, b con con' hc]
  simp

private theorem other_player (p : UInt8) : ((p.toNat : Nat) : Int) ≠ (((1 - p).toNat : Nat) : Int) := by
  have : ∀ n : Fin 256, (UInt8.ofNat n.val).toNat ≠ (1 - UInt8.ofNat n.val).toNat := by decide +kernel
  have := this ⟨p.toNat, p.toNat_lt⟩
  simp at this ⊢
  omega

private theorem clearBits_bits {m m' : UInt32} {p : UInt8} (h : clearBits m p = clearBits m' p) :
    ∀ i ∈ bitsUsed, m.toNat.testBit i = m'.toNat.testBit i ∧ m.toNat.testBit (16 + i) = m'.toNat.testBit (16 + i) := by
  unfold clearBits at h
  have hp := other_player p
  have h1 := congrArg (List.filter fun q => q.con = (p.toNat : Int)) h
  have h2 := congrArg (List.filter fun q => q.con = ((1 - p).toNat : Int)) h
  rw [(half_filter _ _ hp _ _).1, (half_filter _ _ hp _ _).1] at h1
  rw [(half_filter _ _ hp _ _).2, (half_filter _ _ hp _ _).2] at h2
  intro i hi
  exact ⟨clearZones_inj h1 i hi, clearZones_inj h2 i hi⟩

private theorem mask_bit (m : UInt32) (i : Nat) :
    (gistMask m).toNat.testBit i = (m.toNat.testBit i || (i == 7 || i == 23)) := by
  unfold gistMask
  rw [UInt32.toNat_or, Nat.testBit_or]
  congr 1
  have h : ∀ i < 24, Nat.testBit 0x800080 i = (i == 7 || i == 23) := by decide
  by_cases hi : i < 24
  · exact h i hi
  · have h1 : Nat.testBit 0x800080 i = false := Nat.testBit_lt_two_pow (Nat.lt_of_lt_of_le (by decide : 0x800080 < 2 ^ 24) (Nat.pow_le_pow_right (by decide) (by omega)))
    have h2 : (i == 7 || i == 23) = false := by simp; omega
    exact h1.trans h2.symm

private theorem gist_mask (m : UInt32) (p : UInt8) : clearBits (gistMask m) p = clearBits m p := by
  unfold clearBits
  have h : ∀ i ∈ bitsUsed, i ≠ 7 ∧ i ≠ 23 ∧ 16 + i ≠ 7 ∧ 16 + i ≠ 23 := by decide
  congr 1
  · apply clearZones_congr
    intro i hi
    simp [mask_bit, h i hi]
  · apply clearZones_congr
    intro i hi
    simp [mask_bit, h i hi]

private theorem mask_inj {m m' : UInt32} {p : UInt8} (h : clearBits m p = clearBits m' p) : gistMask m = gistMask m' := by
  have hb := clearBits_bits h
  apply UInt32.toNat.inj
  apply Nat.eq_of_testBit_eq
  intro i
  rw [mask_bit, mask_bit]
  by_cases hi : i < 32
  · by_cases h7 : (i == 7 || i == 23) = true
    · simp [h7]
    · have : ∀ i < 32, ¬ (i == 7 || i == 23) = true → i ∈ bitsUsed ∨ ∃ j ∈ bitsUsed, i = 16 + j := by decide
      rcases this i hi h7 with h | ⟨j, h, rfl⟩
      · rw [(hb i h).1]
      · rw [(hb j h).2]
  · have z (m : UInt32) : m.toNat.testBit i = false :=
      Nat.testBit_lt_two_pow (Nat.lt_of_lt_of_le m.toNat_lt (Nat.pow_le_pow_right (by decide) (by omega)))
    rw [z, z]

open Classical in
private noncomputable def backMask (p : UInt8) (ps : List Place) : UInt32 :=
  if h : ∃ m, clearBits m p = ps then gistMask h.choose else 0

private theorem back_mask (m : UInt32) (p : UInt8) : backMask p (clearBits m p) = gistMask m := by
  have h : ∃ m', clearBits m' p = clearBits m p := ⟨m, rfl⟩
  unfold backMask
  rw [dif_pos h]
  exact mask_inj h.choose_spec

/-! ### Lists -/

private def backAct {L : Type} (f : Place → L) (a : ActCard) : Activable L := ⟨0, f a.place, backEffect a.effect, 0⟩

private theorem back_acts {L : Type} {f : Place → L} {g : L → L} {pl : L → Place} (h : ∀ l, f (pl l) = g l) (acts : List (Activable L)) :
    (acts.map (Activable.card pl)).map (backAct f) = acts.map (Activable.gist g) := by
  rw [List.map_map]
  apply List.map_congr_left
  intro a _
  simp only [Function.comp, backAct, Activable.card, Activable.gist, h, back_effect]

private theorem gist_acts {L : Type} {g : L → L} {pl : L → Place} (h : ∀ l, pl (g l) = pl l) (acts : List (Activable L)) :
    (acts.map (Activable.gist g)).map (Activable.card pl) = acts.map (Activable.card pl) := by
  rw [List.map_map]
  apply List.map_congr_left
  intro a _
  simp only [Function.comp, Activable.card, Activable.gist, h, gist_effect]

private theorem back_cards {α β : Type} {f : Place → β} {g : α → β} {pl : α → Place} (h : ∀ l, f (pl l) = g l) (cs : List (UInt32 × α)) :
    (cs.map fun c => pl c.2).map (fun p => ((0 : UInt32), f p)) = gistCards g cs := by
  unfold gistCards
  rw [List.map_map]
  apply List.map_congr_left
  intro a _
  simp only [Function.comp, h]

private theorem gist_cards {α β : Type} {g : α → β} {pl : α → Place} {pl' : β → Place} (h : ∀ l, pl' (g l) = pl l) (cs : List (UInt32 × α)) :
    (gistCards g cs).map (fun c => pl' c.2) = cs.map fun c => pl c.2 := by
  unfold gistCards
  rw [List.map_map]
  apply List.map_congr_left
  intro a _
  simp only [Function.comp, h]

private theorem map_same {α β γ : Type} {f : β → γ} {g : α → β} {k : α → γ} (h : ∀ x, f (g x) = k x) (l : List α) : (l.map g).map f = l.map k := by
  rw [List.map_map]
  apply List.map_congr_left
  intro a _
  exact h a

private def backLink (c : Chain) : Link := ⟨0, backInfo c.cardPlace, backLoc c.place, backEffect c.effect⟩

private theorem back_link (l : Link) : backLink l.chain = l.gist := by
  simp only [backLink, Link.chain, Link.gist, back_info, back_loc, back_effect]

private theorem gist_link (l : Link) : l.gist.chain = l.chain := by
  simp only [Link.chain, Link.gist, gist_info, gist_loc, gist_effect]

/-! ### Fields -/

/-- The zone told by a list of places. -/
private def backCell (con : Int) (loc seq : Nat) (ps : List Place) : FieldCell :=
  if ps.countP (fun p => p = ⟨con, (slot loc seq).1, (slot loc seq).2, -1⟩) = 0 then .empty
  else .card 1 0 (UInt32.ofNat (ps.countP fun p => p.con = con ∧ p.loc = loc ∧ p.seq = seq ∧ 0 ≤ p.oseq))

private def cellMats : FieldCell → Nat
  | .empty => 0
  | .card _ _ m => m.toNat

private def cellCard : FieldCell → Nat
  | .empty => 0
  | .card .. => 1

/-- The zones of a row. -/
private def Row (loc seq : Nat) : Prop := loc = 4 ∧ seq < 7 ∨ loc = 8 ∧ seq < 8

private theorem count_mats (con con' : Int) (loc seq loc' seq' : Nat) (z : FieldCell) :
    (z.places con loc seq).countP (fun p => p.con = con' ∧ p.loc = loc' ∧ p.seq = seq' ∧ 0 ≤ p.oseq) =
      if con = con' ∧ loc = loc' ∧ seq = seq' then cellMats z else 0 := by
  cases z with
  | empty => simp [FieldCell.places, cellMats]
  | card mark pos m =>
    simp only [FieldCell.places, List.countP_cons, List.countP_map, cellMats]
    rw [if_neg (by simp)]
    by_cases h : con = con' ∧ loc = loc' ∧ seq = seq'
    · rw [if_pos h]
      obtain ⟨rfl, rfl, rfl⟩ := h
      rw [List.countP_eq_length.mpr (by simp)]
      simp
    · rw [if_neg h, List.countP_eq_zero.mpr]
      intro x _
      simp only [Function.comp, decide_eq_true_eq]
      tauto

private theorem slot_row {loc seq loc' seq' : Nat} (h : Row loc seq) (h' : Row loc' seq') (e : slot loc seq = slot loc' seq') :
    loc = loc' ∧ seq = seq' := by
  have : ∀ loc ∈ [4, 8], ∀ seq < 8, ∀ loc' ∈ [4, 8], ∀ seq' < 8, slot loc seq = slot loc' seq' → loc = loc' ∧ seq = seq' := by decide
  refine this loc ?_ seq ?_ loc' ?_ seq' ?_ e
  · rcases h with h | h <;> simp [h.1]
  · rcases h with h | h <;> omega
  · rcases h' with h | h <;> simp [h.1]
  · rcases h' with h | h <;> omega

private theorem count_card (con con' : Int) (loc seq loc' seq' : Nat) (h : Row loc seq) (h' : Row loc' seq') (z : FieldCell) :
    (z.places con loc seq).countP (fun p => p = ⟨con', (slot loc' seq').1, (slot loc' seq').2, -1⟩) =
      if con = con' ∧ loc = loc' ∧ seq = seq' then cellCard z else 0 := by
  cases z with
  | empty => simp [FieldCell.places, cellCard]
  | card mark pos m =>
    simp only [FieldCell.places, List.countP_cons, cellCard]
    rw [List.countP_eq_zero.mpr (by
      intro x hx
      simp only [List.mem_map] at hx
      obtain ⟨o, -, rfl⟩ := hx
      simp only [decide_eq_true_eq, Place.mk.injEq]
      omega)]
    by_cases e : con = con' ∧ loc = loc' ∧ seq = seq'
    · obtain ⟨rfl, rfl, rfl⟩ := e
      simp
    · rw [if_neg e, if_neg]
      simp only [decide_eq_true_eq, Place.mk.injEq, and_true]
      rintro ⟨rfl, e1, e2⟩
      exact e ⟨rfl, slot_row h h' (Prod.ext e1 e2)⟩

private theorem back_cell (z : FieldCell) (con : Int) (loc seq : Nat) (ps : List Place)
    (h1 : ps.countP (fun p => p = ⟨con, (slot loc seq).1, (slot loc seq).2, -1⟩) = cellCard z)
    (h2 : ps.countP (fun p => p.con = con ∧ p.loc = loc ∧ p.seq = seq ∧ 0 ≤ p.oseq) = cellMats z) : backCell con loc seq ps = z.gist := by
  unfold backCell
  rw [h1, h2]
  cases z <;> simp [cellCard, cellMats, FieldCell.gist]

private def backSide (con : Int) (lp : Nat) (ps : List Place) (ns : List Nat) : FieldSide :=
  ⟨UInt32.ofNat lp, (List.range 7).map (fun i => backCell con 4 i ps), (List.range 8).map (fun i => backCell con 8 i ps),
   UInt32.ofNat (ns.getD 0 0), UInt32.ofNat (ns.getD 1 0), UInt32.ofNat (ns.getD 2 0), UInt32.ofNat (ns.getD 3 0), UInt32.ofNat (ns.getD 4 0), 0⟩

/-- Counting the places of a row of zones. -/
private theorem count_row (P : Place → Bool) (con : Int) (loc : Nat) (v : Nat → FieldCell → Nat) :
    ∀ (k : Nat) (zs : List FieldCell), (∀ i < zs.length, ∀ z, (z.places con loc (k + i)).countP P = v (k + i) z) →
      ((zs.mapIdx fun i z => z.places con loc (k + i)).flatten).countP P = (zs.mapIdx fun i z => v (k + i) z).sum
  | _, [], _ => by simp
  | k, z :: zs, h => by
    rw [List.mapIdx_cons, List.mapIdx_cons, List.flatten_cons, List.countP_append, List.sum_cons, h 0 (by simp) z]
    have e1 : (fun (i : Nat) (z : FieldCell) => z.places con loc (k + 1 + i)) = fun i z => z.places con loc (k + (i + 1)) := by
      funext i z; rw [show k + 1 + i = k + (i + 1) by omega]
    have e2 : (fun (i : Nat) (z : FieldCell) => v (k + 1 + i) z) = fun i z => v (k + (i + 1)) z := by
      funext i z; rw [show k + 1 + i = k + (i + 1) by omega]
    have := count_row P con loc v (k + 1) zs (fun i hi z => by
      have := h (i + 1) (by simpa using hi) z
      rw [show k + 1 + i = k + (i + 1) by omega]
      exact this)
    rw [e1, e2] at this
    rw [this]

private theorem sum_single (v : FieldCell → Nat) (j : Nat) : ∀ (k : Nat) (zs : List FieldCell),
    (zs.mapIdx fun i z => if k + i = j then v z else 0).sum = if h : k ≤ j ∧ j - k < zs.length then v (zs[j - k]'h.2) else 0
  | k, [] => by simp
  | k, z :: zs => by
    rw [List.mapIdx_cons, List.sum_cons]
    have e2 : (fun (i : Nat) (z : FieldCell) => if k + (i + 1) = j then v z else 0) = fun i z => if k + 1 + i = j then v z else 0 := by
      funext i z; rw [show k + 1 + i = k + (i + 1) by omega]
    rw [e2, sum_single v j (k + 1) zs]
    by_cases e : k = j
    · subst e
      simp
    · by_cases hk : k + 1 ≤ j
      · have : j - k = j - (k + 1) + 1 := by omega
        simp only [this, Nat.add_zero, e, if_false, Nat.zero_add, List.getElem_cons_succ, List.length_cons]
        by_cases hl : j - (k + 1) < zs.length
        · rw [dif_pos ⟨hk, hl⟩, dif_pos ⟨by omega, by omega⟩]
        · rw [dif_neg (by omega), dif_neg (by omega)]
      · simp [e]
        rw [dif_neg (by omega), dif_neg (by omega)]

private theorem sum_zero : ∀ zs : List FieldCell, (zs.mapIdx fun _ _ => (0 : Nat)).sum = 0
  | [] => rfl
  | z :: zs => by rw [List.mapIdx_cons, List.sum_cons, sum_zero zs]

private theorem count_side (P : Place → Bool) (v : FieldCell → Nat) (con con' : Int) (loc' seq' : Nat)
    (hP : ∀ loc seq z, Row loc seq → (FieldCell.places con loc seq z).countP P = if con = con' ∧ loc = loc' ∧ seq = seq' then v z else 0)
    (s : FieldSide) (hm : s.monsters.length = 7) (hs : s.spells.length = 8) :
    (s.places con).countP P = if con = con' then
      (if h : loc' = 4 ∧ seq' < 7 then v (s.monsters[seq']'(by omega)) else if h : loc' = 8 ∧ seq' < 8 then v (s.spells[seq']'(by omega)) else 0)
      else 0 := by
  unfold FieldSide.places
  have e (loc : Nat) (zs : List FieldCell) : (zs.mapIdx fun i z => z.places con loc i) = zs.mapIdx fun i z => z.places con loc (0 + i) := by
    congr 1; funext i z; rw [Nat.zero_add]
  rw [List.countP_append, e, e,
    count_row P con 4 (fun i z => if con = con' ∧ 4 = loc' ∧ i = seq' then v z else 0) 0 s.monsters
      (fun i hi z => hP _ _ _ (Or.inl ⟨rfl, by omega⟩)),
    count_row P con 8 (fun i z => if con = con' ∧ 8 = loc' ∧ i = seq' then v z else 0) 0 s.spells
      (fun i hi z => hP _ _ _ (Or.inr ⟨rfl, by omega⟩))]
  by_cases hc : con = con'
  · have e1 (a : Nat) (ha : a = loc') : (fun (i : Nat) (z : FieldCell) => if con = con' ∧ a = loc' ∧ 0 + i = seq' then v z else 0) =
        fun i z => if 0 + i = seq' then v z else 0 := by
      funext i z; simp [hc, ha]
    have e0 (a : Nat) (ha : a ≠ loc') (zs : List FieldCell) :
        (zs.mapIdx fun i z => if con = con' ∧ a = loc' ∧ 0 + i = seq' then v z else 0).sum = 0 := by
      simp [ha, sum_zero]
    rw [if_pos hc]
    by_cases h4 : 4 = loc'
    · rw [e1 4 h4, e0 8 (by omega), sum_single]
      by_cases h : seq' < 7
      · rw [dif_pos (by omega), dif_pos ⟨h4.symm, h⟩]; rfl
      · rw [dif_neg (by omega), dif_neg (by omega), dif_neg (by omega)]
    · rw [e0 4 h4, dif_neg (by omega)]
      by_cases h8 : 8 = loc'
      · rw [e1 8 h8, sum_single]
        by_cases h : seq' < 8
        · rw [dif_pos (by omega), dif_pos ⟨h8.symm, h⟩]; simp
        · rw [dif_neg (by omega), dif_neg (by omega)]
      · rw [e0 8 h8, dif_neg (by omega)]
  · rw [if_neg hc]
    simp [hc, sum_zero]

private theorem back_side (s s' : FieldSide) (con con' : Int) (hc : con ≠ con') (hm : s.monsters.length = 7) (hs : s.spells.length = 8)
    (hm' : s'.monsters.length = 7) (hs' : s'.spells.length = 8) (ps : List Place) (ns : List Nat)
    (hp : ps = s.places con ++ s'.places con' ∨ ps = s'.places con' ++ s.places con) (hn : ns = (s.piles con).map (·.count)) :
    backSide con s.lp.toNat ps ns = s.gist := by
  have count (P : Place → Bool) (v : FieldCell → Nat) (loc' seq' : Nat)
      (hP : ∀ con'' loc seq z, Row loc seq → (FieldCell.places con'' loc seq z).countP P = if con'' = con ∧ loc = loc' ∧ seq = seq' then v z else 0) :
      ps.countP P = if h : loc' = 4 ∧ seq' < 7 then v (s.monsters[seq']'(by omega)) else
        if h : loc' = 8 ∧ seq' < 8 then v (s.spells[seq']'(by omega)) else 0 := by
    have a := count_side P v con con loc' seq' (hP con) s hm hs
    have b := count_side P v con' con loc' seq' (hP con') s' hm' hs'
    rw [if_pos rfl] at a
    rw [if_neg (Ne.symm hc)] at b
    rcases hp with rfl | rfl
    · rw [List.countP_append, a, b, Nat.add_zero]
    · rw [List.countP_append, a, b, Nat.zero_add]
  have c1 (loc' seq' : Nat) (h' : Row loc' seq') := count _ cellCard loc' seq' fun con'' loc seq z h =>
    count_card con'' con loc seq loc' seq' h h' z
  have c2 (loc' seq' : Nat) := count _ cellMats loc' seq' fun con'' loc seq z _ => count_mats con'' con loc seq loc' seq' z
  unfold backSide FieldSide.gist
  subst hn
  congr 1
  · simp
  · apply List.ext_getElem
    · simp [hm]
    intro i hi _
    simp only [List.length_map, List.length_range] at hi
    simp only [List.getElem_map, List.getElem_range]
    apply back_cell
    · rw [c1 4 i (Or.inl ⟨rfl, hi⟩), dif_pos ⟨rfl, hi⟩]
    · rw [c2 4 i, dif_pos ⟨rfl, hi⟩]
  · apply List.ext_getElem
    · simp [hs]
    intro i hi _
    simp only [List.length_map, List.length_range] at hi
    simp only [List.getElem_map, List.getElem_range]
    apply back_cell
    · rw [c1 8 i (Or.inr ⟨rfl, hi⟩), dif_neg (by omega), dif_pos ⟨rfl, hi⟩]
    · rw [c2 8 i, dif_neg (by omega), dif_pos ⟨rfl, hi⟩]
  all_goals simp [FieldSide.piles]

private theorem gist_cell (z : FieldCell) (con : Int) (loc seq : Nat) : z.gist.places con loc seq = z.places con loc seq := by
  cases z <;> rfl

private theorem gist_side (s : FieldSide) (con : Int) : s.gist.places con = s.places con ∧ s.gist.piles con = s.piles con := by
  refine ⟨?_, rfl⟩
  unfold FieldSide.places FieldSide.gist
  have e (loc : Nat) (zs : List FieldCell) : ((zs.map FieldCell.gist).mapIdx fun i z => z.places con loc i) = zs.mapIdx fun i z => z.places con loc i := by
    apply List.ext_getElem
    · simp
    · intro i _ _
      simp [gist_cell]
  simp only [e]

/-! ### Back from what is told -/

open Classical in
/-- The message of which just this is passed on. -/
private noncomputable def back : CoreMsg.Meaning → CoreMsg
  | .nothing => .retry
  | .queries _ => .retry
  | .event (.board (.state s)) =>
    if s.turnCounter = 0 then .start 0 (UInt32.ofNat (s.lps.getD 0 0)) (UInt32.ofNat (s.lps.getD 1 0))
      (UInt16.ofNat ((s.resize.map (·.count)).getD 0 0)) (UInt16.ofNat ((s.resize.map (·.count)).getD 1 0))
      (UInt16.ofNat ((s.resize.map (·.count)).getD 2 0)) (UInt16.ofNat ((s.resize.map (·.count)).getD 3 0))
    else .reloadField ((if s.shape.threeColumns then UInt32.ofNat (2 ^ 22) else 0) + (if s.shape.hasPzones then UInt32.ofNat (2 ^ 11) else 0) +
        (if s.shape.hasSeparatePzones then UInt32.ofNat (2 ^ 12) else 0) + (if s.shape.hasEmzones then UInt32.ofNat (2 ^ 13) else 0))
      (backSide 0 (s.lps.getD 0 0) s.add ((s.resize.map (·.count)).take 5)) (backSide 1 (s.lps.getD 1 0) s.add ((s.resize.map (·.count)).drop 5))
      (s.chains.map backLink)
  | .request p (.selectIdle i) =>
    if i.isBattleCmd then .selectBattlecmd (UInt8.ofNat p.toNat) (i.activable.map (backAct backLoc))
      (i.canAttack.map fun a => (0, backLocS a.place, boolByte a.canAttackDirectly)) (boolByte (i.availablePhase.testBit 8)) (boolByte (i.availablePhase.testBit 9))
    else .selectIdlecmd (UInt8.ofNat p.toNat) (i.summonable.map fun p => (0, backLoc p)) (i.spsummonable.map fun p => (0, backLoc p))
      (i.repositionable.map fun p => (0, backLocS p)) (i.msetable.map fun p => (0, backLoc p)) (i.ssetable.map fun p => (0, backLoc p))
      (i.activable.map (backAct backLoc)) (boolByte (i.availablePhase.testBit 7)) (boolByte (i.availablePhase.testBit 9)) (boolByte i.canShuffle)
  | .request p (.selectYesNo pl c e) => if pl = {} ∧ c = 0 then .selectYesno (UInt8.ofNat p.toNat) (backEffect e)
      else .selectEffectyn (UInt8.ofNat p.toNat) (UInt32.ofNat c) (backInfo pl) (backEffect e)
  | .request p (.selectEffect _ es) => .selectOption (UInt8.ofNat p.toNat) (es.map backEffect)
  | .request p (.selectCard (.limbo c mn mx cs)) =>
    .selectCard (UInt8.ofNat p.toNat) (boolByte c) (UInt32.ofNat mn) (UInt32.ofNat mx) (cs.map fun c => (UInt32.ofNat c, ⟨0, 0, 0, 0⟩))
  | .request p (.selectCard (.uniqueRange c mn mx cs)) =>
    .selectCard (UInt8.ofNat p.toNat) (boolByte c) (UInt32.ofNat mn) (UInt32.ofNat mx) (cs.map fun c => (UInt32.ofNat c.code, backInfo c.place))
  | .request p (.selectCard (.uniqueTributes c mn mx cs)) =>
    .selectTribute (UInt8.ofNat p.toNat) (boolByte c) (UInt32.ofNat mn) (UInt32.ofNat mx)
      (cs.map fun c => (UInt32.ofNat c.code, backLoc c.place, UInt8.ofNat c.countAs))
  | .request p (.selectCard (.recursive f a mn mx ss us)) =>
    .selectUnselectCard (UInt8.ofNat p.toNat) (boolByte f) (boolByte a) (UInt32.ofNat mn) (UInt32.ofNat mx)
      (ss.map fun c => (UInt32.ofNat c.code, backInfo c.place)) (us.map fun c => (UInt32.ofNat c.code, backInfo c.place))
  | .request p (.selectToChain f t acts) =>
    .selectChain (UInt8.ofNat p.toNat) (boolByte t) (boolByte f) 0 (acts.map (backAct backInfo))
  | .request p (.selectZone b n ps) =>
    if b then .selectDisfield (UInt8.ofNat p.toNat) (UInt8.ofNat n) (backMask (UInt8.ofNat p.toNat) ps)
    else .selectPlace (UInt8.ofNat p.toNat) (UInt8.ofNat n) (backMask (UInt8.ofNat p.toNat) ps)
  | .request p (.selectPosition _ c m) => .selectPosition (UInt8.ofNat p.toNat) (UInt32.ofNat c) (UInt8.ofNat m)
  | .request p (.sort ps) => .sortCard (UInt8.ofNat p.toNat) (ps.map fun p => (0, backLocL p))
  | .request p (.selectRockPaperScissors _) => .rockPaperScissors (UInt8.ofNat p.toNat)
  | .request p (.selectRace n r) => .announceRace (UInt8.ofNat p.toNat) (UInt8.ofNat n) (UInt64.ofNat r)
  | .request p (.selectAttribute n a) => .announceAttrib (UInt8.ofNat p.toNat) (UInt8.ofNat n) (UInt32.ofNat a)
  | .request p (.selectNumber _ ns) => .announceNumber (UInt8.ofNat p.toNat) (ns.map UInt64.ofNat)
  | .event (.metaInfo (.confirm _ ps)) => .confirmCards 0 (ps.map fun p => (0, backLoc p))
  | .event (.metaInfo (.shufflePile (p :: _))) =>
    if p.loc = 1 then .shuffleDeck (UInt8.ofNat p.con.toNat) else if p.loc = 2 then .shuffleHand (UInt8.ofNat p.con.toNat) []
    else .shuffleExtra (UInt8.ofNat p.con.toNat) []
  | .event (.card _ (.shuffle a b)) => .shuffleSetCard 0 ((a.map backInfo).zip (b.map backInfo))
  | .event (.nextTurn p) => .newTurn (UInt8.ofNat p.toNat)
  | .event (.nextPhase p) => .newPhase (UInt16.ofNat p)
  | .event (.metaInfo (.update r (p :: _))) =>
    if r = 0 then .set 0 (backLoc p) 0 else if r = 0x10 then .summoning 0 (backInfo p)
    else if r = 0x800 then .spsummoning 0 (backInfo p) else .flipsummoning 0 (backInfo p)
  | .event (.card _ (.exchange (o :: _))) => .swap 0 (backInfo o.fst) 0 (backInfo o.snd)
  | .event (.zoneBlock ps) => .fieldDisabled (backMask 0 ps)
  | .event (.chainStack (.push c)) => .chaining (backLink c) 0
  | .event (.chainStack (.pop _)) => .chainSolved 0
  | .event (.metaInfo (.chainStatus .chained)) => .chained 0
  | .event (.metaInfo (.chainStatus .solving)) => .chainSolving 0
  | .event (.metaInfo (.chainStatus .actNegated)) => .chainNegated 0
  | .event (.metaInfo (.chainStatus .effNegated)) => .chainDisabled 0
  | .event (.metaInfo (.selection s _ ps)) => if s = {} then .cardSelected (ps.map backInfo) else .cardTarget (backInfo s) (backInfo (ps.headD {}))
  | .event (.lp p (.damage n)) => .damage (UInt8.ofNat p.toNat) (UInt32.ofNat n)
  | .event (.lp p (.recover n)) => .recover (UInt8.ofNat p.toNat) (UInt32.ofNat n)
  | .event (.lp p (.become n)) => .lpupdate (UInt8.ofNat p.toNat) (UInt32.ofNat n)
  | .event (.lp p (.pay n)) => .payLpcost (UInt8.ofNat p.toNat) (UInt32.ofNat n)
  | .event (.metaInfo (.attack a b)) => .attack (backInfo a) (if b.loc = 0 then ⟨0, 0, 0, 0⟩ else backInfo b)
  | .event (.result (.coin p bs)) => .tossCoin (UInt8.ofNat p.toNat) (bs.map boolByte)
  | .event (.result (.dice p ns)) => .tossDice (UInt8.ofNat p.toNat) (ns.map UInt8.ofNat)
  | .event (.result (.rps zs)) => .handRes (UInt8.ofNat ((zs.getD 0 0).toNat + 4 * (zs.getD 1 0).toNat))
  | .event (.board (.exchange e)) => .tagSwap (UInt8.ofNat e.con.toNat) (UInt32.ofNat ((e.resize.map (·.count)).getD 0 0)) 0 0
      (List.replicate ((e.resize.map (·.count)).getD 1 0) (0, 0)) (List.replicate ((e.resize.map (·.count)).getD 2 0) (0, 0))
  | .event (.metaInfo (.description p (.add e))) => .playerHint (UInt8.ofNat p.toNat) 1 (backEffect e)
  | .event (.metaInfo (.description p (.remove e))) => .playerHint (UInt8.ofNat p.toNat) 0 (backEffect e)
  | _ => .retry

private theorem none_place (i : LocInfo) : i.place = {} ↔ i.IsNone := by
  unfold LocInfo.place LocInfo.IsNone
  rw [Place.mk.injEq]
  have hs : slot i.base i.seq.toNat = (0, 0) ↔ i.base = 0 ∧ i.seq = 0 := by
    unfold slot
    have hb : i.base < 128 := Nat.mod_lt _ (by decide)
    constructor
    · intro h
      split at h
      · rename_i ht
        split at h
        · simp only [Prod.mk.injEq] at h
          rw [h.1] at ht; simp at ht
        · split at h <;> simp at h
      · simp only [Prod.mk.injEq] at h
        exact ⟨h.1, UInt32.toNat.inj h.2⟩
    · rintro ⟨h1, h2⟩
      rw [h1, h2]; rfl
  constructor
  · rintro ⟨h1, h2, h3, h4⟩
    obtain ⟨h5, h6⟩ := hs.mp (Prod.ext h2 h3)
    have h7 : i.loc.toNat.testBit 7 = true := by
      by_contra hn
      rw [if_neg hn] at h4
      cases h4
    rw [if_pos h7] at h4
    refine ⟨?_, h5, h6, h7, ?_⟩
    · apply UInt8.toNat.inj
      simpa using h1
    · have := pos32_signed i.pos
      rw [h4] at this
      exact this.symm.trans (by decide +kernel)
  · rintro ⟨h1, h2, h3, h4, h5⟩
    have := hs.mpr ⟨h2, h3⟩
    rw [this, if_pos h4, h1, h5]
    exact ⟨rfl, rfl, rfl, by decide +kernel⟩

private theorem place_loc_zero (i : LocInfo) : i.place.loc = 0 ↔ i.base = 0 := by
  unfold LocInfo.place
  simp only
  unfold slot
  constructor
  · intro h
    split at h
    · rename_i ht
      split at h
      · exact h
      · split at h <;> simp at h
    · exact h
  · intro h; rw [h]; rfl

private theorem zip_same {α β γ : Type} (f : α → β) (g : α → γ) (l : List α) : (l.map f).zip (l.map g) = l.map fun x => (f x, g x) := by
  induction l with
  | nil => rfl
  | cons x xs ih => simp [ih]

set_option linter.unusedSimpArgs false in
private theorem back_meaning (m : CoreMsg) (hf : m.Fits) (hd : ¬ TellsData m) (x : CoreMsg.Meaning) (hm : m.meaning = some x) :
    back x = m.gist := by
  cases m <;> first
    | (exact absurd trivial hd)
    | (cases hm; done)
    | skip
  all_goals simp only [CoreMsg.meaning, Option.some.injEq] at hm
  all_goals subst hm
  all_goals try (simp only [back, CoreMsg.gist]; done)
  all_goals try (simp [back, CoreMsg.gist, back_info, back_loc, back_locS, back_long, back_effect, back_bool, back_mask, back_link]; done)
  case start => simp [back, CoreMsg.gist, CoreMsg.pileSize]
  case selectBattlecmd p acts atks m e =>
    have h1 : ∀ m e : Bool, ((if m = true then 0x100 else 0) + (if e = true then 0x200 else 0) : Nat).testBit 8 = m ∧
        ((if m = true then 0x100 else 0) + (if e = true then 0x200 else 0) : Nat).testBit 9 = e := by decide
    simp only [back, CoreMsg.gist, if_true, back_acts back_loc, (h1 _ _).1, (h1 _ _).2, back_bool]
    congr 1
    · simp
    · exact map_same (fun x => by simp only [back_locS, back_bool]) _
  case selectIdlecmd p s sp r ms ss acts b e sh =>
    have h1 : ∀ m e : Bool, ((if m = true then 0x80 else 0) + (if e = true then 0x200 else 0) : Nat).testBit 7 = m ∧
        ((if m = true then 0x80 else 0) + (if e = true then 0x200 else 0) : Nat).testBit 9 = e := by decide
    simp only [back, CoreMsg.gist, Bool.false_eq_true, if_false, back_acts back_loc, (h1 _ _).1, (h1 _ _).2, back_bool, back_cards back_loc,
      back_cards back_locS]
    congr 1
    simp
  case selectEffectyn p c l e =>
    simp only [back, CoreMsg.gist, none_place, back_info, back_effect]
    have : c.toNat = 0 ↔ c = 0 := ⟨fun h => UInt32.toNat.inj h, fun h => by rw [h]; rfl⟩
    simp [this]
  case selectCard p c mn mx cs =>
    simp only [CoreMsg.gist]
    split
    · simp [back, back_bool]
    · simp only [back, back_bool]
      congr 1
      · simp
      · simp
      · simp
      · exact map_same (fun x => by simp [back_info]) _
  case selectChain p s f t acts =>
    simp only [back, CoreMsg.gist, back_acts back_info, back_bool]
    congr 1
    · simp
    · by_cases h : s.toNat % 128 = 0 <;> simp [h, boolByte]
  case selectTribute p c mn mx cs =>
    simp only [back, CoreMsg.gist, back_bool]
    congr 1
    · simp
    · simp
    · simp
    · exact map_same (fun x => by simp [back_loc]) _
  case sortChain => simp [back, CoreMsg.gist, ← back_cards back_locL]
  case sortCard => simp [back, CoreMsg.gist, ← back_cards back_locL]
  case selectUnselectCard p f c mn mx ss us =>
    simp only [back, CoreMsg.gist, back_bool]
    congr 1
    · simp
    · simp
    · simp
    · exact map_same (fun x => by simp [back_info]) _
    · exact map_same (fun x => by simp [back_info]) _
  case confirmDecktop => simp [back, CoreMsg.gist, ← back_cards back_loc]
  case confirmCards => simp [back, CoreMsg.gist, ← back_cards back_loc]
  case confirmExtratop => simp [back, CoreMsg.gist, ← back_cards back_loc]
  case shuffleSetCard l cs =>
    simp only [back, CoreMsg.gist]
    congr 1
    rw [map_same (fun x : LocInfo × LocInfo => back_info x.1), map_same (fun x : LocInfo × LocInfo => back_info x.2), zip_same]
  case cardTarget a b =>
    simp only [back, CoreMsg.gist, none_place]
    split <;> simp [back_info]
  case cancelTarget a b =>
    simp only [back, CoreMsg.gist, none_place]
    split <;> simp [back_info]
  case attack a b =>
    simp only [back, CoreMsg.gist, back_info]
    congr 1
    by_cases h : b.base = 0
    · simp [h]
    · simp [h, place_loc_zero, back_info]
  case tossDice p rs =>
    simp only [back, CoreMsg.gist]
    congr 1
    · simp
    · rw [map_same (k := id) (fun x => by simp)]; simp
  case handRes h =>
    simp only [back, CoreMsg.gist]
    congr 2
    simp
    omega
  case announceNumber p ns =>
    simp only [back, CoreMsg.gist]
    congr 1
    · simp
    · rw [map_same (k := id) (fun x => by simp)]; simp
  case tagSwap p m ep dt ex ha =>
    simp [back, CoreMsg.gist, CoreMsg.pileSize, List.map_const']
  case reloadField f s0 s1 cs =>
    obtain ⟨f0, f1, -⟩ := hf
    simp only [back, CoreMsg.gist]
    rw [if_neg (by decide)]
    congr 1
    · exact back_side s0 s1 0 1 (by decide) f0.1 f0.2.1 f1.1 f1.2.1 _ _ (Or.inl rfl) (by simp [FieldSide.piles])
    · exact back_side s1 s0 1 0 (by decide) f1.1 f1.2.1 f0.1 f0.2.1 _ _ (Or.inr rfl) (by simp [FieldSide.piles])
    · exact map_same back_link _
  case playerHint p t e =>
    simp only [CoreMsg.gist]
    split <;> simp [back, back_effect]

/-! ### Nothing else is passed on -/

private theorem keep_bits (f : UInt32) :
    let k := keepBit f 22 + keepBit f 11 + keepBit f 12 + keepBit f 13
    k.toNat.testBit 22 = f.toNat.testBit 22 ∧ k.toNat.testBit 11 = f.toNat.testBit 11 ∧ k.toNat.testBit 12 = f.toNat.testBit 12 ∧
      k.toNat.testBit 13 = f.toNat.testBit 13 := by
  unfold keepBit
  cases f.toNat.testBit 22 <;> cases f.toNat.testBit 11 <;> cases f.toNat.testBit 12 <;> cases f.toNat.testBit 13 <;> decide +kernel

private theorem gist_base (i : LocInfo) : i.gist.base = 0 ↔ i.base = 0 := by
  have h1 := place_loc_zero i.gist
  have h2 := place_loc_zero i
  rw [gist_info] at h1
  exact h1.symm.trans h2

private theorem gist_loc_ne (i : LocInfo) : i.gist.loc ≠ 0 := by
  have hl := gistLoc_lt i.loc i.seq.toNat
  intro h
  have := congrArg UInt8.toNat h
  simp only [LocInfo.gist] at this
  rw [toNat_ofNat8 (by omega)] at this
  simp at this

set_option linter.unusedSimpArgs false in
private theorem gist_meaning (m : CoreMsg) (hd : ¬ TellsData m) : m.gist.meaning = m.meaning := by
  cases m <;> first
    | (exact absurd trivial hd)
    | rfl
    | skip
  all_goals try (simp [CoreMsg.gist, CoreMsg.meaning, gist_info, gist_loc, gist_locS, gist_long, gist_effect, gist_bool, gist_mask, gist_link]; done)
  all_goals simp only [CoreMsg.gist]
  case selectBattlecmd p acts atks m e =>
    simp [CoreMsg.meaning, gist_bool, gist_acts gist_loc, gist_locS]
  case selectIdlecmd p s sp r ms ss acts b e sh =>
    simp [CoreMsg.meaning, gist_bool, gist_acts gist_loc, gist_cards gist_loc, gist_cards gist_locS]
  case selectEffectyn p c l e =>
    split
    case isTrue h =>
      obtain ⟨h1, rfl⟩ := h
      simp [CoreMsg.meaning, gist_effect, (none_place l).mpr h1]
    case isFalse h => simp [CoreMsg.meaning, gist_effect, gist_info]
  case selectCard p c mn mx cs =>
    cases cs with
    | nil => simp [CoreMsg.meaning, gist_bool, gistCoded]
    | cons x xs =>
      by_cases h : x.2.loc = 0
      · simp [CoreMsg.meaning, gist_bool, h]
      · simp only [CoreMsg.meaning, List.head?_cons, Option.any_some, h, decide_false, Bool.false_eq_true, if_false, gist_bool]
        simp [gistCoded, gist_loc_ne, gist_info]
  case selectChain p s f t acts =>
    simp only [CoreMsg.meaning, gist_bool, gist_acts gist_info]
    split <;> simp_all
  case selectTribute p c mn mx cs =>
    simp [CoreMsg.meaning, gist_bool, gistCoded, gist_loc]
  case sortChain => simp [CoreMsg.meaning, gist_cards gist_locL]
  case sortCard => simp [CoreMsg.meaning, gist_cards gist_locL]
  case selectUnselectCard => simp [CoreMsg.meaning, gist_bool, gistCoded, gist_info]
  case confirmDecktop => simp [CoreMsg.meaning, gist_cards gist_loc]
  case confirmCards => simp [CoreMsg.meaning, gist_cards gist_loc]
  case confirmExtratop => simp [CoreMsg.meaning, gist_cards gist_loc]
  case cardTarget a b =>
    split
    case isTrue h => simp [CoreMsg.meaning, (none_place a).mpr h, gist_info]
    case isFalse h => simp [CoreMsg.meaning, gist_info]
  case cancelTarget a b =>
    split
    case isTrue h => simp [CoreMsg.meaning, (none_place a).mpr h, gist_info]
    case isFalse h => simp [CoreMsg.meaning, gist_info]
  case attack a b =>
    simp only [CoreMsg.meaning, gist_info]
    by_cases h : b.base = 0
    · rw [if_pos h, if_pos h, if_pos (by decide)]
    · rw [if_neg h, if_neg h, if_neg (by rwa [gist_base]), gist_info]
  case handRes h =>
    have e : (UInt8.ofNat (h.toNat % 16)).toNat = h.toNat % 16 := toNat_ofNat8 (by omega)
    simp only [CoreMsg.meaning, e]
    rw [show h.toNat % 16 % 4 = h.toNat % 4 by omega, show h.toNat % 16 / 4 % 4 = h.toNat / 4 % 4 by omega]
  case reloadField f s0 s1 cs =>
    obtain ⟨k1, k2, k3, k4⟩ := keep_bits f
    simp only [CoreMsg.meaning, k1, k2, k3, k4, (gist_side _ _).1, (gist_side _ _).2, map_same gist_link]
    rfl

private theorem fits_cell (z : FieldCell) (h : z.Fits) : z.gist.Fits := by
  cases z with
  | empty => trivial
  | card mark pos mats => exact ⟨by decide, h.2⟩

private theorem fits_side (s : FieldSide) (h : s.Fits) : s.gist.Fits := by
  obtain ⟨h1, h2, h3, h4⟩ := h
  refine ⟨by simpa [FieldSide.gist] using h1, by simpa [FieldSide.gist] using h2, ?_, ?_⟩
  · intro z hz
    simp only [FieldSide.gist, List.mem_map] at hz
    obtain ⟨y, hy, rfl⟩ := hz
    exact fits_cell y (h3 y hy)
  · intro z hz
    simp only [FieldSide.gist, List.mem_map] at hz
    obtain ⟨y, hy, rfl⟩ := hz
    exact fits_cell y (h4 y hy)

/-- **C104.** What is passed on of a message that the core can write is a message that the core can write. -/
theorem C104_fits (m : CoreMsg) (hf : m.Fits) : m.gist.Fits := by
  cases m
  case reloadField f s0 s1 cs => exact ⟨fits_side s0 hf.1, fits_side s1 hf.2.1, by simpa using hf.2.2⟩
  case selectEffectyn => simp only [CoreMsg.gist]; split <;> trivial
  case selectCard =>
    simp only [CoreMsg.gist, CoreMsg.Fits] at hf ⊢
    split <;> simpa [gistCoded] using hf
  case cardTarget => simp only [CoreMsg.gist]; split <;> simp [CoreMsg.Fits]
  case cancelTarget => simp only [CoreMsg.gist]; split <;> simp [CoreMsg.Fits]
  all_goals first
    | trivial
    | exact hf
    | simpa [CoreMsg.gist, CoreMsg.Fits, gistCards, gistCoded] using hf

variable {C C' : Type} [EncodeContext C] [EncodeContext C']

theorem meaning_inj {x x' : CoreMsg.Meaning} (h : x.msg = x'.msg) : x = x' := by
  cases x <;> cases x' <;> simp_all [CoreMsg.Meaning.msg]

/-- **C104.** Messages of the core that are translated on their own and tell no values of cards are translated to the same exactly if
the same is left of them when everything that is not passed on is taken away: whatever the contexts are, and whatever follows. -/
theorem C104_exactly (c : C) (c' : C') (m m' : CoreMsg) (hf : m.Fits) (hf' : m'.Fits) (hd : ¬ TellsData m) (hd' : ¬ TellsData m')
    (hs : m.meaning.isSome) (hs' : m'.meaning.isSome) (more more' : List UInt8) :
    ∃ r r', encodeOne c (m.bytes ++ more) = .ok (r, c) ∧ encodeOne c' (m'.bytes ++ more') = .ok (r', c') ∧
      (r.msg = r'.msg ↔ m.gist = m'.gist) := by
  obtain ⟨x, hx⟩ := Option.isSome_iff_exists.mp hs
  obtain ⟨x', hx'⟩ := Option.isSome_iff_exists.mp hs'
  refine ⟨_, _, C34_translation c m hf x hx more, C34_translation c' m' hf' x' hx' more', ?_⟩
  constructor
  · intro h
    have h := meaning_inj h
    subst h
    rw [← back_meaning m hf hd x hx, back_meaning m' hf' hd' x hx']
  · intro h
    have h1 := gist_meaning m hd
    rw [h, gist_meaning m' hd', hx, hx'] at h1
    cases h1
    rfl

private theorem gist_data (m : CoreMsg) (hd : ¬ TellsData m) : ¬ TellsData m.gist := by
  cases m
  case selectEffectyn => simp only [CoreMsg.gist]; split <;> exact id
  case cardTarget => simp only [CoreMsg.gist]; split <;> exact id
  case cancelTarget => simp only [CoreMsg.gist]; split <;> exact id
  all_goals exact hd

/-- **C104.** What is left of a message is translated to what the message is translated to. -/
theorem C104_enough (c : C) (m : CoreMsg) (hf : m.Fits) (hd : ¬ TellsData m) (hs : m.meaning.isSome) (more more' : List UInt8) :
    ∃ r r', encodeOne c (m.bytes ++ more) = .ok (r, c) ∧ encodeOne c (m.gist.bytes ++ more') = .ok (r', c) ∧ r.msg = r'.msg := by
  obtain ⟨x, hx⟩ := Option.isSome_iff_exists.mp hs
  exact ⟨_, _, C34_translation c m hf x hx more, C34_translation c m.gist (C104_fits m hf) x (by rw [gist_meaning m hd, hx]) more', rfl⟩

/-- **C104.** Nothing more can be taken away from what is left. -/
theorem C104_once (m : CoreMsg) (hf : m.Fits) (hd : ¬ TellsData m) (hs : m.meaning.isSome) : m.gist.gist = m.gist := by
  obtain ⟨x, hx⟩ := Option.isSome_iff_exists.mp hs
  rw [← back_meaning m.gist (C104_fits m hf) (gist_data m hd) x (by rw [gist_meaning m hd, hx]), back_meaning m hf hd x hx]

/-- Back from what is told in a context. -/
private def backAt (c : C) : CoreMsg.Meaning → CoreMsg
  | .event (.finish ⟨r, _, .draw _⟩) => .win 2 (UInt8.ofNat r)
  | .event (.finish ⟨r, _, .winner w⟩) => .win (UInt8.ofNat w.toNat) (UInt8.ofNat r)
  | .event (.metaInfo (.update _ (p :: _))) => .deckTop (UInt8.ofNat p.con.toNat)
      (match EncodeContext.pileSize c p.con 1 with
       | .ok n => UInt32.ofNat (in32 (n - 1 - p.seq))
       | .error _ => 0) 0 0
  | .event (.pile r (.splice (o :: _))) =>
    if r = 0x40 then .reverseDeck else .draw (UInt8.ofNat o.src.con.toNat) (List.replicate o.count (0, 0))
  | _ => .retry

private theorem back_at (c : C) (m : CoreMsg) (ha : m.AsksSizes) (x : CoreMsg.Meaning) (c1 : C) (h : m.inContext c = some (.ok (x, c1))) :
    backAt c x = m.gist := by
  cases m <;> first
    | exact absurd ha id
    | simp only [CoreMsg.inContext, Option.some.injEq] at h
  case win w r =>
    cases hn : EncodeContext.getMatchWinReason c with
    | error e => rw [hn] at h; cases h
    | ok n =>
      rw [hn] at h
      cases h
      by_cases hw : w = 2
      · simp [backAt, CoreMsg.gist, hw]
      · simp [backAt, CoreMsg.gist, hw]
  case reverseDeck =>
    cases hn : EncodeContext.pileSize c 0 1 with
    | error e => rw [hn] at h; cases h
    | ok n =>
      cases hk : EncodeContext.pileSize c 1 1 with
      | error e => rw [hn, hk] at h; cases h
      | ok k =>
        rw [hn, hk] at h
        cases h
        rfl
  case deckTop p seq code pos =>
    cases hn : EncodeContext.pileSize c p.toNat 1 with
    | error e => rw [hn] at h; cases h
    | ok n =>
      rw [hn] at h
      cases h
      simp only [backAt, CoreMsg.gist, hn]
      congr 1
      · simp
      · apply UInt32.toNat.inj
        have := seq.toNat_lt
        have e : in32 ((n : Int) - 1 - in32 ((n : Int) - 1 - seq.toNat)) = seq.toNat := by
          show (((n : Int) - 1 - ((((n : Int) - 1 - seq.toNat) % (2 ^ 32)).toNat : Nat)) % (2 ^ 32)).toNat = _
          omega
        rw [e]
        simp
  case draw p cs =>
    cases hn : EncodeContext.pileSize c p.toNat 1 with
    | error e => rw [hn] at h; cases h
    | ok n =>
      cases hk : EncodeContext.pileSize c p.toNat 2 with
      | error e => rw [hn, hk] at h; cases h
      | ok k =>
        rw [hn, hk] at h
        cases h
        simp [backAt, CoreMsg.gist, List.map_const']

private theorem gist_at (c : C) (m : CoreMsg) (ha : m.AsksSizes) : m.gist.inContext c = m.inContext c := by
  cases m <;> first
    | exact absurd ha id
    | rfl
    | simp [CoreMsg.gist, CoreMsg.inContext]

/-- **C104.** The same holds for messages that are translated with the sizes of decks and hands, in the same context. -/
theorem C104_in_context (c c1 c2 : C) (m m' : CoreMsg) (hf : m.Fits) (hf' : m'.Fits) (ha : m.AsksSizes) (ha' : m'.AsksSizes)
    (more more' : List UInt8) (r r' : Encoded) (h : encodeOne c (m.bytes ++ more) = .ok (r, c1))
    (h' : encodeOne c (m'.bytes ++ more') = .ok (r', c2)) : r.msg = r'.msg ↔ m.gist = m'.gist := by
  have key : ∀ (m : CoreMsg), m.Fits → m.AsksSizes → ∀ (more : List UInt8) (r : Encoded) (c1 : C), encodeOne c (m.bytes ++ more) = .ok (r, c1) →
      ∃ x, m.inContext c = some (.ok (x, c1)) ∧ r.msg = x.msg := by
    intro m hf ha more r c1 h
    have : ∃ x, m.inContext c = some x := by
      cases m <;> first
        | exact absurd ha id
        | exact ⟨_, rfl⟩
    obtain ⟨x, hx⟩ := this
    rw [C34_translation_in_context c m hf x hx more] at h
    cases x with
    | error e => cases h
    | ok x =>
      cases h
      exact ⟨x.1, hx, rfl⟩
  obtain ⟨x, hx, e⟩ := key m hf ha more r c1 h
  obtain ⟨x', hx', e'⟩ := key m' hf' ha' more' r' c2 h'
  rw [e, e', show x.msg = x'.msg ↔ x = x' from ⟨meaning_inj, fun h => by rw [h]⟩]
  constructor
  · intro h
    subst h
    rw [← back_at c m ha x c1 hx, back_at c m' ha' x c2 hx']
  · intro h
    have h1 := gist_at c m ha
    rw [h, gist_at c m' ha', hx, hx'] at h1
    cases h1
    rfl

/-- **C104.** That a card is no longer the target of another is told just as that it became the target. -/
theorem C104_targets (c : C) (a b : LocInfo) (more : List UInt8) :
    ∃ r r', encodeOne c ((CoreMsg.cardTarget a b).bytes ++ more) = .ok (r, c) ∧
      encodeOne c ((CoreMsg.cancelTarget a b).bytes ++ more) = .ok (r', c) ∧ r.msg = r'.msg ∧ r.msg.isSome := by
  have h1 := C34_translation c (CoreMsg.cardTarget a b) trivial _ rfl more
  have h2 := C34_translation c (CoreMsg.cancelTarget a b) trivial _ rfl more
  exact ⟨_, _, h1, h2, rfl, rfl⟩

/-- **C104.** That counters of whatever kind and number are put on a card is told just as that they are taken off, and as a change of its
position. -/
theorem C104_counters (c : C) (t t' n n' : UInt16) (code : UInt32) (p p' : UInt8) (l : CardLocS) (more : List UInt8) :
    ∃ r r' r'', encodeOne c ((CoreMsg.addCounter t l n).bytes ++ more) = .ok (r, c) ∧
      encodeOne c ((CoreMsg.removeCounter t' l n').bytes ++ more) = .ok (r', c) ∧
      encodeOne c ((CoreMsg.posChange code l p p').bytes ++ more) = .ok (r'', c) ∧ r.msg = r'.msg ∧ r.msg = r''.msg ∧ r.msg.isSome := by
  have h1 := C34_translation c (CoreMsg.addCounter t l n) trivial _ rfl more
  have h2 := C34_translation c (CoreMsg.removeCounter t' l n') trivial _ rfl more
  have h3 := C34_translation c (CoreMsg.posChange code l p p') trivial _ rfl more
  exact ⟨_, _, _, h1, h2, h3, rfl, rfl, rfl⟩

/-! ### Instances -/

/-- The hypotheses hold for questions; they are told apart by the effect asked about. -/
example (c c' : BasicContext) : ∃ r r', encodeOne c (CoreMsg.bytes (.selectYesno 0 30) ++ []) = .ok (r, c) ∧
    encodeOne c' (CoreMsg.bytes (.selectYesno 0 31) ++ []) = .ok (r', c') ∧ ¬ r.msg = r'.msg := by
  obtain ⟨r, r', h1, h2, h3⟩ := C104_exactly c c' (.selectYesno 0 30) (.selectYesno 0 31) trivial trivial id id rfl rfl [] []
  refine ⟨r, r', h1, h2, ?_⟩
  rw [h3]
  intro h
  injection h with _ h
  exact absurd h (by decide +kernel)

/-- Descriptions that differ in the highest bits are not told apart. -/
example : (CoreMsg.selectYesno 0 (2 ^ 52 + 30)).gist = (CoreMsg.selectYesno 0 30).gist := by
  show CoreMsg.selectYesno 0 _ = CoreMsg.selectYesno 0 _
  congr 1

/-- Neither are an attack on the card of no location and a direct attack. -/
example : (CoreMsg.attack ⟨0, 4, 2, 1⟩ ⟨1, 0x80, 3, 1⟩).gist = (CoreMsg.attack ⟨0, 4, 2, 8⟩ ⟨0, 0, 0, 0⟩).gist := by
  simp only [CoreMsg.gist]
  congr 1

/-- Attacks on different cards are. -/
example : (CoreMsg.attack ⟨0, 4, 2, 1⟩ ⟨1, 4, 3, 1⟩).gist ≠ (CoreMsg.attack ⟨0, 4, 2, 1⟩ ⟨1, 4, 4, 1⟩).gist := by
  intro h
  injection h with _ h
  have := congrArg LocInfo.seq h
  exact absurd this (by decide +kernel)

/-- The cards shown are told by their places only. -/
example : (CoreMsg.confirmDecktop 0 [(89631139, ⟨0, 1, 5⟩)]).gist = (CoreMsg.confirmCards 1 [(46986414, ⟨0, 1, 5⟩)]).gist := rfl

end Ygo.Props
