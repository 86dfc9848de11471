import Verif.Lemmas.Wire

/-!
# Readers undo writers: parts of messages
-/

set_option linter.unusedSimpArgs false

namespace Ygo
open P Spec

/-! ## Elements of lists -/

@[simp] theorem coded_locSeq (x : UInt32 × CardLoc) (s : List UInt8) :
    coded readLocSeq (CoreMsg.withCode CardLoc.bytes x ++ s) = .ok (x.2.place, s) := by
  simp [coded, CoreMsg.withCode, bind_run]

@[simp] theorem coded_locSSeq (x : UInt32 × CardLocS) (s : List UInt8) :
    coded readLocSSeq (CoreMsg.withCode CardLocS.bytes x ++ s) = .ok (x.2.place, s) := by
  simp [coded, CoreMsg.withCode, bind_run]

@[simp] theorem coded_locL (x : UInt32 × CardLocL) (s : List UInt8) :
    coded (readLoc 4 4 none) (CoreMsg.withCode CardLocL.bytes x ++ s) = .ok (x.2.place, s) := by
  simp [coded, CoreMsg.withCode, bind_run]

@[simp] theorem readSelectable_bytes (x : UInt32 × LocInfo) (s : List UInt8) :
    readSelectable (CoreMsg.withCode LocInfo.bytes x ++ s) = .ok (⟨x.2.place, x.1.toNat⟩, s) := by
  simp [readSelectable, CoreMsg.withCode, bind_run]

theorem readActCard_bytes {L : Type} {f : L → List UInt8} {g : L → Place} {p : P Place} (h : ∀ x s, p (f x ++ s) = .ok (g x, s))
    (a : Activable L) (s : List UInt8) : readActCard p (a.bytes f ++ s) = .ok (a.card g, s) := by
  simp [readActCard, Activable.bytes, Activable.card, bind_run, h]

@[simp] theorem readChain_bytes (l : Link) (s : List UInt8) : readChain (l.bytes ++ s) = .ok (l.chain, s) := by
  simp [readChain, Link.bytes, Link.chain, bind_run]

@[simp] theorem skip_pair (x : UInt32 × UInt32) (s : List UInt8) :
    (do skip 4; skip 4 : P Unit) (CoreMsg.pair32 x ++ s) = .ok ((), s) := by
  simp [CoreMsg.pair32, bind_run]

/-! ## Zone masks -/

theorem filterMap_eq_of_mem {α β : Type} {f g : α → Option β} {xs : List α} (h : ∀ x ∈ xs, f x = g x) :
    xs.filterMap f = xs.filterMap g := by
  induction xs with
  | nil => rfl
  | cons x xs ih => rw [List.filterMap_cons, List.filterMap_cons, h x (by simp), ih fun y hy => h y (by simp [hy])]

theorem row_eq (half : Nat) (bit : Nat → Bool) (con : Int) (hb : ∀ i, i < 16 → half.testBit i = bit i) :
    unpackHalf half con = Spec.clearZones con bit := by
  have hrow : ∀ loc n base : Nat,
      ((List.range n).filterMap fun seq => if half.testBit (base + seq) then none else some (⟨con, loc, seq, OSEQ_INVALID⟩ : Place)) =
      (((List.range n).map fun seq => (base + seq, loc, seq)) : List (Nat × Nat × Nat)).filterMap fun x =>
        if half.testBit x.1 then none else some (⟨con, x.2.1, x.2.2, OSEQ_INVALID⟩ : Place) := by
    intro loc n base
    rw [List.filterMap_map]; rfl
  simp only [unpackHalf, hrow, ← List.filterMap_append]
  unfold Spec.clearZones
  apply filterMap_eq_of_mem
  intro x hx
  have : x.1 < 16 := by
    revert x
    decide
  rw [hb x.1 this]

theorem unpackZones_eq (mask : UInt32) (con : UInt8) : unpackZones mask.toNat con.toNat = clearBits mask con := by
  unfold unpackZones clearBits
  have h1 : (257 - con.toNat) % 256 = (1 - con).toNat := by
    have := con.toNat_lt
    rw [UInt8.toNat_sub]
    have h1 : UInt8.toNat 1 = 1 := rfl
    omega
  rw [h1]
  congr 1
  · exact row_eq _ _ _ fun i hi => by rw [Nat.testBit_mod_two_pow]; simp [hi]
  · exact row_eq _ _ _ fun i hi => by
      rw [Nat.testBit_mod_two_pow, Nat.testBit_shiftRight]; simp [hi]

/-! ## Field reload -/

@[simp] theorem reloadZone_monster (con : Int) (seq : Nat) (z : FieldCell) (hz : z.Fits) (s : List UInt8) :
    reloadZone con Loc.monsterZone seq (z.bytes ++ s) = .ok (z.places con 4 seq, s) := by
  cases z with
  | empty =>
    have : read 1 (FieldCell.empty.bytes ++ s) = .ok (0, s) := read_b8 0 s
    simp [reloadZone, bind_run, this, FieldCell.places]
  | card mark pos mats =>
    obtain ⟨hm, hs⟩ := hz
    have hm' : mark.toNat ≠ 0 := fun e => hm (UInt8.toNat_inj.mp (by simpa using e))
    simp only [reloadZone, bind_run, FieldCell.bytes, List.append_assoc, read_b8, hm', if_false, skip_b8, read_b32, pure_run,
      FieldCell.places, slot]
    have h3 : Nat.testBit 4 3 = false := by decide
    simp only [h3, Loc.monsterZone, Loc.spellZone, Nat.reduceEqDiff, if_false, Bool.false_eq_true]
    congr 3
    apply List.map_congr_left
    intro o ho
    rw [List.mem_range] at ho
    rw [toInt32_small (by omega)]

@[simp] theorem reloadZone_spell (con : Int) (seq : Nat) (z : FieldCell) (hz : z.Fits) (s : List UInt8) :
    reloadZone con Loc.spellZone seq (z.bytes ++ s) = .ok (z.places con 8 seq, s) := by
  cases z with
  | empty =>
    have : read 1 (FieldCell.empty.bytes ++ s) = .ok (0, s) := read_b8 0 s
    simp [reloadZone, bind_run, this, FieldCell.places]
  | card mark pos mats =>
    obtain ⟨hm, hs⟩ := hz
    have hm' : mark.toNat ≠ 0 := fun e => hm (UInt8.toNat_inj.mp (by simpa using e))
    simp only [reloadZone, bind_run, FieldCell.bytes, List.append_assoc, read_b8, hm', if_false, skip_b8, read_b32, pure_run,
      FieldCell.places, fixSpell_eq, if_true, Loc.spellZone]
    congr 3
    apply List.map_congr_left
    intro o ho
    rw [List.mem_range] at ho
    rw [toInt32_small (by omega)]

theorem forEach_mapIdx {α β : Type} {f : Nat → P (List β)} {w : α → List UInt8} {g : Nat → α → List β} (xs : List α) (k : Nat) (s : List UInt8)
    (h : ∀ i, ∀ x ∈ xs, ∀ s, f i (w x ++ s) = .ok (g i x, s)) :
    forEach f ((List.range' k xs.length)) (xs.flatMap w ++ s) = .ok ((xs.mapIdx fun i x => g (k + i) x).flatten, s) := by
  induction xs generalizing k with
  | nil => simp [forEach]
  | cons x xs ih =>
    simp only [List.length_cons, List.range'_succ, forEach, List.flatMap_cons, List.append_assoc, List.mapIdx_cons,
      List.flatten_cons, Nat.add_zero]
    rw [bind_run_ok (h k x (by simp) _), bind_run_ok (ih (k + 1) fun i y hy => h i y (by simp [hy]))]
    simp only [pure_run, Nat.add_assoc, Nat.add_comm 1]

theorem forEach_range {α β : Type} {f : Nat → P (List β)} {w : α → List UInt8} {g : Nat → α → List β} {n : Nat} {xs : List α}
    (hn : xs.length = n) (s : List UInt8) (h : ∀ i, ∀ x ∈ xs, ∀ s, f i (w x ++ s) = .ok (g i x, s)) :
    forEach f (List.range n) (xs.flatMap w ++ s) = .ok ((xs.mapIdx g).flatten, s) := by
  subst hn
  have := forEach_mapIdx (g := g) xs 0 s h
  simpa [List.range_eq_range'] using this

@[simp] theorem reloadController_bytes (con : Int) (f : FieldSide) (hf : f.Fits) (s : List UInt8) :
    reloadController con (f.bytes ++ s) = .ok ((f.lp.toNat, f.places con, f.piles con), s) := by
  obtain ⟨h7, h8, hm, hs⟩ := hf
  simp only [reloadController, FieldSide.bytes, List.append_assoc]
  rw [bind_run_ok (read_b32 _ _),
    bind_run_ok (forEach_range h7 _ fun i x hx s => reloadZone_monster con i x (hm x hx) s),
    bind_run_ok (forEach_range h8 _ fun i x hx s => reloadZone_spell con i x (hs x hx) s)]
  simp [bind_run, FieldSide.places, FieldSide.piles, pileOp]

end Ygo
