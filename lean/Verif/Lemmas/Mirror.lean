import Verif.Spec.Mirror
import Verif.Lemmas.FrameOwn
import Verif.Lemmas.Query

/-!
# Boards with the players exchanged
-/

namespace Ygo
open Ygo.Spec
set_option linter.unusedSimpArgs false

/-! ### Outcomes -/

section
variable {α β γ : Type}

theorem map_bind' (x : Res α) (f : α → β) (g : β → Res γ) : (x.map f >>= g) = x >>= fun a => g (f a) := by cases x <;> rfl
theorem bind_map' (x : Res α) (g : α → Res β) (f : β → γ) : (x >>= g).map f = x >>= fun a => (g a).map f := by cases x <;> rfl
theorem map_ok' (a : α) (f : α → β) : (Except.ok a : Res α).map f = .ok (f a) := rfl
theorem map_error' (e : Err) (f : α → β) : (Except.error e : Res α).map f = .error e := rfl
theorem map_ite' (c : Prop) [Decidable c] (x y : Res α) (f : α → β) : (if c then x else y).map f = if c then x.map f else y.map f := by
  split <;> rfl
theorem map_map' (x : Res α) (f : α → β) (g : β → γ) : (x.map f).map g = x.map fun a => g (f a) := by cases x <;> rfl
theorem map_id' (x : Res α) : x.map (fun a => a) = x := by cases x <;> rfl
theorem bind_congr' {x : Res α} {f g : α → Res β} (h : ∀ a, f a = g a) : (x >>= f) = x >>= g := by cases x <;> simp [h]

end

/-! ### Players and places -/

@[simp] theorem other_other (n : Int) : other (other n) = n := by
  unfold other
  by_cases h0 : n = 0
  · simp [h0]
  · by_cases h1 : n = 1
    · simp [h1]
    · simp [h0, h1]

theorem other_inj {n k : Int} (h : other n = other k) : n = k := by rw [← other_other n, h, other_other]

@[simp] theorem other_le (n : Int) : other n ≤ 1 ↔ n ≤ 1 := by
  unfold other; split
  · omega
  · split <;> omega

@[simp] theorem otherByte_otherByte (b : UInt8) : otherByte (otherByte b) = b := by
  unfold otherByte
  by_cases h0 : b = 0
  · simp [h0]
  · by_cases h1 : b = 1
    · simp [h1]
    · simp [h0, h1]

@[simp] theorem otherByte_toNat (b : UInt8) : ((otherByte b).toNat : Int) = other b.toNat := by
  unfold otherByte other
  by_cases h0 : b = 0
  · simp [h0]
  · by_cases h1 : b = 1
    · simp [h1]
    · have a : ¬ ((b.toNat : Int) = 0) := fun h => h0 (UInt8.toNat_inj.mp (by simpa using h))
      have c : ¬ ((b.toNat : Int) = 1) := fun h => h1 (UInt8.toNat_inj.mp (show b.toNat = 1 by omega))
      rw [if_neg h0, if_neg h1, if_neg a, if_neg c]

namespace Place

@[simp] theorem mirrored_loc (p : Place) : p.mirrored.loc = p.loc := by unfold mirrored; split <;> rfl
@[simp] theorem mirrored_seq (p : Place) : p.mirrored.seq = p.seq := by unfold mirrored; split <;> rfl
@[simp] theorem mirrored_oseq (p : Place) : p.mirrored.oseq = p.oseq := by unfold mirrored; split <;> rfl
@[simp] theorem mirrored_isPile (p : Place) : p.mirrored.isPile = p.isPile := by simp [isPile]
@[simp] theorem mirrored_isZone (p : Place) : p.mirrored.isZone = p.isZone := by simp [isZone]
@[simp] theorem mirrored_isEmpty (p : Place) : p.mirrored.isEmpty = p.isEmpty := by simp [isEmpty]

@[simp] theorem mirrored_mirrored (p : Place) : p.mirrored.mirrored = p := by
  unfold mirrored
  by_cases h : p.loc = 0 <;> simp [h]

theorem mirrored_inj {p q : Place} (h : p.mirrored = q.mirrored) : p = q := by
  rw [← mirrored_mirrored p, h, mirrored_mirrored]

end Place

@[simp] theorem PileKey.mirrored_mirrored (k : PileKey) : k.mirrored.mirrored = k := by simp [PileKey.mirrored]
@[simp] theorem ZoneKey.mirrored_mirrored (k : ZoneKey) : k.mirrored.mirrored = k := by simp [ZoneKey.mirrored]

theorem PileKey.mirrored_eq {k k' : PileKey} : k.mirrored = k' ↔ k = k'.mirrored :=
  ⟨fun h => by rw [← h, mirrored_mirrored], fun h => by rw [h, mirrored_mirrored]⟩
theorem ZoneKey.mirrored_eq {k k' : ZoneKey} : k.mirrored = k' ↔ k = k'.mirrored :=
  ⟨fun h => by rw [← h, mirrored_mirrored], fun h => by rw [h, mirrored_mirrored]⟩

theorem conIdx_other (n : Int) : conIdx (other n) = (conIdx n).map Fin.rev := by
  unfold conIdx other
  by_cases h0 : n = 0
  · simp [h0, Except.map]
  · by_cases h1 : n = 1
    · simp [h1, Except.map]
    · simp [h0, h1, Except.map]

theorem pileKey_other (con : Int) (loc : Nat) : pileKey (other con) loc = (pileKey con loc).map PileKey.mirrored := by
  unfold pileKey
  simp only [other_le, conIdx_other, bind_map', map_bind', map_ite', pure_eq_ok, map_ok', PileKey.mirrored, ub_eq, map_error']

theorem zoneAt_other (con : Int) (loc : ZoneLoc) (seq : Nat) : zoneAt (other con) loc seq = (zoneAt con loc seq).map ZoneKey.mirrored := by
  unfold zoneAt
  rw [conIdx_other, map_bind', bind_map']
  refine bind_congr' fun c => ?_
  split <;> rfl

theorem zoneKey_other (con : Int) (loc seq : Nat) : zoneKey (other con) loc seq = (zoneKey con loc seq).map ZoneKey.mirrored := by
  unfold zoneKey
  simp only [other_le, zoneAt_other, bind_map', map_bind', map_ite', ub_eq, map_error']

@[simp] theorem Place.mirrored_pileKey (p : Place) : p.mirrored.pileKey = p.pileKey.map PileKey.mirrored := by
  unfold Place.pileKey Place.mirrored
  by_cases h : p.loc = 0
  · rw [if_pos h]
    simp only [Ygo.pileKey, h, locIsPile]
    by_cases hc : p.con ≤ 1 <;> simp [massert, hc, Except.map]
  · rw [if_neg h]
    exact pileKey_other _ _

theorem zoneKey_mirrored (p : Place) (s : Nat) : zoneKey p.mirrored.con p.loc s = (zoneKey p.con p.loc s).map ZoneKey.mirrored := by
  unfold Place.mirrored
  by_cases h : p.loc = 0
  · rw [if_pos h]
    simp only [Ygo.zoneKey, h]
    by_cases hc : p.con ≤ 1 <;> simp [massert, hc, Except.map, zoneSeqLim]
  · rw [if_neg h]
    exact zoneKey_other _ _ _

@[simp] theorem Place.mirrored_zoneKey (p : Place) : p.mirrored.zoneKey = p.zoneKey.map ZoneKey.mirrored := by
  unfold Place.zoneKey
  rw [mirrored_loc, mirrored_seq, zoneKey_mirrored]

/-! ### Layouts -/

namespace Layout

theorem ext' {l l' : Layout} (h1 : ∀ k, l.pile k = l'.pile k) (h2 : ∀ k, l.zone k = l'.zone k) : l = l' := by
  obtain ⟨a, b⟩ := l
  obtain ⟨a', b'⟩ := l'
  have := funext h1
  have := funext h2
  simp_all

@[simp] theorem mirrored_mirrored (l : Layout) : l.mirrored.mirrored = l := by simp [mirrored]
@[simp] theorem mirrored_empty : Layout.empty.mirrored = Layout.empty := rfl
@[simp] theorem mirrored_pile (l : Layout) (k : PileKey) : l.mirrored.pile k.mirrored = l.pile k := by simp [mirrored]
@[simp] theorem mirrored_zone (l : Layout) (k : ZoneKey) : l.mirrored.zone k.mirrored = l.zone k := by simp [mirrored]

@[simp] theorem mirrored_setPile (l : Layout) (k : PileKey) (v : List CardId) : l.mirrored.setPile k.mirrored v = (l.setPile k v).mirrored := by
  refine ext' (fun k' => ?_) fun _ => rfl
  simp only [setPile, mirrored, PileKey.mirrored_eq]

@[simp] theorem mirrored_setZone (l : Layout) (k : ZoneKey) (v : Zone) : l.mirrored.setZone k.mirrored v = (l.setZone k v).mirrored := by
  refine ext' (fun _ => rfl) fun k' => ?_
  simp only [setZone, mirrored, ZoneKey.mirrored_eq]

@[simp] theorem mirrored_setCard (l : Layout) (k : ZoneKey) (c : Option CardId) : l.mirrored.setCard k.mirrored c = (l.setCard k c).mirrored := by
  simp [setCard]

@[simp] theorem mirrored_setMats (l : Layout) (k : ZoneKey) (m : List CardId) : l.mirrored.setMats k.mirrored m = (l.setMats k m).mirrored := by
  simp [setMats]

@[simp] theorem mirrored_swapZones (l : Layout) (k1 k2 : ZoneKey) : l.mirrored.swapZones k1.mirrored k2.mirrored = (l.swapZones k1 k2).mirrored := by
  simp [swapZones]

theorem mirrored_hasCard (l : Layout) (p : Place) : l.mirrored.hasCard p.mirrored = l.hasCard p := by
  unfold hasCard
  simp only [Place.mirrored_isEmpty, Place.mirrored_isPile, Place.mirrored_isZone, Place.mirrored_loc, Place.mirrored_seq, Place.mirrored_oseq,
    Place.mirrored_pileKey, Place.mirrored_zoneKey, map_bind', mirrored_pile, mirrored_zone]

theorem mirrored_card (l : Layout) (p : Place) : l.mirrored.card p.mirrored = l.card p := by
  unfold card
  simp only [mirrored_hasCard, Place.mirrored_isEmpty, Place.mirrored_isPile, Place.mirrored_seq, Place.mirrored_oseq,
    Place.mirrored_pileKey, Place.mirrored_zoneKey, map_bind', mirrored_pile, mirrored_zone]

theorem mirrored_cardInsert (l : Layout) (p : Place) (c : CardId) : l.mirrored.cardInsert p.mirrored c = (l.cardInsert p c).map mirrored := by
  unfold cardInsert
  simp only [Place.mirrored_isPile, Place.mirrored_seq, Place.mirrored_oseq, Place.mirrored_pileKey, Place.mirrored_zoneKey, map_bind', bind_map',
    mirrored_pile, mirrored_zone, map_ite', pure_eq_ok, map_ok', mirrored_setPile, mirrored_setCard, mirrored_setMats]

theorem mirrored_cardErase (l : Layout) (p : Place) : l.mirrored.cardErase p.mirrored = (l.cardErase p).map fun x => (x.1, x.2.mirrored) := by
  unfold cardErase
  simp only [Place.mirrored_isPile, Place.mirrored_seq, Place.mirrored_oseq, Place.mirrored_pileKey, Place.mirrored_zoneKey, map_bind', bind_map',
    mirrored_pile, mirrored_zone, map_ite', pure_eq_ok, map_ok', mirrored_setPile, mirrored_setCard, mirrored_setMats]

theorem mirrored_cardMove (l : Layout) (a b : Place) :
    l.mirrored.cardMove a.mirrored b.mirrored = (l.cardMove a b).map fun x => (x.1.mirrored, x.2) := by
  unfold cardMove
  simp only [mirrored_hasCard, Place.mirrored_isPile, Place.mirrored_seq, Place.mirrored_oseq, Place.mirrored_pileKey, Place.mirrored_zoneKey, map_bind',
    bind_map', mirrored_pile, mirrored_zone, map_ite', pure_eq_ok, map_ok', mirrored_setPile, mirrored_setCard, mirrored_setMats]

theorem mirrored_shuffleSeqs (l : Layout) (n : Nat) (ps : List Place) :
    l.mirrored.shuffleSeqs n (ps.map Place.mirrored) = l.shuffleSeqs n ps := by
  induction n generalizing ps with
  | zero => cases ps <;> rfl
  | succ n ih =>
    cases ps with
    | nil => rfl
    | cons p ps => simp only [List.map_cons, shuffleSeqs, mirrored_hasCard, ih, Place.mirrored_seq]

theorem mirrored_shuffleLoop (n i : Nat) (ps : List Place) (seqs : List Nat) (l : Layout) :
    shuffleLoop n i (ps.map Place.mirrored) seqs l.mirrored = (shuffleLoop n i ps seqs l).map mirrored := by
  induction n generalizing i ps seqs l with
  | zero => cases ps <;> rfl
  | succ n ih =>
    cases ps with
    | nil => rfl
    | cons p ps =>
      simp only [List.map_cons, shuffleLoop, Place.mirrored_isEmpty, Place.mirrored_loc, Place.mirrored_seq, zoneKey_mirrored,
        Place.mirrored_zoneKey, map_bind', bind_map', map_ite', mirrored_swapZones, ih]

theorem mirrored_cardShuffle (l : Layout) (prev cur : List Place) (n : Nat) :
    l.mirrored.cardShuffle (prev.map Place.mirrored) (cur.map Place.mirrored) n = (l.cardShuffle prev cur n).map mirrored := by
  unfold cardShuffle
  simp only [mirrored_shuffleSeqs, mirrored_shuffleLoop, bind_map', List.head?_map]
  cases prev.head? with
  | none => rfl
  | some p => simp only [Option.map_some, orUb, bind_ok, Place.mirrored_isPile]

def Ref.mirrored : Ref → Ref
  | .pile k i => .pile k.mirrored i
  | .card k => .card k.mirrored
  | .mat k i => .mat k.mirrored i

theorem mirrored_swapRefs (l : Layout) (a b : Ref) : l.mirrored.swapRefs a.mirrored b.mirrored = (l.swapRefs a b).map mirrored := by
  have hr : ∀ (l : Layout) (a : Ref), l.mirrored.read a.mirrored = l.read a := by
    intro l a; cases a <;> simp [read, Ref.mirrored]
  have hw : ∀ (l : Layout) (c : CardId) (a : Ref), l.mirrored.write c a.mirrored = (l.write c a).mirrored := by
    intro l c a; cases a <;> simp [write, Ref.mirrored]
  unfold swapRefs
  simp only [hr, hw, bind_map', pure_eq_ok, map_ok']

theorem mirrored_cardSwap (l : Layout) (a b : Place) : l.mirrored.cardSwap a.mirrored b.mirrored = (l.cardSwap a b).map mirrored := by
  have h := mirrored_swapRefs l
  have e1 : ∀ k i, Ref.pile (PileKey.mirrored k) i = (Ref.pile k i).mirrored := fun _ _ => rfl
  have e2 : ∀ k, Ref.card (ZoneKey.mirrored k) = (Ref.card k).mirrored := fun _ => rfl
  have e3 : ∀ k i, Ref.mat (ZoneKey.mirrored k) i = (Ref.mat k i).mirrored := fun _ _ => rfl
  unfold cardSwap
  simp only [mirrored_hasCard, Place.mirrored_isPile, Place.mirrored_seq, Place.mirrored_oseq, Place.mirrored_pileKey, Place.mirrored_zoneKey, map_bind',
    bind_map', mirrored_pile, mirrored_zone, map_ite', pure_eq_ok, map_ok', e1, e2, e3, h, mirrored_setMats]

theorem mirrored_pileSplice (l : Layout) (a : Place) (n : Nat) (b : Place) (r : Bool) :
    l.mirrored.pileSplice a.mirrored n b.mirrored r = (l.pileSplice a n b r).map mirrored := by
  unfold pileSplice
  simp only [Place.mirrored_isPile, Place.mirrored_seq, Place.mirrored_pileKey, map_bind', bind_map', mirrored_pile, pure_eq_ok, map_ok', mirrored_setPile]

theorem mirrored_pileSwap (l : Layout) (a b : Place) : l.mirrored.pileSwap a.mirrored b.mirrored = (l.pileSwap a b).map mirrored := by
  unfold pileSwap
  simp only [Place.mirrored_isPile, Place.mirrored_pileKey, map_bind', bind_map', mirrored_pile, pure_eq_ok, map_ok', mirrored_setPile]

end Layout

/-! ### Frames -/

def _root_.Ygo.Spec.Container.mirrored : Container → Container
  | .pile k => .pile k.mirrored
  | .slot k => .slot k.mirrored
  | .mats k => .mats k.mirrored

theorem view_mirrored (l : Layout) (C : Container) : view l.mirrored C = view l C.mirrored := by cases C <;> rfl

theorem containers_mirrored : (containers.map Container.mirrored).Perm containers := by decide +kernel

theorem placed_mirrored (l : Layout) : (placed (view l.mirrored)).Perm (placed (view l)) := by
  have : placed (view l.mirrored) = (containers.map Container.mirrored).flatMap (view l) := by
    simp only [placed, List.flatMap_map]
    congr 1
    exact funext fun C => view_mirrored l C
  rw [this]
  exact containers_mirrored.flatMap_right _

theorem Inv.mirrored {f : Frame} (h : Inv f) : Inv f.mirrored :=
  ⟨fun x => ((placed_mirrored f.layout).count_eq x).trans (h.count x), h.nodup, h.fresh⟩

namespace Frame

@[simp] theorem mirrored_mirrored (f : Frame) : f.mirrored.mirrored = f := by simp [mirrored]
@[simp] theorem mirrored_init : Frame.init.mirrored = Frame.init := rfl
@[simp] theorem mirrored_layout (f : Frame) : f.mirrored.layout = f.layout.mirrored := rfl
@[simp] theorem mirrored_with (f : Frame) (l : Layout) : ({ f.mirrored with layout := l.mirrored } : Frame) = ({ f with layout := l } : Frame).mirrored := rfl

theorem mirrored_destruct (f : Frame) (c : CardId) : f.mirrored.destruct c = (f.destruct c).map mirrored := by
  unfold destruct
  simp only [bind_map', pure_eq_ok, map_ok']
  rfl

theorem mirrored_cardAdd (f : Frame) (p : Place) : f.mirrored.cardAdd p.mirrored = (f.cardAdd p).map fun x => (x.1.mirrored, x.2) := by
  unfold cardAdd
  simp only [construct, mirrored, Layout.mirrored_cardInsert, bind_map', map_bind', pure_eq_ok, map_ok']

theorem mirrored_cardRemove (f : Frame) (p : Place) : f.mirrored.cardRemove p.mirrored = (f.cardRemove p).map mirrored := by
  unfold cardRemove
  simp only [mirrored_layout, Layout.mirrored_hasCard, Layout.mirrored_cardErase, bind_map', map_bind', mirrored_with, mirrored_destruct]

theorem mirrored_cardMove (f : Frame) (a b : Place) :
    f.mirrored.cardMove a.mirrored b.mirrored = (f.cardMove a b).map fun x => (x.1.mirrored, x.2) := by
  unfold cardMove
  simp only [mirrored_layout, Layout.mirrored_cardMove, bind_map', map_bind', pure_eq_ok, map_ok', mirrored_with]

theorem mirrored_cardShuffle (f : Frame) (prev cur : List Place) (n : Nat) :
    f.mirrored.cardShuffle (prev.map Place.mirrored) (cur.map Place.mirrored) n = (f.cardShuffle prev cur n).map mirrored := by
  unfold cardShuffle
  simp only [mirrored_layout, Layout.mirrored_cardShuffle, bind_map', map_bind', pure_eq_ok, map_ok', mirrored_with]

theorem mirrored_cardSwap (f : Frame) (a b : Place) : f.mirrored.cardSwap a.mirrored b.mirrored = (f.cardSwap a b).map mirrored := by
  unfold cardSwap
  simp only [mirrored_layout, Layout.mirrored_cardSwap, bind_map', map_bind', pure_eq_ok, map_ok', mirrored_with]

theorem mirrored_pileSplice (f : Frame) (a : Place) (n : Nat) (b : Place) (r : Bool) :
    f.mirrored.pileSplice a.mirrored n b.mirrored r = (f.pileSplice a n b r).map mirrored := by
  unfold pileSplice
  simp only [mirrored_layout, Layout.mirrored_pileSplice, bind_map', map_bind', pure_eq_ok, map_ok', mirrored_with]

theorem mirrored_pileSwap (f : Frame) (a b : Place) : f.mirrored.pileSwap a.mirrored b.mirrored = (f.pileSwap a b).map mirrored := by
  unfold pileSwap
  simp only [mirrored_layout, Layout.mirrored_pileSwap, bind_map', map_bind', pure_eq_ok, map_ok', mirrored_with]

theorem mirrored_growPile (k : PileKey) (n : Nat) (f : Frame) : growPile k.mirrored n f.mirrored = (growPile k n f).mirrored := by
  induction n generalizing f with
  | zero => rfl
  | succ n ih =>
    simp only [growPile, construct]
    rw [← ih]
    congr 1
    simp only [mirrored, Layout.mirrored_pile, Layout.mirrored_setPile]

theorem mirrored_shrinkPile (k : PileKey) (n : Nat) (f : Frame) : shrinkPile k.mirrored n f.mirrored = (shrinkPile k n f).map mirrored := by
  induction n generalizing f with
  | zero => rfl
  | succ n ih =>
    simp only [shrinkPile, bind_map', mirrored_layout, Layout.mirrored_pile, mirrored_destruct, map_bind', Layout.mirrored_setPile, mirrored_with, ih]

theorem mirrored_pileResize (f : Frame) (p : Place) (n : Nat) : f.mirrored.pileResize p.mirrored n = (f.pileResize p n).map mirrored := by
  unfold pileResize
  simp only [Place.mirrored_isPile, Place.mirrored_pileKey, bind_map', map_bind', mirrored_layout, Layout.mirrored_pile, map_ite', pure_eq_ok, map_ok',
    mirrored_growPile, mirrored_shrinkPile]

theorem mirrored_clear {f : Frame} (h : Inv f) : f.mirrored.clear = f.clear.map mirrored := by
  obtain ⟨g, a1, _, a2, a3, a4⟩ := h.clear
  obtain ⟨g', b1, _, b2, b3, b4⟩ := h.mirrored.clear
  rw [a1, b1, map_ok']
  congr 1
  obtain ⟨l, o, n⟩ := g
  obtain ⟨l', o', n'⟩ := g'
  simp only at a2 a3 a4 b2 b3 b4
  subst a4 b4 a2 b2
  have : l' = l.mirrored := by
    refine Layout.ext' (fun k => ?_) fun k => ?_
    · exact (b3 (.pile k)).trans (a3 (.pile k.mirrored)).symm
    · have e1 : (l'.zone k).card = (l.mirrored.zone k).card := by
        have h1 := b3 (.slot k)
        have h2 := a3 (.slot k.mirrored)
        simp only [view, Option.toList_eq_nil_iff] at h1 h2
        rw [h1]; exact h2.symm
      have e2 : (l'.zone k).materials = (l.mirrored.zone k).materials := (b3 (.mats k)).trans (a3 (.mats k.mirrored)).symm
      cases h1 : l'.zone k
      cases h2 : l.mirrored.zone k
      rw [h1, h2] at e1 e2
      simp_all
  rw [this]
  rfl

theorem mirrored_step {f : Frame} (h : Inv f) (op : FrameOp) : f.mirrored.step op.mirrored = (f.step op).map mirrored := by
  cases op with
  | add p => simp only [FrameOp.mirrored, step, mirrored_cardAdd, bind_map', map_bind', pure_eq_ok, map_ok']
  | remove p => exact mirrored_cardRemove f p
  | move a b => simp only [FrameOp.mirrored, step, mirrored_cardMove, bind_map', map_bind', pure_eq_ok, map_ok']
  | shuffle p c n => exact mirrored_cardShuffle f p c n
  | swap a b => exact mirrored_cardSwap f a b
  | resize p n => exact mirrored_pileResize f p n
  | splice a n b r => exact mirrored_pileSplice f a n b r
  | pswap a b => exact mirrored_pileSwap f a b
  | clear => exact mirrored_clear h

end Frame

/-! ### Frames that can be undone -/

namespace Limbo

@[simp] theorem mirrored_base (f : Limbo) : f.mirrored.base = f.base.mirrored := rfl
@[simp] theorem mirrored_op (f : Limbo) : f.mirrored.op = f.op := rfl
@[simp] theorem mirrored_processed (f : Limbo) : f.mirrored.processed = f.processed := rfl
@[simp] theorem mirrored_init : Limbo.init.mirrored = Limbo.init := rfl

@[simp] theorem mirrored_advance (f : Limbo) : f.mirrored.advance = (f.advance.1.mirrored, f.advance.2) := by
  unfold advance
  by_cases h : f.op = f.processed <;> simp [h, mirrored]

theorem mirrored_regress (f : Limbo) : f.mirrored.regress = f.regress.map mirrored := by
  unfold regress
  simp only [mirrored_op, bind_map', pure_eq_ok, map_ok']
  rfl

theorem mirrored_current (f : Limbo) : f.mirrored.current = f.current.map LimboOp.mirrored := by
  unfold current
  simp only [mirrored_op, bind_map', show f.mirrored.ops = f.ops.map LimboOp.mirrored from rfl, List.length_map, List.getElem?_map]
  refine bind_congr' fun _ => bind_congr' fun _ => ?_
  cases f.ops[f.op - 1]? <;> rfl

theorem mirrored_currentCard (f : Limbo) : f.mirrored.currentCard = f.currentCard := by
  unfold currentCard
  rw [mirrored_current, map_bind']
  refine bind_congr' fun o => ?_
  cases o <;> rfl

theorem mirrored_currentResize (f : Limbo) : f.mirrored.currentResize = f.currentResize := by
  unfold currentResize
  rw [mirrored_current, map_bind']
  refine bind_congr' fun o => ?_
  cases o <;> rfl

theorem mirrored_currentClear (f : Limbo) : f.mirrored.currentClear = f.currentClear.map Layout.mirrored := by
  unfold currentClear
  rw [mirrored_current, map_bind', bind_map']
  refine bind_congr' fun o => ?_
  cases o <;> rfl

@[simp] theorem mirrored_setLayout (f : Limbo) (l : Layout) : f.mirrored.setLayout l.mirrored = (f.setLayout l).mirrored := rfl
@[simp] theorem mirrored_withBase (f : Limbo) (b : Frame) : ({ f.mirrored with base := b.mirrored } : Limbo) = ({ f with base := b } : Limbo).mirrored := rfl

theorem mirrored_setCurrent (f : Limbo) (o : LimboOp) : f.mirrored.setCurrent o.mirrored = (f.setCurrent o).mirrored := by
  simp only [setCurrent, mirrored, List.map_set]

theorem mirrored_emplace (f : Limbo) (o : LimboOp) : f.mirrored.emplace o.mirrored = (f.emplace o).mirrored := by
  simp only [emplace, mirrored, List.map_append, List.map_cons, List.map_nil]

theorem mirrored_eraseHistory (f : Limbo) : f.mirrored.eraseHistory = f.eraseHistory.map mirrored := by
  unfold eraseHistory
  simp only [mirrored_op, mirrored_processed, bind_map', map_ite', pure_eq_ok, map_ok', show f.mirrored.ops = f.ops.map LimboOp.mirrored from rfl,
    List.length_map, ← List.map_take]
  rfl

private theorem emplace_card (f : Limbo) (c : CardId) : f.mirrored.emplace (.card c) = (f.emplace (.card c)).mirrored := mirrored_emplace f (.card c)
private theorem emplace_resize (f : Limbo) (n : Nat) (s : List (Option CardId)) : f.mirrored.emplace (.resize n s) = (f.emplace (.resize n s)).mirrored :=
  mirrored_emplace f (.resize n s)
private theorem emplace_clear (f : Limbo) : f.mirrored.emplace (.clear Layout.empty) = (f.emplace (.clear Layout.empty)).mirrored :=
  mirrored_emplace f (.clear Layout.empty)
private theorem setCurrent_resize (f : Limbo) (n : Nat) (s : List (Option CardId)) :
    f.mirrored.setCurrent (.resize n s) = (f.setCurrent (.resize n s)).mirrored := mirrored_setCurrent f (.resize n s)
private theorem setCurrent_clear (f : Limbo) (l : Layout) :
    f.mirrored.setCurrent (.clear l.mirrored) = (f.setCurrent (.clear l)).mirrored := mirrored_setCurrent f (.clear l)
private theorem ite_mirrored (c : Prop) [Decidable c] (a b : Limbo) : (if c then a.mirrored else b.mirrored) = (if c then a else b).mirrored := by
  split <;> rfl

theorem mirrored_cardAdd (f : Limbo) (p : Place) : f.mirrored.cardAdd p.mirrored = (f.cardAdd p).map fun x => (x.1.mirrored, x.2) := by
  unfold cardAdd
  simp only [mirrored_advance, mirrored_base, Frame.mirrored_cardAdd, mirrored_currentCard, Frame.mirrored_layout, Layout.mirrored_cardInsert,
    Layout.mirrored_hasCard, bind_map', map_bind', map_ite', pure_eq_ok, map_ok', mirrored_withBase, emplace_card, mirrored_setLayout]

theorem mirrored_cardRemove (f : Limbo) (p : Place) : f.mirrored.cardRemove p.mirrored = (f.cardRemove p).map mirrored := by
  unfold cardRemove
  simp only [mirrored_base, Frame.mirrored_layout, Layout.mirrored_cardErase, Layout.mirrored_hasCard, bind_map', map_bind', mirrored_setLayout,
    mirrored_advance, mirrored_currentCard, map_ite', pure_eq_ok, map_ok', emplace_card]

theorem mirrored_pileResize (f : Limbo) (p : Place) (n : Nat) : f.mirrored.pileResize p.mirrored n = (f.pileResize p n).map mirrored := by
  unfold pileResize
  simp only [Place.mirrored_isPile, Place.mirrored_pileKey, mirrored_advance, emplace_resize, ite_mirrored, mirrored_currentResize, mirrored_base,
    Frame.mirrored_layout, Layout.mirrored_pile, setCurrent_resize, Frame.mirrored_growPile, mirrored_withBase, Layout.mirrored_setPile,
    mirrored_setLayout, bind_map', map_bind', map_ite', pure_eq_ok, map_ok']

theorem mirrored_clear (f : Limbo) : f.mirrored.clear = f.clear.map mirrored := by
  unfold clear
  simp only [mirrored_advance, emplace_clear, ite_mirrored, mirrored_currentClear, mirrored_base, Frame.mirrored_layout, setCurrent_clear,
    mirrored_setLayout, bind_map', map_bind', pure_eq_ok, map_ok']

theorem mirrored_cardMove (f : Limbo) (a b : Place) :
    f.mirrored.cardMove a.mirrored b.mirrored = (f.cardMove a b).map fun x => (x.1.mirrored, x.2) := by
  unfold cardMove
  simp only [mirrored_base, Frame.mirrored_cardMove, bind_map', map_bind', pure_eq_ok, map_ok', mirrored_withBase]

theorem mirrored_cardSwap (f : Limbo) (a b : Place) : f.mirrored.cardSwap a.mirrored b.mirrored = (f.cardSwap a b).map mirrored := by
  unfold cardSwap
  simp only [mirrored_base, Frame.mirrored_cardSwap, bind_map', map_bind', pure_eq_ok, map_ok', mirrored_withBase]

theorem mirrored_cardShuffle (f : Limbo) (prev cur : List Place) (n : Nat) :
    f.mirrored.cardShuffle (prev.map Place.mirrored) (cur.map Place.mirrored) n = (f.cardShuffle prev cur n).map mirrored := by
  unfold cardShuffle
  simp only [mirrored_base, Frame.mirrored_cardShuffle, bind_map', map_bind', pure_eq_ok, map_ok', mirrored_withBase]

theorem mirrored_pileSplice (f : Limbo) (a : Place) (n : Nat) (b : Place) (r : Bool) :
    f.mirrored.pileSplice a.mirrored n b.mirrored r = (f.pileSplice a n b r).map mirrored := by
  unfold pileSplice
  simp only [mirrored_base, Frame.mirrored_pileSplice, bind_map', map_bind', pure_eq_ok, map_ok', mirrored_withBase]

theorem mirrored_pileSwap (f : Limbo) (a b : Place) : f.mirrored.pileSwap a.mirrored b.mirrored = (f.pileSwap a b).map mirrored := by
  unfold pileSwap
  simp only [mirrored_base, Frame.mirrored_pileSwap, bind_map', map_bind', pure_eq_ok, map_ok', mirrored_withBase]

theorem mirrored_undoCardAdd (f : Limbo) (p : Place) : f.mirrored.undoCardAdd p.mirrored = (f.undoCardAdd p).map fun x => (x.1.mirrored, x.2) := by
  unfold undoCardAdd
  simp only [mirrored_base, Frame.mirrored_layout, Layout.mirrored_cardErase, Layout.mirrored_hasCard, bind_map', map_bind', mirrored_setLayout,
    mirrored_currentCard, mirrored_regress, pure_eq_ok, map_ok']

theorem mirrored_undoCardRemove (f : Limbo) (p : Place) :
    f.mirrored.undoCardRemove p.mirrored = (f.undoCardRemove p).map fun x => (x.1.mirrored, x.2) := by
  unfold undoCardRemove
  simp only [mirrored_base, Frame.mirrored_layout, Layout.mirrored_cardInsert, Layout.mirrored_hasCard, bind_map', map_bind', mirrored_setLayout,
    mirrored_currentCard, mirrored_regress, pure_eq_ok, map_ok']

theorem mirrored_undoPileResize (f : Limbo) (p : Place) (n : Nat) : f.mirrored.undoPileResize p.mirrored n = (f.undoPileResize p n).map mirrored := by
  unfold undoPileResize
  simp only [Place.mirrored_isPile, Place.mirrored_pileKey, mirrored_currentResize, mirrored_base,
    Frame.mirrored_layout, Layout.mirrored_pile, setCurrent_resize, Layout.mirrored_setPile, mirrored_regress,
    mirrored_setLayout, bind_map', map_bind', map_ite', pure_eq_ok, map_ok']

theorem mirrored_undoClear (f : Limbo) : f.mirrored.undoClear = f.undoClear.map mirrored := by
  unfold undoClear
  simp only [mirrored_currentClear, mirrored_base, Frame.mirrored_layout, setCurrent_clear, mirrored_setLayout, mirrored_regress, bind_map', map_bind']

theorem mirrored_step (f : Limbo) (op : FrameOp) : f.mirrored.step op.mirrored = (f.step op).map mirrored := by
  cases op with
  | add p => simp only [FrameOp.mirrored, step, mirrored_cardAdd, bind_map', map_bind', pure_eq_ok, map_ok']
  | remove p => exact mirrored_cardRemove f p
  | move a b => simp only [FrameOp.mirrored, step, mirrored_cardMove, bind_map', map_bind', pure_eq_ok, map_ok']
  | shuffle p c n => exact mirrored_cardShuffle f p c n
  | swap a b => exact mirrored_cardSwap f a b
  | resize p n => exact mirrored_pileResize f p n
  | splice a n b r => exact mirrored_pileSplice f a n b r
  | pswap a b => exact mirrored_pileSwap f a b
  | clear => exact mirrored_clear f

theorem mirrored_undo (f : Limbo) (op : FrameOp) : f.mirrored.undo op.mirrored = (f.undo op).map mirrored := by
  cases op with
  | add p => simp only [FrameOp.mirrored, undo, mirrored_undoCardAdd, bind_map', map_bind', pure_eq_ok, map_ok']
  | remove p => simp only [FrameOp.mirrored, undo, mirrored_undoCardRemove, bind_map', map_bind', pure_eq_ok, map_ok']
  | move a b => simp only [FrameOp.mirrored, undo, mirrored_cardMove, bind_map', map_bind', pure_eq_ok, map_ok']
  | shuffle p c n => rfl
  | swap a b => exact mirrored_cardSwap f a b
  | resize p n => exact mirrored_undoPileResize f p n
  | splice a n b r => exact mirrored_pileSplice f b n a r
  | pswap a b => exact mirrored_pileSwap f a b
  | clear => exact mirrored_undoClear f

end Limbo

/-! ### Boards -/

theorem lpIdx_other (n : Int) : DuelBoard.lpIdx (other n) = (DuelBoard.lpIdx n).map Fin.rev := by
  unfold DuelBoard.lpIdx
  rw [conIdx_other, bind_map']
  congr 1
  have : (0 ≤ other n ∧ other n ≤ 2) ↔ (0 ≤ n ∧ n ≤ 2) := by
    unfold other
    split
    · omega
    · split <;> omega
  simp only [massert, this]

namespace DuelBoard
variable {F : Type} {V : Type → Type}

theorem resizeOps_mirrored (rs : List ResizeOp) : resizeOps (rs.map ResizeOp.mirrored) = (resizeOps rs).map FrameOp.mirrored := by
  simp [resizeOps, ResizeOp.mirrored, FrameOp.mirrored, Function.comp_def]

theorem exchangeOps_mirrored (e : BoardExchange) : exchangeOps e.mirrored = (exchangeOps e).map FrameOp.mirrored := by
  simp [exchangeOps, BoardExchange.mirrored, resizeOps_mirrored, FrameOp.mirrored, Function.comp_def]

theorem stateOps_mirrored (s : BoardState) : stateOps s.mirrored = (stateOps s).map FrameOp.mirrored := by
  simp [stateOps, BoardState.mirrored, resizeOps_mirrored, FrameOp.mirrored, Function.comp_def]

theorem cardOps_mirrored (e : CardEvent) : cardOps e.mirrored = (cardOps e).map FrameOp.mirrored := by
  cases e <;> simp [cardOps, CardEvent.mirrored, FrameOp.mirrored, PlacePair.mirrored, Function.comp_def]

theorem pileOps_mirrored (e : PileEvent) : pileOps e.mirrored = (pileOps e).map FrameOp.mirrored := by
  cases e <;> simp [pileOps, PileEvent.mirrored, FrameOp.mirrored, PlacePair.mirrored, SpliceOp.mirrored, Function.comp_def]

end DuelBoard

theorem runOps_mirrored {ops : List FrameOp} {f : Frame} (h : Inv f) :
    runOps f.mirrored (ops.map FrameOp.mirrored) = (runOps f ops).map Frame.mirrored := by
  induction ops generalizing f with
  | nil => rfl
  | cons op ops ih =>
    simp only [List.map_cons, runOps, FrameLike.step, Frame.mirrored_step h]
    cases hs : f.step op with
    | error e => rfl
    | ok g => exact ih (h.step hs)

theorem runOps_mirrored_limbo {ops : List FrameOp} {f : Limbo} :
    runOps f.mirrored (ops.map FrameOp.mirrored) = (runOps f ops).map Limbo.mirrored := by
  induction ops generalizing f with
  | nil => rfl
  | cons op ops ih =>
    simp only [List.map_cons, runOps, FrameLike.step, Limbo.mirrored_step]
    cases hs : f.step op with
    | error e => rfl
    | ok g => exact ih

theorem undoOps_mirrored {ops : List FrameOp} {f : Limbo} :
    UndoBoard.undoOps f.mirrored (ops.map FrameOp.mirrored) = (UndoBoard.undoOps f ops).map Limbo.mirrored := by
  induction ops generalizing f with
  | nil => rfl
  | cons op ops ih =>
    simp only [List.map_cons, UndoBoard.undoOps, Limbo.mirrored_undo]
    cases hs : f.undo op with
    | error e => rfl
    | ok g => exact ih

/-! ### Values beside the frame -/

/-- What the lemmas need of the ways to hold a value. -/
class InsideLaws (V : Type → Type) [Cell V] [Inside V] : Prop where
  get {α β : Type} (f : α → β) (c : V α) : Cell.get (Inside.map f c) = (Cell.get c).map f
  set {α β : Type} (f : α → β) (c : V α) (v : α) : Cell.set (Inside.map f c) (f v) = Inside.map f (Cell.set c v)
  push {α β : Type} (f : α → β) (c : V (List α)) (v : α) :
    Cell.push (Inside.map (List.map f) c) (f v) = (Cell.push c v).map (Inside.map (List.map f))
  pop {α β : Type} (f : α → β) (c : V (List α)) : Cell.pop (Inside.map (List.map f) c) = (Cell.pop c).map (Inside.map (List.map f))

instance : InsideLaws Plain where
  get _ _ := rfl
  set _ _ _ := rfl
  push f c v := by simp [Cell.push, Inside.map, map_ok']
  pop f c := by
    simp only [Cell.pop, Inside.map, List.length_map, bind_map', pure_eq_ok, map_ok']
    rw [← List.map_dropLast]

instance : InsideLaws Undoable where
  get f c := by
    simp only [Cell.get, Undoable.get, Inside.map, List.getElem?_map]
    cases c.values[c.current]? <;> rfl
  set f c v := by
    simp only [Cell.set, Undoable.set, Inside.map, List.length_map]
    split <;> simp
  push _ _ _ := rfl
  pop _ _ := rfl

theorem Undoable.map_undo {α β : Type} (f : α → β) (u : Undoable α) :
    Undoable.undo (Inside.map f u) = (Undoable.undo u).map (Inside.map f) := by
  simp only [Undoable.undo, bind_map', pure_eq_ok, map_ok']
  rfl

namespace DuelBoard
variable {F : Type} {V : Type → Type} [FrameLike F] [Cell V] [Inside V] [InsideLaws V]
variable {m : F → F}

theorem mirrored_setLp (b : DuelBoard F V) (i : Fin 2) (v : V Nat) : (b.mirrored m).setLp i.rev v = (b.setLp i v).mirrored m := by
  simp only [mirrored, setLp, mk.injEq, true_and, and_true]
  funext j
  by_cases h : j = i.rev
  · subst h; simp
  · have : j.rev ≠ i := fun h' => h (by rw [← h', Fin.rev_rev])
    simp [h, this]

theorem mirrored_lp (b : DuelBoard F V) (i : Fin 2) : (b.mirrored m).lp i.rev = b.lp i := by simp [mirrored]

theorem onFrame_mirrored {b : DuelBoard F V} {ops : List FrameOp}
    (h : runOps (m b.frame) (ops.map FrameOp.mirrored) = (runOps b.frame ops).map m) :
    (b.mirrored m).onFrame (ops.map FrameOp.mirrored) = (b.onFrame ops).map (mirrored m) := by
  simp only [onFrame, show (b.mirrored m).frame = m b.frame from rfl, h, map_bind', bind_map', pure_eq_ok, map_ok']
  rfl

theorem parseState_mirrored {b : DuelBoard F V} {s : BoardState}
    (h : runOps (m b.frame) ((stateOps s).map FrameOp.mirrored) = (runOps b.frame (stateOps s)).map m) :
    (b.mirrored m).parseState s.mirrored = (b.parseState s).map (mirrored m) := by
  unfold parseState
  rw [stateOps_mirrored]
  simp only [show s.mirrored.turnCounter = s.turnCounter from rfl, show s.mirrored.lps = turned s.lps from rfl,
    show s.mirrored.chains = s.chains.map Chain.mirrored from rfl]
  match hl : s.lps with
  | [] => rfl
  | [x] => rfl
  | x :: y :: r =>
    simp only [turned, List.getElem?_cons_zero, List.getElem?_cons_succ, orUb]
    simp only [Bind.bind, Except.bind]
    rw [← onFrame_mirrored]
    · congr 1
      simp only [mirrored, setLp]
      by_cases ht : 0 ≤ s.turnCounter <;> simp only [ht, if_true, if_false, mk.injEq, true_and, and_true]
      all_goals
        refine ⟨InsideLaws.set (List.map Chain.mirrored) b.chainStack s.chains, ?_⟩
        funext j
        match j with
        | 0 => simp
        | 1 => simp
    · by_cases ht : 0 ≤ s.turnCounter <;> simp only [ht, if_true, if_false] <;> exact h

theorem parseEvent_mirrored {b : DuelBoard F V} (h : ∀ ops, runOps (m b.frame) (ops.map FrameOp.mirrored) = (runOps b.frame ops).map m)
    (e : Event) : (b.mirrored m).parseEvent e.mirrored = (b.parseEvent e).map (mirrored m) := by
  cases e with
  | board x =>
    cases x with
    | unset => rfl
    | exchange x => simp only [Event.mirrored, parseEvent, exchangeOps_mirrored]; exact onFrame_mirrored (h _)
    | state s => exact parseState_mirrored (h _)
  | card r x => simp only [Event.mirrored, parseEvent, cardOps_mirrored]; exact onFrame_mirrored (h _)
  | chainStack x =>
    cases x with
    | unset => rfl
    | push c =>
      simp only [Event.mirrored, parseEvent, bind_map', pure_eq_ok, map_ok', show (b.mirrored m).chainStack = Inside.map (List.map Chain.mirrored) b.chainStack from rfl,
        InsideLaws.push, map_bind']
      rfl
    | pop n =>
      simp only [Event.mirrored, parseEvent, bind_map', pure_eq_ok, map_ok', show (b.mirrored m).chainStack = Inside.map (List.map Chain.mirrored) b.chainStack from rfl,
        InsideLaws.pop, map_bind']
      rfl
  | nextTurn con =>
    simp only [Event.mirrored, parseEvent, bind_map', pure_eq_ok, map_ok', mirrored, InsideLaws.set]
  | lp con c =>
    simp only [Event.mirrored, parseEvent, lpIdx_other, bind_map', map_bind', pure_eq_ok, map_ok', mirrored_lp, mirrored_setLp]
  | nextPhase p => rfl
  | pile r x => simp only [Event.mirrored, parseEvent, pileOps_mirrored]; exact onFrame_mirrored (h _)
  | zoneBlock zs =>
    simp only [Event.mirrored, parseEvent, map_ok', mirrored, InsideLaws.set]
  | finish f => obtain ⟨w, x, r⟩ := f; cases r <;> rfl
  | metaInfo x => rfl
  | result x => cases x <;> rfl
  | unset => rfl

end DuelBoard

/-! ### Queries -/

namespace Card
variable {V : Type → Type} [Cell V] [Inside V] [InsideLaws V]

theorem mirrored_setSingle (c : Card V) (f : QField) (v : V f.Val) :
    c.mirrored.setSingle f (Inside.map (mirroredVal f) v) = (c.setSingle f v).mirrored := by
  simp only [setSingle, mirrored, mk.injEq, and_true]
  funext g
  by_cases h : g = f
  · subst h; simp
  · simp [h]

end Card

theorem mirroredVal_injective (f : QField) : Function.Injective (mirroredVal f) := by
  intro x y h
  cases f
  all_goals first
    | exact h
    | exact Place.mirrored_inj h
    | exact other_inj h

namespace Card
variable {V : Type → Type} [Cell V] [Inside V] [InsideLaws V]

theorem same_mirrored (f : QField) (x y : f.Val) : f.same (mirroredVal f x) (mirroredVal f y) = f.same x y := by
  rw [Bool.eq_iff_iff, QField.same_iff, QField.same_iff]
  exact (mirroredVal_injective f).eq_iff

theorem parseSingle_mirrored (uc : Bool) (d : QueryData) (f : QField) (hits : Nat) (c : Card V) :
    c.mirrored.parseSingle uc d.mirrored f hits = (c.parseSingle uc d f hits).map fun x => (x.1, x.2.mirrored) := by
  unfold parseSingle
  rw [show d.mirrored.single f = (d.single f).map (mirroredVal f) from rfl]
  cases d.single f with
  | none => rfl
  | some v =>
    simp only [Option.map_some, show c.mirrored.single f = Inside.map (mirroredVal f) (c.single f) from rfl, InsideLaws.get, InsideLaws.set,
      mirrored_setSingle, map_bind', bind_map', map_ite', same_mirrored, pure_eq_ok, map_ok']

theorem parseSingles_mirrored (uc : Bool) (d : QueryData) (fs : List QField) (hits : Nat) (c : Card V) :
    parseSingles uc d.mirrored fs hits c.mirrored = (parseSingles uc d fs hits c).map fun x => (x.1, x.2.mirrored) := by
  induction fs generalizing hits c with
  | nil => rfl
  | cons f fs ih => simp only [parseSingles, parseSingle_mirrored, map_bind', bind_map', ih]

theorem parseData_mirrored (uc : Bool) (d : QueryData) (c : Card V) :
    parseData uc d.mirrored c.mirrored = (parseData uc d c).map fun x => (x.1, x.2.mirrored) := by
  unfold parseData
  simp only [parseSingles_mirrored, map_bind', bind_map', pure_eq_ok, map_ok', show d.mirrored.counters = d.counters from rfl,
    show d.mirrored.targets = d.targets.map (List.map Place.mirrored) from rfl]
  refine bind_congr' fun x => ?_
  cases d.counters <;> cases d.targets <;> simp [mirrored, InsideLaws.set]

end Card

theorem parseQuery_mirrored {V : Type → Type} [Cell V] [Inside V] [InsideLaws V] (uc : Bool) (l : Layout) (st : CardId → Card V) (q : Query) :
    parseQuery uc l.mirrored (fun x => (st x).mirrored) q.mirrored =
      (parseQuery uc l st q).map fun x => (x.1, fun y => (x.2 y).mirrored) := by
  unfold parseQuery
  simp only [show q.mirrored.place = q.place.mirrored from rfl, show q.mirrored.data = q.data.mirrored from rfl, Layout.mirrored_hasCard,
    Layout.mirrored_card, Card.parseData_mirrored, map_bind', bind_map', pure_eq_ok, map_ok']
  refine bind_congr' fun _ => bind_congr' fun _ => bind_congr' fun c => bind_congr' fun x => ?_
  simp only [Except.ok.injEq, Prod.mk.injEq, true_and]
  funext y
  split <;> rfl

namespace BasicContext

theorem parseQueries_mirrored (l : Layout) (qs : List Query) (st : CardId → Card Plain) :
    parseQueries l.mirrored (qs.map Query.mirrored) (fun x => (st x).mirrored) = (parseQueries l qs st).map fun st y => (st y).mirrored := by
  induction qs generalizing st with
  | nil => rfl
  | cons q qs ih => simp only [List.map_cons, parseQueries, parseQuery_mirrored, map_bind', bind_map', ih]

theorem parse_mirrored {c : BasicContext} (h : Inv c.board.frame) (m : Msg) : c.mirrored.parse m.mirrored = (c.parse m).map mirrored := by
  obtain ⟨body, qs⟩ := m
  have hp : ∀ b : PlainBoard, parseQueries (b.mirrored).frame.layout (qs.map Query.mirrored) c.mirrored.store
      = (parseQueries b.frame.layout qs c.store).map fun st y => (st y).mirrored := fun b => parseQueries_mirrored b.frame.layout qs c.store
  have hr : ∀ b : PlainBoard,
      (parseQueries (b.mirrored).frame.layout (qs.map Query.mirrored) c.mirrored.store >>= fun st => Except.ok ({ c.mirrored with board := b.mirrored, store := st } : BasicContext))
        = (parseQueries b.frame.layout qs c.store >>= fun st => Except.ok ({ c with board := b, store := st } : BasicContext)).map mirrored := by
    intro b
    rw [hp b, map_bind', bind_map']
    rfl
  cases body with
  | unset => exact hr c.board
  | request p r => exact hr c.board
  | event e =>
    show (c.board.mirrored.parseEvent e.mirrored >>= fun b => parseQueries b.frame.layout (qs.map Query.mirrored) c.mirrored.store >>= fun st => Except.ok ({ c.mirrored with board := b, store := st } : BasicContext))
      = (c.board.parseEvent e >>= fun b => parseQueries b.frame.layout qs c.store >>= fun st => Except.ok ({ c with board := b, store := st } : BasicContext)).map mirrored
    rw [DuelBoard.parseEvent_mirrored (fun ops => runOps_mirrored h), map_bind', bind_map']
    exact bind_congr' hr

end BasicContext

/-! ### Boards again -/

namespace UndoBoard

theorem parseEvents_mirrored {b : UndoBoard} (es : List Event) :
    b.mirrored.parseEvents (es.map Event.mirrored) = (b.parseEvents es).map UndoBoard.mirrored := by
  induction es generalizing b with
  | nil => rfl
  | cons e es ih =>
    simp only [List.map_cons, DuelBoard.parseEvents, DuelBoard.parseEvent_mirrored (fun ops => runOps_mirrored_limbo)]
    cases he : b.parseEvent e with
    | error x => rfl
    | ok b' => exact ih

theorem undoFrame_mirrored (b : UndoBoard) (ops : List FrameOp) :
    undoFrame b.mirrored (ops.map FrameOp.mirrored) = (b.undoFrame ops).map mirrored := by
  simp only [undoFrame, show b.mirrored.frame = b.frame.mirrored from rfl, undoOps_mirrored, map_bind', bind_map', pure_eq_ok, map_ok']
  rfl

theorem exchangeUndo_mirrored (e : BoardExchange) : exchangeUndo e.mirrored = (exchangeUndo e).map FrameOp.mirrored := by
  simp [exchangeUndo, BoardExchange.mirrored, ← DuelBoard.resizeOps_mirrored, FrameOp.mirrored, Function.comp_def]

theorem stateUndo_mirrored (s : BoardState) : stateUndo s.mirrored = (stateUndo s).map FrameOp.mirrored := by
  simp [stateUndo, BoardState.mirrored, ← DuelBoard.resizeOps_mirrored, FrameOp.mirrored, Function.comp_def]

theorem cardUndo_mirrored (e : CardEvent) : cardUndo e.mirrored = (cardUndo e).map FrameOp.mirrored := by
  cases e <;> simp [cardUndo, CardEvent.mirrored, FrameOp.mirrored, PlacePair.mirrored, Function.comp_def]

theorem pileUndo_mirrored (e : PileEvent) : pileUndo e.mirrored = (pileUndo e).map FrameOp.mirrored := by
  cases e <;> simp [pileUndo, PileEvent.mirrored, FrameOp.mirrored, PlacePair.mirrored, SpliceOp.mirrored, Function.comp_def]

theorem undo_error {α : Type} {u : Undoable α} {e : Err} (h : u.undo = .error e) : e = .assert := by
  unfold Undoable.undo massert at h
  split at h
  · cases h
  · cases h; rfl

/-- Both life points are taken back, or neither can be. -/
theorem undoLps_mirrored (b : UndoBoard) :
    ((b.mirrored.lp 1).undo >>= fun x => (((b.mirrored).setLp 1 x).lp 0).undo >>= fun y => Except.ok (((b.mirrored).setLp 1 x).setLp 0 y))
      = ((b.lp 1).undo >>= fun x => ((b.setLp 1 x).lp 0).undo >>= fun y => Except.ok ((b.setLp 1 x).setLp 0 y)).map mirrored := by
  have e1 : b.mirrored.lp 1 = b.lp 0 := rfl
  have e0 : b.mirrored.lp 0 = b.lp 1 := rfl
  have f : ∀ (d : UndoBoard) x, (d.setLp 1 x).lp 0 = d.lp 0 := fun d x => by simp [DuelBoard.setLp]
  simp only [f, e1, e0]
  cases h1 : (b.lp 1).undo with
  | error e =>
    cases h0 : (b.lp 0).undo with
    | error e' => rw [undo_error h1, undo_error h0]; rfl
    | ok y => rfl
  | ok x =>
    cases h0 : (b.lp 0).undo with
    | error e' => rfl
    | ok y =>
      simp only [Bind.bind, Except.bind, map_ok', Except.ok.injEq]
      simp only [DuelBoard.mirrored, DuelBoard.setLp, DuelBoard.mk.injEq, true_and, and_true]
      funext j
      match j with
      | 0 => simp
      | 1 => simp

theorem undoState_mirrored (b : UndoBoard) (s : BoardState) : undoState b.mirrored s.mirrored = (b.undoState s).map mirrored := by
  unfold undoState
  rw [stateUndo_mirrored, undoFrame_mirrored, map_bind', bind_map']
  refine bind_congr' fun b => ?_
  rw [show b.mirrored.chainStack = Inside.map (List.map Chain.mirrored) b.chainStack from rfl, Undoable.map_undo, map_bind', bind_map']
  refine bind_congr' fun st => ?_
  have := undoLps_mirrored { b with chainStack := st }
  have k : ∀ d : UndoBoard, ((if 0 ≤ s.mirrored.turnCounter then do return { d.mirrored with turn := ← d.mirrored.turn.undo } else return d.mirrored : Res UndoBoard))
      = ((if 0 ≤ s.turnCounter then do return { d with turn := ← d.turn.undo } else return d : Res UndoBoard)).map mirrored := by
    intro d
    rw [map_ite', bind_map', show s.mirrored.turnCounter = s.turnCounter from rfl]
    rfl
  simp only [pure_eq_ok] at this k ⊢
  have q : ∀ (d : UndoBoard) (g : UndoBoard → Res UndoBoard), ((d.lp 1).undo >>= fun x => ((d.setLp 1 x).lp 0).undo >>= fun y => g ((d.setLp 1 x).setLp 0 y))
      = (((d.lp 1).undo >>= fun x => ((d.setLp 1 x).lp 0).undo >>= fun y => Except.ok ((d.setLp 1 x).setLp 0 y)) >>= g) := by
    intro d g
    cases (d.lp 1).undo with
    | error e => rfl
    | ok x =>
      simp only [Bind.bind, Except.bind]
      cases ((d.setLp 1 x).lp 0).undo <;> rfl
  refine (q (UndoBoard.mirrored { b with chainStack := st })
    (fun d => if 0 ≤ s.mirrored.turnCounter then d.turn.undo >>= fun t => Except.ok { d with turn := t } else Except.ok d)).trans ?_
  refine Eq.trans ?_ (congrArg (Except.map mirrored) (q { b with chainStack := st }
    (fun d => if 0 ≤ s.turnCounter then d.turn.undo >>= fun t => Except.ok { d with turn := t } else Except.ok d))).symm
  rw [bind_map', this, map_bind']
  exact bind_congr' k

theorem undoParseEvent_mirrored (b : UndoBoard) (e : Event) : undoParseEvent b.mirrored e.mirrored = (b.undoParseEvent e).map mirrored := by
  cases e with
  | board x =>
    cases x with
    | unset => rfl
    | exchange x => simp only [Event.mirrored, undoParseEvent, exchangeUndo_mirrored]; exact undoFrame_mirrored _ _
    | state s => exact undoState_mirrored b s
  | card r x => simp only [Event.mirrored, undoParseEvent, cardUndo_mirrored]; exact undoFrame_mirrored _ _
  | chainStack x => cases x <;> rfl
  | nextTurn con =>
    simp only [Event.mirrored, undoParseEvent, bind_map', pure_eq_ok, map_ok', show b.mirrored.turn = b.turn from rfl]
    refine bind_congr' fun t => ?_
    rw [show b.mirrored.turnController = Inside.map other b.turnController from rfl, Undoable.map_undo, map_bind']
    rfl
  | lp con c =>
    simp only [Event.mirrored, undoParseEvent, lpIdx_other, bind_map', map_bind', pure_eq_ok, map_ok', DuelBoard.mirrored_lp, DuelBoard.mirrored_setLp]
  | nextPhase p => simp only [Event.mirrored, undoParseEvent, bind_map', pure_eq_ok, map_ok']; rfl
  | pile r x => simp only [Event.mirrored, undoParseEvent, pileUndo_mirrored]; exact undoFrame_mirrored _ _
  | zoneBlock zs =>
    simp only [Event.mirrored, undoParseEvent, bind_map', pure_eq_ok, map_ok']
    rw [show b.mirrored.blockedZones = Inside.map (List.map Place.mirrored) b.blockedZones from rfl, Undoable.map_undo, map_bind']
    rfl
  | finish f => obtain ⟨w, x, r⟩ := f; cases r <;> rfl
  | metaInfo x => rfl
  | result x => cases x <;> rfl
  | unset => rfl

theorem undoEvents_mirrored (b : UndoBoard) (es : List Event) :
    undoEvents b.mirrored (es.map Event.mirrored) = (b.undoEvents es).map mirrored := by
  induction es with
  | nil => rfl
  | cons e es ih => simp only [List.map_cons, undoEvents, ih, map_bind', bind_map', undoParseEvent_mirrored]

end UndoBoard

end Ygo
