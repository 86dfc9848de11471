import Verif.Lemmas.FrameOwn
import Verif.Spec.Release

set_option linter.unusedSimpArgs false

namespace Ygo
open Ygo.Spec

/-! ## Resolving places -/

namespace Raw

theorem pileKey_eq_ok {con : Int} {loc : Nat} {k : PileKey} :
    Raw.pileKey con loc = .ok k ↔ con = k.con.val ∧ loc = k.loc.code := by
  constructor
  · intro h
    simp only [Raw.pileKey] at h
    repeat' split at h
    all_goals first | (cases h; done) | simp only [bind_eq_ok, conIdx_eq_ok, pure_eq_ok, Except.ok.injEq] at h
    all_goals
      obtain ⟨a, ha, rfl⟩ := h
      exact ⟨ha, by assumption⟩
  · rintro ⟨rfl, rfl⟩
    rcases k with ⟨c, l⟩
    cases l <;> simp [Raw.pileKey, PileLoc.code, conIdx_val]

theorem zoneKey_eq_ok {con : Int} {loc seq : Nat} {k : ZoneKey} :
    Raw.zoneKey con loc seq = .ok k ↔ con = k.con.val ∧ loc = k.loc.code ∧ seq = k.seq := by
  constructor
  · intro h
    simp only [Raw.zoneKey] at h
    repeat' split at h
    all_goals first | (cases h; done) | simp only [zoneAt_eq_ok] at h
    all_goals
      obtain ⟨h1, h2, h3⟩ := h
      exact ⟨h1, by rw [← h2]; assumption, h3⟩
  · rintro ⟨rfl, rfl, rfl⟩
    rcases k with ⟨c, l, s, hs⟩
    cases l <;> simp [Raw.zoneKey, ZoneLoc.code, zoneAt_eq_ok]

@[simp] theorem pileOf_mk (k : PileKey) (s : Nat) (o : Int) : Raw.pileOf ⟨k.con.val, k.loc.code, s, o⟩ = .ok k :=
  pileKey_eq_ok.mpr ⟨rfl, rfl⟩
@[simp] theorem zoneOf_mk (k : ZoneKey) (o : Int) : Raw.zoneOf ⟨k.con.val, k.loc.code, k.seq, o⟩ = .ok k :=
  zoneKey_eq_ok.mpr ⟨rfl, rfl, rfl⟩

theorem pileOf_iff {p : Place} {k : PileKey} : Raw.pileOf p = .ok k ↔ p.pileKey = .ok k :=
  Raw.pileKey_eq_ok.trans Ygo.pileKey_eq_ok.symm
theorem zoneOf_iff {p : Place} {k : ZoneKey} : Raw.zoneOf p = .ok k ↔ p.zoneKey = .ok k :=
  Raw.zoneKey_eq_ok.trans Ygo.zoneKey_eq_ok.symm

theorem pileOf_error {p : Place} {e : Err} (h : p.pileKey = .error e) : ∃ e', Raw.pileOf p = .error e' := by
  cases h' : Raw.pileOf p with
  | ok k => rw [pileOf_iff.mp h'] at h; cases h
  | error e' => exact ⟨e', rfl⟩
theorem zoneOf_error {p : Place} {e : Err} (h : p.zoneKey = .error e) : ∃ e', Raw.zoneOf p = .error e' := by
  cases h' : Raw.zoneOf p with
  | ok k => rw [zoneOf_iff.mp h'] at h; cases h
  | error e' => exact ⟨e', rfl⟩

@[simp] theorem rawTake_eq_ok {p q : List Ptr} {i : Nat} {c : Ptr} :
    rawTake p i = .ok (c, q) ↔ p[i]? = some c ∧ q = p.eraseIdx i := by
  simp only [rawTake, bind_eq_ok, orUb_eq_ok, pure_eq_ok, Except.ok.injEq, Prod.mk.injEq]
  constructor
  · rintro ⟨a, h, rfl, rfl⟩; exact ⟨h, rfl⟩
  · rintro ⟨h, rfl⟩; exact ⟨c, h, rfl, rfl⟩

@[simp] theorem rawInsert_eq_ok {p q : List Ptr} {i : Nat} {c : Ptr} :
    rawInsert p i c = .ok q ↔ i ≤ p.length ∧ q = p.insertIdx i c := by
  simp only [rawInsert, bind_eq_ok, guardUb_eq_ok, pure_eq_ok, Except.ok.injEq]
  constructor
  · rintro ⟨_, h, rfl⟩; exact ⟨h, rfl⟩
  · rintro ⟨h, rfl⟩; exact ⟨(), h, rfl⟩

end Raw

/-- The place of a call that names anything. -/
theorem Place.at_or_error (p : Place) :
    (∃ C i, At p C i) ∨ (p.isPile = true ∧ ∃ e, Raw.pileOf p = .error e) ∨ (p.isPile = false ∧ ∃ e, Raw.zoneOf p = .error e) := by
  rcases p.cases with ⟨k, s, o, rfl⟩ | ⟨k, o, rfl⟩ | ⟨h1, e, h2⟩ | ⟨h1, e, h2⟩
  · exact .inl ⟨_, _, .pile k s o⟩
  · by_cases ho : o < 0
    · exact .inl ⟨.slot k, 0, by simp [ho]⟩
    · exact .inl ⟨.mats k, o.toNat, by simp; omega⟩
  · exact .inr (.inl ⟨h1, Raw.pileOf_error h2⟩)
  · exact .inr (.inr ⟨h1, Raw.zoneOf_error h2⟩)

/-! ## Layouts -/

namespace RawLayout

@[simp] theorem pile_setPile (l : RawLayout) (k k' : PileKey) (v : List Ptr) :
    (l.setPile k v).pile k' = if k' = k then v else l.pile k' := (rfl)
@[simp] theorem zone_setPile (l : RawLayout) (k : PileKey) (v : List Ptr) : (l.setPile k v).zone = l.zone := (rfl)
@[simp] theorem pile_setZone (l : RawLayout) (k : ZoneKey) (v : RawZone) : (l.setZone k v).pile = l.pile := (rfl)
@[simp] theorem zone_setZone (l : RawLayout) (k k' : ZoneKey) (v : RawZone) :
    (l.setZone k v).zone k' = if k' = k then v else l.zone k' := (rfl)
@[simp] theorem pile_setCard (l : RawLayout) (k : ZoneKey) (c : Ptr) : (l.setCard k c).pile = l.pile := (rfl)
@[simp] theorem pile_setMats (l : RawLayout) (k : ZoneKey) (m : List Ptr) : (l.setMats k m).pile = l.pile := (rfl)
@[simp] theorem card_setCard (l : RawLayout) (k k' : ZoneKey) (c : Ptr) :
    ((l.setCard k c).zone k').card = if k' = k then c else (l.zone k').card := by
  simp only [setCard, zone_setZone]; split <;> rfl
@[simp] theorem mats_setCard (l : RawLayout) (k k' : ZoneKey) (c : Ptr) :
    ((l.setCard k c).zone k').materials = (l.zone k').materials := by
  simp only [setCard, zone_setZone]; split <;> simp_all
@[simp] theorem card_setMats (l : RawLayout) (k k' : ZoneKey) (m : List Ptr) :
    ((l.setMats k m).zone k').card = (l.zone k').card := by
  simp only [setMats, zone_setZone]; split <;> simp_all
@[simp] theorem mats_setMats (l : RawLayout) (k k' : ZoneKey) (m : List Ptr) :
    ((l.setMats k m).zone k').materials = if k' = k then m else (l.zone k').materials := by
  simp only [setMats, zone_setZone]; split <;> rfl

theorem ext' {a b : RawLayout} (hp : ∀ k, a.pile k = b.pile k) (hc : ∀ k, (a.zone k).card = (b.zone k).card)
    (hm : ∀ k, (a.zone k).materials = (b.zone k).materials) : a = b := by
  rcases a with ⟨p, z⟩
  rcases b with ⟨p', z'⟩
  have h1 : p = p' := funext hp
  have h2 : z = z' := by
    funext k
    have a := hc k
    have b := hm k
    simp only at a b
    cases h : z k; cases h' : z' k
    simp_all
  rw [h1, h2]

end RawLayout

@[simp] theorem rawView_pile (l : RawLayout) (k : PileKey) : rawView l (.pile k) = l.pile k := (rfl)
@[simp] theorem rawView_slot (l : RawLayout) (k : ZoneKey) : rawView l (.slot k) = [(l.zone k).card] := (rfl)
@[simp] theorem rawView_mats (l : RawLayout) (k : ZoneKey) : rawView l (.mats k) = (l.zone k).materials := (rfl)

theorem rawView_inj {a b : RawLayout} (h : rawView a = rawView b) : a = b := by
  apply RawLayout.ext'
  · intro k; exact congrFun h (.pile k)
  · intro k; have := congrFun h (.slot k); simpa using this
  · intro k; exact congrFun h (.mats k)

theorem eq_iff_rawView {a b : RawLayout} : a = b ↔ rawView b = rawView a := ⟨fun h => by rw [h], fun h => (rawView_inj h).symm⟩

@[simp] theorem pupd_self (B : PtrBoard) (C : Container) (v : List Ptr) : (B.upd C v) C = v := by simp [PtrBoard.upd]
theorem pupd_ne {B : PtrBoard} {C C' : Container} {v : List Ptr} (h : C' ≠ C) : (B.upd C v) C' = B C' := by
  simp [PtrBoard.upd, h]
theorem pupd_apply (B : PtrBoard) (C C' : Container) (v : List Ptr) :
    (B.upd C v) C' = if C' = C then v else B C' := rfl
@[simp] theorem pupd_upd (B : PtrBoard) (C : Container) (v w : List Ptr) : (B.upd C v).upd C w = B.upd C w := by
  funext C'; simp only [pupd_apply]; split <;> rfl
@[simp] theorem pupd_same (B : PtrBoard) (C : Container) : B.upd C (B C) = B := by
  funext C'; simp only [pupd_apply]; split <;> simp_all

theorem pupd_comm {B : PtrBoard} {C C' : Container} {v w : List Ptr} (h : C ≠ C') :
    (B.upd C v).upd C' w = (B.upd C' w).upd C v := by
  funext D; simp only [pupd_apply]; split <;> split <;> simp_all

theorem rawView_setPile (l : RawLayout) (k : PileKey) (v : List Ptr) :
    rawView (l.setPile k v) = (rawView l).upd (.pile k) v := by
  funext C
  cases C <;> simp [pupd_apply]

theorem rawView_setCard (l : RawLayout) (k : ZoneKey) (c : Ptr) :
    rawView (l.setCard k c) = (rawView l).upd (.slot k) [c] := by
  funext C
  cases C <;> simp [pupd_apply]
  split <;> rfl

theorem rawView_setMats (l : RawLayout) (k : ZoneKey) (m : List Ptr) :
    rawView (l.setMats k m) = (rawView l).upd (.mats k) m := by
  funext C
  cases C <;> simp [pupd_apply]

theorem at_exists {p : Place} {C : Container} {i : Nat} (hat : At p C i) {P : Container → Nat → Prop} :
    (∃ D j, At p D j ∧ P D j) ↔ P C i := by
  constructor
  · rintro ⟨D, j, h, h'⟩
    obtain ⟨rfl, rfl⟩ := At.unique hat h
    exact h'
  · exact fun h => ⟨C, i, hat, h⟩

theorem not_at_of_error {p : Place} (h : (p.isPile = true ∧ ∃ e, Raw.pileOf p = .error e) ∨ (p.isPile = false ∧ ∃ e, Raw.zoneOf p = .error e))
    (C : Container) (i : Nat) : ¬ At p C i := by
  intro hat
  rcases h with ⟨h1, e, h2⟩ | ⟨h1, e, h2⟩ <;> cases hat <;> simp at h1 h2

/-- One place names a container, or nothing at all. -/
theorem Place.at_or_not (p : Place) :
    (∃ C i, At p C i) ∨ ((∀ C i, ¬ At p C i) ∧
      ((p.isPile = true ∧ ∃ e, Raw.pileOf p = .error e) ∨ (p.isPile = false ∧ ∃ e, Raw.zoneOf p = .error e))) := by
  rcases p.at_or_error with h | h
  · exact .inl h
  · exact .inr ⟨not_at_of_error h, h⟩

namespace RawLayout

theorem cardInsert_at {l l' : RawLayout} {p : Place} {c : CardId} {C : Container} {i : Nat} (hat : At p C i) :
    l.cardInsert p c = .ok l' ↔ (rawView l).Room C i ∧ rawView l' = (rawView l).put C i (some c) := by
  cases hat with
  | pile k s o => simp [cardInsert, PtrBoard.Room, PtrBoard.put, eq_iff_rawView, rawView_setPile, and_assoc]
  | slot k o ho => simp [cardInsert, ho, PtrBoard.Room, PtrBoard.put, eq_iff_rawView, rawView_setCard]
  | mats k n =>
    have hn : ¬ ((i : Int) < 0) := by omega
    simp [cardInsert, hn, PtrBoard.Room, PtrBoard.put, eq_iff_rawView, rawView_setMats, and_assoc]

theorem cardInsert_eq_ok {l l' : RawLayout} {p : Place} {c : CardId} :
    l.cardInsert p c = .ok l' ↔
      ∃ C i, At p C i ∧ (rawView l).Room C i ∧ rawView l' = (rawView l).put C i (some c) := by
  rcases p.at_or_not with ⟨C, i, hat⟩ | ⟨hno, ⟨h1, e, h2⟩ | ⟨h1, e, h2⟩⟩
  · rw [at_exists hat]; exact cardInsert_at hat
  all_goals simp [hno, cardInsert, h1, h2]

theorem cardErase_at {l l' : RawLayout} {p : Place} {c : CardId} {C : Container} {i : Nat} (hat : At p C i) :
    l.cardErase p = .ok (c, l') ↔ (rawView l C)[i]? = some (some c) ∧ rawView l' = (rawView l).take C i := by
  cases hat with
  | pile k s o => (simp [cardErase, PtrBoard.take, eq_iff_rawView, rawView_setPile, and_assoc]; try grind)
  | slot k o ho => (simp [cardErase, ho, PtrBoard.take, eq_iff_rawView, rawView_setCard]; try grind)
  | mats k n =>
    have hn : ¬ ((i : Int) < 0) := by omega
    (simp [cardErase, hn, PtrBoard.take, eq_iff_rawView, rawView_setMats, and_assoc]; try grind)

theorem cardErase_eq_ok {l l' : RawLayout} {p : Place} {c : CardId} :
    l.cardErase p = .ok (c, l') ↔ ∃ C i, At p C i ∧ (rawView l C)[i]? = some (some c) ∧ rawView l' = (rawView l).take C i := by
  rcases p.at_or_not with ⟨C, i, hat⟩ | ⟨hno, ⟨h1, e, h2⟩ | ⟨h1, e, h2⟩⟩
  · rw [at_exists hat]; exact cardErase_at hat
  all_goals simp [hno, cardErase, h1, h2]

theorem cardMove_at {l l' : RawLayout} {a b : Place} {c : CardId} {C1 C2 : Container} {i j : Nat} (ha : At a C1 i) (hb : At b C2 j) :
    l.cardMove a b = .ok (l', c) ↔ (rawView l C1)[i]? = some (some c) ∧ ((rawView l).take C1 i).Room C2 j ∧
      rawView l' = (((rawView l).take C1 i).put C2 j (some c)).swapMats C1 C2 := by
  cases ha with
  | pile k1 s1 o1 =>
    cases hb with
    | pile k2 s2 o2 =>
      (simp [cardMove, PtrBoard.take, PtrBoard.put, PtrBoard.Room, PtrBoard.swapMats, eq_iff_rawView, rawView_setPile, and_assoc, pupd_apply]; try grind)
    | slot k2 o2 h2 => 
      (simp [cardMove, h2, PtrBoard.take, PtrBoard.put, PtrBoard.Room, PtrBoard.swapMats, eq_iff_rawView, rawView_setPile, rawView_setCard, and_assoc, pupd_apply]; try grind)
    | mats k2 n =>
      have hn : ¬ ((j : Int) < 0) := by omega
      (simp [cardMove, hn, PtrBoard.take, PtrBoard.put, PtrBoard.Room, PtrBoard.swapMats, eq_iff_rawView, rawView_setPile, rawView_setMats, and_assoc, pupd_apply]; try grind)
  | slot k1 o1 h1 =>
    cases hb with
    | pile k2 s2 o2 =>
      (simp [cardMove, h1, PtrBoard.take, PtrBoard.put, PtrBoard.Room, PtrBoard.swapMats, eq_iff_rawView, rawView_setPile, rawView_setCard, and_assoc, pupd_apply]; try grind)
    | slot k2 o2 h2 =>
      simp [cardMove, h1, h2, PtrBoard.take, PtrBoard.put, PtrBoard.Room, PtrBoard.swapMats, eq_iff_rawView, rawView_setMats, rawView_setCard, and_assoc, pupd_apply]
      intro h
      rw [h]
      by_cases e : k1 = k2
      · subst e; rfl
      · rw [pupd_comm (C := .mats k2) (C' := .mats k1) (by simp [Ne.symm e])]
    | mats k2 n =>
      have hn : ¬ ((j : Int) < 0) := by omega
      (simp [cardMove, h1, hn, PtrBoard.take, PtrBoard.put, PtrBoard.Room, PtrBoard.swapMats, eq_iff_rawView, rawView_setMats, rawView_setCard, and_assoc, pupd_apply]; try grind)
  | mats k1 m =>
    have hm : ¬ ((i : Int) < 0) := by omega
    cases hb with
    | pile k2 s2 o2 =>
      (simp [cardMove, hm, PtrBoard.take, PtrBoard.put, PtrBoard.Room, PtrBoard.swapMats, eq_iff_rawView, rawView_setPile, rawView_setMats, and_assoc, pupd_apply]; try grind)
    | slot k2 o2 h2 =>
      (simp [cardMove, hm, h2, PtrBoard.take, PtrBoard.put, PtrBoard.Room, PtrBoard.swapMats, eq_iff_rawView, rawView_setCard, rawView_setMats, and_assoc, pupd_apply]; try grind)
    | mats k2 n =>
      have hn : ¬ ((j : Int) < 0) := by omega
      (simp [cardMove, hm, hn, PtrBoard.take, PtrBoard.put, PtrBoard.Room, PtrBoard.swapMats, eq_iff_rawView, rawView_setMats, and_assoc, pupd_apply]; try grind)

theorem cardMove_eq_ok {l l' : RawLayout} {a b : Place} {c : CardId} :
    l.cardMove a b = .ok (l', c) ↔ ∃ C1 i C2 j, At a C1 i ∧ At b C2 j ∧ (rawView l C1)[i]? = some (some c) ∧
      ((rawView l).take C1 i).Room C2 j ∧ rawView l' = (((rawView l).take C1 i).put C2 j (some c)).swapMats C1 C2 := by
  have key : ∀ x, (h : l.cardMove a b = .ok x) → (∃ C i, At a C i) ∧ (∃ C i, At b C i) := by
    intro x h
    rcases a.at_or_not with ha | ⟨hno, ⟨h1, e, h2⟩ | ⟨h1, e, h2⟩⟩
    · refine ⟨ha, ?_⟩
      rcases b.at_or_not with hb | ⟨hno, ⟨h1, e, h2⟩ | ⟨h1, e, h2⟩⟩
      · exact hb
      all_goals
        exfalso
        simp only [cardMove, h1, h2, if_true, if_false, Bool.false_eq_true] at h
        repeat' split at h
        all_goals simp [h2] at h
    · simp [cardMove, h1, h2] at h
    · simp [cardMove, h1, h2] at h
  constructor
  · intro h
    obtain ⟨⟨C1, i, ha⟩, C2, j, hb⟩ := key _ h
    exact ⟨C1, i, C2, j, ha, hb, (cardMove_at ha hb).mp h⟩
  · rintro ⟨C1, i, C2, j, ha, hb, h⟩
    exact (cardMove_at ha hb).mpr h

theorem read_eq_ok {l : RawLayout} {r : Layout.Ref} {c : Ptr} : l.read r = .ok c ↔ (rawView l r.cont)[r.idx]? = some c := by
  cases r <;> simp [read, Layout.Ref.cont, Layout.Ref.idx]

theorem rawView_write {l : RawLayout} {r : Layout.Ref} {c : Ptr} :
    rawView (l.write c r) = (rawView l).upd r.cont ((rawView l r.cont).set r.idx c) := by
  cases r with
  | pile k i => simp [write, Layout.Ref.cont, Layout.Ref.idx, rawView_setPile]
  | mat k i => simp [write, Layout.Ref.cont, Layout.Ref.idx, rawView_setMats]
  | card k => simp [write, Layout.Ref.cont, Layout.Ref.idx, rawView_setCard]

theorem swapRefs_eq_ok {l l' : RawLayout} {a b : Layout.Ref} :
    l.swapRefs a b = .ok l' ↔ ∃ c1 c2, (rawView l a.cont)[a.idx]? = some c1 ∧ (rawView l b.cont)[b.idx]? = some c2 ∧
      rawView l' = (rawView l).exchange a.cont a.idx b.cont b.idx c1 c2 := by
  simp only [swapRefs, bind_eq_ok, read_eq_ok, pure_eq_ok, Except.ok.injEq, eq_iff_rawView, rawView_write, PtrBoard.exchange]
  grind

theorem cardSwap_at {l l' : RawLayout} {a b : Place} {C1 C2 : Container} {i j : Nat} (ha : At a C1 i) (hb : At b C2 j) :
    l.cardSwap a b = .ok l' ↔ ∃ c1 c2, (rawView l C1)[swappedIndex C1 C2 i]? = some c1 ∧ (rawView l C2)[j]? = some c2 ∧
        rawView l' = ((rawView l).exchange C1 (swappedIndex C1 C2 i) C2 j c1 c2).swapMats C1 C2 := by
  cases ha with
  | pile k1 s1 o1 =>
    cases hb with
    | pile k2 s2 o2 => simp [cardSwap, swapRefs_eq_ok, swappedIndex, PtrBoard.swapMats, Layout.Ref.cont, Layout.Ref.idx]
    | slot k2 o2 h2 => simp [cardSwap, h2, swapRefs_eq_ok, swappedIndex, PtrBoard.swapMats, Layout.Ref.cont, Layout.Ref.idx]
    | mats k2 n =>
      have hn : ¬ ((j : Int) < 0) := by omega
      simp [cardSwap, hn, swapRefs_eq_ok, swappedIndex, PtrBoard.swapMats, Layout.Ref.cont, Layout.Ref.idx]
  | slot k1 o1 h1 =>
    cases hb with
    | pile k2 s2 o2 => simp [cardSwap, h1, swapRefs_eq_ok, swappedIndex, PtrBoard.swapMats, Layout.Ref.cont, Layout.Ref.idx]
    | slot k2 o2 h2 =>
      simp [cardSwap, h1, h2, swapRefs, read, write, swappedIndex, PtrBoard.swapMats, PtrBoard.exchange, eq_iff_rawView, rawView_setMats, rawView_setCard,
        pupd_apply]
    | mats k2 n =>
      have hn : ¬ ((j : Int) < 0) := by omega
      simp [cardSwap, h1, hn, swapRefs_eq_ok, swappedIndex, PtrBoard.swapMats, Layout.Ref.cont, Layout.Ref.idx]
  | mats k1 m =>
    have hm : ¬ ((i : Int) < 0) := by omega
    cases hb with
    | pile k2 s2 o2 => simp [cardSwap, hm, swapRefs_eq_ok, swappedIndex, PtrBoard.swapMats, Layout.Ref.cont, Layout.Ref.idx]
    | slot k2 o2 h2 => simp [cardSwap, hm, h2, swapRefs_eq_ok, swappedIndex, PtrBoard.swapMats, Layout.Ref.cont, Layout.Ref.idx]
    | mats k2 n =>
      have hn : ¬ ((j : Int) < 0) := by omega
      simp [cardSwap, hm, hn, swapRefs_eq_ok, swappedIndex, PtrBoard.swapMats, Layout.Ref.cont, Layout.Ref.idx]

theorem cardSwap_eq_ok {l l' : RawLayout} {a b : Place} :
    l.cardSwap a b = .ok l' ↔ ∃ C1 i C2 j c1 c2, At a C1 i ∧ At b C2 j ∧ (rawView l C1)[swappedIndex C1 C2 i]? = some c1 ∧
      (rawView l C2)[j]? = some c2 ∧ rawView l' = ((rawView l).exchange C1 (swappedIndex C1 C2 i) C2 j c1 c2).swapMats C1 C2 := by
  have key : ∀ x, (h : l.cardSwap a b = .ok x) → (∃ C i, At a C i) ∧ (∃ C i, At b C i) := by
    intro x h
    rcases a.at_or_not with ha | ⟨hno, ⟨h1, e, h2⟩ | ⟨h1, e, h2⟩⟩
    · refine ⟨ha, ?_⟩
      rcases b.at_or_not with hb | ⟨hno, ⟨h1, e, h2⟩ | ⟨h1, e, h2⟩⟩
      · exact hb
      all_goals
        exfalso
        simp only [cardSwap, h1, h2, if_true, if_false, Bool.false_eq_true] at h
        repeat' split at h
        all_goals simp [h2] at h
    · simp [cardSwap, h1, h2] at h
    · simp [cardSwap, h1, h2] at h
  constructor
  · intro h
    obtain ⟨⟨C1, i, ha⟩, C2, j, hb⟩ := key _ h
    obtain ⟨c1, c2, h⟩ := (cardSwap_at ha hb).mp h
    exact ⟨C1, i, C2, j, c1, c2, ha, hb, h⟩
  · rintro ⟨C1, i, C2, j, c1, c2, ha, hb, h⟩
    exact (cardSwap_at ha hb).mpr ⟨c1, c2, h⟩

theorem pileOf_at {p : Place} {k : PileKey} : Raw.pileOf p = .ok k ↔ At p (.pile k) p.seq := by
  constructor
  · intro h
    obtain ⟨h1, h2⟩ := Raw.pileKey_eq_ok.mp h
    have := At.pile k p.seq p.oseq
    rw [← h1, ← h2] at this; exact this
  · intro h
    generalize hC : Container.pile k = C at h
    generalize hi : p.seq = i at h
    cases h <;> cases hC
    simp

theorem at_pile_seq {p : Place} {k : PileKey} {i : Nat} (h : At p (.pile k) i) : i = p.seq := by
  generalize hC : Container.pile k = C at h
  cases h <;> cases hC
  rfl

theorem pileSplice_eq_ok {l l' : RawLayout} {a b : Place} {n : Nat} {r : Bool} :
    l.pileSplice a n b r = .ok l' ↔ ∃ k1 i k2 j, At a (.pile k1) i ∧ At b (.pile k2) j ∧ i + n ≤ (rawView l (.pile k1)).length ∧
      j ≤ ((rawView l).cut (.pile k1) i n (.pile k2)).length ∧
      rawView l' = ((rawView l).cut (.pile k1) i n).paste (.pile k2) j ((rawView l).block (.pile k1) i n r) := by
  simp only [pileSplice, bind_eq_ok, guardUb_eq_ok, pure_eq_ok, Except.ok.injEq, eq_iff_rawView, pileOf_at, rawView_setPile, pile_setPile]
  constructor
  · rintro ⟨k1, h1, _, h2, k2, h3, _, h4, h5⟩
    refine ⟨k1, _, k2, _, h1, h3, h2, ?_, ?_⟩
    · simpa [PtrBoard.cut, pupd_apply] using h4
    · simpa [PtrBoard.cut, PtrBoard.paste, PtrBoard.block, pupd_apply] using h5
  · rintro ⟨k1, i, k2, j, h1, h3, h2, h4, h5⟩
    have e1 := at_pile_seq h1
    have e2 := at_pile_seq h3
    subst e1 e2
    refine ⟨k1, h1, (), h2, k2, h3, (), ?_, ?_⟩
    · simpa [PtrBoard.cut, pupd_apply] using h4
    · simpa [PtrBoard.cut, PtrBoard.paste, PtrBoard.block, pupd_apply] using h5

theorem pileSwap_eq_ok {l l' : RawLayout} {a b : Place} :
    l.pileSwap a b = .ok l' ↔ ∃ k1 i k2 j, At a (.pile k1) i ∧ At b (.pile k2) j ∧ rawView l' = (rawView l).swapAll (.pile k1) (.pile k2) := by
  simp only [pileSwap, bind_eq_ok, pure_eq_ok, Except.ok.injEq, eq_iff_rawView, pileOf_at, rawView_setPile, PtrBoard.swapAll, rawView_pile]
  constructor
  · rintro ⟨k1, h1, k2, h2, h⟩; exact ⟨k1, _, k2, _, h1, h2, h⟩
  · rintro ⟨k1, i, k2, j, h1, h2, h⟩
    have e1 := at_pile_seq h1
    have e2 := at_pile_seq h2
    subst e1 e2
    exact ⟨k1, h1, k2, h2, h⟩

end RawLayout

/-! ## The frame -/

namespace RawFrame
open Ygo.Frame (eraseAll)

theorem growPile_spec (k : PileKey) (n : Nat) (f : RawFrame) :
    rawView (growPile k n f).layout = (rawView f.layout).upd (.pile k) (f.layout.pile k ++ (List.range' f.next n).map some) ∧
    (growPile k n f).owned = (List.range' f.next n).reverse ++ f.owned ∧
    (growPile k n f).next = f.next + n := by
  induction n generalizing f with
  | zero => simp [growPile]; rw [← rawView_pile, pupd_same]
  | succ n ih =>
    simp only [growPile, construct]
    obtain ⟨h1, h2, h3⟩ := ih { layout := f.layout.setPile k (f.layout.pile k ++ [some f.next]), owned := f.next :: f.owned, next := f.next + 1 }
    refine ⟨?_, ?_, ?_⟩
    · rw [h1]; simp [rawView_setPile, List.range'_succ]
    · rw [h2]; simp [List.range'_succ]
    · rw [h3]; exact (Nat.add_right_comm _ _ _).trans (Nat.add_assoc _ _ _)

theorem destruct_eq_ok {f f' : RawFrame} {c : Ptr} :
    f.destruct c = .ok f' ↔ ∃ x, c = some x ∧ f' = { f with owned := f.owned.erase x } := by
  simp only [destruct, bind_eq_ok, orUb_eq_ok, pure_eq_ok, Except.ok.injEq]
  exact ⟨fun ⟨x, a, b⟩ => ⟨x, a, b.symm⟩, fun ⟨x, a, b⟩ => ⟨x, a, b.symm⟩⟩

theorem shrinkPile_eq_ok {k : PileKey} {n : Nat} {f f' : RawFrame} (hn : n ≤ (f.layout.pile k).length) :
    shrinkPile k n f = .ok f' ↔ none ∉ (f.layout.pile k).drop ((f.layout.pile k).length - n) ∧
      rawView f'.layout = (rawView f.layout).upd (.pile k) ((f.layout.pile k).take ((f.layout.pile k).length - n)) ∧
      f'.owned = eraseAll (((f.layout.pile k).drop ((f.layout.pile k).length - n)).reverse.filterMap id) f.owned ∧
      f'.next = f.next := by
  induction n generalizing f with
  | zero =>
    simp only [shrinkPile, Except.ok.injEq]
    have e : (rawView f.layout).upd (.pile k) (f.layout.pile k) = rawView f.layout := by rw [← rawView_pile, pupd_same]
    simp [eraseAll, e]
    constructor
    · rintro rfl; simp
    · rintro ⟨h1, h2, h3⟩
      rcases f with ⟨l, o, x⟩
      rcases f' with ⟨l', o', x'⟩
      simp only at h1 h2 h3
      rw [rawView_inj h1, h2, h3]
  | succ n ih =>
    have hne : f.layout.pile k ≠ [] := by intro h0; simp [h0] at hn
    obtain ⟨d, c, hd⟩ : ∃ d c, f.layout.pile k = d ++ [c] :=
      ⟨_, _, (List.dropLast_concat_getLast hne).symm⟩
    have hl : (f.layout.pile k).length = d.length + 1 := by rw [hd]; simp
    have hle : n ≤ d.length := by omega
    have e1 : d.length + 1 - (n + 1) = d.length - n := by omega
    simp only [shrinkPile, bind_eq_ok, orUb_eq_ok, destruct_eq_ok, hl, e1]
    rw [hd, List.drop_append_of_le_length (by omega), List.take_append_of_le_length (by omega)]
    cases c with
    | none => simp
    | some c =>
      have := ih (f := ⟨f.layout.setPile k d, f.owned.erase c, f.next⟩) (by simpa using hle)
      simp only [RawLayout.pile_setPile, if_true, rawView_setPile, pupd_upd] at this
      simp only [List.getLast?_append, List.getLast?_singleton, Option.some_or, Option.some.injEq, exists_eq_left', hd,
        List.dropLast_concat, exists_eq_left, this, List.mem_append, List.mem_singleton, reduceCtorEq, or_false, List.reverse_append,
        List.reverse_singleton, List.filterMap_append, List.filterMap_cons, id, List.filterMap_nil, eraseAll, List.foldl_append, List.foldl_cons,
        List.foldl_nil]

theorem pileResize_eq_ok {f f' : RawFrame} {p : Place} {n : Nat} :
    f.pileResize p n = .ok f' ↔ ∃ k i, At p (.pile k) i ∧ none ∉ (f.layout.pile k).drop n ∧
      rawView f'.layout = (rawView f.layout).upd (.pile k)
        ((f.layout.pile k).take n ++ (List.range' f.next (n - (f.layout.pile k).length)).map some) ∧
      f'.owned = (List.range' f.next (n - (f.layout.pile k).length)).reverse ++
        eraseAll (((f.layout.pile k).drop n).reverse.filterMap id) f.owned ∧
      f'.next = f.next + (n - (f.layout.pile k).length) := by
  simp only [pileResize, bind_eq_ok, RawLayout.pileOf_at]
  have key : ∀ k, ((if (f.layout.pile k).length < n then (pure (growPile k (n - (f.layout.pile k).length) f) : Res RawFrame)
      else if (f.layout.pile k).length > n then shrinkPile k ((f.layout.pile k).length - n) f else pure f) = .ok f') ↔
      none ∉ (f.layout.pile k).drop n ∧
      rawView f'.layout = (rawView f.layout).upd (.pile k)
        ((f.layout.pile k).take n ++ (List.range' f.next (n - (f.layout.pile k).length)).map some) ∧
      f'.owned = (List.range' f.next (n - (f.layout.pile k).length)).reverse ++
        eraseAll (((f.layout.pile k).drop n).reverse.filterMap id) f.owned ∧
      f'.next = f.next + (n - (f.layout.pile k).length) := by
    intro k
    split
    · rename_i h
      obtain ⟨h1, h2, h3⟩ := growPile_spec k (n - (f.layout.pile k).length) f
      rw [List.drop_eq_nil_of_le (by omega), List.take_of_length_le (by omega)]
      simp only [pure_eq_ok, Except.ok.injEq, List.not_mem_nil, not_false_eq_true, true_and, List.reverse_nil, List.filterMap_nil, eraseAll,
        List.foldl_nil]
      constructor
      · rintro rfl; exact ⟨h1, h2, h3⟩
      · rintro ⟨g1, g2, g3⟩
        rcases f' with ⟨l', o', x'⟩
        simp only at g1 g2 g3
        rw [g2, g3, ← h2, ← h3, rawView_inj (g1.trans h1.symm)]
    · split
      · rename_i h1 h2
        have e : n - (f.layout.pile k).length = 0 := by omega
        rw [shrinkPile_eq_ok (by omega), e, show (f.layout.pile k).length - ((f.layout.pile k).length - n) = n by omega]
        simp
      · have e : (f.layout.pile k).length = n := by omega
        rw [List.drop_eq_nil_of_le (by omega), List.take_of_length_le (by omega), e]
        have e : (rawView f.layout).upd (.pile k) (f.layout.pile k) = rawView f.layout := by rw [← rawView_pile, pupd_same]
        simp [eraseAll, e]
        constructor
        · rintro rfl; simp
        · rintro ⟨h1, h2, h3⟩
          rcases f with ⟨l, o, x⟩
          rcases f' with ⟨l', o', x'⟩
          simp only at h1 h2 h3
          rw [rawView_inj h1, h2, h3]
  constructor
  · rintro ⟨k, h, h'⟩; exact ⟨k, _, h, (key k).mp h'⟩
  · rintro ⟨k, i, h, h'⟩
    have e := RawLayout.at_pile_seq h
    subst e
    exact ⟨k, h, (key k).mpr h'⟩

theorem destructCards_eq_ok {cs : List Ptr} {f f' : RawFrame} :
    destructCards cs f = .ok f' ↔ none ∉ cs ∧ f' = { f with owned := eraseAll (cs.filterMap id) f.owned } := by
  induction cs generalizing f with
  | nil => simp [destructCards, eraseAll]; exact eq_comm
  | cons c cs ih =>
    simp only [destructCards, bind_eq_ok, destruct_eq_ok]
    cases c with
    | none => simp
    | some c => simp [ih, eraseAll]

/-- What is left when some piles are emptied. -/
def withoutPiles (l : RawLayout) (ks : List PileKey) : RawLayout := ⟨fun k => if k ∈ ks then [] else l.pile k, l.zone⟩

/-- What is left when some zones are emptied. -/
def withoutZones (l : RawLayout) (ks : List ZoneKey) : RawLayout := ⟨l.pile, fun k => if k ∈ ks then {} else l.zone k⟩

theorem clearPiles_eq_ok {ks : List PileKey} {f f' : RawFrame} (hn : ks.Nodup) :
    clearPiles ks f = .ok f' ↔ (∀ k ∈ ks, none ∉ f.layout.pile k) ∧
      f' = ⟨withoutPiles f.layout ks, eraseAll (ks.flatMap fun k => (f.layout.pile k).filterMap id) f.owned, f.next⟩ := by
  induction ks generalizing f with
  | nil => simp [clearPiles, withoutPiles, eraseAll]; exact eq_comm
  | cons k ks ih =>
    rw [List.nodup_cons] at hn
    simp only [clearPiles, bind_eq_ok, destructCards_eq_ok, ih hn.2]
    have h1 : (∀ k' ∈ ks, none ∉ (f.layout.setPile k []).pile k') ↔ ∀ k' ∈ ks, none ∉ f.layout.pile k' := by
      constructor
      · intro h k' hk
        have := h k' hk
        simpa [show k' ≠ k from fun e => hn.1 (e ▸ hk)] using this
      · intro h k' hk
        simpa [show k' ≠ k from fun e => hn.1 (e ▸ hk)] using h k' hk
    have h2 : withoutPiles (f.layout.setPile k []) ks = withoutPiles f.layout (k :: ks) := by
      simp only [withoutPiles, RawLayout.pile_setPile, RawLayout.zone_setPile]
      congr 1
      funext k'
      by_cases e : k' = k <;> simp [e]
    have h3 : (ks.flatMap fun k' => ((f.layout.setPile k []).pile k').filterMap id) = ks.flatMap fun k' => (f.layout.pile k').filterMap id := by
      rw [List.flatMap_def, List.flatMap_def]
      congr 1
      apply List.map_congr_left
      intro k' hk
      simp [show k' ≠ k from fun e => hn.1 (e ▸ hk)]
    constructor
    · rintro ⟨g, ⟨h4, rfl⟩, h5, rfl⟩
      refine ⟨?_, ?_⟩
      · intro k' hk
        rcases List.mem_cons.mp hk with rfl | hk
        · exact h4
        · exact h1.mp h5 k' hk
      · simp only [h2, h3, List.flatMap_cons, eraseAll, List.foldl_append]
    · rintro ⟨h4, rfl⟩
      refine ⟨_, ⟨h4 k (by simp), rfl⟩, h1.mpr fun k' hk => h4 k' (by simp [hk]), ?_⟩
      simp only [h2, h3, List.flatMap_cons, eraseAll, List.foldl_append]

theorem clearZones_cons {k : ZoneKey} {ks : List ZoneKey} {f : RawFrame} :
    clearZones (k :: ks) f = (destructCards ((f.layout.setCard k none).zone k).materials
      ⟨f.layout.setCard k none, eraseAll (f.layout.zone k).card.toList f.owned, f.next⟩ >>= fun g =>
        clearZones ks { g with layout := g.layout.setMats k [] }) := by
  simp only [clearZones]
  cases h : (f.layout.zone k).card <;> simp [destruct, eraseAll, orUb]

theorem clearZones_eq_ok {ks : List ZoneKey} {f f' : RawFrame} (hn : ks.Nodup) :
    clearZones ks f = .ok f' ↔ (∀ k ∈ ks, none ∉ (f.layout.zone k).materials) ∧
      f' = ⟨withoutZones f.layout ks, eraseAll (ks.flatMap fun k => (f.layout.zone k).card.toList ++ (f.layout.zone k).materials.filterMap id) f.owned,
        f.next⟩ := by
  induction ks generalizing f with
  | nil => simp [clearZones, withoutZones, eraseAll]; exact eq_comm
  | cons k ks ih =>
    rw [List.nodup_cons] at hn
    have hl : (f.layout.setCard k none).setMats k [] = withoutZones f.layout [k] := by
      apply RawLayout.ext'
      · intro k'; rfl
      all_goals intro k'; by_cases e : k' = k <;> simp [withoutZones, e]
    have h1 : (∀ k' ∈ ks, none ∉ ((withoutZones f.layout [k]).zone k').materials) ↔ ∀ k' ∈ ks, none ∉ (f.layout.zone k').materials := by
      constructor
      · intro h k' hk
        have := h k' hk
        simpa [withoutZones, show k' ≠ k from fun e => hn.1 (e ▸ hk)] using this
      · intro h k' hk
        simpa [withoutZones, show k' ≠ k from fun e => hn.1 (e ▸ hk)] using h k' hk
    have h2 : withoutZones (withoutZones f.layout [k]) ks = withoutZones f.layout (k :: ks) := by
      simp only [withoutZones]
      congr 1
      funext k'
      by_cases e : k' = k <;> simp [e]
    have h3 : (ks.flatMap fun k' => ((withoutZones f.layout [k]).zone k').card.toList ++ ((withoutZones f.layout [k]).zone k').materials.filterMap id) =
        ks.flatMap fun k' => (f.layout.zone k').card.toList ++ (f.layout.zone k').materials.filterMap id := by
      rw [List.flatMap_def, List.flatMap_def]
      congr 1
      apply List.map_congr_left
      intro k' hk
      simp [withoutZones, show k' ≠ k from fun e => hn.1 (e ▸ hk)]
    simp only [clearZones_cons, bind_eq_ok, destructCards_eq_ok, ih hn.2, RawLayout.mats_setCard]
    constructor
    · rintro ⟨g, ⟨h4, rfl⟩, h5, rfl⟩
      simp only [hl] at h5 ⊢
      refine ⟨?_, ?_⟩
      · intro k' hk
        rcases List.mem_cons.mp hk with rfl | hk
        · exact h4
        · exact h1.mp h5 k' hk
      · simp only [h2, h3, List.flatMap_cons, eraseAll, List.foldl_append]
    · rintro ⟨h4, rfl⟩
      refine ⟨_, ⟨h4 k (by simp), rfl⟩, ?_, ?_⟩
      · simp only [hl]; exact h1.mpr fun k' hk => h4 k' (by simp [hk])
      · simp only [hl, h2, h3, List.flatMap_cons, eraseAll, List.foldl_append]

/-- All cards in the order `clear` visits them. -/
def visited (l : RawLayout) : List CardId :=
  (allPiles.flatMap fun k => (l.pile k).filterMap id) ++
    allZones.flatMap fun k => (l.zone k).card.toList ++ (l.zone k).materials.filterMap id

theorem clear_eq_ok {f f' : RawFrame} :
    f.clear = .ok f' ↔ (∀ k, none ∉ f.layout.pile k) ∧ (∀ k, none ∉ (f.layout.zone k).materials) ∧
      f' = ⟨RawLayout.empty, eraseAll (visited f.layout) f.owned, f.next⟩ := by
  simp only [clear, bind_eq_ok, clearPiles_eq_ok nodup_allPiles, clearZones_eq_ok nodup_allZones]
  have e : withoutZones (withoutPiles f.layout allPiles) allZones = RawLayout.empty := by
    simp [withoutZones, withoutPiles, mem_allPiles, mem_allZones, RawLayout.empty]
  constructor
  · rintro ⟨g, ⟨h1, rfl⟩, h2, rfl⟩
    refine ⟨fun k => h1 k (mem_allPiles k), fun k => h2 k (mem_allZones k), ?_⟩
    rw [e]
    simp [visited, eraseAll, withoutPiles]
  · rintro ⟨h1, h2, rfl⟩
    refine ⟨_, ⟨fun k _ => h1 k, rfl⟩, fun k _ => h2 k, ?_⟩
    rw [e]
    simp [visited, eraseAll, withoutPiles]

end RawFrame
end Ygo
