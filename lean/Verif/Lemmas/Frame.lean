import Verif.Core.List
import Verif.Spec.Frame
import Verif.Spec.Place

namespace Ygo
open Ygo.Spec

/-! ## Resolving places -/

@[simp] theorem locIsPile_pile (l : PileLoc) : locIsPile l.code = true := by cases l <;> rfl
@[simp] theorem locIsPile_zone (l : ZoneLoc) : locIsPile l.code = false := by cases l <;> rfl
@[simp] theorem locIsZone_zone (l : ZoneLoc) : locIsZone l.code = true := by cases l <;> rfl
@[simp] theorem locIsEmpty_pile (l : PileLoc) : locIsEmpty l.code = false := by cases l <;> rfl
@[simp] theorem locIsEmpty_zone (l : ZoneLoc) : locIsEmpty l.code = false := by cases l <;> rfl
@[simp] theorem zoneSeqLim_zone (l : ZoneLoc) : zoneSeqLim l.code = .ok l.limit := by cases l <;> rfl

theorem conIdx_val (c : Fin 2) : conIdx (c.val : Int) = .ok c := by
  match c with
  | 0 => rfl
  | 1 => rfl

theorem conIdx_eq_ok {con : Int} {c : Fin 2} : conIdx con = .ok c ↔ con = c.val := by
  constructor
  · unfold conIdx
    split
    · intro h; cases h; simp_all
    · split
      · intro h; cases h; simp_all
      · simp
  · rintro rfl; exact conIdx_val c

theorem PileLoc.code_inj {a b : PileLoc} : a.code = b.code ↔ a = b := by
  cases a <;> cases b <;> simp [PileLoc.code]

theorem ZoneLoc.code_inj {a b : ZoneLoc} : a.code = b.code ↔ a = b := by
  cases a <;> cases b <;> simp [ZoneLoc.code]

theorem con_le_one (c : Fin 2) : (c.val : Int) ≤ 1 := by omega

theorem pileKey_mk (k : PileKey) : pileKey k.con.val k.loc.code = .ok k := by
  rcases k with ⟨c, l⟩
  simp only [pileKey]
  rw [massert_true (con_le_one c), massert_true (locIsPile_pile l)]
  cases l <;> simp [PileLoc.code, conIdx_val]

theorem pileKey_eq_ok {con : Int} {loc : Nat} {k : PileKey} :
    pileKey con loc = .ok k ↔ con = k.con.val ∧ loc = k.loc.code := by
  constructor
  · intro h
    simp only [pileKey] at h
    simp only [bind_eq_ok] at h
    obtain ⟨_, _, _, _, h⟩ := h
    repeat' split at h
    all_goals first | (cases h; done) | simp only [bind_eq_ok, conIdx_eq_ok, pure_eq_ok, Except.ok.injEq] at h
    all_goals
      obtain ⟨a, ha, rfl⟩ := h
      exact ⟨ha, by assumption⟩
  · rintro ⟨rfl, rfl⟩; exact pileKey_mk k

theorem zoneAt_eq_ok {con : Int} {loc : ZoneLoc} {seq : Nat} {k : ZoneKey} :
    zoneAt con loc seq = .ok k ↔ con = k.con.val ∧ loc = k.loc ∧ seq = k.seq := by
  unfold zoneAt
  simp only [bind_eq_ok, conIdx_eq_ok]
  constructor
  · rintro ⟨c, rfl, h⟩
    split at h
    · cases h; simp
    · cases h
  · rintro ⟨rfl, rfl, rfl⟩
    refine ⟨k.con, rfl, ?_⟩
    rw [dif_pos k.lt]; rfl

theorem zoneKey_eq_ok {con : Int} {loc seq : Nat} {k : ZoneKey} :
    zoneKey con loc seq = .ok k ↔ con = k.con.val ∧ loc = k.loc.code ∧ seq = k.seq := by
  constructor
  · intro h
    simp only [zoneKey] at h
    simp only [bind_eq_ok] at h
    obtain ⟨_, _, _, _, _, _, _, _, h⟩ := h
    repeat' split at h
    all_goals simp [zoneAt_eq_ok] at h
    all_goals
      obtain ⟨h1, h2, h3⟩ := h
      exact ⟨h1, by rw [← h2]; assumption, h3⟩
  · rintro ⟨rfl, rfl, rfl⟩
    rcases k with ⟨c, l, s, hs⟩
    simp only [zoneKey]
    rw [massert_true (con_le_one c), zoneSeqLim_zone, massert_true (locIsZone_zone l)]
    simp only [bind_ok]
    rw [massert_true hs]
    cases l <;> simp [ZoneLoc.code, zoneAt_eq_ok]

theorem zoneKey_mk (k : ZoneKey) : zoneKey k.con.val k.loc.code k.seq = .ok k := zoneKey_eq_ok.mpr ⟨rfl, rfl, rfl⟩

@[simp] theorem Place.pileKey_mk (k : PileKey) (s : Nat) (o : Int) :
    Place.pileKey ⟨k.con.val, k.loc.code, s, o⟩ = .ok k := Ygo.pileKey_mk k
@[simp] theorem Place.zoneKey_mk (k : ZoneKey) (o : Int) :
    Place.zoneKey ⟨k.con.val, k.loc.code, k.seq, o⟩ = .ok k := Ygo.zoneKey_mk k
@[simp] theorem Place.isPile_pile (c : Int) (l : PileLoc) (s : Nat) (o : Int) :
    Place.isPile ⟨c, l.code, s, o⟩ = true := locIsPile_pile l
@[simp] theorem Place.isPile_zone (c : Int) (l : ZoneLoc) (s : Nat) (o : Int) :
    Place.isPile ⟨c, l.code, s, o⟩ = false := locIsPile_zone l
@[simp] theorem Place.isEmpty_pile (c : Int) (l : PileLoc) (s : Nat) (o : Int) :
    Place.isEmpty ⟨c, l.code, s, o⟩ = false := locIsEmpty_pile l
@[simp] theorem Place.isEmpty_zone (c : Int) (l : ZoneLoc) (s : Nat) (o : Int) :
    Place.isEmpty ⟨c, l.code, s, o⟩ = false := locIsEmpty_zone l
@[simp] theorem Place.isZone_zone (c : Int) (l : ZoneLoc) (s : Nat) (o : Int) :
    Place.isZone ⟨c, l.code, s, o⟩ = true := locIsZone_zone l

/-- Every place either names a pile, a zone, or fails to resolve along its access path. -/
theorem Place.cases (p : Place) :
    (∃ k s o, p = ⟨Fin.val (n := 2) (PileKey.con k), (PileKey.loc k).code, s, o⟩) ∨
    (∃ k o, p = ⟨Fin.val (n := 2) (ZoneKey.con k), (ZoneKey.loc k).code, ZoneKey.seq k, o⟩) ∨
    (p.isPile = true ∧ ∃ e, p.pileKey = .error e) ∨
    (p.isPile = false ∧ ∃ e, p.zoneKey = .error e) := by
  cases h : p.isPile with
  | true =>
    cases hk : p.pileKey with
    | ok k =>
      left
      obtain ⟨h1, h2⟩ := pileKey_eq_ok.mp hk
      exact ⟨k, p.seq, p.oseq, by rw [← h1, ← h2]⟩
    | error e => right; right; left; exact ⟨rfl, e, rfl⟩
  | false =>
    cases hk : p.zoneKey with
    | ok k =>
      right; left
      obtain ⟨h1, h2, h3⟩ := zoneKey_eq_ok.mp hk
      exact ⟨k, p.oseq, by rw [← h1, ← h2, ← h3]⟩
    | error e => right; right; right; exact ⟨rfl, e, rfl⟩

/-! ## Layout writes and views -/

namespace Layout

@[simp] theorem pile_setPile (l : Layout) (k k' : PileKey) (v : List CardId) :
    (l.setPile k v).pile k' = if k' = k then v else l.pile k' := (rfl)
@[simp] theorem zone_setPile (l : Layout) (k : PileKey) (v : List CardId) : (l.setPile k v).zone = l.zone := (rfl)
@[simp] theorem pile_setZone (l : Layout) (k : ZoneKey) (v : Zone) : (l.setZone k v).pile = l.pile := (rfl)
@[simp] theorem zone_setZone (l : Layout) (k k' : ZoneKey) (v : Zone) :
    (l.setZone k v).zone k' = if k' = k then v else l.zone k' := (rfl)
@[simp] theorem pile_setCard (l : Layout) (k : ZoneKey) (c : Option CardId) : (l.setCard k c).pile = l.pile := (rfl)
@[simp] theorem pile_setMats (l : Layout) (k : ZoneKey) (m : List CardId) : (l.setMats k m).pile = l.pile := (rfl)
@[simp] theorem card_setCard (l : Layout) (k k' : ZoneKey) (c : Option CardId) :
    ((l.setCard k c).zone k').card = if k' = k then c else (l.zone k').card := by
  simp only [setCard, zone_setZone]; split <;> rfl
@[simp] theorem mats_setCard (l : Layout) (k k' : ZoneKey) (c : Option CardId) :
    ((l.setCard k c).zone k').materials = (l.zone k').materials := by
  simp only [setCard, zone_setZone]; split <;> simp_all
@[simp] theorem card_setMats (l : Layout) (k k' : ZoneKey) (m : List CardId) :
    ((l.setMats k m).zone k').card = (l.zone k').card := by
  simp only [setMats, zone_setZone]; split <;> simp_all
@[simp] theorem mats_setMats (l : Layout) (k k' : ZoneKey) (m : List CardId) :
    ((l.setMats k m).zone k').materials = if k' = k then m else (l.zone k').materials := by
  simp only [setMats, zone_setZone]; split <;> rfl

@[ext] theorem ext {a b : Layout} (hp : ∀ k, a.pile k = b.pile k) (hc : ∀ k, (a.zone k).card = (b.zone k).card)
    (hm : ∀ k, (a.zone k).materials = (b.zone k).materials) : a = b := by
  rcases a with ⟨p, z⟩
  rcases b with ⟨p', z'⟩
  have h1 : p = p' := funext hp
  have h2 : z = z' := by
    funext k
    have a := hc k
    have b := hm k
    simp only at a b
    cases h : z k; cases h' : z' k
    simp_all
  rw [h1, h2]

end Layout

@[simp] theorem view_pile (l : Layout) (k : PileKey) : view l (.pile k) = l.pile k := (rfl)
@[simp] theorem view_slot (l : Layout) (k : ZoneKey) : view l (.slot k) = (l.zone k).card.toList := (rfl)
@[simp] theorem view_mats (l : Layout) (k : ZoneKey) : view l (.mats k) = (l.zone k).materials := (rfl)

theorem toList_inj {a b : Option CardId} (h : a.toList = b.toList) : a = b := by
  cases a <;> cases b <;> simp_all

theorem view_inj {a b : Layout} (h : view a = view b) : a = b := by
  apply Layout.ext
  · intro k; exact congrFun h (.pile k)
  · intro k; exact toList_inj (congrFun h (.slot k))
  · intro k; exact congrFun h (.mats k)

@[simp] theorem upd_self (B : Board) (C : Container) (v : List CardId) : (B.upd C v) C = v := by simp [Board.upd]
theorem upd_ne {B : Board} {C C' : Container} {v : List CardId} (h : C' ≠ C) : (B.upd C v) C' = B C' := by
  simp [Board.upd, h]
theorem upd_apply (B : Board) (C C' : Container) (v : List CardId) :
    (B.upd C v) C' = if C' = C then v else B C' := rfl
@[simp] theorem upd_upd (B : Board) (C : Container) (v w : List CardId) : (B.upd C v).upd C w = B.upd C w := by
  funext C'; simp only [upd_apply]; split <;> rfl
@[simp] theorem upd_same (B : Board) (C : Container) : B.upd C (B C) = B := by
  funext C'; simp only [upd_apply]; split <;> simp_all
theorem upd_comm {B : Board} {C C' : Container} {v w : List CardId} (h : C ≠ C') :
    (B.upd C v).upd C' w = (B.upd C' w).upd C v := by
  funext D; simp only [upd_apply]; split <;> split <;> simp_all

theorem view_setPile (l : Layout) (k : PileKey) (v : List CardId) :
    view (l.setPile k v) = (view l).upd (.pile k) v := by
  funext C
  cases C <;> simp [upd_apply]

theorem view_setCard (l : Layout) (k : ZoneKey) (c : Option CardId) :
    view (l.setCard k c) = (view l).upd (.slot k) c.toList := by
  funext C
  cases C <;> simp [upd_apply]
  split <;> rfl

theorem view_setMats (l : Layout) (k : ZoneKey) (m : List CardId) :
    view (l.setMats k m) = (view l).upd (.mats k) m := by
  funext C
  cases C <;> simp [upd_apply]

/-! ## Enumerations -/

theorem mem_allPiles (k : PileKey) : k ∈ allPiles := by
  rcases k with ⟨c, l⟩
  have : c = 0 ∨ c = 1 := by omega
  rcases this with rfl | rfl <;> cases l <;> decide

theorem nodup_allPiles : allPiles.Nodup := by decide

theorem mem_zoneRow {c : Fin 2} {l : ZoneLoc} {k : ZoneKey} : k ∈ zoneRow c l ↔ k.con = c ∧ k.loc = l := by
  simp only [zoneRow, List.mem_map, List.mem_finRange, true_and]
  constructor
  · rintro ⟨i, rfl⟩; exact ⟨rfl, rfl⟩
  · rintro ⟨rfl, rfl⟩; exact ⟨⟨k.seq, k.lt⟩, rfl⟩

theorem mem_allZones (k : ZoneKey) : k ∈ allZones := by
  simp only [allZones, List.mem_flatMap, mem_zoneRow]
  refine ⟨k.con, ?_, k.loc, ?_, rfl, rfl⟩
  · have : k.con = 0 ∨ k.con = 1 := by omega
    rcases this with h | h <;> simp [h]
  · cases k.loc <;> simp

theorem nodup_allZones : allZones.Nodup := by decide

theorem mem_containers (C : Container) : C ∈ containers := by
  simp only [containers, List.mem_append, List.mem_map]
  cases C with
  | pile k => exact .inl (.inl ⟨k, mem_allPiles k, rfl⟩)
  | slot k => exact .inl (.inr ⟨k, mem_allZones k, rfl⟩)
  | mats k => exact .inr ⟨k, mem_allZones k, rfl⟩

theorem nodup_containers : containers.Nodup := by decide

/-! ## Counting placed cards -/

theorem count_flatMap_upd (B : Board) (C : Container) (v : List CardId) (x : CardId) (cs : List Container)
    (hn : cs.Nodup) (hm : C ∈ cs) :
    (cs.flatMap (B.upd C v)).count x + (B C).count x = (cs.flatMap B).count x + v.count x := by
  have out : ∀ ds : List Container, C ∉ ds → ds.flatMap (B.upd C v) = ds.flatMap B := by
    intro ds
    induction ds with
    | nil => intro _; rfl
    | cons d ds ih =>
      intro h
      simp only [List.mem_cons, not_or] at h
      rw [List.flatMap_cons, List.flatMap_cons, ih h.2, upd_ne (Ne.symm h.1)]
  induction cs with
  | nil => cases hm
  | cons d ds ih =>
    rw [List.nodup_cons] at hn
    rw [List.flatMap_cons, List.flatMap_cons, List.count_append, List.count_append]
    by_cases hd : C = d
    · subst hd
      rw [out ds hn.1, upd_self]; omega
    · have := ih hn.2 (by simpa [hd] using hm)
      rw [upd_ne (Ne.symm hd)]; omega

theorem count_placed_upd (B : Board) (C : Container) (v : List CardId) (x : CardId) :
    (placed (B.upd C v)).count x + (B C).count x = (placed B).count x + v.count x :=
  count_flatMap_upd B C v x containers nodup_containers (mem_containers C)

theorem mem_placed {B : Board} {x : CardId} : x ∈ placed B ↔ ∃ C, x ∈ B C := by
  simp only [placed, List.mem_flatMap]
  exact ⟨fun ⟨C, _, h⟩ => ⟨C, h⟩, fun ⟨C, h⟩ => ⟨C, mem_containers C, h⟩⟩

end Ygo
