import Verif.Lemmas.FrameOps

namespace Ygo
open Ygo.Spec
namespace Layout

/-- Specification of `card_move` on containers. -/
def MoveSpec (l l' : Layout) (a b : Place) (c : CardId) : Prop :=
  ∃ C1 i C2 j, At a C1 i ∧ At b C2 j ∧ PlainPile a C1 ∧ PlainPile b C2 ∧
    (view l C1)[i]? = some c ∧
    (∀ k, C2 = .slot k → view l C2 = []) ∧ j ≤ ((view l).take C1 i C2).length ∧
    CarryOk (view l) C1 C2 ∧
    view l' = (((view l).take C1 i).put C2 j c).carry C1 C2

theorem eq_iff_view {a b : Layout} : a = b ↔ view b = view a :=
  ⟨fun h => by rw [h], fun h => (view_inj h).symm⟩

theorem zone_card_some {o : Option CardId} {c : CardId} : o.toList[0]? = some c ↔ o = some c := by
  cases o <;> simp

theorem cardMove_pile_pile {l l' : Layout} {k1 k2 : PileKey} {s1 s2 : Nat} {o1 o2 : Int} {c : CardId} :
    l.cardMove ⟨(k1.con.val : Nat), k1.loc.code, s1, o1⟩ ⟨(k2.con.val : Nat), k2.loc.code, s2, o2⟩ = .ok (l', c) ↔
      o1 < 0 ∧ o2 < 0 ∧ (l.pile k1)[s1]? = some c ∧ s2 ≤ ((view l).take (.pile k1) s1 (.pile k2)).length ∧
      view l' = ((view l).take (.pile k1) s1).put (.pile k2) s2 c := by
  simp only [cardMove, hasCard_at (At.pile k1 s1 o1)]
  simp [eq_iff_view, view_setPile, Board.take, Board.put, upd_apply]
  constructor
  · rintro ⟨_, h1, h2, a, b, ⟨h3, rfl⟩, _, ⟨h4, rfl⟩, h5, rfl⟩
    exact ⟨h1, h2, h3, h4, h5⟩
  · rintro ⟨h1, h2, h3, h4, h5⟩
    exact ⟨lt_of_getElem?_some h3, h1, h2, _, _, ⟨h3, rfl⟩, _, ⟨h4, rfl⟩, h5, rfl⟩

theorem cardMove_pile_slot {l l' : Layout} {k1 : PileKey} {k2 : ZoneKey} {s1 : Nat} {o1 o2 : Int} {c : CardId}
    (h : o2 < 0) :
    l.cardMove ⟨(k1.con.val : Nat), k1.loc.code, s1, o1⟩ ⟨(k2.con.val : Nat), k2.loc.code, k2.seq, o2⟩ = .ok (l', c) ↔
      o1 < 0 ∧ (l.pile k1)[s1]? = some c ∧ (l.zone k2).card = none ∧
      view l' = ((view l).take (.pile k1) s1).put (.slot k2) 0 c := by
  simp only [cardMove, hasCard_at (At.pile k1 s1 o1)]
  simp [h, eq_iff_view, view_setPile, view_setCard, Board.take, Board.put, upd_apply]
  constructor
  · rintro ⟨_, h1, a, b, ⟨h3, rfl⟩, h4, h5, rfl⟩
    exact ⟨h1, h3, h4, by rw [h5, h4]; rfl⟩
  · rintro ⟨h1, h3, h4, h5⟩
    exact ⟨lt_of_getElem?_some h3, h1, _, _, ⟨h3, rfl⟩, h4, by rw [h5, h4]; rfl, rfl⟩

theorem cardMove_pile_mats {l l' : Layout} {k1 : PileKey} {k2 : ZoneKey} {s1 : Nat} {o1 o2 : Int} {c : CardId}
    (h : ¬ o2 < 0) :
    l.cardMove ⟨(k1.con.val : Nat), k1.loc.code, s1, o1⟩ ⟨(k2.con.val : Nat), k2.loc.code, k2.seq, o2⟩ = .ok (l', c) ↔
      o1 < 0 ∧ (l.pile k1)[s1]? = some c ∧ o2.toNat ≤ (l.zone k2).materials.length ∧
      view l' = ((view l).take (.pile k1) s1).put (.mats k2) o2.toNat c := by
  simp only [cardMove, hasCard_at (At.pile k1 s1 o1)]
  simp [h, eq_iff_view, view_setPile, view_setMats, Board.take, Board.put, upd_apply]
  constructor
  · rintro ⟨_, h1, a, b, ⟨h3, rfl⟩, _, ⟨h4, rfl⟩, h5, rfl⟩
    exact ⟨h1, h3, h4, h5⟩
  · rintro ⟨h1, h3, h4, h5⟩
    exact ⟨lt_of_getElem?_some h3, h1, _, _, ⟨h3, rfl⟩, _, ⟨h4, rfl⟩, h5, rfl⟩

theorem cardMove_slot_pile {l l' : Layout} {k1 : ZoneKey} {k2 : PileKey} {s2 : Nat} {o1 o2 : Int} {c : CardId}
    (h : o1 < 0) :
    l.cardMove ⟨(k1.con.val : Nat), k1.loc.code, k1.seq, o1⟩ ⟨(k2.con.val : Nat), k2.loc.code, s2, o2⟩ = .ok (l', c) ↔
      o2 < 0 ∧ (l.zone k1).card = some c ∧ s2 ≤ (l.pile k2).length ∧
      view l' = ((view l).take (.slot k1) 0).put (.pile k2) s2 c := by
  simp only [cardMove, hasCard_at (At.slot k1 o1 h)]
  simp [h, eq_iff_view, view_setPile, view_setCard, Board.take, Board.put, upd_apply]
  constructor
  · rintro ⟨_, h2, a, h3, _, ⟨h4, rfl⟩, h5, rfl⟩
    exact ⟨h2, h3, h4, by rw [h5, h3]; rfl⟩
  · rintro ⟨h2, h3, h4, h5⟩
    exact ⟨by simp [h3], h2, _, h3, _, ⟨h4, rfl⟩, by rw [h5, h3]; rfl, rfl⟩

theorem cardMove_mats_pile {l l' : Layout} {k1 : ZoneKey} {k2 : PileKey} {s2 : Nat} {n : Nat} {o2 : Int} {c : CardId} :
    l.cardMove ⟨(k1.con.val : Nat), k1.loc.code, k1.seq, n⟩ ⟨(k2.con.val : Nat), k2.loc.code, s2, o2⟩ = .ok (l', c) ↔
      o2 < 0 ∧ (l.zone k1).materials[n]? = some c ∧ s2 ≤ (l.pile k2).length ∧
      view l' = ((view l).take (.mats k1) n).put (.pile k2) s2 c := by
  have hn : ¬ ((n : Int) < 0) := by omega
  simp only [cardMove, hasCard_at (At.mats k1 n)]
  simp [hn, eq_iff_view, view_setPile, view_setMats, Board.take, Board.put, upd_apply]
  constructor
  · rintro ⟨_, h2, a, b, ⟨h3, rfl⟩, _, ⟨h4, rfl⟩, h5, rfl⟩
    exact ⟨h2, h3, h4, h5⟩
  · rintro ⟨h2, h3, h4, h5⟩
    exact ⟨lt_of_getElem?_some h3, h2, _, _, ⟨h3, rfl⟩, _, ⟨h4, rfl⟩, h5, rfl⟩

theorem cardMove_slot_slot {l l' : Layout} {k1 k2 : ZoneKey} {o1 o2 : Int} {c : CardId}
    (h : o1 < 0) (h' : o2 < 0) :
    l.cardMove ⟨(k1.con.val : Nat), k1.loc.code, k1.seq, o1⟩ ⟨(k2.con.val : Nat), k2.loc.code, k2.seq, o2⟩ = .ok (l', c) ↔
      (l.zone k1).card = some c ∧ (l.zone k2).card = none ∧ (l.zone k2).materials = [] ∧
      view l' = ((((view l).take (.slot k1) 0).put (.slot k2) 0 c).upd (.mats k2) (l.zone k1).materials).upd (.mats k1) [] := by
  simp only [cardMove, hasCard_at (At.slot k1 o1 h)]
  simp [h, h', eq_iff_view, view_setMats, view_setCard, Board.take, Board.put, upd_apply]
  constructor
  · rintro ⟨_, ⟨h2, h3⟩, h4, h5⟩
    refine ⟨h4, h2, h3, ?_⟩
    have : k2 ≠ k1 := by rintro rfl; rw [h2] at h4; cases h4
    rw [h5, h4, h3, h2]
    simp [this]
  · rintro ⟨h4, h2, h3, h5⟩
    refine ⟨by simp [h4], ⟨h2, h3⟩, h4, ?_⟩
    have : k2 ≠ k1 := by rintro rfl; rw [h2] at h4; cases h4
    rw [h5, h4, h3, h2]
    simp [this]

theorem cardMove_slot_mats {l l' : Layout} {k1 k2 : ZoneKey} {o1 : Int} {n : Nat} {c : CardId} (h : o1 < 0) :
    l.cardMove ⟨(k1.con.val : Nat), k1.loc.code, k1.seq, o1⟩ ⟨(k2.con.val : Nat), k2.loc.code, k2.seq, n⟩ = .ok (l', c) ↔
      (l.zone k1).card = some c ∧ n ≤ (l.zone k2).materials.length ∧
      view l' = ((view l).take (.slot k1) 0).put (.mats k2) n c := by
  have hn : ¬ ((n : Int) < 0) := by omega
  simp only [cardMove, hasCard_at (At.slot k1 o1 h)]
  simp [h, hn, eq_iff_view, view_setMats, view_setCard, Board.take, Board.put, upd_apply]
  constructor
  · rintro ⟨_, a, h3, _, ⟨h4, rfl⟩, h5, rfl⟩
    exact ⟨h3, h4, by rw [h5, h3]; rfl⟩
  · rintro ⟨h3, h4, h5⟩
    exact ⟨by simp [h3], _, h3, _, ⟨h4, rfl⟩, by rw [h5, h3]; rfl, rfl⟩

theorem cardMove_mats_slot {l l' : Layout} {k1 k2 : ZoneKey} {o2 : Int} {n : Nat} {c : CardId} (h : o2 < 0) :
    l.cardMove ⟨(k1.con.val : Nat), k1.loc.code, k1.seq, n⟩ ⟨(k2.con.val : Nat), k2.loc.code, k2.seq, o2⟩ = .ok (l', c) ↔
      (l.zone k1).materials[n]? = some c ∧ (l.zone k2).card = none ∧
      view l' = ((view l).take (.mats k1) n).put (.slot k2) 0 c := by
  have hn : ¬ ((n : Int) < 0) := by omega
  simp only [cardMove, hasCard_at (At.mats k1 n)]
  simp [h, hn, eq_iff_view, view_setMats, view_setCard, Board.take, Board.put, upd_apply]
  constructor
  · rintro ⟨_, h4, a, b, ⟨h3, rfl⟩, h5, rfl⟩
    exact ⟨h3, h4, by rw [h5, h4]; rfl⟩
  · rintro ⟨h3, h4, h5⟩
    exact ⟨lt_of_getElem?_some h3, h4, _, _, ⟨h3, rfl⟩, by rw [h5, h4]; rfl, rfl⟩

theorem cardMove_mats_mats {l l' : Layout} {k1 k2 : ZoneKey} {n m : Nat} {c : CardId} :
    l.cardMove ⟨(k1.con.val : Nat), k1.loc.code, k1.seq, n⟩ ⟨(k2.con.val : Nat), k2.loc.code, k2.seq, m⟩ = .ok (l', c) ↔
      (l.zone k1).materials[n]? = some c ∧ m ≤ ((view l).take (.mats k1) n (.mats k2)).length ∧
      view l' = ((view l).take (.mats k1) n).put (.mats k2) m c := by
  have hn : ¬ ((n : Int) < 0) := by omega
  have hm : ¬ ((m : Int) < 0) := by omega
  simp only [cardMove, hasCard_at (At.mats k1 n)]
  simp [hn, hm, eq_iff_view, view_setMats, Board.take, Board.put, upd_apply]
  constructor
  · rintro ⟨_, a, b, ⟨h3, rfl⟩, _, ⟨h4, rfl⟩, h5, rfl⟩
    exact ⟨h3, h4, h5⟩
  · rintro ⟨h3, h4, h5⟩
    exact ⟨lt_of_getElem?_some h3, _, _, ⟨h3, rfl⟩, _, ⟨h4, rfl⟩, h5, rfl⟩

theorem cardMove_at {l l' : Layout} {a b : Place} {c : CardId} {C1 C2 : Container} {i j : Nat}
    (ha : At a C1 i) (hb : At b C2 j) :
    l.cardMove a b = .ok (l', c) ↔
      PlainPile a C1 ∧ PlainPile b C2 ∧ (view l C1)[i]? = some c ∧
      (∀ k, C2 = .slot k → view l C2 = []) ∧ j ≤ ((view l).take C1 i C2).length ∧
      CarryOk (view l) C1 C2 ∧ view l' = (((view l).take C1 i).put C2 j c).carry C1 C2 := by
  cases ha with
  | pile k1 s1 o1 =>
    cases hb with
    | pile k2 s2 o2 => rw [cardMove_pile_pile]; simp [PlainPile, CarryOk, Board.carry]
    | slot k2 o2 h2 =>
      rw [cardMove_pile_slot h2]; simp [PlainPile, CarryOk, Board.carry]
    | mats k2 n =>
      rw [cardMove_pile_mats (by omega)]; simp [PlainPile, CarryOk, Board.carry, Board.take, upd_apply]
  | slot k1 o1 h1 =>
    cases hb with
    | pile k2 s2 o2 => rw [cardMove_slot_pile h1]; simp [zone_card_some, PlainPile, CarryOk, Board.carry, Board.take, upd_apply]
    | slot k2 o2 h2 =>
      rw [cardMove_slot_slot h1 h2]; simp [zone_card_some, PlainPile, CarryOk, Board.carry, Board.take, Board.put, upd_apply]
    | mats k2 n =>
      rw [cardMove_slot_mats h1]; simp [zone_card_some, PlainPile, CarryOk, Board.carry, Board.take, upd_apply]
  | mats k1 m =>
    cases hb with
    | pile k2 s2 o2 => rw [cardMove_mats_pile]; simp [PlainPile, CarryOk, Board.carry, Board.take, upd_apply]
    | slot k2 o2 h2 =>
      rw [cardMove_mats_slot h2]; simp [PlainPile, CarryOk, Board.carry, Board.take, upd_apply]
    | mats k2 n =>
      rw [cardMove_mats_mats]; simp [PlainPile, CarryOk, Board.carry, Board.take, upd_apply]

theorem at_exists_pile {p : Place} {k : PileKey} (h : p.pileKey = .ok k) : ∃ C i, At p C i := by
  obtain ⟨h1, h2⟩ := pileKey_eq_ok.mp h
  refine ⟨.pile k, p.seq, ?_⟩
  rcases p with ⟨a, b, c, d⟩
  simp only at h1 h2; subst h1 h2
  exact .pile k c d

theorem at_exists_zone {p : Place} {k : ZoneKey} (h : p.zoneKey = .ok k) : ∃ C i, At p C i := by
  obtain ⟨h1, h2, h3⟩ := zoneKey_eq_ok.mp h
  rcases p with ⟨a, b, c, d⟩
  simp only at h1 h2 h3; subst h1 h2 h3
  by_cases hd : d < 0
  · exact ⟨.slot k, 0, .slot k d hd⟩
  · exact ⟨.mats k, d.toNat, by simp; omega⟩

theorem cardMove_src_at {l l' : Layout} {a b : Place} {c : CardId} (h : l.cardMove a b = .ok (l', c)) :
    ∃ C i, At a C i := by
  simp only [cardMove, bind_eq_ok] at h
  obtain ⟨_, h, _⟩ := h
  obtain ⟨C, i, h, _⟩ := hasCard_eq_ok.mp h
  exact ⟨C, i, h⟩

theorem cardMove_dst_at {l l' : Layout} {a b : Place} {c : CardId} (h : l.cardMove a b = .ok (l', c)) :
    ∃ C i, At b C i := by
  rcases b.cases with ⟨k, s, o, rfl⟩ | ⟨k, o, rfl⟩ | ⟨h1, e, h2⟩ | ⟨h1, e, h2⟩
  · exact ⟨_, _, .pile k s o⟩
  · exact at_exists_zone (Place.zoneKey_mk k o)
  · simp [cardMove, h1, h2] at h
    obtain ⟨_, _, _, h⟩ := h
    repeat' split at h
    all_goals simp at h
  · simp [cardMove, h1, h2] at h
    obtain ⟨_, _, h⟩ := h
    repeat' split at h
    all_goals simp at h

theorem cardMove_eq_ok {l l' : Layout} {a b : Place} {c : CardId} :
    l.cardMove a b = .ok (l', c) ↔ MoveSpec l l' a b c := by
  constructor
  · intro h
    obtain ⟨C1, i, ha⟩ := cardMove_src_at h
    obtain ⟨C2, j, hb⟩ := cardMove_dst_at h
    exact ⟨C1, i, C2, j, ha, hb, (cardMove_at ha hb).mp h⟩
  · rintro ⟨C1, i, C2, j, ha, hb, h⟩
    exact (cardMove_at ha hb).mpr h

end Layout
end Ygo
