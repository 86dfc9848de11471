import Verif.Lemmas.FrameMove

namespace Ygo
open Ygo.Spec
namespace Layout

/-- Container a reference points into. -/
def Ref.cont : Ref → Container
  | .pile k _ => .pile k
  | .card k => .slot k
  | .mat k _ => .mats k

/-- Position a reference points at. -/
def Ref.idx : Ref → Nat
  | .pile _ i => i
  | .card _ => 0
  | .mat _ i => i

theorem read_eq_ok {l : Layout} {r : Ref} {c : CardId} :
    l.read r = .ok c ↔ (view l r.cont)[r.idx]? = some c := by
  cases r <;> simp [read, Ref.cont, Ref.idx]
  exact zone_card_some.symm

theorem view_write {l : Layout} {r : Ref} {c d : CardId} (h : (view l r.cont)[r.idx]? = some d) :
    view (l.write c r) = (view l).upd r.cont ((view l r.cont).set r.idx c) := by
  cases r with
  | pile k i => simp [write, Ref.cont, Ref.idx, view_setPile]
  | mat k i => simp [write, Ref.cont, Ref.idx, view_setMats]
  | card k =>
    simp [Ref.cont, Ref.idx] at h
    rw [zone_card_some] at h
    simp [write, Ref.cont, Ref.idx, view_setCard, h]

theorem swapRefs_eq_ok {l l' : Layout} {a b : Ref} :
    l.swapRefs a b = .ok l' ↔ ∃ c1 c2, (view l a.cont)[a.idx]? = some c1 ∧ (view l b.cont)[b.idx]? = some c2 ∧
      view l' = (view l).exchange a.cont a.idx b.cont b.idx c1 c2 := by
  simp only [swapRefs, bind_eq_ok, read_eq_ok, pure_eq_ok, Except.ok.injEq, eq_iff_view]
  have key : ∀ c1 c2, (view l a.cont)[a.idx]? = some c1 → (view l b.cont)[b.idx]? = some c2 →
      view ((l.write c2 a).write c1 b) = (view l).exchange a.cont a.idx b.cont b.idx c1 c2 := by
    intro c1 c2 h1 h2
    have h3 := view_write (c := c2) h1
    have : ∃ d, (view (l.write c2 a) b.cont)[b.idx]? = some d := by
      rw [h3, upd_apply]
      split
      · rename_i he
        rw [he] at h2
        simp [List.getElem?_set]
        split
        · exact ⟨c2, by simp [lt_of_getElem?_some h1]⟩
        · exact ⟨_, h2⟩
      · exact ⟨_, h2⟩
    obtain ⟨d, hd⟩ := this
    rw [view_write hd, h3]
    rfl
  constructor
  · rintro ⟨c1, h1, c2, h2, h⟩
    exact ⟨c1, c2, h1, h2, by rw [h, key c1 c2 h1 h2]⟩
  · rintro ⟨c1, c2, h1, h2, h⟩
    exact ⟨c1, h1, c2, h2, by rw [h, key c1 c2 h1 h2]⟩

theorem exchange_exists {l : Layout} {a b : Ref} {c1 c2 : CardId} (h1 : (view l a.cont)[a.idx]? = some c1)
    (h2 : (view l b.cont)[b.idx]? = some c2) :
    ∃ l', view l' = (view l).exchange a.cont a.idx b.cont b.idx c1 c2 := by
  cases h : l.swapRefs a b with
  | ok l' =>
    obtain ⟨d1, d2, e1, e2, e⟩ := swapRefs_eq_ok.mp h
    rw [h1] at e1; rw [h2] at e2; cases e1; cases e2
    exact ⟨l', e⟩
  | error e =>
    simp [swapRefs, read_eq_ok.mpr h1, read_eq_ok.mpr h2] at h

/-- The position `card_swap` really uses for its first place: the zone sequence instead of the material index when a
material is swapped with a zone card or another material. -/
def swapPos (a : Place) (C1 C2 : Container) (i : Nat) : Nat :=
  match C1, C2 with
  | .mats _, .pile _ => i
  | .mats _, _ => a.seq
  | _, _ => i

theorem cardSwap_at {l l' : Layout} {a b : Place} {C1 C2 : Container} {i j : Nat}
    (ha : At a C1 i) (hb : At b C2 j) :
    l.cardSwap a b = .ok l' ↔
      PlainPile a C1 ∧ PlainPile b C2 ∧ i < (view l C1).length ∧ j < (view l C2).length ∧ SwapOk (view l) C1 C2 ∧
      ∃ c1 c2, (view l C1)[swapPos a C1 C2 i]? = some c1 ∧ (view l C2)[j]? = some c2 ∧
        view l' = ((view l).exchange C1 (swapPos a C1 C2 i) C2 j c1 c2).swapMats C1 C2 := by
  simp only [cardSwap, hasCard_at ha, hasCard_at hb]
  cases ha with
  | pile k1 s1 o1 =>
    cases hb with
    | pile k2 s2 o2 =>
      simp [swapRefs_eq_ok, PlainPile, SwapOk, swapPos, Board.swapMats, Ref.cont, Ref.idx]
      grind
    | slot k2 o2 h2 =>
      simp [h2, swapRefs_eq_ok, PlainPile, SwapOk, swapPos, Board.swapMats, Ref.cont, Ref.idx]
      grind
    | mats k2 n =>
      have hn : ¬ ((j : Int) < 0) := by omega
      simp [hn, swapRefs_eq_ok, PlainPile, SwapOk, swapPos, Board.swapMats, Ref.cont, Ref.idx]
      grind
  | slot k1 o1 h1 =>
    cases hb with
    | pile k2 s2 o2 =>
      simp [h1, swapRefs_eq_ok, PlainPile, SwapOk, swapPos, Board.swapMats, Ref.cont, Ref.idx]
      grind
    | slot k2 o2 h2 =>
      simp [h1, h2, swapRefs_eq_ok, PlainPile, SwapOk, swapPos, Board.swapMats, Ref.cont, Ref.idx]
      have mk : ∀ a : Layout, ∀ B : Board, view a = B →
          view ((a.setMats k1 (a.zone k2).materials).setMats k2 (a.zone k1).materials) =
            (B.upd (.mats k1) (B (.mats k2))).upd (.mats k2) (B (.mats k1)) := by
        rintro a _ rfl
        simp [view_setMats]
      intro _ _
      constructor
      · rintro ⟨a, ⟨c1, hc1, x, hx, hv⟩, rfl⟩
        exact ⟨c1, hc1, x, hx, mk a _ hv⟩
      · rintro ⟨c1, hc1, x, hx, hv⟩
        obtain ⟨a, hav⟩ := exchange_exists (l := l) (a := .card k1) (b := .card k2) hc1 hx
        refine ⟨a, ⟨c1, hc1, x, hx, hav⟩, view_inj ?_⟩
        rw [hv]; exact mk a _ hav
    | mats k2 n =>
      have hn : ¬ ((j : Int) < 0) := by omega
      simp [h1, hn, swapRefs_eq_ok, PlainPile, SwapOk, swapPos, Board.swapMats, Ref.cont, Ref.idx]
  | mats k1 m =>
    have hm : ¬ ((i : Int) < 0) := by omega
    cases hb with
    | pile k2 s2 o2 =>
      simp [hm, swapRefs_eq_ok, PlainPile, SwapOk, swapPos, Board.swapMats, Ref.cont, Ref.idx]
      grind
    | slot k2 o2 h2 =>
      simp [hm, h2, swapRefs_eq_ok, PlainPile, SwapOk, swapPos, Board.swapMats, Ref.cont, Ref.idx]
    | mats k2 n =>
      have hn : ¬ ((j : Int) < 0) := by omega
      simp [hm, hn, swapRefs_eq_ok, PlainPile, SwapOk, swapPos, Board.swapMats, Ref.cont, Ref.idx]

theorem cardSwap_places {l l' : Layout} {a b : Place} (h : l.cardSwap a b = .ok l') :
    (∃ C i, At a C i) ∧ ∃ C i, At b C i := by
  simp only [cardSwap, bind_eq_ok] at h
  obtain ⟨_, h1, _, _, _, h2, _⟩ := h
  obtain ⟨C, i, h1, _⟩ := hasCard_eq_ok.mp h1
  obtain ⟨D, j, h2, _⟩ := hasCard_eq_ok.mp h2
  exact ⟨⟨C, i, h1⟩, D, j, h2⟩

end Layout
end Ygo
