import Verif.Lemmas.FrameSafe

/-!
# Properties of `BasicFrame` (C06-C17)

A board is read through `view` (one list of cards per pile, zone slot and material stack); `At p C i` says which
position of which container a place names.  Both are in `Verif/Spec/Frame.lean`.
-/

namespace Ygo.Props
open Ygo Ygo.Spec

theorem _root_.Ygo.Spec.Reachable.inv {f : Frame} (h : Reachable f) : Inv f := by
  obtain ⟨ops, h⟩ := h
  exact Inv.run Inv.init h

/-! ## Concrete places and histories for the examples -/

/-- Player 0's hand. -/
def hand0 (s : Nat) : Place := ⟨0, 0x2, s, -1⟩
/-- Player 0's deck. -/
def deck0 (s : Nat) : Place := ⟨0, 0x1, s, -1⟩
/-- Player 1's graveyard. -/
def grave1 (s : Nat) : Place := ⟨1, 0x10, s, -1⟩
/-- Player 0's monster zones. -/
def mz0 (s : Nat) (o : Int := -1) : Place := ⟨0, 0x4, s, o⟩
/-- Player 1's spell zones. -/
def sz1 (s : Nat) (o : Int := -1) : Place := ⟨1, 0x8, s, o⟩

/-- Monster 10 on zone 0 with materials 12 and 14, monster 11 on zone 1, cards 1 to 3 in the deck and 4 to 9 in the hand of player 0. -/
def demoOps : List FrameOp :=
  [.resize (deck0 0) 4, .resize (hand0 0) 6, .add (mz0 0), .add (mz0 1), .add (mz0 0 0), .add (sz1 4), .add (mz0 0 1),
   .remove (deck0 0), .add (grave1 0)]

/-- The demo board. -/
def demo : Res Frame := Frame.init.run demoOps

/-- The demo board exists. -/
theorem demo_ok : ∃ f, demo = .ok f := by
  have h : demo.toOption.isSome = true := by decide
  cases hd : demo with
  | ok f => exact ⟨f, rfl⟩
  | error e => rw [hd] at h; cases h

/-! ## C06 -/

/-- **C06.** After any history that did not abort, the cards on the board are exactly the cards the frame owns, each
at exactly one position. -/
theorem C06_owned_exactly_once (ops : List FrameOp) (f : Frame) (h : Frame.init.run ops = .ok f) :
    (placed (view f.layout)).Perm f.owned ∧ (placed (view f.layout)).Nodup ∧ f.owned.Nodup := by
  have ho := (Reachable.inv ⟨ops, h⟩).owns
  exact ⟨ho.perm, ho.perm.nodup_iff.mpr ho.nodup, ho.nodup⟩

/-- A non-trivial history meets the hypothesis. -/
example : (demo.map fun f => (f.owned.length, placed (view f.layout))) =
    .ok (15, [1, 2, 3, 4, 5, 6, 7, 8, 9, 15, 10, 11, 13, 12, 14]) := by decide

/-! ## C07 -/

/-- **C07.** `card_add` returns exactly when the place exists and has room (no gap, an empty slot); the card is new and
is then the one found at the place; everything else is where it was, later cards of the container shifted by one. -/
theorem C07_card_add (f : Frame) (p : Place) (f' : Frame) (c : CardId) :
    f.cardAdd p = .ok (f', c) ↔
      c = f.next ∧ f'.next = f.next + 1 ∧ f'.owned = c :: f.owned ∧
      ∃ C i, At p C i ∧ Fits (view f.layout) C i ∧ view f'.layout = (view f.layout).put C i c := by
  simp only [Frame.cardAdd, Frame.construct, bind_eq_ok, pure_eq_ok, Except.ok.injEq, Prod.mk.injEq,
    Layout.cardInsert_eq_ok]
  constructor
  · rintro ⟨l, h, rfl, rfl⟩
    exact ⟨rfl, rfl, rfl, h⟩
  · rintro ⟨rfl, h1, h2, C, i, h3, h4, h5⟩
    refine ⟨f'.layout, ⟨C, i, h3, h4, h5⟩, ?_, rfl⟩
    cases f'; simp_all

/-- **C07.** The added card was neither on the board nor owned before, and `card(p)` is the new card afterwards. -/
theorem C07_added_card_is_new (f : Frame) (hr : Reachable f) (p : Place) (f' : Frame) (c : CardId)
    (h : f.cardAdd p = .ok (f', c)) :
    (∀ C, c ∉ view f.layout C) ∧ c ∉ f.owned ∧ f'.layout.card p = .ok c := by
  obtain ⟨rfl, _, _, C, i, ha, hf, hv⟩ := (C07_card_add f p f' c).mp h
  refine ⟨hr.inv.next_fresh, fun hm => Nat.lt_irrefl _ (hr.inv.fresh _ hm), ?_⟩
  exact Layout.card_eq_ok.mpr ⟨C, i, ha, by rw [hv]; exact put_get _ hf.1⟩

example : (demo.bind fun f => (f.cardAdd (hand0 2)).map fun r => (f.next, r.2, r.1.layout.pile ⟨0, .hand⟩)) =
    .ok (16, 16, [4, 5, 16, 6, 7, 8, 9]) := by decide

/-! ## C08 -/

/-- **C08.** `card_remove` returns exactly when there is a card at the place; it removes and destroys that one card,
closes the gap, and changes nothing else (in particular not the materials of a zone). -/
theorem C08_card_remove (f : Frame) (hr : Reachable f) (p : Place) (f' : Frame) :
    f.cardRemove p = .ok f' ↔
      ∃ C i c, At p C i ∧ (view f.layout C)[i]? = some c ∧ view f'.layout = (view f.layout).take C i ∧
        f'.owned = f.owned.erase c ∧ f'.next = f.next := by
  rw [Frame.cardRemove_eq_ok]
  constructor
  · rintro ⟨C, i, c, h1, h2, _, h3, h4, h5⟩; exact ⟨C, i, c, h1, h2, h3, h4, h5⟩
  · rintro ⟨C, i, c, h1, h2, h3, h4, h5⟩
    exact ⟨C, i, c, h1, h2, hr.inv.mem_owned (List.mem_of_getElem? h2), h3, h4, h5⟩

/-- **C08.** The removed card is gone: nowhere on the board and no longer owned. -/
theorem C08_removed_card_is_gone (f : Frame) (hr : Reachable f) (p : Place) (f' : Frame) (c : CardId)
    (hc : f.layout.card p = .ok c) (h : f.cardRemove p = .ok f') : (∀ C, c ∉ view f'.layout C) ∧ c ∉ f'.owned := by
  obtain ⟨C, i, c', h1, h2, _, h3, _⟩ := (C08_card_remove f hr p f').mp h
  obtain ⟨D, j, h4, h5⟩ := Layout.card_eq_ok.mp hc
  obtain ⟨rfl, rfl⟩ := At.unique h1 h4
  rw [h2] at h5; cases h5
  have hn : c ∉ f'.owned := by
    rw [h3, hr.inv.nodup.mem_erase_iff]; simp
  exact ⟨fun C hm => hn ((hr.inv.remove h).mem_owned hm), hn⟩

example : (demo.bind fun f => (f.cardRemove (mz0 0)).map fun g =>
    (view g.layout (.slot ⟨0, .monster, 0, by decide⟩), view g.layout (.mats ⟨0, .monster, 0, by decide⟩))) =
    .ok ([], [12, 14]) := by decide

/-! ## C09 -/

/-- **C09.** Exact effect of `card_move`: the card named by the first place is taken out of its container and put at the
position named by the second (counted after the removal); a zone card moving to a zone takes its materials along. It returns exactly
when the source has a card, the target position exists and a target slot is empty (and, between zones, has no materials). -/
theorem C09_card_move (f f' : Frame) (a b : Place) (c : CardId) :
    f.cardMove a b = .ok (f', c) ↔
      f'.owned = f.owned ∧ f'.next = f.next ∧
      ∃ C1 i C2 j, At a C1 i ∧ At b C2 j ∧ PlainPile a C1 ∧ PlainPile b C2 ∧
        (view f.layout C1)[i]? = some c ∧
        (∀ k, C2 = .slot k → view f.layout C2 = []) ∧ j ≤ ((view f.layout).take C1 i C2).length ∧
        CarryOk (view f.layout) C1 C2 ∧
        view f'.layout = (((view f.layout).take C1 i).put C2 j c).carry C1 C2 := by
  simp only [Frame.cardMove, bind_eq_ok, pure_eq_ok, Except.ok.injEq, Prod.mk.injEq]
  constructor
  · rintro ⟨⟨l, d⟩, h, rfl, rfl⟩
    exact ⟨rfl, rfl, Layout.cardMove_eq_ok.mp h⟩
  · rintro ⟨h1, h2, h⟩
    refine ⟨(f'.layout, c), Layout.cardMove_eq_ok.mpr h, ?_, rfl⟩
    cases f'; simp_all

/-- **C09.** In terms of the accessor: the card found at the source before is the one found at the target after. -/
theorem C09_same_card (f f' : Frame) (a b : Place) (c : CardId) (h : f.cardMove a b = .ok (f', c)) :
    f.layout.card a = .ok c ∧ f'.layout.card b = .ok c := by
  obtain ⟨_, _, C1, i, C2, j, ha, hb, _, _, hc, _, hj, _, hv⟩ := (C09_card_move f f' a b c).mp h
  refine ⟨Layout.card_eq_ok.mpr ⟨C1, i, ha, hc⟩, Layout.card_eq_ok.mpr ⟨C2, j, hb, ?_⟩⟩
  rw [hv]
  have : (((view f.layout).take C1 i).put C2 j c).carry C1 C2 C2 = ((view f.layout).take C1 i).put C2 j c C2 := by
    cases C1 <;> cases C2 <;> simp [Board.carry, upd_apply]
  rw [this]; exact put_get c hj

/-- Moving monster 10 with its materials from zone 0 to zone 3. -/
example : (demo.bind fun f => (f.cardMove (mz0 0) (mz0 3)).map fun r =>
    (r.2, view r.1.layout (.slot ⟨0, .monster, 3, by decide⟩), view r.1.layout (.mats ⟨0, .monster, 3, by decide⟩),
      view r.1.layout (.mats ⟨0, .monster, 0, by decide⟩))) = .ok (10, [10], [12, 14], []) := by decide
/-- Moving within one pile: the target position counts after removal. -/
example : (demo.bind fun f => (f.cardMove (hand0 0) (hand0 5)).map fun r => r.1.layout.pile ⟨0, .hand⟩) =
    .ok [5, 6, 7, 8, 9, 4] := by decide

/-! ## C10 -/

/-- **C10.** Whenever a move returns, moving back returns the very frame one started from, with the same card. -/
theorem C10_card_move_back (f f' : Frame) (a b : Place) (c : CardId) (h : f.cardMove a b = .ok (f', c)) :
    f'.cardMove b a = .ok (f, c) := by
  simp only [Frame.cardMove, bind_eq_ok, pure_eq_ok, Except.ok.injEq, Prod.mk.injEq] at h ⊢
  obtain ⟨⟨l, d⟩, h, rfl, rfl⟩ := h
  exact ⟨(f.layout, d), Layout.cardMove_back h, rfl, rfl⟩

example : ∃ f f' c, demo = .ok f ∧ f.cardMove (mz0 0 1) (hand0 2) = .ok (f', c) := by
  obtain ⟨f, hf⟩ := demo_ok
  have h : (demo.bind fun f => f.cardMove (mz0 0 1) (hand0 2)).toOption.isSome = true := by decide
  rw [hf] at h
  cases hm : f.cardMove (mz0 0 1) (hand0 2) with
  | ok r => exact ⟨f, r.1, r.2, hf, hm⟩
  | error e => simp [Except.bind, hm, Except.toOption] at h

/-! ## C11 -/

/-- Each card is at one position only. -/
theorem swap_position_unique {B : Board} (hn : (placed B).Nodup) {C D : Container} {i j : Nat} {c : CardId} (h1 : (B C)[i]? = some c) (h2 : (B D)[j]? = some c) :
    C = D ∧ i = j := by
  have hc := List.nodup_iff_count.mp hn c
  have e1 := count_placed_upd B C [] c
  have m1 : c ∈ B C := List.mem_of_getElem? h1
  have m2 : c ∈ B D := List.mem_of_getElem? h2
  have p1 := List.count_pos_iff.mpr m1
  simp only [List.count_nil] at e1
  have : C = D := by
    refine Classical.byContradiction fun hne => ?_
    have : c ∈ placed (B.upd C []) := mem_placed.mpr ⟨D, by rw [upd_ne (Ne.symm hne)]; exact m2⟩
    have := List.count_pos_iff.mpr this
    omega
  subst this
  refine ⟨rfl, ?_⟩
  have hnd : (B C).Nodup := by
    rw [List.nodup_iff_count]
    intro x
    have := List.nodup_iff_count.mp hn x
    have := count_placed_upd B C [] x
    simp only [List.count_nil] at this
    omega
  obtain ⟨l1, g1⟩ := List.getElem?_eq_some_iff.mp h1
  obtain ⟨l2, g2⟩ := List.getElem?_eq_some_iff.mp h2
  have hp := List.pairwise_iff_getElem.mp hnd
  rcases Nat.lt_trichotomy i j with h | h | h
  · exact absurd (g1.trans g2.symm) (hp i j l1 l2 h)
  · exact h
  · exact absurd (g2.trans g1.symm) (hp j i l2 l1 h)

/-- **C11** (partial: without the wrong-index case, see `C11_card_swap_wrong_material`).  Exact effect of `card_swap`: the cards named by the two
places change places, with their materials when both are zone cards; nothing else changes. It returns exactly when both
places have cards and no zone card with materials would go to a pile. -/
theorem C11_card_swap_partial (f f' : Frame) (a b : Place) (C1 C2 : Container) (i j : Nat) (ha : At a C1 i) (hb : At b C2 j)
    (hok : SwapIndexOk a C1 C2 i) :
    f.cardSwap a b = .ok f' ↔
      f'.owned = f.owned ∧ f'.next = f.next ∧ PlainPile a C1 ∧ PlainPile b C2 ∧ SwapOk (view f.layout) C1 C2 ∧
      ∃ c1 c2, (view f.layout C1)[i]? = some c1 ∧ (view f.layout C2)[j]? = some c2 ∧
        view f'.layout = ((view f.layout).exchange C1 i C2 j c1 c2).swapMats C1 C2 := by
  simp only [Frame.cardSwap, bind_eq_ok, pure_eq_ok, Except.ok.injEq, Layout.cardSwap_at ha hb, swapPos_of_ok hok]
  constructor
  · rintro ⟨l, ⟨h1, h2, _, _, h3, h⟩, rfl⟩
    exact ⟨rfl, rfl, h1, h2, h3, h⟩
  · rintro ⟨e1, e2, h1, h2, h3, c1, c2, g1, g2, hv⟩
    refine ⟨f'.layout, ⟨h1, h2, lt_of_getElem?_some g1, lt_of_getElem?_some g2, h3, c1, c2, g1, g2, hv⟩, ?_⟩
    cases f'; simp_all

/-- **C11** (partial, as above). The two cards have changed places. -/
theorem C11_cards_exchanged_partial (f f' : Frame) (a b : Place) (C1 C2 : Container) (i j : Nat) (ha : At a C1 i) (hb : At b C2 j)
    (hok : SwapIndexOk a C1 C2 i) (h : f.cardSwap a b = .ok f') :
    f'.layout.card a = f.layout.card b ∧ f'.layout.card b = f.layout.card a := by
  obtain ⟨_, _, _, _, _, c1, c2, h1, h2, hv⟩ := (C11_card_swap_partial f f' a b C1 C2 i j ha hb hok).mp h
  obtain ⟨g1, g2⟩ := exchange_get h1 h2
  rw [Layout.card_eq_ok.mpr ⟨C1, i, ha, h1⟩, Layout.card_eq_ok.mpr ⟨C2, j, hb, h2⟩]
  exact ⟨Layout.card_eq_ok.mpr ⟨C1, i, ha, by rw [hv, swapMats_pos _ (.inl rfl)]; exact g1⟩,
    Layout.card_eq_ok.mpr ⟨C2, j, hb, by rw [hv, swapMats_pos _ (.inr rfl)]; exact g2⟩⟩

theorem swappedIndex_eq {a : Place} {C1 C2 : Container} {i : Nat} (ha : At a C1 i) : swappedIndex C1 C2 i = Layout.swapPos a C1 C2 i := by
  cases ha <;> cases C2 <;> rfl

/-- **C11 (exactly when).** Exact effect of `card_swap` for all places, including the wrong material. -/
theorem C11_card_swap_exactly (f f' : Frame) (a b : Place) (C1 C2 : Container) (i j : Nat) (ha : At a C1 i) (hb : At b C2 j) :
    f.cardSwap a b = .ok f' ↔
      f'.owned = f.owned ∧ f'.next = f.next ∧ PlainPile a C1 ∧ PlainPile b C2 ∧ SwapOk (view f.layout) C1 C2 ∧
      i < (view f.layout C1).length ∧
      ∃ c1 c2, (view f.layout C1)[swappedIndex C1 C2 i]? = some c1 ∧ (view f.layout C2)[j]? = some c2 ∧
        view f'.layout = ((view f.layout).exchange C1 (swappedIndex C1 C2 i) C2 j c1 c2).swapMats C1 C2 := by
  simp only [Frame.cardSwap, bind_eq_ok, pure_eq_ok, Except.ok.injEq, Layout.cardSwap_at ha hb, swappedIndex_eq ha]
  constructor
  · rintro ⟨l, ⟨h1, h2, hi, _, h3, h⟩, rfl⟩
    exact ⟨rfl, rfl, h1, h2, h3, hi, h⟩
  · rintro ⟨e1, e2, h1, h2, h3, hi, c1, c2, g1, g2, hv⟩
    refine ⟨f'.layout, ⟨h1, h2, hi, lt_of_getElem?_some g2, h3, c1, c2, g1, g2, hv⟩, ?_⟩
    cases f'; simp_all

/-- **C11 (exactly when).** The cards named by the two places are the ones that change places exactly when the zone's number is not
mistaken for another material. -/
theorem C11_right_cards_iff (f f' : Frame) (hr : Reachable f) (a b : Place) (C1 C2 : Container) (i j : Nat) (ha : At a C1 i) (hb : At b C2 j)
    (h : f.cardSwap a b = .ok f') :
    f'.layout.card a = f.layout.card b ↔ SwapIndexOk a C1 C2 i := by
  refine ⟨fun he => ?_, fun hok => (C11_cards_exchanged_partial f f' a b C1 C2 i j ha hb hok h).1⟩
  obtain ⟨_, _, _, _, _, hi, c1, c2, h1, h2, hv⟩ := (C11_card_swap_exactly f f' a b C1 C2 i j ha hb).mp h
  have hn : (placed (view f.layout)).Nodup := hr.inv.owns.perm.nodup_iff.mpr hr.inv.owns.nodup
  rw [show f.layout.card b = .ok c2 from Layout.card_eq_ok.mpr ⟨C2, j, hb, h2⟩, Layout.card_eq_ok] at he
  obtain ⟨C, i', ha', he⟩ := he
  obtain ⟨rfl, rfl⟩ := At.unique ha ha'
  rw [hv, swapMats_pos _ (.inl rfl)] at he
  cases ha with
  | pile k s o => rintro ⟨k', hk⟩; cases hk
  | slot k o ho => rintro ⟨k', hk⟩; cases hk
  | mats k =>
    cases C2 with
    | pile k2 => exact fun _ => .inl ⟨k2, rfl⟩
    | _ =>
      refine fun _ => .inr ?_
      refine Classical.byContradiction fun hne => ?_
      simp only at hne
      simp only [swappedIndex] at h1 he
      have same : ∀ C2, (view f.layout C2)[j]? = some c2 → ((view f.layout).exchange (.mats k) k.seq C2 j c1 c2 (.mats k))[i]? = some c2 → False := by
        intro C2 h2 he
        have old : (view f.layout (.mats k))[i]? = some c2 → .mats k = C2 ∧ i = j := fun h => swap_position_unique hn h h2
        by_cases e : .mats k = C2
        · subst e
          simp only [Board.exchange, upd_self] at he
          by_cases hj : j = i
          · subst hj
            rw [List.getElem?_set_self (by simpa using hi)] at he
            cases he
            exact hne (swap_position_unique hn h1 h2).2
          · rw [List.getElem?_set_ne hj, List.getElem?_set_ne hne] at he
            exact hj (old he).2.symm
        · rw [Board.exchange, upd_ne e, upd_self, List.getElem?_set_ne hne] at he
          exact e (old he).1
      exact same _ h2 he

/-- **C11.** Swapping twice restores the frame, whichever cards the first swap exchanged. -/
theorem C11_card_swap_twice (f f' : Frame) (a b : Place) (h : f.cardSwap a b = .ok f') : f'.cardSwap a b = .ok f := by
  simp only [Frame.cardSwap, bind_eq_ok, pure_eq_ok, Except.ok.injEq] at h ⊢
  obtain ⟨l, h, rfl⟩ := h
  obtain ⟨⟨C1, i, ha⟩, C2, j, hb⟩ := Layout.cardSwap_places h
  exact ⟨f.layout, Layout.cardSwap_back ha hb h, rfl⟩

/-- Swapping two monsters, one with materials. -/
example : (demo.bind fun f => (f.cardSwap (mz0 0) (mz0 1)).map fun g =>
    (view g.layout (.slot ⟨0, .monster, 0, by decide⟩), view g.layout (.slot ⟨0, .monster, 1, by decide⟩),
      view g.layout (.mats ⟨0, .monster, 1, by decide⟩))) = .ok ([11], [10], [12, 14]) := by decide
example : ∃ C i, At (mz0 0) C i ∧ SwapIndexOk (mz0 0) C C i :=
  ⟨.slot ⟨0, .monster, 0, by decide⟩, 0, .slot ⟨0, .monster, 0, by decide⟩ (-1) (by decide), by rintro ⟨k, hk⟩; cases hk⟩

/-- **C11, negation.** On a reachable frame, swapping material 1 of zone 0 with the monster on zone 1 exchanges material 0
instead (frame.hpp:400 uses `a.seq()` as the material index). -/
theorem C11_card_swap_wrong_material :
    ∃ f f' a b c d, Reachable f ∧ WellFormed a ∧ WellFormed b ∧ f.layout.card a = .ok c ∧ f.layout.card b = .ok d ∧
      f.cardSwap a b = .ok f' ∧ f'.layout.card a = .ok c ∧ f'.layout.card b ≠ .ok c := by
  obtain ⟨f, hf⟩ := demo_ok
  have h : (demo.bind fun f => f.cardSwap (mz0 0 1) (mz0 1)).toOption.isSome = true := by decide
  have h1 : (demo.bind fun f => f.layout.card (mz0 0 1)) = .ok 14 := by decide
  have h2 : (demo.bind fun f => f.layout.card (mz0 1)) = .ok 11 := by decide
  have h3 : (demo.bind fun f => do let g ← f.cardSwap (mz0 0 1) (mz0 1); g.layout.card (mz0 0 1)) = .ok 14 := by decide
  have h4 : (demo.bind fun f => do let g ← f.cardSwap (mz0 0 1) (mz0 1); g.layout.card (mz0 1)) = .ok 12 := by decide
  rw [hf] at h h1 h2 h3 h4
  simp only [Except.bind] at h h1 h2 h3 h4
  cases hs : f.cardSwap (mz0 0 1) (mz0 1) with
  | error e => rw [hs] at h; cases h
  | ok f' =>
    rw [hs] at h3 h4
    refine ⟨f, f', mz0 0 1, mz0 1, 14, 11, ⟨demoOps, hf⟩, ?_, ?_, h1, h2, hs, h3, ?_⟩
    · exact .zone 0 4 7 0 1 (.inl rfl) (by decide) (by decide)
    · exact .zone 0 4 7 1 (-1) (.inl rfl) (by decide) (by decide)
    · rw [show f'.layout.card (mz0 1) = .ok 12 from h4]; simp

/-! ## C12 -/

/-- **C12.** Let all previous and all non-empty current places lie in one row of zones, the previous zones be
pairwise different and the current zones be pairwise different.  If `card_shuffle` returns, its effect is a permutation of zones (card and materials
together) that carries the zone named by `previous[i]` to the one named by `current[i]` whenever the latter is non-empty,
fixes every zone named by neither list, and touches no pile. -/
theorem C12_card_shuffle (f f' : Frame) (prev cur : List Place) (n : Nat) (c : Fin 2) (loc : ZoneLoc)
    (hprev : ∀ i p, i < n → prev[i]? = some p → p.con = c.val ∧ p.loc = loc.code)
    (hcur : ∀ i p, i < n → cur[i]? = some p → p.isEmpty = false → p.con = c.val ∧ p.loc = loc.code)
    (dprev : ∀ i j p q, i < j → j < n → prev[i]? = some p → prev[j]? = some q → p.seq ≠ q.seq)
    (dcur : ∀ i j p q, i < j → j < n → cur[i]? = some p → cur[j]? = some q → p.isEmpty = false → q.isEmpty = false →
      p.seq ≠ q.seq)
    (h : f.cardShuffle prev cur n = .ok f') :
    f'.owned = f.owned ∧ f'.layout.pile = f.layout.pile ∧
    ∃ T U : ZoneKey → ZoneKey, (∀ k, U (T k) = k) ∧ (∀ k, T (U k) = k) ∧
      (∀ k, f'.layout.zone (T k) = f.layout.zone k) ∧
      (∀ i p q k, i < n → prev[i]? = some p → cur[i]? = some q → q.isEmpty = false → Names p k → Names q (T k)) ∧
      (∀ k, (∀ i p, i < n → prev[i]? = some p ∨ cur[i]? = some p ∧ p.isEmpty = false → ¬ Names p k) → T k = k) := by
  simp only [Frame.cardShuffle, bind_eq_ok, pure_eq_ok, Except.ok.injEq] at h
  obtain ⟨l, h, rfl⟩ := h
  simp only [Layout.cardShuffle, bind_eq_ok] at h
  obtain ⟨_, _, _, _, _, _, _, _, seqs, hs, h⟩ := h
  obtain ⟨hlen, rfl⟩ := Layout.shuffleSeqs_eq_ok hs
  have hnod : ((prev.take n).map (·.seq)).Nodup := by
    rw [List.Nodup, List.pairwise_map, List.pairwise_iff_getElem]
    intro i j hi hj hij
    simp only [List.length_take, Nat.lt_min] at hi hj
    exact dprev i j _ _ hij hj.1 (by simp [List.getElem?_eq_getElem hi.2]) (by simp [List.getElem?_eq_getElem hj.2])
  have hrow : ∀ q ∈ cur.take n, q.isEmpty = false → q.con = c.val ∧ q.loc = loc.code := by
    intro q hq
    obtain ⟨i, hi, e⟩ := List.mem_iff_getElem.mp hq
    simp at hi e
    rw [Nat.lt_min] at hi
    exact hcur i q hi.1 (by rw [List.getElem?_eq_getElem hi.2, e])
  have hcurn : (Layout.usedSeqs (cur.take n)).Nodup := by
    unfold Layout.usedSeqs
    rw [List.Nodup, List.pairwise_map, List.pairwise_filter, List.pairwise_iff_getElem]
    intro i j hi hj hij h1 h2
    simp only [List.length_take, Nat.lt_min] at hi hj
    exact dcur i j _ _ hij hj.1 (by simp [List.getElem?_eq_getElem hi.2]) (by simp [List.getElem?_eq_getElem hj.2])
      (by simpa using h1) (by simpa using h2)
  obtain ⟨T, U, a1, a2, a3, a4, a5, a6, a7, a8, a9⟩ := Layout.shuffleLoop_spec c loc h hnod hrow hcurn
  refine ⟨rfl, a3, T, U, a1, a2, a4, ?_, ?_⟩
  · intro i p q k hi hp hq hqe ⟨n1, n2, n3⟩
    obtain ⟨p1, p2⟩ := hprev i p hi hp
    obtain ⟨q1, q2⟩ := hcur i q hi hq hqe
    have kc : k.con = c := con_inj (by rw [← n1, p1])
    have kl : k.loc = loc := ZoneLoc.code_inj.mp (by rw [← n2, p2])
    have hseq := a9 k i q kc kl hi hq hqe (by
      rw [List.getElem?_map, List.getElem?_take]
      simp [hi, hp, n3])
    exact ⟨by rw [q1, (a5 k).1, kc], by rw [q2, (a5 k).2, kl], hseq.symm⟩
  · intro k hk
    by_cases hrowk : k.con = c ∧ k.loc = loc
    · obtain ⟨rfl, rfl⟩ := hrowk
      apply a7
      · intro hm
        obtain ⟨p, hp, e⟩ := List.mem_map.mp hm
        obtain ⟨i, hi, e2⟩ := List.mem_iff_getElem.mp hp
        simp at hi e2
        rw [Nat.lt_min] at hi
        have hp' : prev[i]? = some p := by rw [List.getElem?_eq_getElem hi.2, e2]
        obtain ⟨p1, p2⟩ := hprev i p hi.1 hp'
        exact hk i p hi.1 (.inl hp') ⟨p1, p2, e⟩
      · intro hm
        unfold Layout.usedSeqs at hm
        obtain ⟨p, hp, e⟩ := List.mem_map.mp hm
        obtain ⟨hp, hpe⟩ := List.mem_filter.mp hp
        have hpe : p.isEmpty = false := by simpa using hpe
        obtain ⟨i, hi, e2⟩ := List.mem_iff_getElem.mp hp
        simp at hi e2
        rw [Nat.lt_min] at hi
        have hp' : cur[i]? = some p := by rw [List.getElem?_eq_getElem hi.2, e2]
        obtain ⟨p1, p2⟩ := hcur i p hi.1 hp' hpe
        exact hk i p hi.1 (.inr ⟨hp', hpe⟩) ⟨p1, p2, e⟩
    · exact a6 k hrowk

/-- **C12.** When all previous places hold cards, and these and all non-empty current places are zones of one row, of which there are at most
seven, `card_shuffle` returns. -/
theorem C12_returns (f : Frame) (prev cur : List Place) (n : Nat) (c : Fin 2) (loc : ZoneLoc) (hne : prev ≠ []) (hn : n ≤ 7)
    (hlp : n ≤ prev.length) (hlc : n ≤ cur.length) (hrow : ∀ p ∈ prev, p.con = c.val ∧ p.loc = loc.code)
    (hprev : ∀ p ∈ prev, ∃ x, f.layout.card p = .ok x)
    (hcur : ∀ p ∈ cur, p.isEmpty = false → ∃ k : ZoneKey, k.con = c ∧ k.loc = loc ∧ Names p k) :
    ∃ f', f.cardShuffle prev cur n = .ok f' := by
  have hz : ∀ p ∈ prev, p.isPile = false ∧ p.seq < loc.limit := by
    intro p hp
    obtain ⟨x, hx⟩ := hprev p hp
    obtain ⟨C, i, ha, _⟩ := Layout.card_eq_ok.mp hx
    have hl := (hrow p hp).2
    cases ha with
    | pile k s o =>
      have hd : ∀ (a : PileLoc) (b : ZoneLoc), a.code ≠ b.code := by intro a b; cases a <;> cases b <;> decide
      exact absurd hl (hd _ _)
    | slot k o h => cases ZoneLoc.code_inj.mp hl; exact ⟨by simp, k.lt⟩
    | mats k m => cases ZoneLoc.code_inj.mp hl; exact ⟨by simp, k.lt⟩
  have h1 := Layout.shuffleSeqs_returns (l := f.layout) hlp fun p hp => by
    have hm := List.mem_of_mem_take hp
    obtain ⟨x, hx⟩ := hprev p hm
    obtain ⟨C, i, ha, hi⟩ := Layout.card_eq_ok.mp hx
    rw [Layout.hasCard_at ha]
    simpa using (List.getElem?_eq_some_iff.mp hi).1
  obtain ⟨l', h2⟩ := Layout.shuffleLoop_returns c loc (n := n) (i := 0) (ps := cur) (seqs := (prev.take n).map (·.seq)) f.layout hlc
    (by simp; omega) (by
      intro s hs
      obtain ⟨p, hp, rfl⟩ := List.mem_map.mp hs
      exact (hz p (List.mem_of_mem_take hp)).2) (by
      intro p hp he
      obtain ⟨k, rfl, rfl, a, b, d⟩ := hcur p (List.mem_of_mem_take hp) he
      exact ⟨a, b, by rw [d]; exact k.lt⟩)
  refine ⟨{ f with layout := l' }, ?_⟩
  obtain ⟨p, ps, rfl⟩ := List.exists_cons_of_ne_nil hne
  have hp := (hz p (by simp)).1
  have h3 : f.layout.cardShuffle (p :: ps) cur n = .ok l' := by
    rw [Layout.cardShuffle, List.head?_cons]
    show (do massert (p.isPile = false); massert (n ≤ 7); guardUb (n ≤ 7); let seqs ← f.layout.shuffleSeqs n (p :: ps); Layout.shuffleLoop n 0 cur seqs f.layout) = _
    rw [massert_true hp, massert_true hn, h1, guardUb, if_pos hn]
    exact h2
  rw [Frame.cardShuffle, h3]
  rfl

/-- The two monsters and their materials change zones, one of them to a new zone. -/
example : (demo.bind fun f => (f.cardShuffle [mz0 0, mz0 1] [mz0 1, mz0 5] 2).map fun g =>
    (view g.layout (.slot ⟨0, .monster, 1, by decide⟩), view g.layout (.mats ⟨0, .monster, 1, by decide⟩),
      view g.layout (.slot ⟨0, .monster, 5, by decide⟩))) = .ok ([10], [12, 14], [11]) := by decide

/-! ## C13 -/

/-- **C13.** On a reachable frame `pile_resize` of a pile always returns; the pile then has exactly `n` cards: the first
ones as before, followed by new ones; dropped cards are destroyed; no other container changes. -/
theorem C13_pile_resize (f : Frame) (hr : Reachable f) (p : Place) (n : Nat) (k : PileKey) (i : Nat) (hp : At p (.pile k) i) :
    ∃ f' new, f.pileResize p n = .ok f' ∧
      view f'.layout = (view f.layout).upd (.pile k) ((f.layout.pile k).take n ++ new) ∧
      (f'.layout.pile k).length = n ∧
      new.Nodup ∧ (∀ c ∈ new, c ∉ f.owned ∧ f.next ≤ c) ∧
      (∀ c, c ∈ f'.owned ↔ c ∈ new ∨ c ∈ f.owned ∧ c ∉ (f.layout.pile k).drop n) := by
  obtain ⟨f', h⟩ := Frame.pileResize_returns (n := n) hr.inv hp
  obtain ⟨h1, h2, h3⟩ := Frame.pileResize_at hp h
  have hlen : (f'.layout.pile k).length = n := by
    have : f'.layout.pile k = _ := (congrFun h1 (.pile k)).trans (upd_self _ _ _)
    rw [this]; simp; omega
  refine ⟨f', _, h, h1, hlen, List.nodup_range', ?_, ?_⟩
  · intro c hc
    simp at hc
    refine ⟨fun hm => ?_, hc.1⟩
    have := hr.inv.fresh c hm
    omega
  · intro c
    rw [h2, List.mem_append, List.mem_reverse]
    have key : c ∈ Frame.eraseAll ((f.layout.pile k).drop n).reverse f.owned ↔ c ∈ f.owned ∧ c ∉ (f.layout.pile k).drop n := by
      rw [← List.count_pos_iff, ← List.count_pos_iff, ← List.count_pos_iff, count_eraseAll, List.count_reverse]
      have := hr.inv.nodup.count (a := c)
      split at this <;> omega
    rw [key]

example : (demo.bind fun f => (f.pileResize (hand0 0) 2).map fun g => (g.layout.pile ⟨0, .hand⟩, g.owned.contains 6)) =
    .ok ([4, 5], false) := by decide
example : (demo.bind fun f => (f.pileResize (deck0 0) 5).map fun g => g.layout.pile ⟨0, .mainDeck⟩) =
    .ok [1, 2, 3, 16, 17] := by decide

/-! ## C14, C15, C16 -/

/-- **C14.** Exact effect of `pile_splice`: `n` cards starting at the first place are cut out and pasted, reversed iff asked,
at the second place (counted after the cut, also when both are the same pile). It returns exactly when both places are piles, the block exists
and the target position exists. -/
theorem C14_pile_splice (f f' : Frame) (a b : Place) (n : Nat) (rev : Bool) :
    f.pileSplice a n b rev = .ok f' ↔
      f'.owned = f.owned ∧ f'.next = f.next ∧
      ∃ k1 i k2 j, At a (.pile k1) i ∧ At b (.pile k2) j ∧ i + n ≤ (f.layout.pile k1).length ∧
        j ≤ ((view f.layout).cut (.pile k1) i n (.pile k2)).length ∧
        view f'.layout = ((view f.layout).cut (.pile k1) i n).paste (.pile k2) j ((view f.layout).block (.pile k1) i n rev) := by
  simp only [Frame.pileSplice, bind_eq_ok, pure_eq_ok, Except.ok.injEq]
  constructor
  · rintro ⟨l, h, rfl⟩
    exact ⟨rfl, rfl, Layout.pileSplice_eq_ok.mp h⟩
  · rintro ⟨h1, h2, h⟩
    refine ⟨f'.layout, Layout.pileSplice_eq_ok.mpr h, ?_⟩
    cases f'; simp_all

example : (demo.bind fun f => (f.pileSplice (hand0 1) 3 (deck0 2) true).map fun g =>
    (g.layout.pile ⟨0, .hand⟩, g.layout.pile ⟨0, .mainDeck⟩)) = .ok ([4, 8, 9], [1, 2, 7, 6, 5, 3]) := by decide
example : (demo.bind fun f => (f.pileSplice (hand0 0) 2 (hand0 3) false).map fun g => g.layout.pile ⟨0, .hand⟩) =
    .ok [6, 7, 8, 4, 5, 9] := by decide

/-- **C15.** Whenever a splice returns, the mirrored splice returns the frame one started from. -/
theorem C15_pile_splice_back (f f' : Frame) (a b : Place) (n : Nat) (rev : Bool) (h : f.pileSplice a n b rev = .ok f') :
    f'.pileSplice b n a rev = .ok f := by
  simp only [Frame.pileSplice, bind_eq_ok, pure_eq_ok, Except.ok.injEq] at h ⊢
  obtain ⟨l, h, rfl⟩ := h
  exact ⟨f.layout, Layout.pileSplice_back h, rfl⟩

example : (demo.bind fun f => do let g ← f.pileSplice (hand0 1) 3 (deck0 2) true; let g ← g.pileSplice (deck0 2) 3 (hand0 1) true;
                                  .ok (g.layout.pile ⟨0, .hand⟩, g.layout.pile ⟨0, .mainDeck⟩)) =
    .ok ([4, 5, 6, 7, 8, 9], [1, 2, 3]) := by decide

/-- **C16.** `pile_swap` returns exactly when both places are piles, and exchanges their full contents. -/
theorem C16_pile_swap (f f' : Frame) (a b : Place) :
    f.pileSwap a b = .ok f' ↔
      f'.owned = f.owned ∧ f'.next = f.next ∧
      ∃ k1 i k2 j, At a (.pile k1) i ∧ At b (.pile k2) j ∧
        f'.layout.pile k1 = f.layout.pile k2 ∧ f'.layout.pile k2 = f.layout.pile k1 ∧
        ∀ C, C ≠ .pile k1 → C ≠ .pile k2 → view f'.layout C = view f.layout C := by
  simp only [Frame.pileSwap, bind_eq_ok, pure_eq_ok, Except.ok.injEq]
  constructor
  · rintro ⟨l, h, rfl⟩
    obtain ⟨k1, i, k2, j, ha, hb, hv⟩ := Layout.pileSwap_eq_ok.mp h
    refine ⟨rfl, rfl, k1, i, k2, j, ha, hb, ?_, ?_, ?_⟩
    · have := congrFun hv (.pile k1)
      simp only [view_pile, Board.swapAll, upd_apply] at this
      rw [this]; simp; intro e; rw [e]
    · have := congrFun hv (.pile k2)
      simpa only [view_pile, Board.swapAll, upd_self] using this
    · intro C h1 h2
      rw [hv]; simp [Board.swapAll, upd_apply, h1, h2]
  · rintro ⟨h1, h2, k1, i, k2, j, ha, hb, h3, h4, h5⟩
    refine ⟨f'.layout, Layout.pileSwap_eq_ok.mpr ⟨k1, i, k2, j, ha, hb, ?_⟩, ?_⟩
    · funext C
      by_cases e1 : C = .pile k2
      · subst e1; simp [Board.swapAll, h4]
      · by_cases e2 : C = .pile k1
        · subst e2; simp only [Board.swapAll]; rw [upd_ne e1, upd_self]; exact h3
        · rw [h5 C e2 e1]; simp [Board.swapAll, upd_apply, e1, e2]
    · cases f'; simp_all

/-- **C16.** Swapping two piles twice restores the frame. -/
theorem C16_pile_swap_twice (f f' : Frame) (a b : Place) (h : f.pileSwap a b = .ok f') : f'.pileSwap a b = .ok f := by
  simp only [Frame.pileSwap, bind_eq_ok, pure_eq_ok, Except.ok.injEq] at h ⊢
  obtain ⟨l, h, rfl⟩ := h
  exact ⟨f.layout, Layout.pileSwap_back h, rfl⟩

example : (demo.bind fun f => (f.pileSwap (hand0 0) (grave1 0)).map fun g =>
    (g.layout.pile ⟨0, .hand⟩, g.layout.pile ⟨1, .graveyard⟩)) = .ok ([15], [4, 5, 6, 7, 8, 9]) := by decide

/-! ## C17 -/

/-- **C17.** On a reachable frame `clear` always returns; afterwards no place has a card and no card is owned. -/
theorem C17_clear (f : Frame) (hr : Reachable f) :
    ∃ f', f.clear = .ok f' ∧ f'.owned = [] ∧ (∀ C, view f'.layout C = []) ∧
      ∀ p, WellFormed p → f'.layout.hasCard p = .ok false := by
  obtain ⟨g, h1, _, _, h2, h3⟩ := hr.inv.clear
  refine ⟨g, h1, h3, h2, ?_⟩
  intro p hp
  obtain ⟨C, i, ha⟩ := wellFormed_iff_at.mp hp
  rw [Layout.hasCard_at ha, h2]; rfl

example : (demo.bind fun f => f.clear.map fun g => (f.owned.length, g.owned, g.layout.pile ⟨0, .hand⟩)) = .ok (15, [], []) := by
  decide

end Ygo.Props
