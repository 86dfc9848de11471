import Verif.Lemmas.FrameShuffle

set_option linter.unusedSimpArgs false

namespace Ygo
open Ygo.Spec

theorem slot_length (l : Layout) (k : ZoneKey) : (view l (.slot k)).length ≤ 1 := by
  rw [view_slot]; cases (l.zone k).card <;> simp

theorem take_put_cancel {B : Board} {C : Container} {i : Nat} {c : CardId} (h : (B C)[i]? = some c) :
    (B.take C i).put C i c = B := by
  simp [Board.take, Board.put, insertIdx_eraseIdx_cancel h]

theorem put_take_cancel {B : Board} {C : Container} {i : Nat} (c : CardId) (h : i ≤ (B C).length) :
    (B.put C i c).take C i = B := by
  simp [Board.take, Board.put, eraseIdx_insertIdx_cancel c h]

theorem put_get {B : Board} {C : Container} {i : Nat} (c : CardId) (h : i ≤ (B C).length) :
    ((B.put C i c) C)[i]? = some c := by
  simp [Board.put, getElem?_insertIdx_self' c h]

theorem take_length {B : Board} {C : Container} {i : Nat} {c : CardId} (h : (B C)[i]? = some c) :
    i ≤ ((B.take C i) C).length := by
  have := lt_of_getElem?_some h
  simp [Board.take, List.length_eraseIdx]; split <;> omega

theorem put_ne {B : Board} {C C' : Container} {i : Nat} {c : CardId} (h : C' ≠ C) : (B.put C i c) C' = B C' := upd_ne h
theorem takeB_ne {B : Board} {C C' : Container} {i : Nat} (h : C' ≠ C) : (B.take C i) C' = B C' := upd_ne h

namespace Layout

theorem cardMove_back {l l' : Layout} {a b : Place} {c : CardId} (h : l.cardMove a b = .ok (l', c)) :
    l'.cardMove b a = .ok (l, c) := by
  obtain ⟨C1, i, C2, j, ha, hb, hp1, hp2, hc, hs, hj, hcar, hv⟩ := cardMove_eq_ok.mp h
  apply cardMove_eq_ok.mpr
  have hslot : ∀ k, C1 = .slot k → C2 ≠ C1 ∧ (view l).take C1 i C1 = [] := by
    rintro k rfl
    have hi := lt_of_getElem?_some hc
    have hl := slot_length l k
    constructor
    · intro e
      rw [e] at hs
      rw [hs k rfl] at hi
      simp at hi
    · have : ((view l).take (.slot k) i (.slot k)).length = 0 := by
        simp only [Board.take, upd_self, List.length_eraseIdx]; split <;> omega
      exact List.eq_nil_of_length_eq_zero this
  refine ⟨C2, j, C1, i, hb, ha, hp2, hp1, ?_⟩
  by_cases hss : ∃ k1 k2, C1 = .slot k1 ∧ C2 = .slot k2
  · obtain ⟨k1, k2, rfl, rfl⟩ := hss
    obtain ⟨hne, hnil⟩ := hslot k1 rfl
    have hne' : k2 ≠ k1 := by rintro rfl; exact hne rfl
    simp only [CarryOk] at hcar
    simp only [Board.carry] at hv
    have v2 : view l' (.slot k2) = ((view l).take (.slot k1) i).put (.slot k2) j c (.slot k2) := by
      rw [hv, upd_ne (by simp), upd_ne (by simp)]
    have v1 : view l' (.slot k1) = [] := by
      rw [hv, upd_ne (by simp), upd_ne (by simp), put_ne (Ne.symm hne), hnil]
    have m1 : view l' (.mats k1) = [] := by rw [hv, upd_self]
    have m2 : view l' (.mats k2) = view l (.mats k1) := by
      rw [hv, upd_ne (by simp [hne']), upd_self, put_ne (by simp), takeB_ne (by simp)]
    have hi0 : i = 0 := by
      have := lt_of_getElem?_some hc
      have := slot_length l k1
      omega
    subst hi0
    refine ⟨?_, ?_, ?_, ?_, ?_⟩
    · rw [v2]; exact put_get c hj
    · rintro k e; cases e; exact v1
    · exact Nat.zero_le _
    · exact m1
    · funext C
      simp only [Board.carry]
      cases C with
      | pile k => simp [upd_apply, Board.put, Board.take]; have := congrFun hv (.pile k); simpa [upd_apply, Board.put, Board.take] using this.symm
      | slot k =>
        rw [upd_ne (by simp), upd_ne (by simp)]
        by_cases e1 : k = k1
        · subst e1
          rw [Board.put, upd_self, takeB_ne (by simp [Ne.symm hne']), v1]
          have hl := slot_length l k
          have := lt_of_getElem?_some hc
          cases hz : (l.zone k).card <;> simp [hz] at hc ⊢
          exact hc
        · rw [put_ne (by simp [e1])]
          by_cases e2 : k = k2
          · subst e2
            rw [Board.take, upd_self, v2]
            have hj' := eraseIdx_insertIdx_cancel c hj
            simp only [Board.put, upd_self]
            rw [hj', takeB_ne (by simp [hne'])]
          · rw [takeB_ne (by simp [e2]), hv, upd_ne (by simp), upd_ne (by simp), put_ne (by simp [e2]), takeB_ne (by simp [e1])]
      | mats k =>
        by_cases e2 : k = k2
        · subst e2; rw [upd_self]; exact hcar
        · rw [upd_ne (by simp [e2])]
          by_cases e1 : k = k1
          · subst e1
            rw [upd_self, put_ne (by simp), takeB_ne (by simp), m2]
          · rw [upd_ne (by simp [e1]), put_ne (by simp), takeB_ne (by simp), hv, upd_ne (by simp [e1]), upd_ne (by simp [e2]),
              put_ne (by simp), takeB_ne (by simp)]
  · have nc : ∀ B : Board, B.carry C1 C2 = B := by
      intro B
      cases C1 <;> cases C2 <;> try rfl
      exact absurd ⟨_, _, rfl, rfl⟩ hss
    have nc' : ∀ B : Board, B.carry C2 C1 = B := by
      intro B
      cases C1 <;> cases C2 <;> try rfl
      exact absurd ⟨_, _, rfl, rfl⟩ hss
    have nk : ∀ B : Board, CarryOk B C2 C1 := by
      intro B
      cases C1 <;> cases C2 <;> try trivial
      exact absurd ⟨_, _, rfl, rfl⟩ hss
    rw [nc] at hv
    have ht : (view l').take C2 j = (view l).take C1 i := by rw [hv]; exact put_take_cancel c hj
    refine ⟨?_, ?_, ?_, nk _, ?_⟩
    · rw [hv]; exact put_get c hj
    · intro k e
      obtain ⟨hne, hnil⟩ := hslot k e
      rw [hv, put_ne (Ne.symm hne), hnil]
    · rw [ht]; exact take_length hc
    · rw [nc', ht]; exact (take_put_cancel hc).symm

end Layout

/-! ## Swapping twice -/

theorem exchange_get {B : Board} {C1 C2 : Container} {i j : Nat} {c1 c2 : CardId} (h1 : (B C1)[i]? = some c1)
    (h2 : (B C2)[j]? = some c2) :
    (B.exchange C1 i C2 j c1 c2 C1)[i]? = some c2 ∧ (B.exchange C1 i C2 j c1 c2 C2)[j]? = some c1 := by
  have l1 := lt_of_getElem?_some h1
  have l2 := lt_of_getElem?_some h2
  simp only [Board.exchange, upd_apply]
  by_cases e : C1 = C2
  · subst e
    simp only [upd_self, if_true, List.getElem?_set, List.length_set]
    by_cases e : i = j
    · subst e; rw [h1] at h2; simp at h2; simp [l1, h2]
    · simp [e, Ne.symm e, l1, l2]
  · simp [e, Ne.symm e, List.getElem?_set, l1, l2]

theorem exchange_exchange {B : Board} {C1 C2 : Container} {i j : Nat} {c1 c2 : CardId} (h1 : (B C1)[i]? = some c1)
    (h2 : (B C2)[j]? = some c2) :
    (B.exchange C1 i C2 j c1 c2).exchange C1 i C2 j c2 c1 = B := by
  have l1 := lt_of_getElem?_some h1
  have l2 := lt_of_getElem?_some h2
  funext C
  by_cases e : C1 = C2
  · subst e
    simp only [Board.exchange, upd_self, upd_upd]
    rw [upd_apply]
    split
    · rename_i e; subst e
      apply List.ext_getElem?
      intro n
      simp only [List.getElem?_set, List.length_set]
      grind
    · rfl
  · simp only [Board.exchange, upd_apply]
    by_cases e1 : C = C1
    · subst e1
      simp [e, Ne.symm e]
      apply List.ext_getElem?
      intro n
      simp only [List.getElem?_set]
      grind
    · by_cases e2 : C = C2
      · subst e2
        simp [e, Ne.symm e]
        apply List.ext_getElem?
        intro n
        simp only [List.getElem?_set]
        grind
      · simp [e1, e2]

theorem exchange_ne {B : Board} {C C1 C2 : Container} {i j : Nat} {c1 c2 : CardId} (h1 : C ≠ C1) (h2 : C ≠ C2) :
    B.exchange C1 i C2 j c1 c2 C = B C := by
  simp [Board.exchange, upd_apply, h1, h2]

theorem exchange_length {B : Board} {C1 C2 : Container} {i j : Nat} {c1 c2 : CardId} (C : Container) :
    (B.exchange C1 i C2 j c1 c2 C).length = (B C).length := by
  simp only [Board.exchange, upd_apply]
  split
  · rename_i e; subst e; split <;> simp_all
  · split <;> simp_all

theorem swapMats_exchange {B : Board} {C1 C2 : Container} {i j : Nat} {c1 c2 : CardId} :
    ((B.swapMats C1 C2).exchange C1 i C2 j c1 c2) = (B.exchange C1 i C2 j c1 c2).swapMats C1 C2 := by
  cases C1 <;> cases C2 <;> try rfl
  funext C
  cases C <;> simp [Board.swapMats, Board.exchange, upd_apply]

theorem swapMats_swapMats {B : Board} {C1 C2 : Container} : (B.swapMats C1 C2).swapMats C1 C2 = B := by
  cases C1 <;> cases C2 <;> try rfl
  rename_i k1 k2
  funext C
  simp only [Board.swapMats, upd_apply]
  by_cases e : k1 = k2
  · subst e; by_cases h1 : C = .mats k1 <;> simp [h1]
  · by_cases h1 : C = .mats k1 <;> by_cases h2 : C = .mats k2 <;> simp_all

theorem swapMats_pos {B : Board} {C1 C2 : Container} (C : Container) (h : C = C1 ∨ C = C2) :
    (B.swapMats C1 C2) C = B C := by
  cases C1 <;> cases C2 <;> try rfl
  rcases h with rfl | rfl <;> simp [Board.swapMats, upd_apply]

namespace Layout

theorem cardSwap_back {l l' : Layout} {a b : Place} {C1 C2 : Container} {i j : Nat}
    (ha : At a C1 i) (hb : At b C2 j) (h : l.cardSwap a b = .ok l') :
    l'.cardSwap a b = .ok l := by
  obtain ⟨p1, p2, hi, hj, hok, c1, c2, h1, h2, hv⟩ := (cardSwap_at ha hb).mp h
  obtain ⟨g1, g2⟩ := exchange_get h1 h2
  have v1 : view l' C1 = (view l).exchange C1 (swapPos a C1 C2 i) C2 j c1 c2 C1 := by rw [hv, swapMats_pos _ (.inl rfl)]
  have v2 : view l' C2 = (view l).exchange C1 (swapPos a C1 C2 i) C2 j c1 c2 C2 := by rw [hv, swapMats_pos _ (.inr rfl)]
  refine (cardSwap_at ha hb).mpr ⟨p1, p2, ?_, ?_, ?_, c2, c1, ?_, ?_, ?_⟩
  · rw [v1, exchange_length]; exact hi
  · rw [v2, exchange_length]; exact hj
  · cases C1 <;> cases C2 <;> try trivial
    all_goals
      simp only [SwapOk] at hok ⊢
      rw [hv]
      simp only [Board.swapMats]
      rw [exchange_ne (by simp) (by simp)]; exact hok
  · rw [v1]; exact g1
  · rw [v2]; exact g2
  · rw [hv, swapMats_exchange, exchange_exchange h1 h2, swapMats_swapMats]

/-! ## Splicing back -/

theorem pileSplice_back {l l' : Layout} {a b : Place} {n : Nat} {rev : Bool} (h : l.pileSplice a n b rev = .ok l') :
    l'.pileSplice b n a rev = .ok l := by
  obtain ⟨k1, i, k2, j, ha, hb, hi, hj, hv⟩ := pileSplice_eq_ok.mp h
  have hbl : ((view l).block (.pile k1) i n rev).length = n := by
    unfold Board.block; split <;> simp <;> omega
  have hp2 : l'.pile k2 = view l' (.pile k2) := rfl
  generalize hB : (view l).cut (.pile k1) i n = B at *
  generalize hX : (view l).block (.pile k1) i n rev = X at *
  have hcut : (view l').cut (.pile k2) j n = B := by
    rw [hv]
    simp only [Board.cut, Board.paste, upd_self, upd_upd]
    have e1 : ((B (.pile k2)).take j ++ X ++ (B (.pile k2)).drop j).take j = (B (.pile k2)).take j := by
      rw [List.append_assoc, List.take_append_of_le_length (by simp; omega), List.take_take]; simp
    have e2 : ((B (.pile k2)).take j ++ X ++ (B (.pile k2)).drop j).drop (j + n) = (B (.pile k2)).drop j := by
      rw [List.drop_append]
      have : ((B (.pile k2)).take j ++ X).length = j + n := by simp [hbl]; omega
      rw [this]; simp [List.drop_of_length_le, this]
    rw [e1, e2, List.take_append_drop, upd_same]
  have hblock : (view l').block (.pile k2) j n rev = if rev then X.reverse else X := by
    rw [hv]
    simp only [Board.block, Board.paste, upd_self]
    have e : (((B (.pile k2)).take j ++ X ++ (B (.pile k2)).drop j).drop j).take n = X := by
      rw [List.append_assoc, List.drop_append_of_le_length (by simp; omega)]
      rw [List.drop_of_length_le (by simp; omega)]
      simp [← hbl]
    rw [e]
  refine pileSplice_eq_ok.mpr ⟨k2, j, k1, i, hb, ha, ?_, ?_, ?_⟩
  · rw [hp2, hv]; simp [Board.paste, hbl]; omega
  · rw [hcut, ← hB]; simp [Board.cut]; omega
  · rw [hcut, hblock, ← hB, ← hX]
    simp only [Board.cut, Board.paste, upd_self, upd_upd, Board.block]
    have e0 : (if rev then (if rev then (((view l (.pile k1)).drop i).take n).reverse else ((view l (.pile k1)).drop i).take n).reverse
        else (if rev then (((view l (.pile k1)).drop i).take n).reverse else ((view l (.pile k1)).drop i).take n)) =
        ((view l (.pile k1)).drop i).take n := by
      cases rev <;> simp
    rw [e0]
    have e1 : ((view l (.pile k1)).take i ++ (view l (.pile k1)).drop (i + n)).take i = (view l (.pile k1)).take i := by
      rw [List.take_append_of_le_length (by simp; omega), List.take_take]; simp
    have e2 : ((view l (.pile k1)).take i ++ (view l (.pile k1)).drop (i + n)).drop i = (view l (.pile k1)).drop (i + n) := by
      rw [List.drop_append]
      have : ((view l (.pile k1)).take i).length = i := by simp; omega
      rw [this]; simp [List.drop_of_length_le]
    rw [e1, e2, ← List.drop_drop, List.append_assoc, List.take_append_drop, List.take_append_drop, upd_same]

theorem pileSwap_back {l l' : Layout} {a b : Place} (h : l.pileSwap a b = .ok l') : l'.pileSwap a b = .ok l := by
  obtain ⟨k1, i, k2, j, ha, hb, hv⟩ := pileSwap_eq_ok.mp h
  refine pileSwap_eq_ok.mpr ⟨k1, i, k2, j, ha, hb, ?_⟩
  funext C
  rw [hv]
  simp only [Board.swapAll, upd_apply]
  by_cases h1 : C = .pile k1 <;> by_cases h2 : C = .pile k2 <;> simp_all

end Layout
end Ygo

namespace Ygo
open Ygo.Spec
theorem swapPos_of_ok {a : Place} {C1 C2 : Container} {i : Nat} (h : SwapIndexOk a C1 C2 i) :
    Layout.swapPos a C1 C2 i = i := by
  cases C1 <;> try rfl
  cases C2 <;> try rfl
  all_goals
    rcases h ⟨_, rfl⟩ with ⟨k, hk⟩ | h
    · cases hk
    · simpa [Layout.swapPos] using h

end Ygo
