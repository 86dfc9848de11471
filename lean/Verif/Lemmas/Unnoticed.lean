import Verif.Spec.Unnoticed
import Verif.Lemmas.Noticed
import Verif.Props.Release

/-!
# Tables with at least as many cards, in builds without asserts
-/

namespace Ygo
open Spec

variable {B' : Board} {B : PtrBoard}

theorem _root_.Ygo.Spec.NoFewer.get (h : NoFewer B' B) (hf : Full B) {C : Container} {i : Nat} (h1 : ∀ k, (B' (.slot k)).length ≤ 1) (hi : i < (B' C).length) :
    ∃ x, (B C)[i]? = some (some x) := by
  cases C with
  | slot k =>
    have := h1 k
    have h0 : i = 0 := by omega
    subst h0
    obtain ⟨x, hx⟩ := h.slot k (List.length_pos_iff.mp hi)
    exact ⟨x, by rw [hx]; rfl⟩
  | pile k =>
    have hl := Nat.lt_of_lt_of_le hi (h.list (.pile k) fun _ e => by cases e)
    have hm : (B (.pile k))[i] ∈ B (.pile k) := List.getElem_mem hl
    cases hx : (B (.pile k))[i] with
    | none => exact absurd (hx ▸ hm) (hf (.pile k) fun _ e => by cases e)
    | some x => exact ⟨x, by rw [List.getElem?_eq_getElem hl, hx]⟩
  | mats k =>
    have hl := Nat.lt_of_lt_of_le hi (h.list (.mats k) fun _ e => by cases e)
    have hm : (B (.mats k))[i] ∈ B (.mats k) := List.getElem_mem hl
    cases hx : (B (.mats k))[i] with
    | none => exact absurd (hx ▸ hm) (hf (.mats k) fun _ e => by cases e)
    | some x => exact ⟨x, by rw [List.getElem?_eq_getElem hl, hx]⟩

theorem _root_.Ygo.Spec.NoFewer.updSlot (h : NoFewer B' B) {k : ZoneKey} {v' : List CardId} {p : Ptr} (hv : v' ≠ [] → ∃ x, p = some x) :
    NoFewer (B'.upd (.slot k) v') (B.upd (.slot k) [p]) := by
  constructor
  · intro k2 h2
    by_cases e : k2 = k
    · subst e
      simp only [Board.upd, if_pos] at h2
      obtain ⟨x, rfl⟩ := hv h2
      exact ⟨x, by simp⟩
    · have e' : Container.slot k2 ≠ .slot k := fun e2 => e (by cases e2; rfl)
      simp only [Board.upd, if_neg e'] at h2
      simpa [PtrBoard.upd, e'] using h.slot k2 h2
  · intro C hC
    have e' : C ≠ .slot k := hC k
    simpa [PtrBoard.upd, Board.upd, e'] using h.list C hC

theorem _root_.Ygo.Spec.NoFewer.updList (h : NoFewer B' B) {C : Container} (hC : ∀ k, C ≠ .slot k) {v' : List CardId} {v : List Ptr} (hv : v'.length ≤ v.length) :
    NoFewer (B'.upd C v') (B.upd C v) := by
  constructor
  · intro k2 h2
    have e' : Container.slot k2 ≠ C := fun e => hC k2 e.symm
    simp only [Board.upd, if_neg e'] at h2
    simpa [PtrBoard.upd, e'] using h.slot k2 h2
  · intro D hD
    by_cases e : D = C
    · subst e; simpa [PtrBoard.upd, Board.upd] using hv
    · simpa [PtrBoard.upd, Board.upd, e] using h.list D hD

theorem _root_.Ygo.Spec.NoFewer.take (h : NoFewer B' B) (h1 : ∀ k, (B' (.slot k)).length ≤ 1) {C : Container} {i : Nat} (hi : i < (B' C).length) :
    NoFewer (B'.take C i) (B.take C i) := by
  cases C with
  | slot k =>
    refine h.updSlot fun hn => absurd ?_ hn
    have := h1 k
    rw [← List.length_eq_zero_iff, List.length_eraseIdx_of_lt hi]
    omega
  | pile k =>
    have hC : ∀ k', Container.pile k ≠ .slot k' := fun _ e => by cases e
    have hl := h.list _ hC
    refine h.updList hC ?_
    rw [List.length_eraseIdx_of_lt hi, List.length_eraseIdx_of_lt (by omega)]
    omega
  | mats k =>
    have hC : ∀ k', Container.mats k ≠ .slot k' := fun _ e => by cases e
    have hl := h.list _ hC
    refine h.updList hC ?_
    rw [List.length_eraseIdx_of_lt hi, List.length_eraseIdx_of_lt (by omega)]
    omega

theorem _root_.Ygo.Spec.NoFewer.room (h : NoFewer B' B) {C : Container} {i : Nat} (hi : i ≤ (B' C).length) : B.Room C i := by
  cases C with
  | slot k => trivial
  | pile k => exact Nat.le_trans hi (h.list _ fun _ e => by cases e)
  | mats k => exact Nat.le_trans hi (h.list _ fun _ e => by cases e)

theorem _root_.Ygo.Spec.NoFewer.put (h : NoFewer B' B) {C : Container} {i : Nat} (hi : i ≤ (B' C).length) (c' c : CardId) :
    NoFewer (B'.put C i c') (B.put C i (some c)) := by
  cases C with
  | slot k => exact h.updSlot fun _ => ⟨c, rfl⟩
  | pile k =>
    have hC : ∀ k', Container.pile k ≠ .slot k' := fun _ e => by cases e
    have hl := h.list _ hC
    refine h.updList hC ?_
    rw [List.length_insertIdx_of_le_length hi, List.length_insertIdx_of_le_length (by omega)]
    omega
  | mats k =>
    have hC : ∀ k', Container.mats k ≠ .slot k' := fun _ e => by cases e
    have hl := h.list _ hC
    refine h.updList hC ?_
    rw [List.length_insertIdx_of_le_length hi, List.length_insertIdx_of_le_length (by omega)]
    omega

theorem _root_.Ygo.Spec.NoFewer.mats (h : NoFewer B' B) (k : ZoneKey) : (B' (.mats k)).length ≤ (B (.mats k)).length := h.list _ fun _ e => by cases e

theorem _root_.Ygo.Spec.NoFewer.pile (h : NoFewer B' B) (k : PileKey) : (B' (.pile k)).length ≤ (B (.pile k)).length := h.list _ fun _ e => by cases e

theorem _root_.Ygo.Spec.NoFewer.carry (h : NoFewer B' B) (C1 C2 : Container) : NoFewer (B'.carry C1 C2) (B.swapMats C1 C2) := by
  cases C1 <;> cases C2 <;> try exact h
  next k1 k2 =>
  have hC : ∀ k k', Container.mats k ≠ .slot k' := fun _ _ e => by cases e
  constructor
  · intro k2' h2
    simp only [Board.carry, Board.upd, reduceCtorEq, if_false] at h2
    simpa [PtrBoard.swapMats, PtrBoard.upd] using h.slot k2' h2
  · intro C hC
    simp only [Board.carry, Board.upd, PtrBoard.swapMats, PtrBoard.upd]
    by_cases e1 : C = .mats k1
    · rw [if_pos e1]; exact Nat.zero_le _
    · rw [if_neg e1]
      by_cases e2 : C = .mats k2
      · rw [if_pos e2, if_pos e2]; exact h.mats k1
      · rw [if_neg e2, if_neg e2, if_neg e1]; exact h.list C hC

theorem _root_.Ygo.Spec.NoFewer.swapMats (h : NoFewer B' B) (C1 C2 : Container) : NoFewer (B'.swapMats C1 C2) (B.swapMats C1 C2) := by
  cases C1 <;> cases C2 <;> try exact h
  next k1 k2 =>
  have hC : ∀ k k', Container.mats k ≠ .slot k' := fun _ _ e => by cases e
  exact (h.updList (hC k1) (h.mats k2)).updList (hC k2) (h.mats k1)

theorem _root_.Ygo.Spec.NoFewer.set (h : NoFewer B' B) (h1 : ∀ k, (B' (.slot k)).length ≤ 1) {C : Container} {i : Nat} (hi : i < (B' C).length) (c' c : CardId) :
    NoFewer (B'.upd C ((B' C).set i c')) (B.upd C ((B C).set i (some c))) := by
  cases C with
  | slot k =>
    have := h1 k
    have h0 : i = 0 := by omega
    subst h0
    obtain ⟨x, hx⟩ := h.slot k (List.length_pos_iff.mp hi)
    rw [hx]
    exact h.updSlot fun _ => ⟨c, rfl⟩
  | pile k => exact h.updList (fun _ e => by cases e) (by simpa using h.pile k)
  | mats k => exact h.updList (fun _ e => by cases e) (by simpa using h.mats k)

theorem pcut_length {C : Container} {i n : Nat} (h : i + n ≤ (B C).length) : (B.cut C i n C).length = (B C).length - n := by
  simp only [PtrBoard.cut, PtrBoard.upd, if_pos, List.length_append, List.length_take, List.length_drop]
  omega

theorem pblock_length {C : Container} {i n : Nat} {rev : Bool} (h : i + n ≤ (B C).length) : (B.block C i n rev).length = n := by
  unfold PtrBoard.block
  split <;> simp only [List.length_reverse, List.length_take, List.length_drop] <;> omega

/-- A call that can be made with asserts can be made without them on a table with at least as many cards, and leaves as many or more. -/
theorem table_atLeast {T' U' : Table} {T : PtrTable} {op : FrameOp} (hs : ¬ IsShuffle op) (hf : Full T.board) (h1 : ∀ k, (T'.board (.slot k)).length ≤ 1)
    (h : NoFewer T'.board T.board) (hu : T'.Step op U') : ∃ U, T.Step op U ∧ NoFewer U'.board U.board ∧ ¬ SwapsNull T.board op := by
  cases op with
  | add p =>
    obtain ⟨C, i, ha, ⟨hj, -⟩, rfl⟩ := hu
    exact ⟨_, ⟨C, i, ha, h.room hj, rfl⟩, h.put hj _ _, fun h => h⟩
  | remove p =>
    obtain ⟨C, i, ha, hi, rfl⟩ := hu
    obtain ⟨x, hx⟩ := h.get hf h1 hi
    exact ⟨_, ⟨C, i, x, ha, hx, rfl⟩, h.take h1 hi, fun h => h⟩
  | move a b =>
    obtain ⟨C1, i, C2, j, c, ha, hb, -, -, hc, hn, hj, hk, rfl⟩ := hu
    have hi := lt_of_get hc
    obtain ⟨x, hx⟩ := h.get hf h1 hi
    have ht := h.take h1 hi
    exact ⟨_, ⟨C1, i, C2, j, x, ha, hb, hx, ht.room hj, rfl⟩, (ht.put hj _ _).carry _ _, fun h => h⟩
  | shuffle p c n => exact absurd trivial hs
  | swap a b =>
    obtain ⟨C1, i, C2, j, c1, c2, ha, hb, -, -, -, hi, e1, e2, rfl⟩ := hu
    have l1 := lt_of_get e1
    have l2 := lt_of_get e2
    obtain ⟨x1, hx1⟩ := h.get hf h1 l1
    obtain ⟨x2, hx2⟩ := h.get hf h1 l2
    refine ⟨_, ⟨C1, i, C2, j, some x1, some x2, ha, hb, hx1, hx2, rfl⟩, ?_, ?_⟩
    · have hA := h.set h1 l1 c2 x2
      have h1' : ∀ k, ((T'.board.upd C1 ((T'.board C1).set (swappedIndex C1 C2 i) c2)) (.slot k)).length ≤ 1 := by
        intro k
        by_cases e : Container.slot k = C1
        · rw [← e]; simpa [Board.upd] using h1 k
        · simpa [Board.upd, e] using h1 k
      have l2' : j < ((T'.board.upd C1 ((T'.board C1).set (swappedIndex C1 C2 i) c2)) C2).length := by
        by_cases e : C2 = C1
        · subst e; simpa [Board.upd] using l2
        · simpa [Board.upd, e] using l2
      exact (hA.set h1' l2' c1 x1).swapMats C1 C2
    · rintro ⟨k, i2, D, j2, hB, hD, hor⟩
      rcases hor with ⟨g1, g2⟩ | ⟨g1, g2⟩
      · obtain ⟨rfl, rfl⟩ := At.unique ha g1
        obtain ⟨x, hx⟩ := h.slot k (List.length_pos_iff.mp (Nat.zero_lt_of_lt l1))
        rw [hx] at hB
        cases hB
      · obtain ⟨rfl, rfl⟩ := At.unique hb g2
        obtain ⟨x, hx⟩ := h.slot k (List.length_pos_iff.mp (Nat.zero_lt_of_lt l2))
        rw [hx] at hB
        cases hB
  | resize p n =>
    obtain ⟨k, i, ha, rfl⟩ := hu
    have hC : ∀ k', Container.pile k ≠ .slot k' := fun _ e => by cases e
    refine ⟨_, ⟨k, i, ha, ?_, rfl⟩, h.updList hC ?_, fun h => h⟩
    · intro c hc e
      subst e
      exact hf (.pile k) hC (List.mem_of_mem_drop hc)
    · have := h.pile k
      simp only [List.length_append, List.length_take, List.length_range', List.length_map]
      omega
  | splice a n b rev =>
    obtain ⟨k1, i, k2, j, ha, hb, hi, hj, rfl⟩ := hu
    have hC : ∀ k k', Container.pile k ≠ .slot k' := fun _ _ e => by cases e
    have hi2 := Nat.le_trans hi (h.pile k1)
    have hc : NoFewer (T'.board.cut (.pile k1) i n) (T.board.cut (.pile k1) i n) := by
      refine h.updList (hC k1) ?_
      have a1 := cut_length hi
      have a2 := pcut_length hi2
      have := h.pile k1
      simp only [Board.cut, Board.upd, if_pos, PtrBoard.cut, PtrBoard.upd] at a1 a2
      rw [a1, a2]
      omega
    refine ⟨_, ⟨k1, i, k2, j, ha, hb, hi2, Nat.le_trans hj (hc.pile k2), rfl⟩, hc.updList (hC k2) ?_, fun h => h⟩
    have a1 := block_length (rev := rev) hi
    have a2 := pblock_length (rev := rev) hi2
    have a3 := hc.pile k2
    simp only [List.length_append, List.length_take, List.length_drop, a1, a2]
    omega
  | pswap a b =>
    obtain ⟨k1, i, k2, j, ha, hb, rfl⟩ := hu
    have hC : ∀ k k', Container.pile k ≠ .slot k' := fun _ _ e => by cases e
    exact ⟨_, ⟨k1, i, k2, j, ha, hb, rfl⟩, (h.updList (hC k1) (h.pile k2)).updList (hC k2) (h.pile k1), fun h => h⟩
  | clear =>
    cases hu
    exact ⟨_, ⟨fun k => hf _ (fun _ e => by cases e), fun k => hf _ (fun _ e => by cases e), rfl⟩, ⟨fun k hk => absurd rfl hk, fun C _ => Nat.zero_le _⟩, fun h => h⟩

/-- The same for frames, with shuffles. -/
theorem step_atLeast {f' g' : Frame} {f : RawFrame} {op : FrameOp} (hr : Inv f') (hf : Full (rawView f.layout)) (h : NoFewer (view f'.layout) (rawView f.layout))
    (hg : f'.step op = .ok g') : ∃ g, f.step op = .ok g ∧ Full (rawView g.layout) ∧ NoFewer (view g'.layout) (rawView g.layout) := by
  by_cases hs : IsShuffle op
  · cases op <;> try cases hs
    next prev cur n =>
    have hsame := (hr.step_same hg)
    obtain ⟨π, σ, -, -, hp⟩ := Props.C88_shuffle_permutes _ _ _ _ _ hsame
    have hz := hp (asRaw f')
    rw [hsame] at hz
    have hz := Except.ok.inj hz
    refine ⟨_, hp f, ?_, ?_⟩
    · intro C hC
      cases C with
      | slot k => exact absurd rfl (hC k)
      | pile k => exact hf (.pile k) hC
      | mats k => exact hf (.mats (π k)) fun _ e => by cases e
    · have hp' : ∀ k, (g'.layout.pile k).map some = (f'.layout.pile k).map some := fun k => congrFun (congrArg (fun r : RawFrame => r.layout.pile) hz) k
      have hz' : ∀ k, (g'.layout.zone k).card = (f'.layout.zone (π k)).card ∧ (g'.layout.zone k).materials.map some = (f'.layout.zone (π k)).materials.map some := by
        intro k
        have := congrFun (congrArg (fun r : RawFrame => r.layout.zone) hz) k
        exact ⟨congrArg (fun z : RawZone => z.card) this, congrArg (fun z : RawZone => z.materials) this⟩
      constructor
      · intro k hk
        have : view g'.layout (.slot k) = view f'.layout (.slot (π k)) := by
          show (g'.layout.zone k).card.toList = (f'.layout.zone (π k)).card.toList
          rw [(hz' k).1]
        rw [this] at hk
        exact h.slot (π k) hk
      · intro C hC
        cases C with
        | slot k => exact absurd rfl (hC k)
        | pile k =>
          have := congrArg List.length (hp' k)
          simp only [List.length_map] at this
          show (g'.layout.pile k).length ≤ _
          rw [this]
          exact h.pile k
        | mats k =>
          have := congrArg List.length (hz' k).2
          simp only [List.length_map] at this
          show (g'.layout.zone k).materials.length ≤ _
          rw [this]
          exact h.mats (π k)
  · have ht : Tidy op := by cases op <;> first | trivial | exact absurd trivial hs
    obtain ⟨U, h1, h2, h3⟩ := table_atLeast (T := rawTable f) hs hf (view_slot_le f'.layout) h ((hr.step_iff op ht _).mp ⟨g', hg, rfl⟩)
    obtain ⟨g, h4, rfl⟩ := (Props.C88_call f op hs U).mpr h1
    exact ⟨g, h4, (Props.C88_null f g op hf h4).mpr h3, h2⟩

end Ygo
