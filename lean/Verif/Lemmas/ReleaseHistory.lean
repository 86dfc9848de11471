import Verif.Lemmas.ReleaseStep

set_option linter.unusedSimpArgs false

namespace Ygo
open Ygo.Spec

/-- What holds between calls: every card lies in at most one place, and what lies somewhere is alive. -/
structure PInv (f : RawFrame) : Prop where
  count : ∀ x, (cardsOn (rawView f.layout)).count x ≤ f.owned.count x
  nodup : f.owned.Nodup
  fresh : ∀ x ∈ f.owned, x < f.next

theorem countOn_noCards (x : CardId) : (cardsOn (rawView RawLayout.empty)).count x = 0 := by
  apply List.count_eq_zero.mpr
  rw [mem_cardsOn]
  rintro ⟨C, h⟩
  cases C <;> simp [RawLayout.empty] at h

theorem PInv.init : PInv RawFrame.init :=
  ⟨fun x => by rw [RawFrame.init, countOn_noCards]; simp, by simp [RawFrame.init], by simp [RawFrame.init]⟩

theorem count_one_le {l : List CardId} (h : l.Nodup) (x : CardId) : l.count x ≤ 1 := List.nodup_iff_count.mp h x

theorem count_some_one (c x : CardId) : [some c].count (some x) = [c].count x := by
  simp [List.count_cons]

theorem count_range' (s n x : Nat) : (List.range' s n).count x = if s ≤ x ∧ x < s + n then 1 else 0 := by
  split
  · rename_i h
    have h1 := List.count_pos_iff.mpr (List.mem_range'_1.mpr h)
    have h2 := List.nodup_iff_count.mp (List.nodup_range' (s := s) (n := n)) x
    omega
  · rename_i h
    exact List.count_eq_zero.mpr fun hm => h (List.mem_range'_1.mp hm)

theorem le_countOn (B : PtrBoard) (C : Container) (x : CardId) : (B C).count (some x) ≤ (cardsOn B).count x := by
  have := countOn_upd B C [] x
  simp at this; omega

/-- The bookkeeping of one call, card by card: what lies somewhere and what is owned grows by the new cards and shrinks by the destroyed ones;
what a slot loses when it is written over lies nowhere afterwards. -/
theorem PInv.step_counts {f f' : RawFrame} {op : FrameOp} (hi : PInv f) (h : f.step op = .ok f') (x : CardId) :
    ∃ o d, (cardsOn (rawView f'.layout)).count x + o + d =
        (cardsOn (rawView f.layout)).count x + (if f.next ≤ x ∧ x < f'.next then 1 else 0) ∧
      f'.owned.count x + d = f.owned.count x + (if f.next ≤ x ∧ x < f'.next then 1 else 0) ∧
      (0 < o ↔ Overwrites (rawView f.layout) op x) ∧ (0 < d → Destroys op) ∧ f.next ≤ f'.next := by
  have hs := slotted_rawView f.layout
  have hc := hi.count x
  cases op with
  | add p =>
    simp only [RawFrame.step, RawFrame.cardAdd, RawFrame.construct, bind_eq_ok, pure_eq_ok, Except.ok.injEq, RawLayout.cardInsert_eq_ok] at h
    obtain ⟨l, ⟨C, i, h1, h2, h3⟩, rfl⟩ := h
    have e := countOn_put (c := some f.next) (x := x) h2
    have e2 : [some f.next].count (some x) = if f.next ≤ x ∧ x < f.next + 1 then 1 else 0 := by
      rw [count_some_one, List.count_cons]; simp
      split <;> split <;> first | rfl | omega
    have e3 : (f.next :: f.owned).count x = f.owned.count x + if f.next ≤ x ∧ x < f.next + 1 then 1 else 0 := by
      rw [← e2, count_some_one, count_cons1]
    refine ⟨(overwritten (rawView f.layout) C).count (some x), 0, ?_, ?_, ?_, by simp, by simp⟩
    · simp only [h3]; omega
    · simp only; omega
    · rw [List.count_pos_iff]
      simp only [Overwrites]
      constructor
      · intro hm
        cases C with
        | slot k =>
          have := hs k
          refine ⟨k, i, h1, ?_⟩
          simpa [overwritten, eq_comm] using hm
        | pile k => simp [overwritten] at hm
        | mats k => simp [overwritten] at hm
      · rintro ⟨k, j, hk, hx⟩
        obtain ⟨rfl, rfl⟩ := At.unique h1 hk
        simp only [overwritten]; rw [hx]; simp
  | remove p =>
    simp only [RawFrame.step, RawFrame.cardRemove, bind_eq_ok, RawFrame.destruct_eq_ok, Prod.exists, RawLayout.cardErase_eq_ok] at h
    obtain ⟨c, l, ⟨C, i, h1, h2, h3⟩, y, hy, rfl⟩ := h
    cases hy
    have e := countOn_take (x := x) hs h2
    rw [count_some_one] at e
    refine ⟨0, [c].count x, ?_, ?_, by simp [Overwrites], fun _ => trivial, by simp⟩
    · simp only [h3]; split <;> omega
    · simp only [count_erase1]; split <;> omega
  | move a b =>
    simp only [RawFrame.step, bind_eq_ok, pure_eq_ok, Except.ok.injEq, Prod.exists, RawLayout.cardMove_eq_ok] at h
    obtain ⟨l, c, ⟨C1, i, C2, j, h1, h2, h3, h4, h5⟩, rfl⟩ := h
    have e1 := countOn_take (x := x) hs h3
    have e2 := countOn_put (c := some c) (x := x) h4
    refine ⟨(overwritten ((rawView f.layout).take C1 i) C2).count (some x), 0, ?_, ?_, ?_, by simp, by simp⟩
    · simp only [h5, countOn_swapMats]; split <;> omega
    · simp only; split <;> omega
    · rw [List.count_pos_iff]
      simp only [Overwrites]
      constructor
      · intro hm
        cases C2 with
        | slot k =>
          by_cases hne : C1 = .slot k
          · subst hne; simp [overwritten, PtrBoard.take] at hm
          · have e : (rawView f.layout).take C1 i (.slot k) = rawView f.layout (.slot k) := by
              cases C1 with
              | slot k1 => exact pupd_ne fun e => hne e.symm
              | pile k1 => exact pupd_ne (by simp)
              | mats k1 => exact pupd_ne (by simp)
            simp only [overwritten] at hm
            rw [e] at hm
            refine ⟨k, j, h2, by simpa [eq_comm] using hm, ?_⟩
            intro i' hi'
            exact hne (At.unique h1 hi').1
        | pile k => simp [overwritten] at hm
        | mats k => simp [overwritten] at hm
      · rintro ⟨k, j', hk, hx, hno⟩
        obtain ⟨rfl, rfl⟩ := At.unique h2 hk
        have hne : C1 ≠ .slot k := fun e => hno i (e ▸ h1)
        have e : (rawView f.layout).take C1 i (.slot k) = rawView f.layout (.slot k) := by
          cases C1 with
          | slot k1 => exact pupd_ne fun e => hne e.symm
          | pile k1 => exact pupd_ne (by simp)
          | mats k1 => exact pupd_ne (by simp)
        simp only [overwritten]; rw [e, hx]; simp
  | shuffle p c n =>
    simp only [RawFrame.step, RawFrame.within, bind_eq_ok, pure_eq_ok, Except.ok.injEq] at h
    obtain ⟨l, h1, rfl⟩ := h
    have e := countOn_shuffle h1 x
    refine ⟨0, 0, ?_, ?_, by simp [Overwrites], by simp, by simp⟩
    · simp only; split <;> omega
    · simp only; split <;> omega
  | swap a b =>
    simp only [RawFrame.step, RawFrame.within, bind_eq_ok, pure_eq_ok, Except.ok.injEq, RawLayout.cardSwap_eq_ok] at h
    obtain ⟨l, ⟨C1, i, C2, j, c1, c2, h1, h2, h3, h4, h5⟩, rfl⟩ := h
    have e := countOn_exchange (x := x) h3 h4
    refine ⟨0, 0, ?_, ?_, by simp [Overwrites], by simp, by simp⟩
    · simp only [h5, countOn_swapMats]; split <;> omega
    · simp only; split <;> omega
  | resize p n =>
    simp only [RawFrame.step, RawFrame.pileResize_eq_ok] at h
    obtain ⟨k, i, h1, h2, h3, h4, h5⟩ := h
    have e := countOn_upd (rawView f.layout) (.pile k)
      ((f.layout.pile k).take n ++ (List.range' f.next (n - (f.layout.pile k).length)).map some) x
    rw [← h3] at e
    have e2 : ((List.range' f.next (n - (f.layout.pile k).length)).map some).count (some x) =
        (List.range' f.next (n - (f.layout.pile k).length)).count x := by
      rw [← count_filterMap_id]; congr 1; simp [List.filterMap_map]
    have e3 := count_range' f.next (n - (f.layout.pile k).length) x
    have e4 : (f.layout.pile k).count (some x) = ((f.layout.pile k).take n).count (some x) + ((f.layout.pile k).drop n).count (some x) := by
      rw [← List.count_append, List.take_append_drop]
    have e5 := le_countOn (rawView f.layout) (.pile k) x
    rw [rawView_pile] at e e5
    rw [List.count_append, e2, e3] at e
    have e6 : f'.owned.count x = (List.range' f.next (n - (f.layout.pile k).length)).count x +
        (f.owned.count x - ((f.layout.pile k).drop n).count (some x)) := by
      rw [h4, List.count_append, List.count_reverse, count_eraseAll, count_filterMap_id, List.count_reverse]
    rw [e3] at e6
    rw [h5]
    refine ⟨0, ((f.layout.pile k).drop n).count (some x), ?_, ?_, by simp [Overwrites], fun _ => trivial, by omega⟩
    · omega
    · omega
  | splice a n b r =>
    simp only [RawFrame.step, RawFrame.within, bind_eq_ok, pure_eq_ok, Except.ok.injEq, RawLayout.pileSplice_eq_ok] at h
    obtain ⟨l, ⟨k1, i, k2, j, h1, h2, h3, h4, h5⟩, rfl⟩ := h
    refine ⟨0, 0, ?_, ?_, by simp [Overwrites], by simp, by simp⟩
    · simp only [h5, countOn_splice]; split <;> omega
    · simp only; split <;> omega
  | pswap a b =>
    simp only [RawFrame.step, RawFrame.within, bind_eq_ok, pure_eq_ok, Except.ok.injEq, RawLayout.pileSwap_eq_ok] at h
    obtain ⟨l, ⟨k1, i, k2, j, h1, h2, h5⟩, rfl⟩ := h
    refine ⟨0, 0, ?_, ?_, by simp [Overwrites], by simp, by simp⟩
    · simp only [h5, countOn_swapAll]; split <;> omega
    · simp only; split <;> omega
  | clear =>
    simp only [RawFrame.step, RawFrame.clear_eq_ok] at h
    obtain ⟨_, _, rfl⟩ := h
    have e1 := countOn_noCards x
    refine ⟨0, (cardsOn (rawView f.layout)).count x, ?_, ?_, by simp [Overwrites], fun _ => trivial, by simp⟩
    · simp only; split <;> omega
    · simp only [count_eraseAll, count_visited]; split <;> omega

theorem PInv.step {f f' : RawFrame} {op : FrameOp} (hi : PInv f) (h : f.step op = .ok f') : PInv f' := by
  have key := hi.step_counts h
  have hf : ∀ x, f.next ≤ x → f.owned.count x = 0 := fun x hx =>
    List.count_eq_zero.mpr fun hm => absurd (hi.fresh x hm) (by omega)
  refine ⟨fun x => ?_, ?_, fun x hx => ?_⟩
  · obtain ⟨o, d, h1, h2, _, _, _⟩ := key x
    have := hi.count x
    omega
  · refine List.nodup_iff_count.mpr fun x => ?_
    obtain ⟨o, d, h1, h2, _, _, _⟩ := key x
    have := hf x
    have := count_one_le hi.nodup x
    by_cases hx : f.next ≤ x
    · have := hf x hx
      split at h2 <;> omega
    · rw [if_neg (by omega)] at h2; omega
  · obtain ⟨o, d, h1, h2, _, _, h5⟩ := key x
    have hp := List.count_pos_iff.mpr hx
    by_cases hlt : x < f.next
    · omega
    · have := hf x (by omega)
      split at h2
      · rename_i hh; exact hh.2
      · omega

theorem PInv.run {f f' : RawFrame} {ops : List FrameOp} (hi : PInv f) (h : f.run ops = .ok f') : PInv f' := by
  induction ops generalizing f with
  | nil => cases h; exact hi
  | cons op ops ih =>
    simp only [RawFrame.run, bind_eq_ok] at h
    obtain ⟨g, h1, h2⟩ := h
    exact ih (hi.step h1) h2

theorem PInv.on_owned {f : RawFrame} (hi : PInv f) {x : CardId} (h : x ∈ cardsOn (rawView f.layout)) : x ∈ f.owned := by
  have := hi.count x
  exact List.count_pos_iff.mp (by have := List.count_pos_iff.mpr h; omega)

theorem PInv.nodup_on {f : RawFrame} (hi : PInv f) : (cardsOn (rawView f.layout)).Nodup :=
  List.nodup_iff_count.mpr fun x => Nat.le_trans (hi.count x) (count_one_le hi.nodup x)

end Ygo
