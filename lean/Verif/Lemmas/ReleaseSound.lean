import Verif.Lemmas.ReleaseWalk
import Verif.Lemmas.ReleaseMore

/-! # No pointer of an undoable frame dangles, with or without asserts -/

set_option linter.unusedSimpArgs false

namespace Ygo
open Ygo.Spec

/-- What holds after every call: all cards ever made are alive, all pointers on the board and in the log refer to them or are null, and every
operation has its entry in the log. -/
structure RawLimbo.Sound (f : RawLimbo) : Prop where
  alive : ∀ x, x ∈ f.base.owned ↔ x < f.base.next
  board : ∀ C x, some x ∈ rawView f.base.layout C → x < f.base.next
  log : ∀ o ∈ f.ops, ∀ x, inEntry x o → x < f.base.next
  len : f.processed = f.ops.length
  cursor : f.op ≤ f.processed

/-- A call that neither makes nor destroys cards. -/
def Inherited : FrameOp → Prop
  | .move _ _ | .shuffle _ _ _ | .swap _ _ | .splice _ _ _ _ | .pswap _ _ => True
  | _ => False

theorem inherited_step {f f' : RawFrame} {op : FrameOp} (ho : Inherited op) (h : f.step op = .ok f') :
    f'.owned = f.owned ∧ f'.next = f.next ∧ ∀ x, (cardsOn (rawView f'.layout)).count x ≤ (cardsOn (rawView f.layout)).count x := by
  have hs := slotted_rawView f.layout
  cases op with
  | move a b =>
    simp only [RawFrame.step, bind_eq_ok, pure_eq_ok, Except.ok.injEq, Prod.exists, RawLayout.cardMove_eq_ok] at h
    obtain ⟨l, c, ⟨C1, i, C2, j, h1, h2, h3, h4, h5⟩, rfl⟩ := h
    refine ⟨rfl, rfl, fun x => ?_⟩
    have e1 := countOn_take (x := x) hs h3
    have e2 := countOn_put (c := some c) (x := x) h4
    simp only [h5, countOn_swapMats]; omega
  | shuffle p c n =>
    simp only [RawFrame.step, RawFrame.within, bind_eq_ok, pure_eq_ok, Except.ok.injEq] at h
    obtain ⟨l, h1, rfl⟩ := h
    exact ⟨rfl, rfl, fun x => Nat.le_of_eq (countOn_shuffle h1 x)⟩
  | swap a b =>
    simp only [RawFrame.step, RawFrame.within, bind_eq_ok, pure_eq_ok, Except.ok.injEq, RawLayout.cardSwap_eq_ok] at h
    obtain ⟨l, ⟨C1, i, C2, j, c1, c2, h1, h2, h3, h4, h5⟩, rfl⟩ := h
    refine ⟨rfl, rfl, fun x => ?_⟩
    have e := countOn_exchange (x := x) h3 h4
    simp only [h5, countOn_swapMats]; omega
  | splice a n b r =>
    simp only [RawFrame.step, RawFrame.within, bind_eq_ok, pure_eq_ok, Except.ok.injEq, RawLayout.pileSplice_eq_ok] at h
    obtain ⟨l, ⟨k1, i, k2, j, h1, h2, h3, h4, h5⟩, rfl⟩ := h
    exact ⟨rfl, rfl, fun x => Nat.le_of_eq (by simp only [h5, countOn_splice])⟩
  | pswap a b =>
    simp only [RawFrame.step, RawFrame.within, bind_eq_ok, pure_eq_ok, Except.ok.injEq, RawLayout.pileSwap_eq_ok] at h
    obtain ⟨l, ⟨k1, i, k2, j, h1, h2, h5⟩, rfl⟩ := h
    exact ⟨rfl, rfl, fun x => Nat.le_of_eq (by simp only [h5, countOn_swapAll])⟩
  | _ => exact ho.elim

theorem mem_rawView_setPile {l : RawLayout} {k : PileKey} {v : List Ptr} {C : Container} {x : CardId}
    (h : some x ∈ rawView (l.setPile k v) C) : some x ∈ v ∨ some x ∈ rawView l C := by
  rw [rawView_setPile, pupd_apply] at h
  split at h
  · exact .inl h
  · exact .inr h

theorem mem_put {B : PtrBoard} {C C' : Container} {i : Nat} {c : Ptr} {x : CardId} (h : some x ∈ B.put C i c C') : some x = c ∨ some x ∈ B C' := by
  cases C <;> simp only [PtrBoard.put, pupd_apply] at h <;> split at h <;> rename_i e <;> try exact .inr h
  · subst e; exact mem_insertIdx_ptr h
  · exact .inl (List.mem_singleton.mp h)
  · subst e; exact mem_insertIdx_ptr h

theorem mem_take {B : PtrBoard} {C C' : Container} {i : Nat} {x : CardId} (h : some x ∈ B.take C i C') : some x ∈ B C' := by
  cases C <;> simp only [PtrBoard.take, pupd_apply] at h <;> split at h <;> rename_i e <;> try exact h
  · subst e; exact List.mem_of_mem_eraseIdx h
  · simp at h
  · subst e; exact List.mem_of_mem_eraseIdx h

theorem mem_insert {l l' : RawLayout} {p : Place} {c x : CardId} {C : Container} (h : l.cardInsert p c = .ok l') (hx : some x ∈ rawView l' C) :
    x = c ∨ some x ∈ rawView l C := by
  obtain ⟨D, i, _, _, e⟩ := RawLayout.cardInsert_eq_ok.mp h
  rw [e] at hx
  rcases mem_put hx with h | h
  · exact .inl (by injection h)
  · exact .inr h

theorem mem_erase {l l' : RawLayout} {p : Place} {c : CardId} (h : l.cardErase p = .ok (c, l')) :
    (∃ C, some c ∈ rawView l C) ∧ ∀ C x, some x ∈ rawView l' C → some x ∈ rawView l C := by
  obtain ⟨D, i, _, h1, e⟩ := RawLayout.cardErase_eq_ok.mp h
  exact ⟨⟨D, List.mem_of_getElem? h1⟩, fun C x hx => by rw [e] at hx; exact mem_take hx⟩

theorem mem_copyOver {src dst s : List Ptr} {x : CardId} (h : RawLimbo.copyOver src dst = .ok s) (hx : some x ∈ s) : some x ∈ src ∨ some x ∈ dst := by
  simp only [RawLimbo.copyOver, bind_eq_ok, guardUb_eq_ok, pure_eq_ok, Except.ok.injEq] at h
  obtain ⟨_, _, rfl⟩ := h
  rcases List.mem_append.mp hx with h | h
  · exact .inl h
  · exact .inr (List.mem_of_mem_drop h)

theorem mem_resizeSlice {s : List Ptr} {n : Nat} {x : CardId} (h : some x ∈ RawLimbo.resizeSlice s n) : some x ∈ s := by
  rcases List.mem_append.mp h with h | h
  · exact List.mem_of_mem_take h
  · simp at h

namespace RawLimbo
namespace Sound

theorem init : Sound RawLimbo.init := by
  refine ⟨by simp [RawLimbo.init, RawFrame.init], ?_, by simp [RawLimbo.init], rfl, by simp [RawLimbo.init]⟩
  intro C x h
  cases C <;> simp [RawLimbo.init, RawFrame.init, RawLayout.empty] at h

variable {f : RawLimbo}

/-- Another layout. -/
theorem setLayout {l : RawLayout} (h : Sound f) (hl : ∀ C x, some x ∈ rawView l C → x < f.base.next) : Sound (f.setLayout l) :=
  ⟨h.alive, hl, h.log, h.len, h.cursor⟩

theorem regress (h : Sound f) : Sound f.regress :=
  ⟨h.alive, h.board, h.log, h.len, by have := h.cursor; simp only [RawLimbo.regress]; omega⟩

theorem setAt {i : Nat} {o : RawLimboOp} (h : Sound f) (ho : ∀ x, inEntry x o → x < f.base.next) : Sound (f.setAt i o) := by
  refine ⟨h.alive, h.board, ?_, by simp [RawLimbo.setAt, h.len], h.cursor⟩
  intro o' hm x hx
  rcases List.mem_or_eq_of_mem_set hm with hm | rfl
  · exact h.log o' hm x hx
  · exact ho x hx

/-- After `advance`: one entry is missing if the operation is new. -/
theorem advance (h : Sound f) : f.advance.1.base = f.base ∧ f.advance.1.ops = f.ops ∧
    (f.advance.2 = false → Sound f.advance.1) ∧
    (f.advance.2 = true → ∀ o, (∀ x, inEntry x o → x < f.base.next) → Sound (f.advance.1.emplace o)) := by
  have hc := h.cursor
  have hl := h.len
  unfold RawLimbo.advance
  split
  · rename_i e
    refine ⟨rfl, rfl, nofun, fun _ o ho => ⟨h.alive, h.board, ?_, by simp [RawLimbo.emplace, hl], by simp [RawLimbo.emplace]; omega⟩⟩
    intro o' hm x hx
    rcases List.mem_append.mp hm with hm | hm
    · exact h.log o' hm x hx
    · rw [List.mem_singleton.mp hm] at hx; exact ho x hx
  · rename_i e
    exact ⟨rfl, rfl, fun _ => ⟨h.alive, h.board, h.log, h.len, by simp only; omega⟩, nofun⟩

theorem current {i : Nat} {o : RawLimboOp} (h : Sound f) (hc : f.current = .ok (i, o)) : ∀ x, inEntry x o → x < f.base.next := by
  simp only [RawLimbo.current, bind_eq_ok, guardUb_eq_ok, orUb_eq_ok, pure_eq_ok, Except.ok.injEq, Prod.mk.injEq] at hc
  obtain ⟨_, _, o', h1, _, rfl⟩ := hc
  exact h.log _ (List.mem_of_getElem? h1)

theorem currentCard {c : CardId} (h : Sound f) (hc : f.currentCard = .ok c) : c < f.base.next := by
  simp only [RawLimbo.currentCard, bind_eq_ok, Prod.exists] at hc
  obtain ⟨i, o, h1, h2⟩ := hc
  have := h.current h1
  cases o with
  | card c' => cases h2; exact this c rfl
  | resize _ _ => cases h2
  | clear _ => cases h2

theorem currentResize {i n : Nat} {s : List Ptr} (h : Sound f) (hc : f.currentResize = .ok (i, n, s)) : ∀ x, some x ∈ s → x < f.base.next := by
  simp only [RawLimbo.currentResize, bind_eq_ok, Prod.exists] at hc
  obtain ⟨i, o, h1, h2⟩ := hc
  have := h.current h1
  cases o with
  | card c' => cases h2
  | resize _ _ => cases h2; exact this
  | clear _ => cases h2

theorem currentClear {i : Nat} {l : RawLayout} (h : Sound f) (hc : f.currentClear = .ok (i, l)) : ∀ C x, some x ∈ rawView l C → x < f.base.next := by
  simp only [RawLimbo.currentClear, bind_eq_ok, Prod.exists] at hc
  obtain ⟨i, o, h1, h2⟩ := hc
  have := h.current h1
  cases o with
  | card c' => cases h2
  | resize _ _ => cases h2
  | clear _ => cases h2; exact fun C x hx => this x (mem_cardsOn.mpr ⟨C, hx⟩)

theorem inherited {f' : RawLimbo} {op : FrameOp} (h : Sound f) (ho : Inherited op) (hs : f.inherited op = .ok f') : Sound f' := by
  simp only [RawLimbo.inherited, bind_eq_ok, pure_eq_ok, Except.ok.injEq] at hs
  obtain ⟨b, h1, rfl⟩ := hs
  obtain ⟨e1, e2, e3⟩ := inherited_step ho h1
  refine ⟨by simp only [e1, e2]; exact h.alive, ?_, by simp only [e2]; exact h.log, h.len, h.cursor⟩
  intro C x hx
  simp only [e2]
  have h2 := List.count_pos_iff.mpr (mem_cardsOn.mpr ⟨C, hx⟩)
  have h3 : x ∈ cardsOn (rawView f.base.layout) := List.count_pos_iff.mp (Nat.lt_of_lt_of_le h2 (e3 x))
  obtain ⟨D, hD⟩ := mem_cardsOn.mp h3
  exact h.board D x hD

/-- New cards at the end of a pile. -/
theorem grow {k : PileKey} {n : Nat} (h : Sound f) : Sound { f with base := RawFrame.growPile k n f.base } := by
  obtain ⟨e1, e2, e3⟩ := RawFrame.growPile_spec k n f.base
  refine ⟨?_, ?_, ?_, h.len, h.cursor⟩
  · intro x
    simp only [e2, e3, List.mem_append, List.mem_reverse, List.mem_range'_1, h.alive]
    omega
  · intro C x hx
    rw [e3]
    simp only [e1, pupd_apply] at hx
    split at hx
    · rename_i e
      rcases List.mem_append.mp hx with hx | hx
      · have := h.board (.pile k) x hx; omega
      · simp only [List.mem_map, List.mem_range'_1, Option.some.injEq] at hx
        obtain ⟨y, hy, rfl⟩ := hx
        omega
    · have := h.board C x hx; omega
  · intro o ho x hx
    have := h.log o ho x hx
    simp only [e3]; omega

theorem step {f' : RawLimbo} {op : FrameOp} (h : Sound f) (hs : f.step op = .ok f') : Sound f' := by
  cases op with
  | add p =>
    rw [RawLimbo.step, RawLimbo.cardAdd] at hs
    obtain ⟨a1, a2, a3, a4⟩ := h.advance
    revert hs a1 a2 a3 a4
    generalize f.advance = a
    obtain ⟨g, fresh⟩ := a
    intro hs a1 a2 a3 a4
    dsimp only at a1 a2 a3 a4 hs
    cases fresh with
    | true =>
      simp only [if_true, bind_eq_ok, pure_eq_ok, Except.ok.injEq, RawFrame.cardAdd, RawFrame.construct] at hs
      obtain ⟨_, ⟨l, h1, rfl⟩, rfl⟩ := hs
      -- the new card is known first, then it is put down
      have ha := a4 rfl (.resize 0 []) (by intro x hx; exact absurd hx (by simp [inEntry]))
      rw [a1] at h1 ⊢
      refine ⟨?_, ?_, ?_, ?_, ?_⟩
      · intro x
        simp only [RawLimbo.emplace, List.mem_cons, h.alive]
        omega
      · intro C x hx
        simp only [RawLimbo.emplace]
        rcases mem_insert h1 hx with rfl | hx
        · omega
        · have := h.board C x hx; omega
      · intro o hm x hx
        simp only [RawLimbo.emplace, a2] at hm ⊢
        rcases List.mem_append.mp hm with hm | hm
        · have := h.log o hm x hx; omega
        · rw [List.mem_singleton.mp hm] at hx
          have : x = f.base.next := hx
          omega
      · have := ha.len; simpa [RawLimbo.emplace] using this
      · have := ha.cursor; simpa [RawLimbo.emplace] using this
    | false =>
      simp only [Bool.false_eq_true, if_false, bind_eq_ok, pure_eq_ok, Except.ok.injEq] at hs
      obtain ⟨c, h1, l, h2, rfl⟩ := hs
      have hg := a3 rfl
      refine hg.setLayout fun C x hx => ?_
      rcases mem_insert h2 hx with rfl | hx
      · exact hg.currentCard h1
      · exact hg.board C x hx
  | remove p =>
    simp only [RawLimbo.step, RawLimbo.cardRemove, bind_eq_ok, Prod.exists] at hs
    obtain ⟨c, l, h1, hs⟩ := hs
    obtain ⟨⟨D, hD⟩, hm⟩ := mem_erase h1
    have h2 : Sound (f.setLayout l) := h.setLayout fun C x hx => h.board C x (hm C x hx)
    obtain ⟨a1, a2, a3, a4⟩ := h2.advance
    revert hs a1 a2 a3 a4
    generalize (f.setLayout l).advance = a
    obtain ⟨g, fresh⟩ := a
    intro hs a1 a2 a3 a4
    dsimp only at a1 a2 a3 a4 hs
    cases fresh with
    | true =>
      cases hs
      exact a4 rfl _ fun x hx => by have : x = c := hx; subst this; exact h.board D x hD
    | false => cases hs; exact a3 rfl
  | move a b => exact h.inherited (op := .move a b) trivial hs
  | shuffle p c n => exact h.inherited (op := .shuffle p c n) trivial hs
  | swap a b => exact h.inherited (op := .swap a b) trivial hs
  | splice a n b r => exact h.inherited (op := .splice a n b r) trivial hs
  | pswap a b => exact h.inherited (op := .pswap a b) trivial hs
  | resize p n =>
    rw [RawLimbo.step, RawLimbo.pileResize] at hs
    obtain ⟨a1, a2, a3, a4⟩ := h.advance
    revert hs a1 a2 a3 a4
    generalize f.advance = a
    obtain ⟨g, fresh⟩ := a
    intro hs a1 a2 a3 a4
    dsimp only at a1 a2 a3 a4 hs
    simp only [bind_eq_ok, Prod.exists] at hs
    obtain ⟨k, _, g', i, slice, h1, hs⟩ := hs
    have hg : Sound g' ∧ ∀ x, some x ∈ slice → x < g'.base.next := by
      cases fresh with
      | true =>
        cases h1
        exact ⟨a4 rfl _ (by intro x hx; exact absurd hx (by simp [inEntry])), by simp⟩
      | false =>
        simp only [RawLimbo.resizeOp, Bool.false_eq_true, if_false, bind_eq_ok, pure_eq_ok, Except.ok.injEq, Prod.exists, Prod.mk.injEq] at h1
        obtain ⟨i', n', s', h2, rfl, rfl, rfl⟩ := h1
        exact ⟨a3 rfl, (a3 rfl).currentResize h2⟩
    obtain ⟨hg, hsl⟩ := hg
    have hset : ∀ m, Sound (g'.setAt i (.resize m slice)) := fun m => hg.setAt hsl
    have hpile : ∀ x, some x ∈ g'.base.layout.pile k → x < g'.base.next := fun x hx => hg.board (.pile k) x hx
    split at hs
    · split at hs
      · cases hs
        exact (hset _).grow
      · cases hs
        refine (hset _).setLayout fun C x hx => ?_
        rcases mem_rawView_setPile hx with hx | hx
        · rcases List.mem_append.mp hx with hx | hx
          · exact hpile x hx
          · exact hsl x hx
        · exact hg.board C x hx
    · split at hs
      · simp only [bind_eq_ok, pure_eq_ok, Except.ok.injEq] at hs
        obtain ⟨s, h2, rfl⟩ := hs
        refine ((hset _).setAt fun x hx => ?_).setLayout fun C x hx => ?_
        · rcases mem_copyOver h2 hx with hx | hx
          · exact hpile x (List.mem_of_mem_drop hx)
          · exact hsl x (mem_resizeSlice hx)
        · rcases mem_rawView_setPile hx with hx | hx
          · exact hpile x (List.mem_of_mem_take hx)
          · exact hg.board C x hx
      · cases hs
        exact hset _
  | clear =>
    rw [RawLimbo.step, RawLimbo.clear] at hs
    obtain ⟨a1, a2, a3, a4⟩ := h.advance
    revert hs a1 a2 a3 a4
    generalize f.advance = a
    obtain ⟨g, fresh⟩ := a
    intro hs a1 a2 a3 a4
    dsimp only at a1 a2 a3 a4 hs
    simp only [bind_eq_ok, pure_eq_ok, Except.ok.injEq, Prod.exists] at hs
    obtain ⟨g', i, saved, h1, rfl⟩ := hs
    have hg : Sound g' ∧ ∀ C x, some x ∈ rawView saved C → x < g'.base.next := by
      cases fresh with
      | true =>
        have hn : ∀ C x, ¬ some x ∈ rawView RawLayout.empty C := by
          intro C x hx; cases C <;> simp [RawLayout.empty] at hx
        cases h1
        exact ⟨a4 rfl _ (by intro x hx; obtain ⟨C, hC⟩ := mem_cardsOn.mp hx; exact absurd hC (hn C x)), fun C x hx => absurd hx (hn C x)⟩
      | false =>
        simp only [RawLimbo.clearOp, Bool.false_eq_true, if_false, bind_eq_ok, pure_eq_ok, Except.ok.injEq, Prod.exists, Prod.mk.injEq] at h1
        obtain ⟨i', s', h2, rfl, rfl, rfl⟩ := h1
        exact ⟨a3 rfl, (a3 rfl).currentClear h2⟩
    refine (hg.1.setAt fun x hx => ?_).setLayout hg.2
    obtain ⟨C, hC⟩ := mem_cardsOn.mp hx
    exact hg.1.board C x hC

theorem undo {f' : RawLimbo} {op : FrameOp} (h : Sound f) (hs : f.undo op = .ok f') : Sound f' := by
  cases op with
  | add p =>
    simp only [RawLimbo.undo, RawLimbo.undoCardAdd, bind_eq_ok, pure_eq_ok, Except.ok.injEq, Prod.exists] at hs
    obtain ⟨c, l, h1, rfl⟩ := hs
    obtain ⟨_, hm⟩ := mem_erase h1
    exact (h.setLayout fun C x hx => h.board C x (hm C x hx)).regress
  | remove p =>
    simp only [RawLimbo.undo, RawLimbo.undoCardRemove, bind_eq_ok, pure_eq_ok, Except.ok.injEq] at hs
    obtain ⟨c, h1, l, h2, rfl⟩ := hs
    refine (h.setLayout fun C x hx => ?_).regress
    rcases mem_insert h2 hx with rfl | hx
    · exact h.currentCard h1
    · exact h.board C x hx
  | move a b => exact h.inherited (op := .move b a) trivial hs
  | shuffle p c n => cases hs; exact h
  | swap a b => exact h.inherited (op := .swap a b) trivial hs
  | splice a n b r => exact h.inherited (op := .splice b n a r) trivial hs
  | pswap a b => exact h.inherited (op := .pswap a b) trivial hs
  | resize p n =>
    simp only [RawLimbo.undo, RawLimbo.undoPileResize, bind_eq_ok, Prod.exists] at hs
    obtain ⟨k, _, i, prev, slice, h1, hs⟩ := hs
    have hsl := h.currentResize h1
    have hpile : ∀ x, some x ∈ f.base.layout.pile k → x < f.base.next := fun x hx => h.board (.pile k) x hx
    split at hs
    · cases hs
      refine (h.setLayout fun C x hx => ?_).regress
      rcases mem_rawView_setPile hx with hx | hx
      · rcases List.mem_append.mp hx with hx | hx
        · exact hpile x hx
        · exact hsl x hx
      · exact h.board C x hx
    · split at hs
      · simp only [bind_eq_ok, pure_eq_ok, Except.ok.injEq] at hs
        obtain ⟨s, h2, rfl⟩ := hs
        refine ((h.setAt fun x hx => ?_).setLayout fun C x hx => ?_).regress
        · rcases mem_copyOver h2 hx with hx | hx
          · exact hpile x (List.mem_of_mem_drop hx)
          · exact hsl x (mem_resizeSlice hx)
        · rcases mem_rawView_setPile hx with hx | hx
          · exact hpile x (List.mem_of_mem_take hx)
          · exact h.board C x hx
      · cases hs; exact h.regress
  | clear =>
    simp only [RawLimbo.undo, RawLimbo.undoClear, bind_eq_ok, pure_eq_ok, Except.ok.injEq, Prod.exists] at hs
    obtain ⟨i, saved, h1, rfl⟩ := hs
    refine ((h.setAt fun x hx => ?_).setLayout (h.currentClear h1)).regress
    obtain ⟨C, hC⟩ := mem_cardsOn.mp hx
    exact h.board C x hC

theorem erase {f' : RawLimbo} (h : Sound f) (hs : f.eraseHistory = .ok f') : Sound f' := by
  unfold RawLimbo.eraseHistory at hs
  split at hs
  · cases hs; exact h
  split at hs
  · cases hs
  split at hs
  · rename_i h1 h2 h3
    cases hs
    refine ⟨h.alive, h.board, fun o ho => h.log o (List.mem_of_mem_take ho), by simp [h3], by simp only; omega⟩
  · cases hs

theorem calls {f' : RawLimbo} {cs : List LimboCall} (h : Sound f) (hs : rawCalls f cs = .ok f') : Sound f' := by
  induction cs generalizing f with
  | nil => cases hs; exact h
  | cons c cs ih =>
    cases c with
    | «do» op =>
      simp only [rawCalls, bind_eq_ok] at hs
      obtain ⟨g, h1, h2⟩ := hs
      exact ih (h.step h1) h2
    | undo op =>
      simp only [rawCalls, bind_eq_ok] at hs
      obtain ⟨g, h1, h2⟩ := hs
      exact ih (h.undo h1) h2
    | erase =>
      simp only [rawCalls, bind_eq_ok] at hs
      obtain ⟨g, h1, h2⟩ := hs
      exact ih (h.erase h1) h2

/-- Forgetting what was undone never runs past the end of the log. -/
theorem erase_not_ub (h : Sound f) : f.eraseHistory ≠ .error .ub := by
  have := h.cursor
  have := h.len
  unfold RawLimbo.eraseHistory
  split
  · nofun
  split
  · nofun
  split
  · nofun
  · omega

end Sound
end RawLimbo
end Ygo
