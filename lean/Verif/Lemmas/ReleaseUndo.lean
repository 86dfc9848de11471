import Verif.Lemmas.ReleaseHistory
import Verif.Lemmas.ReleaseSame
import Verif.Spec.ReleaseUndo
import Verif.Lemmas.Limbo

/-! # What an undoable frame does with asserts, it does without -/

set_option linter.unusedSimpArgs false

namespace Ygo
open Ygo.Spec

theorem asRaw_layout_eq (f : Frame) : (asRaw f).layout = asRawLayout f.layout := rfl

theorem rawView_asRawLayout (l : Layout) : rawView (asRawLayout l) = ptrs (view l) := rawView_asRaw ⟨l, [], 0⟩

theorem asRawLayout_setPile (l : Layout) (k : PileKey) (v : List CardId) :
    asRawLayout (l.setPile k v) = (asRawLayout l).setPile k (v.map some) := by
  simp only [asRawLayout, Layout.setPile, RawLayout.setPile]
  congr 1
  funext k'
  split <;> rfl

theorem cardInsert_same {l l' : Layout} {p : Place} {c : CardId} (h : l.cardInsert p c = .ok l') :
    (asRawLayout l).cardInsert p c = .ok (asRawLayout l') := by
  obtain ⟨C, i, ha, hf, hv⟩ := Layout.cardInsert_eq_ok.mp h
  rw [RawLayout.cardInsert_at ha, rawView_asRawLayout, rawView_asRawLayout]
  exact ⟨ptrs_room fun _ => hf.1, by rw [hv, ptrs_put hf]⟩

theorem cardErase_same {l l' : Layout} {p : Place} {c : CardId} (h : l.cardErase p = .ok (c, l')) :
    (asRawLayout l).cardErase p = .ok (c, asRawLayout l') := by
  obtain ⟨C, i, ha, hc, hv⟩ := Layout.cardErase_eq_ok.mp h
  have hs := view_slot_le l
  rw [RawLayout.cardErase_at ha, rawView_asRawLayout, rawView_asRawLayout]
  exact ⟨ptrs_get hs hc, by rw [hv, ptrs_take hs hc]⟩

theorem growPile_same (k : PileKey) (n : Nat) (f : Frame) : RawFrame.growPile k n (asRaw f) = asRaw (Frame.growPile k n f) := by
  induction n generalizing f with
  | zero => rfl
  | succ n ih =>
    rw [RawFrame.growPile, Frame.growPile, ← ih]
    congr 1
    simp only [RawFrame.construct, Frame.construct, asRaw_layout_eq]
    have := asRawLayout_setPile f.layout k (f.layout.pile k ++ [f.next])
    simp only [asRaw, asRawLayout, List.map_append, List.map_cons, List.map_nil] at this ⊢
    rw [this]

namespace Limbo

theorem current_same {f : Limbo} {o : LimboOp} (h : f.current = .ok o) :
    f.op ≠ 0 ∧ (asRawLimbo f).current = .ok (f.op - 1, asRawOp o) := by
  simp only [current, bind_eq_ok, massert_eq_ok, guardUb_eq_ok, orUb_eq_ok] at h
  obtain ⟨_, _, _, h0, h1⟩ := h
  refine ⟨h0, ?_⟩
  have h2 : (1 : Int) ≤ f.op := by omega
  have h3 : ((f.op : Int) - 1).toNat = f.op - 1 := by omega
  simp only [RawLimbo.current, asRawLimbo, guardUb, h2, if_true, bind_ok, h3, List.getElem?_map, h1, Option.map_some, orUb]
  rfl

theorem currentCard_same {f : Limbo} {c : CardId} (h : f.currentCard = .ok c) : (asRawLimbo f).currentCard = .ok c := by
  simp only [currentCard, bind_eq_ok] at h
  obtain ⟨o, h1, h2⟩ := h
  rw [RawLimbo.currentCard, (current_same h1).2, bind_ok]
  cases o <;> simp_all [asRawOp]

theorem currentResize_same {f : Limbo} {n : Nat} {s : List (Option CardId)} (h : f.currentResize = .ok (n, s)) :
    f.op ≠ 0 ∧ (asRawLimbo f).currentResize = .ok (f.op - 1, n, s) := by
  simp only [currentResize, bind_eq_ok] at h
  obtain ⟨o, h1, h2⟩ := h
  refine ⟨(current_same h1).1, ?_⟩
  rw [RawLimbo.currentResize, (current_same h1).2, bind_ok]
  cases o <;> simp_all [asRawOp]

theorem currentClear_same {f : Limbo} {l : Layout} (h : f.currentClear = .ok l) :
    f.op ≠ 0 ∧ (asRawLimbo f).currentClear = .ok (f.op - 1, asRawLayout l) := by
  simp only [currentClear, bind_eq_ok] at h
  obtain ⟨o, h1, h2⟩ := h
  refine ⟨(current_same h1).1, ?_⟩
  rw [RawLimbo.currentClear, (current_same h1).2, bind_ok]
  cases o <;> simp_all [asRawOp]

theorem advance_same (f : Limbo) : (asRawLimbo f).advance = (asRawLimbo f.advance.1, f.advance.2) := by
  simp only [RawLimbo.advance, advance, asRawLimbo, Int.ofNat_inj]
  split <;> simp

theorem regress_same {f f' : Limbo} (h : f.regress = .ok f') : (asRawLimbo f).regress = asRawLimbo f' := by
  simp only [regress, bind_eq_ok, massert_eq_ok, pure_eq_ok, Except.ok.injEq] at h
  obtain ⟨_, h0, rfl⟩ := h
  have : (f.op : Int) - 1 = ((f.op - 1 : Nat) : Int) := by omega
  simp only [RawLimbo.regress, asRawLimbo, this]

theorem setLayout_same (f : Limbo) (l : Layout) : (asRawLimbo f).setLayout (asRawLayout l) = asRawLimbo (f.setLayout l) := rfl

theorem emplace_same (f : Limbo) (o : LimboOp) : (asRawLimbo f).emplace (asRawOp o) = asRawLimbo (f.emplace o) := by
  simp [RawLimbo.emplace, emplace, asRawLimbo]

theorem setCurrent_same (f : Limbo) (o : LimboOp) : (asRawLimbo f).setAt (f.op - 1) (asRawOp o) = asRawLimbo (f.setCurrent o) := by
  simp [RawLimbo.setAt, setCurrent, asRawLimbo, List.map_set]

theorem verified_eq_ok {s : List (Option CardId)} {v : List CardId} (h : verified s = .ok v) : s = v.map some := by
  simp only [verified, orAssert_eq_ok] at h
  induction s generalizing v with
  | nil => simp at h; simp [← h]
  | cons a s ih =>
    rw [List.mapM_cons] at h
    cases a with
    | none => simp at h
    | some a =>
      cases hs : s.mapM id with
      | none => simp [hs] at h
      | some w =>
        simp [hs] at h
        rw [← h, ih hs]; rfl

theorem copyOver_same {src : List CardId} {dst s : List (Option CardId)} (h : copyOver src dst = .ok s) :
    RawLimbo.copyOver (src.map some) dst = .ok s := by
  simp only [copyOver, bind_eq_ok, guardUb_eq_ok, pure_eq_ok, Except.ok.injEq] at h
  obtain ⟨_, h1, rfl⟩ := h
  simp only [RawLimbo.copyOver, List.length_map, guardUb, h1, if_true, bind_ok]; rfl

/-- A base operation that both frames inherit. -/
theorem inherited_same {f : Limbo} {b : Frame} {op : FrameOp} (hc : op ≠ .clear) (h : f.base.step op = .ok b) :
    (asRawLimbo f).inherited op = .ok (asRawLimbo { f with base := b }) := by
  have : (asRaw f.base).step op = .ok (asRaw b) := Frame.step_same (fun e => absurd e hc) h
  simp only [RawLimbo.inherited, asRawLimbo, this]; rfl

theorem logged_advance {f : Limbo} (hl : Logged f) (h : f.advance.2 = true) : f.advance.1.op = f.ops.length + 1 := by
  unfold advance at h ⊢
  split at h
  · rename_i e; simp [e, ← hl.symm]
  · cases h

theorem step_same {f f' : Limbo} {op : FrameOp} (hl : Logged f) (h : f.step op = .ok f') : (asRawLimbo f).step op = .ok (asRawLimbo f') := by
  cases op with
  | add p =>
    simp only [step, bind_eq_ok, pure_eq_ok, Except.ok.injEq, Prod.exists] at h
    obtain ⟨_, c, h, rfl⟩ := h
    rw [RawLimbo.step, RawLimbo.cardAdd, advance_same]
    rw [cardAdd] at h
    revert h
    generalize f.advance = a
    obtain ⟨g, fresh⟩ := a
    intro h
    cases fresh with
    | true =>
      simp only [if_true, bind_eq_ok, pure_eq_ok, Except.ok.injEq, Prod.exists, Prod.mk.injEq] at h ⊢
      obtain ⟨b, c', h1, rfl, rfl⟩ := h
      have h2 : g.base.step (.add p) = .ok b := by rw [Frame.step, h1]; rfl
      have h3 := Frame.step_same (op := .add p) (fun e => nomatch e) h2
      have hc : c' = g.base.next := by
        simp only [Frame.cardAdd, Frame.construct, bind_eq_ok, pure_eq_ok, Except.ok.injEq, Prod.mk.injEq] at h1
        obtain ⟨_, _, _, rfl⟩ := h1
        rfl
      subst hc
      refine ⟨asRaw b, h3, ?_⟩
      simp [RawLimbo.emplace, emplace, asRawLimbo, asRawOp, asRaw]
    | false =>
      simp only [Bool.false_eq_true, if_false, bind_eq_ok, massert_eq_ok, pure_eq_ok, Except.ok.injEq, Prod.mk.injEq] at h ⊢
      obtain ⟨c', h1, l, h2, _, _, _, _, rfl, rfl⟩ := h
      exact ⟨c', currentCard_same h1, asRawLayout l, cardInsert_same h2, rfl⟩
  | remove p =>
    simp only [step, cardRemove, bind_eq_ok, massert_eq_ok, Prod.exists] at h
    obtain ⟨_, _, _, _, c, l, h1, h⟩ := h
    have h2 := cardErase_same h1
    have e : (asRawLimbo f).base.layout = asRawLayout f.base.layout := rfl
    rw [RawLimbo.step, RawLimbo.cardRemove, e, h2, bind_ok]
    dsimp only
    rw [setLayout_same, advance_same]
    revert h
    generalize (f.setLayout l).advance = a
    obtain ⟨g, fresh⟩ := a
    intro h
    cases fresh with
    | true =>
      simp only [if_true, pure_eq_ok, Except.ok.injEq] at h ⊢
      subst h
      exact emplace_same g (.card c)
    | false =>
      simp only [Bool.false_eq_true, if_false, bind_eq_ok, massert_eq_ok, pure_eq_ok, Except.ok.injEq] at h ⊢
      obtain ⟨_, _, _, _, rfl⟩ := h
      rfl
  | move a b =>
    simp only [step, cardMove, bind_eq_ok, pure_eq_ok, Except.ok.injEq, Prod.exists, Prod.mk.injEq] at h
    obtain ⟨_, _, ⟨b', c, h1, rfl, rfl⟩, rfl⟩ := h
    exact inherited_same (fun e => nomatch e) (by rw [Frame.step, h1]; rfl)
  | shuffle p c n =>
    simp only [step, cardShuffle, bind_eq_ok, pure_eq_ok, Except.ok.injEq] at h
    obtain ⟨b, h1, rfl⟩ := h
    exact inherited_same (fun e => nomatch e) h1
  | swap a b =>
    simp only [step, cardSwap, bind_eq_ok, pure_eq_ok, Except.ok.injEq] at h
    obtain ⟨b, h1, rfl⟩ := h
    exact inherited_same (fun e => nomatch e) h1
  | splice a n b r =>
    simp only [step, pileSplice, bind_eq_ok, pure_eq_ok, Except.ok.injEq] at h
    obtain ⟨b, h1, rfl⟩ := h
    exact inherited_same (fun e => nomatch e) h1
  | pswap a b =>
    simp only [step, pileSwap, bind_eq_ok, pure_eq_ok, Except.ok.injEq] at h
    obtain ⟨b, h1, rfl⟩ := h
    exact inherited_same (fun e => nomatch e) h1
  | resize p n =>
    have hla := logged_advance hl
    have hops : f.advance.1.ops = f.ops := by unfold advance; split <;> rfl
    simp only [step, pileResize, bind_eq_ok, massert_eq_ok] at h
    obtain ⟨_, _, h⟩ := h
    rw [RawLimbo.step, RawLimbo.pileResize, advance_same]
    revert h hla hops
    generalize f.advance = a
    obtain ⟨g, fresh⟩ := a
    intro hla hops h
    simp only [bind_eq_ok, Prod.exists] at h
    obtain ⟨k, hk, prev, slice, h1, h⟩ := h
    dsimp only at hla hops ⊢
    rw [Raw.pileOf_iff.mpr hk, bind_ok]
    -- the state after the entry was found or made
    have hf : ∃ g' : Limbo, g' = (if fresh = true then g.emplace (.resize 0 []) else g) ∧
        (asRawLimbo g).resizeOp fresh = .ok (asRawLimbo g', g'.op - 1, slice) := by
      refine ⟨_, rfl, ?_⟩
      cases fresh with
      | true =>
        have ho := hla rfl
        have : (g.emplace (.resize 0 [])).current = .ok (.resize 0 []) := by
          simp [current, emplace, massert, guardUb, orUb, ho, hops]
        simp only [if_true] at h1 ⊢
        simp only [currentResize, this, bind_ok, pure_eq_ok, Except.ok.injEq, Prod.mk.injEq] at h1
        obtain ⟨rfl, rfl⟩ := h1
        have e := emplace_same g (.resize 0 [])
        simp only [RawLimbo.resizeOp, if_true, Except.ok.injEq, Prod.mk.injEq]
        refine ⟨e, ?_, trivial⟩
        simp [asRawLimbo, emplace, ho, hops]
      | false =>
        simp only [Bool.false_eq_true, if_false] at h1 ⊢
        simp only [RawLimbo.resizeOp, Bool.false_eq_true, if_false, (currentResize_same h1).2, bind_ok]; rfl
    obtain ⟨g', hg, hop⟩ := hf
    rw [hop, bind_ok]
    rw [← hg] at h h1
    dsimp only
    have hlen : ((asRawLimbo g').base.layout.pile k).length = (g'.base.layout.pile k).length := by simp [asRawLimbo, asRaw]
    have hpile : (asRawLimbo g').base.layout.pile k = (g'.base.layout.pile k).map some := rfl
    have hset : (asRawLimbo g').setAt (g'.op - 1) (.resize (g'.base.layout.pile k).length slice) =
        asRawLimbo (g'.setCurrent (.resize (g'.base.layout.pile k).length slice)) := setCurrent_same g' (.resize _ slice)
    rw [hlen, hset]
    split at h
    · rename_i hlt
      rw [if_pos hlt]
      cases fresh with
      | true =>
        simp only [if_true, pure_eq_ok, Except.ok.injEq] at h ⊢
        subst h
        rw [show (asRawLimbo (g'.setCurrent (.resize (g'.base.layout.pile k).length slice))).base = asRaw g'.base from rfl, growPile_same]
        rfl
      | false =>
        simp only [Bool.false_eq_true, if_false, bind_eq_ok, massert_eq_ok, pure_eq_ok, Except.ok.injEq] at h ⊢
        obtain ⟨s, h2, _, _, rfl⟩ := h
        have := verified_eq_ok h2
        subst this
        rw [hpile, ← List.map_append, ← setLayout_same, asRawLayout_setPile]
        rfl
    · rename_i hlt
      rw [if_neg hlt]
      split at h
      · rename_i hgt
        rw [if_pos hgt]
        simp only [bind_eq_ok, pure_eq_ok, Except.ok.injEq] at h
        obtain ⟨s, h2, rfl⟩ := h
        have h3 := copyOver_same h2
        rw [hpile, ← List.map_drop]
        rw [show RawLimbo.resizeSlice slice ((g'.base.layout.pile k).length - n) = resizeSlice slice ((g'.base.layout.pile k).length - n) from rfl, h3, bind_ok]
        rw [← List.map_take, ← setLayout_same, asRawLayout_setPile]
        have e2 := setCurrent_same (g'.setCurrent (.resize (g'.base.layout.pile k).length slice)) (.resize (g'.base.layout.pile k).length s)
        rw [← e2]
        rfl
      · rename_i hgt
        rw [if_neg hgt]
        simp only [pure_eq_ok, Except.ok.injEq] at h ⊢
        rw [h]
  | clear =>
    have hla := logged_advance hl
    have hops : f.advance.1.ops = f.ops := by unfold advance; split <;> rfl
    rw [step, clear] at h
    rw [RawLimbo.step, RawLimbo.clear, advance_same]
    revert h hla hops
    generalize f.advance = a
    obtain ⟨g, fresh⟩ := a
    intro h hla hops
    simp only [bind_eq_ok, pure_eq_ok, Except.ok.injEq] at h
    obtain ⟨saved, h1, rfl⟩ := h
    dsimp only at hla hops ⊢
    have hf : ∃ g' : Limbo, g' = (if fresh = true then g.emplace (.clear Layout.empty) else g) ∧
        (asRawLimbo g).clearOp fresh = .ok (asRawLimbo g', g'.op - 1, asRawLayout saved) := by
      refine ⟨_, rfl, ?_⟩
      cases fresh with
      | true =>
        have ho := hla rfl
        have : (g.emplace (.clear Layout.empty)).current = .ok (.clear Layout.empty) := by
          simp [current, emplace, massert, guardUb, orUb, ho, hops]
        simp only [if_true] at h1 ⊢
        simp only [currentClear, this, bind_ok, pure_eq_ok, Except.ok.injEq] at h1
        rw [← h1]
        have e := emplace_same g (.clear Layout.empty)
        simp only [RawLimbo.clearOp, if_true, Except.ok.injEq, Prod.mk.injEq]
        refine ⟨e, ?_, rfl⟩
        simp [asRawLimbo, emplace, ho, hops]
      | false =>
        simp only [Bool.false_eq_true, if_false] at h1 ⊢
        simp only [RawLimbo.clearOp, Bool.false_eq_true, if_false, (currentClear_same h1).2, bind_ok]; rfl
    obtain ⟨g', hg, hop⟩ := hf
    rw [hop, ← hg]
    have e2 := setCurrent_same g' (.clear g'.base.layout)
    rw [← setLayout_same, ← e2]
    rfl

theorem undo_same {f f' : Limbo} {op : FrameOp} (h : f.undo op = .ok f') : (asRawLimbo f).undo op = .ok (asRawLimbo f') := by
  have hb : (asRawLimbo f).base.layout = asRawLayout f.base.layout := rfl
  cases op with
  | add p =>
    simp only [undo, undoCardAdd, bind_eq_ok, massert_eq_ok, pure_eq_ok, Except.ok.injEq, Prod.exists, Prod.mk.injEq] at h
    obtain ⟨_, _, ⟨_, _, _, _, c, l, h1, _, _, _, _, g, h2, rfl, rfl⟩, rfl⟩ := h
    rw [RawLimbo.undo, RawLimbo.undoCardAdd, hb, cardErase_same h1, bind_ok]
    dsimp only
    rw [setLayout_same, regress_same h2]; rfl
  | remove p =>
    simp only [undo, undoCardRemove, bind_eq_ok, massert_eq_ok, pure_eq_ok, Except.ok.injEq, Prod.exists, Prod.mk.injEq] at h
    obtain ⟨_, _, ⟨c, h0, l, h1, g, h2, _, _, _, _, rfl, rfl⟩, rfl⟩ := h
    rw [RawLimbo.undo, RawLimbo.undoCardRemove, currentCard_same h0, bind_ok, hb, cardInsert_same h1, bind_ok, setLayout_same, regress_same h2]; rfl
  | move a b =>
    simp only [undo, cardMove, bind_eq_ok, pure_eq_ok, Except.ok.injEq, Prod.exists, Prod.mk.injEq] at h
    obtain ⟨_, _, ⟨b', c, h1, rfl, rfl⟩, rfl⟩ := h
    exact inherited_same (fun e => nomatch e) (by rw [Frame.step, h1]; rfl)
  | shuffle p c n => cases h
  | swap a b =>
    simp only [undo, cardSwap, bind_eq_ok, pure_eq_ok, Except.ok.injEq] at h
    obtain ⟨b, h1, rfl⟩ := h
    exact inherited_same (fun e => nomatch e) h1
  | splice a n b r =>
    simp only [undo, pileSplice, bind_eq_ok, pure_eq_ok, Except.ok.injEq] at h
    obtain ⟨b, h1, rfl⟩ := h
    exact inherited_same (fun e => nomatch e) h1
  | pswap a b =>
    simp only [undo, pileSwap, bind_eq_ok, pure_eq_ok, Except.ok.injEq] at h
    obtain ⟨b, h1, rfl⟩ := h
    exact inherited_same (fun e => nomatch e) h1
  | resize p n =>
    simp only [undo, undoPileResize, bind_eq_ok, massert_eq_ok, Prod.exists] at h
    obtain ⟨_, _, k, hk, prev, slice, h1, h⟩ := h
    rw [RawLimbo.undo, RawLimbo.undoPileResize, Raw.pileOf_iff.mpr hk, bind_ok, (currentResize_same h1).2, bind_ok]
    dsimp only
    have hpile : (asRawLimbo f).base.layout.pile k = (f.base.layout.pile k).map some := rfl
    rw [hpile, List.length_map]
    split at h
    · rename_i hlt
      rw [if_pos hlt]
      simp only [bind_eq_ok, massert_eq_ok, pure_eq_ok, Except.ok.injEq] at h
      obtain ⟨s, h2, g, h3, _, _, rfl⟩ := h
      rw [verified_eq_ok h2, ← List.map_append, hb, ← asRawLayout_setPile, setLayout_same, regress_same h3]; rfl
    · rename_i hlt
      rw [if_neg hlt]
      split at h
      · rename_i hgt
        rw [if_pos hgt]
        simp only [bind_eq_ok] at h
        obtain ⟨s, h2, h3⟩ := h
        have h4 := copyOver_same h2
        rw [← List.map_drop]
        rw [show RawLimbo.resizeSlice slice ((f.base.layout.pile k).length - prev) = resizeSlice slice ((f.base.layout.pile k).length - prev) from rfl, h4, bind_ok]
        rw [← List.map_take, hb, ← asRawLayout_setPile]
        have e2 := setCurrent_same f (.resize prev s)
        rw [show (asRawLimbo f).setAt (f.op - 1) (.resize prev s) = asRawLimbo (f.setCurrent (.resize prev s)) from e2, setLayout_same, regress_same h3]; rfl
      · rename_i hgt
        rw [if_neg hgt, regress_same h]; rfl
  | clear =>
    simp only [undo, undoClear, bind_eq_ok] at h
    obtain ⟨saved, h1, h2⟩ := h
    rw [RawLimbo.undo, RawLimbo.undoClear, (currentClear_same h1).2, bind_ok]
    dsimp only
    have e2 := setCurrent_same f (.clear f.base.layout)
    rw [hb, show (asRawLimbo f).setAt (f.op - 1) (.clear (asRawLayout f.base.layout)) = asRawLimbo (f.setCurrent (.clear f.base.layout)) from e2, setLayout_same, regress_same h2]; rfl

end Limbo
end Ygo
