import Verif.Lemmas.ReleaseStep
import Verif.Lemmas.Table

set_option linter.unusedSimpArgs false

namespace Ygo
open Ygo.Spec Ygo.Props

/-! ## Frames that asserts have kept in order -/

/-- The cards of a container as pointers. -/
def ptrsOf : Container → List CardId → List Ptr
  | .slot _, v => [v.head?]
  | _, v => v.map some

def ptrs (B : Board) : PtrBoard := fun C => ptrsOf C (B C)

theorem rawView_asRaw (f : Frame) : rawView (asRaw f).layout = ptrs (view f.layout) := by
  funext C
  cases C with
  | pile k => rfl
  | mats k => rfl
  | slot k => simp [asRaw, ptrs, ptrsOf]

theorem ptrs_upd (B : Board) (C : Container) (v : List CardId) : ptrs (B.upd C v) = (ptrs B).upd C (ptrsOf C v) := by
  funext C'
  simp only [ptrs, upd_apply, pupd_apply]
  split
  · rename_i e; rw [e]
  · rfl

theorem map_insertIdx_ptr {α β : Type} (g : α → β) (l : List α) (i : Nat) (c : α) : (l.insertIdx i c).map g = (l.map g).insertIdx i (g c) := by
  induction l generalizing i with
  | nil => cases i <;> rfl
  | cons a l ih => cases i <;> simp [ih]

theorem map_eraseIdx_ptr {α β : Type} (g : α → β) (l : List α) (i : Nat) : (l.eraseIdx i).map g = (l.map g).eraseIdx i := by
  induction l generalizing i with
  | nil => cases i <;> rfl
  | cons a l ih => cases i <;> simp [ih]

theorem ptrs_put {B : Board} {C : Container} {i : Nat} {c : CardId} (h : Fits B C i) : ptrs (B.put C i c) = (ptrs B).put C i (some c) := by
  unfold Board.put
  rw [ptrs_upd]
  cases C with
  | pile k => simp [PtrBoard.put, ptrsOf, ptrs, map_insertIdx_ptr]
  | mats k => simp [PtrBoard.put, ptrsOf, ptrs, map_insertIdx_ptr]
  | slot k =>
    have h0 := h.2 k rfl
    have : i = 0 := by have := h.1; rw [h0] at this; simpa using this
    subst this
    simp [PtrBoard.put, ptrsOf, h0]

theorem ptrs_take {B : Board} {C : Container} {i : Nat} {c : CardId} (hs : ∀ k, (B (.slot k)).length ≤ 1) (h : (B C)[i]? = some c) :
    ptrs (B.take C i) = (ptrs B).take C i := by
  unfold Board.take
  rw [ptrs_upd]
  cases C with
  | pile k => simp [PtrBoard.take, ptrsOf, ptrs, map_eraseIdx_ptr]
  | mats k => simp [PtrBoard.take, ptrsOf, ptrs, map_eraseIdx_ptr]
  | slot k =>
    have h1 := hs k
    have : (B (.slot k)).eraseIdx i = [] := by
      have := List.length_eraseIdx_of_lt (lt_of_getElem?_some h)
      exact List.eq_nil_of_length_eq_zero (by omega)
    simp [PtrBoard.take, ptrsOf, this]

theorem ptrs_get {B : Board} {C : Container} {i : Nat} {c : CardId} (hs : ∀ k, (B (.slot k)).length ≤ 1) (h : (B C)[i]? = some c) :
    (ptrs B C)[i]? = some (some c) := by
  cases C with
  | pile k => simp [ptrs, ptrsOf, h]
  | mats k => simp [ptrs, ptrsOf, h]
  | slot k =>
    have h1 := hs k
    have h2 := lt_of_getElem?_some h
    have : i = 0 := by omega
    subst this
    cases e : B (.slot k) with
    | nil => simp [e] at h
    | cons a t => simp [e] at h; simp [ptrs, ptrsOf, e, h]

theorem ptrs_get_iff {B : Board} {C : Container} {i : Nat} (hs : ∀ k, (B (.slot k)).length ≤ 1) {c : CardId} :
    (ptrs B C)[i]? = some (some c) ↔ (B C)[i]? = some c := by
  refine ⟨fun h => ?_, ptrs_get hs⟩
  cases C with
  | pile k => simpa [ptrs, ptrsOf] using h
  | mats k => simpa [ptrs, ptrsOf] using h
  | slot k =>
    cases i with
    | succ i => simp [ptrs, ptrsOf] at h
    | zero => simpa [ptrs, ptrsOf, List.head?_eq_getElem?] using h

theorem ptrs_exchange {B : Board} {C1 C2 : Container} {i j : Nat} {c1 c2 : CardId} (hs : ∀ k, (B (.slot k)).length ≤ 1)
    (h1 : (B C1)[i]? = some c1) (h2 : (B C2)[j]? = some c2) :
    ptrs (B.exchange C1 i C2 j c1 c2) = (ptrs B).exchange C1 i C2 j (some c1) (some c2) := by
  have key : ∀ (B : Board) (C : Container) (i : Nat) (c d : CardId), (∀ k, (B (.slot k)).length ≤ 1) → (B C)[i]? = some c →
      ptrs (B.upd C ((B C).set i d)) = (ptrs B).upd C ((ptrs B C).set i (some d)) := by
    intro B C i c d hs h
    rw [ptrs_upd]
    cases C with
    | pile k => simp [ptrs, ptrsOf]
    | mats k => simp [ptrs, ptrsOf]
    | slot k =>
      have h1 := hs k
      have h2 := lt_of_getElem?_some h
      have : i = 0 := by omega
      subst this
      cases e : B (.slot k) with
      | nil => simp [e] at h
      | cons a t => simp [ptrs, ptrsOf, e]
  simp only [Board.exchange, PtrBoard.exchange]
  have h3 : ((B.upd C1 ((B C1).set i c2)) C2)[j]? = some c2 := by
    rw [upd_apply]
    split
    · rename_i e; subst e
      rw [List.getElem?_set]
      split
      · simp [lt_of_getElem?_some h1]
      · exact h2
    · exact h2
  rw [key _ C2 j c2 c1 (slot_le_upd hs (fun k e => by subst e; simpa using hs k)) h3, key B C1 i c1 c2 hs h1]

theorem ptrs_swapMats {B : Board} {C1 C2 : Container} : ptrs (B.swapMats C1 C2) = (ptrs B).swapMats C1 C2 := by
  cases C1 <;> cases C2 <;> try rfl
  simp only [Board.swapMats, PtrBoard.swapMats, Board.swapAll, ptrs_upd]
  rfl

theorem ptrs_carry {B : Board} {C1 C2 : Container} (h : CarryOk B C1 C2) (hne : ∀ k, C1 = .slot k → C2 ≠ C1) :
    ptrs (B.carry C1 C2) = (ptrs B).swapMats C1 C2 := by
  cases C1 <;> cases C2 <;> try rfl
  rename_i k1 k2
  simp only [CarryOk] at h
  simp only [Board.carry, PtrBoard.swapMats, ptrs_upd]
  have : k1 ≠ k2 := fun e => hne k1 rfl (by rw [e])
  rw [pupd_comm (by simp [this.symm])]
  simp only [ptrs, ptrsOf, h]

theorem ptrs_room {B : Board} {C : Container} {i : Nat} (h : (∀ k, C ≠ .slot k) → i ≤ (B C).length) : (ptrs B).Room C i := by
  cases C with
  | pile k => simpa [PtrBoard.Room, ptrs, ptrsOf] using h (by simp)
  | mats k => simpa [PtrBoard.Room, ptrs, ptrsOf] using h (by simp)
  | slot k => trivial

theorem ptrs_room_iff {B : Board} {C : Container} {i : Nat} : (ptrs B).Room C i ↔ ((∀ k, C ≠ .slot k) → i ≤ (B C).length) := by
  refine ⟨fun h hn => ?_, ptrs_room⟩
  cases C with
  | pile k => simpa [PtrBoard.Room, ptrs, ptrsOf] using h
  | mats k => simpa [PtrBoard.Room, ptrs, ptrsOf] using h
  | slot k => exact absurd rfl (hn k)

theorem asRaw_layout {f' : Frame} {l : RawLayout} (h : rawView l = ptrs (view f'.layout)) : l = (asRaw f').layout := by
  apply rawView_inj; rw [h, rawView_asRaw]

/-- The second loop does the same to both. -/
theorem shuffleLoop_same {f : Frame} {n i : Nat} {ps : List Place} {seqs : List Nat} {l l' : Layout} (h : Layout.shuffleLoop n i ps seqs l = .ok l') :
    RawLayout.shuffleLoop n i ps seqs (asRaw { f with layout := l }).layout = .ok (asRaw { f with layout := l' }).layout := by
  induction n generalizing i ps seqs l with
  | zero => simp only [Layout.shuffleLoop, Except.ok.injEq] at h; rw [h]; rfl
  | succ n ih =>
    cases ps with
    | nil => simp [Layout.shuffleLoop] at h
    | cons p ps =>
      simp only [Layout.shuffleLoop] at h
      simp only [RawLayout.shuffleLoop]
      split at h
      · rename_i e; rw [if_pos e]; exact ih h
      · rename_i e
        simp only [bind_eq_ok] at h
        obtain ⟨si, h1, k1, h2, k2, h3, h⟩ := h
        have e2 : Raw.zoneKey p.con p.loc si = .ok k1 := Raw.zoneKey_eq_ok.mpr (zoneKey_eq_ok.mp h2)
        have e3 : Raw.zoneOf p = .ok k2 := Raw.zoneOf_iff.mpr h3
        rw [if_neg e, h1, bind_ok, e2, bind_ok, e3, bind_ok]
        have := ih h
        have e4 : (asRaw { f with layout := l }).layout.swapZones k1 k2 = (asRaw { f with layout := l.swapZones k1 k2 }).layout := by
          apply RawLayout.ext'
          · intro k; rfl
          all_goals
            intro k
            simp only [RawLayout.swapZones, Layout.swapZones, asRaw, RawLayout.zone_setZone, Layout.zone_setZone]
            by_cases a : k = k2 <;> by_cases b : k = k1 <;> simp [a, b] <;> split <;> rfl
        rw [e4]; exact this

theorem shuffleSeqs_same {l : Layout} {n : Nat} {ps : List Place} {seqs : List Nat} (h : l.shuffleSeqs n ps = .ok seqs) :
    RawLayout.shuffleSeqs n ps = .ok seqs := by
  induction n generalizing ps seqs with
  | zero => exact h
  | succ n ih =>
    cases ps with
    | nil => simp [Layout.shuffleSeqs] at h
    | cons p ps =>
      simp only [Layout.shuffleSeqs, bind_eq_ok] at h
      obtain ⟨_, _, _, _, r, h1, h2⟩ := h
      simp only [RawLayout.shuffleSeqs, ih h1, bind_ok]; exact h2

/-- What returns with asserts does the same without; if everything is cleared, cards must be owned. -/
theorem Frame.step_same {f f' : Frame} {op : FrameOp} (hi : op = .clear → Inv f) (h : f.step op = .ok f') :
    (asRaw f).step op = .ok (asRaw f') := by
  have hs := view_slot_le f.layout
  cases op with
  | add p =>
    simp only [Frame.step, Frame.cardAdd, Frame.construct, bind_eq_ok, pure_eq_ok, Except.ok.injEq, Prod.exists, Prod.mk.injEq] at h
    obtain ⟨_, _, ⟨l, h1, rfl, rfl⟩, rfl⟩ := h
    obtain ⟨C, i, ha, hf, hv⟩ := Layout.cardInsert_eq_ok.mp h1
    simp only [RawFrame.step, RawFrame.cardAdd, RawFrame.construct]
    have : (asRaw f).layout.cardInsert p (asRaw f).next = .ok (asRaw ⟨l, f.next :: f.owned, f.next + 1⟩).layout := by
      rw [RawLayout.cardInsert_at ha, rawView_asRaw, rawView_asRaw]
      exact ⟨ptrs_room fun _ => hf.1, by rw [hv, ptrs_put hf]; rfl⟩
    rw [this]; rfl
  | remove p =>
    obtain ⟨C, i, c, ha, hc, hm, hv, h2, h3⟩ := Frame.cardRemove_eq_ok.mp h
    simp only [RawFrame.step, RawFrame.cardRemove]
    have : (asRaw f).layout.cardErase p = .ok (c, (asRaw f').layout) := by
      rw [RawLayout.cardErase_at ha, rawView_asRaw, rawView_asRaw]
      exact ⟨ptrs_get hs hc, by rw [hv, ptrs_take hs hc]⟩
    rw [this]
    simp only [bind_ok, RawFrame.destruct, orUb]
    show Except.ok _ = Except.ok _
    simp only [asRaw, h2, h3]
  | move a b =>
    simp only [Frame.step, Frame.cardMove, bind_eq_ok, pure_eq_ok, Except.ok.injEq, Prod.exists, Prod.mk.injEq] at h
    obtain ⟨_, _, ⟨l, c, h1, rfl, rfl⟩, rfl⟩ := h
    obtain ⟨C1, i, C2, j, ha, hb, _, _, hc, he, hj, hcar, hv⟩ := Layout.cardMove_eq_ok.mp h1
    have hf : Fits ((view f.layout).take C1 i) C2 j := by
      refine ⟨hj, fun k hk => ?_⟩
      simp only [Board.take, upd_apply]
      split
      · rename_i e; rw [← e, he k hk]; simp
      · exact he k hk
    have hne : ∀ k, C1 = .slot k → C2 ≠ C1 := by
      intro k e e'
      have := he k (e'.trans e)
      rw [e'] at this; rw [this] at hc; simp at hc
    have e : CarryOk (((view f.layout).take C1 i).put C2 j c) C1 C2 := by
      cases C1 <;> cases C2 <;> simp_all [CarryOk, Board.put, Board.take, upd_apply]
    have : (asRaw f).layout.cardMove a b = .ok ((asRaw { f with layout := l }).layout, c) := by
      rw [RawLayout.cardMove_at ha hb, rawView_asRaw, rawView_asRaw]
      refine ⟨ptrs_get hs hc, ?_, ?_⟩
      · rw [← ptrs_take hs hc]; exact ptrs_room fun _ => hj
      · rw [hv, ptrs_carry e hne, ptrs_put hf, ptrs_take hs hc]
    simp only [RawFrame.step, this]; rfl
  | shuffle prev cur n =>
    simp only [Frame.step, Frame.cardShuffle, Layout.cardShuffle, bind_eq_ok, massert_eq_ok, guardUb_eq_ok, pure_eq_ok, Except.ok.injEq] at h
    obtain ⟨l, ⟨_, _, _, _, _, h7, _, _, seqs, h1, h2⟩, rfl⟩ := h
    simp only [RawFrame.step, RawFrame.within, RawLayout.cardShuffle]
    rw [show guardUb (n ≤ 7) = .ok () from guardUb_eq_ok.mpr h7, bind_ok, shuffleSeqs_same h1, bind_ok]
    have := shuffleLoop_same (f := f) h2
    rw [show (asRaw { f with layout := f.layout }) = asRaw f from rfl] at this
    rw [this]; rfl
  | swap a b =>
    simp only [Frame.step, Frame.cardSwap, bind_eq_ok, pure_eq_ok, Except.ok.injEq] at h
    obtain ⟨l, h1, rfl⟩ := h
    obtain ⟨⟨C1, i, ha⟩, C2, j, hb⟩ := Layout.cardSwap_places h1
    obtain ⟨_, _, _, _, _, c1, c2, hc1, hc2, hv⟩ := (Layout.cardSwap_at ha hb).mp h1
    have e : Layout.swapPos a C1 C2 i = swappedIndex C1 C2 i := by
      cases ha <;> cases C2 <;> rfl
    rw [e] at hc1 hv
    have : (asRaw f).layout.cardSwap a b = .ok (asRaw { f with layout := l }).layout := by
      rw [RawLayout.cardSwap_at ha hb, rawView_asRaw, rawView_asRaw]
      exact ⟨some c1, some c2, ptrs_get hs hc1, ptrs_get hs hc2, by rw [hv, ptrs_swapMats, ptrs_exchange hs hc1 hc2]⟩
    simp only [RawFrame.step, RawFrame.within, this]; rfl
  | resize p n =>
    simp only [Frame.step] at h
    obtain ⟨k, hp⟩ := Frame.pileResize_place h
    obtain ⟨h1, h2, h3⟩ := Frame.pileResize_at hp h
    simp only [RawFrame.step]
    rw [RawFrame.pileResize_eq_ok]
    refine ⟨k, _, hp, ?_, ?_, ?_, ?_⟩
    · simp [asRaw]
      intro h; exact absurd (List.mem_of_mem_drop h) (by simp)
    · rw [rawView_asRaw, rawView_asRaw, h1, ptrs_upd]
      simp [ptrsOf, asRaw]
    · simp [asRaw, h2, ← List.map_drop]
    · simp [asRaw, h3]
  | splice a n b r =>
    simp only [Frame.step, Frame.pileSplice, bind_eq_ok, pure_eq_ok, Except.ok.injEq] at h
    obtain ⟨l, h1, rfl⟩ := h
    obtain ⟨k1, i, k2, j, ha, hb, h2, h3, hv⟩ := Layout.pileSplice_eq_ok.mp h1
    have hcut : ptrs ((view f.layout).cut (.pile k1) i n) = (ptrs (view f.layout)).cut (.pile k1) i n := by
      simp [Board.cut, PtrBoard.cut, ptrs_upd, ptrsOf, ptrs]
    have hblk : (ptrs (view f.layout)).block (.pile k1) i n r = ((view f.layout).block (.pile k1) i n r).map some := by
      simp only [PtrBoard.block, Board.block, ptrs, ptrsOf]; split <;> simp
    have : (asRaw f).layout.pileSplice a n b r = .ok (asRaw { f with layout := l }).layout := by
      rw [RawLayout.pileSplice_eq_ok]
      refine ⟨k1, i, k2, j, ha, hb, ?_, ?_, ?_⟩
      · simpa [asRaw] using h2
      · rw [rawView_asRaw, ← hcut]; simpa [ptrs, ptrsOf] using h3
      · rw [rawView_asRaw, rawView_asRaw, hv, ← hcut, hblk]
        simp [Board.paste, PtrBoard.paste, ptrs_upd, ptrsOf, ptrs]
    simp only [RawFrame.step, RawFrame.within, this]; rfl
  | pswap a b =>
    simp only [Frame.step, Frame.pileSwap, bind_eq_ok, pure_eq_ok, Except.ok.injEq] at h
    obtain ⟨l, h1, rfl⟩ := h
    obtain ⟨k1, i, k2, j, ha, hb, hv⟩ := Layout.pileSwap_eq_ok.mp h1
    have : (asRaw f).layout.pileSwap a b = .ok (asRaw { f with layout := l }).layout := by
      rw [RawLayout.pileSwap_eq_ok]
      refine ⟨k1, i, k2, j, ha, hb, ?_⟩
      rw [rawView_asRaw, rawView_asRaw, hv]
      simp only [Board.swapAll, PtrBoard.swapAll, ptrs_upd]; rfl
    simp only [RawFrame.step, RawFrame.within, this]; rfl
  | clear =>
    obtain ⟨g, h1, _, h2, h3, h4⟩ := (hi rfl).clear
    simp only [Frame.step, h1, Except.ok.injEq] at h
    subst h
    simp only [RawFrame.step, RawFrame.clear_eq_ok]
    have hv : rawView (asRaw g).layout = rawView RawLayout.empty := by
      rw [rawView_asRaw]
      funext C
      cases C <;> simp [ptrs, ptrsOf, h3] <;> rfl
    have ho : Frame.eraseAll (RawFrame.visited (asRaw f).layout) (asRaw f).owned = [] := by
      apply List.eq_nil_iff_forall_not_mem.mpr
      intro x hx
      have := List.count_pos_iff.mpr hx
      rw [count_eraseAll, count_visited, rawView_asRaw] at this
      have e : (cardsOn (ptrs (view f.layout))).count x = (placed (view f.layout)).count x := by
        unfold cardsOn placed
        congr 2
        funext C
        cases C with
        | pile k => simp [ptrs, ptrsOf]
        | mats k => simp [ptrs, ptrsOf]
        | slot k => simp [ptrs, ptrsOf]; cases (f.layout.zone k).card <;> rfl
      rw [e, (hi rfl).count x] at this
      simp [asRaw] at this
    refine ⟨by simp [asRaw], by simp [asRaw], ?_⟩
    rw [ho, ← rawView_inj hv]
    simp [asRaw, h2, h4]

/-- What returns with asserts does the same without. -/
theorem Inv.step_same {f f' : Frame} {op : FrameOp} (hi : Inv f) (h : f.step op = .ok f') : (asRaw f).step op = .ok (asRaw f') :=
  Frame.step_same (fun _ => hi) h

end Ygo
