import Verif.Lemmas.FrameSwap
import Verif.Lemmas.FramePile

namespace Ygo
open Ygo.Spec

/-- Ownership invariant with the freshness of the allocator. -/
structure Inv (f : Frame) : Prop where
  count : ∀ x, (placed (view f.layout)).count x = f.owned.count x
  nodup : f.owned.Nodup
  fresh : ∀ x ∈ f.owned, x < f.next

theorem Inv.owns {f : Frame} (h : Inv f) : Owns f :=
  ⟨List.perm_iff_count.mpr h.count, h.nodup⟩

theorem view_empty (C : Container) : view Layout.empty C = [] := by
  cases C <;> rfl

theorem placed_nil {B : Board} (h : ∀ C, B C = []) : placed B = [] := by
  simp [placed, h]

theorem Inv.init : Inv Frame.init := by
  refine ⟨fun x => ?_, List.nodup_nil, by simp [Frame.init]⟩
  simp [Frame.init, placed_nil view_empty]

/-! ## Counting lemmas -/

theorem count_cons1 (c x : CardId) (l : List CardId) : (c :: l).count x = l.count x + [c].count x := by
  rw [List.count_cons, List.count_cons (l := [])]; simp

theorem count_erase1 (c x : CardId) (l : List CardId) : (l.erase c).count x = l.count x - [c].count x := by
  rw [List.count_erase, List.count_cons (l := [])]
  by_cases h : x = c <;> simp [h, Ne.symm]

theorem count_insertIdx' {l : List CardId} {i : Nat} {c x : CardId} (h : i ≤ l.length) :
    (l.insertIdx i c).count x = l.count x + [c].count x := by
  rw [(insertIdx_perm c h).count_eq, count_cons1]

theorem count_eraseIdx' {l : List CardId} {i : Nat} {c x : CardId} (h : l[i]? = some c) :
    (l.eraseIdx i).count x + [c].count x = l.count x := by
  rw [← (eraseIdx_perm h).count_eq, ← count_cons1]

theorem count_put {B : Board} {C : Container} {i : Nat} {c x : CardId} (h : i ≤ (B C).length) :
    (placed (B.put C i c)).count x = (placed B).count x + [c].count x := by
  have h1 := count_placed_upd B C ((B C).insertIdx i c) x
  rw [count_insertIdx' h] at h1
  unfold Board.put; omega

theorem count_take {B : Board} {C : Container} {i : Nat} {c x : CardId} (h : (B C)[i]? = some c) :
    (placed (B.take C i)).count x + [c].count x = (placed B).count x := by
  have h1 := count_placed_upd B C ((B C).eraseIdx i) x
  have h2 := count_eraseIdx' (x := x) h
  unfold Board.take; omega

theorem count_carry {B : Board} {C1 C2 : Container} {x : CardId} (h : CarryOk B C1 C2) :
    (placed (B.carry C1 C2)).count x = (placed B).count x := by
  cases C1 <;> cases C2 <;> try rfl
  rename_i k1 k2
  simp only [CarryOk] at h
  simp only [Board.carry]
  have h1 := count_placed_upd (B.upd (.mats k2) (B (.mats k1))) (.mats k1) [] x
  have h2 := count_placed_upd B (.mats k2) (B (.mats k1)) x
  rw [h] at h2
  by_cases e : k1 = k2
  · subst e
    rw [h, upd_upd]
    have h3 := count_placed_upd B (.mats k1) [] x
    rw [h] at h3; omega
  · rw [upd_ne (by simp [e])] at h1
    simp at h1 h2; omega

theorem count_set' {l : List CardId} {i : Nat} {c d x : CardId} (h : l[i]? = some c) :
    (l.set i d).count x + [c].count x = l.count x + [d].count x := by
  induction l generalizing i with
  | nil => simp at h
  | cons a t ih =>
    cases i with
    | zero => simp at h; subst h; simp [List.count_cons]; omega
    | succ i => simp at h; have := ih h; simp [List.count_cons] at this ⊢; omega

theorem count_exchange {B : Board} {C1 C2 : Container} {i j : Nat} {c1 c2 x : CardId}
    (h1 : (B C1)[i]? = some c1) (h2 : (B C2)[j]? = some c2) :
    (placed (B.exchange C1 i C2 j c1 c2)).count x = (placed B).count x := by
  simp only [Board.exchange]
  have a := count_placed_upd B C1 ((B C1).set i c2) x
  have b := count_placed_upd (B.upd C1 ((B C1).set i c2)) C2 (((B.upd C1 ((B C1).set i c2)) C2).set j c1) x
  have e1 := count_set' (d := c2) (x := x) h1
  have h3 : ((B.upd C1 ((B C1).set i c2)) C2)[j]? = some c2 := by
    rw [upd_apply]
    split
    · rename_i e; subst e
      rw [List.getElem?_set]
      split
      · simp [lt_of_getElem?_some h1]
      · exact h2
    · exact h2
  have e2 := count_set' (d := c1) (x := x) h3
  omega

theorem count_swapAll {B : Board} {C1 C2 : Container} {x : CardId} :
    (placed (B.swapAll C1 C2)).count x = (placed B).count x := by
  simp only [Board.swapAll]
  have a := count_placed_upd B C1 (B C2) x
  have b := count_placed_upd (B.upd C1 (B C2)) C2 (B C1) x
  rw [upd_apply] at b
  split at b
  · rename_i e; subst e; simp
  · omega

theorem count_swapMats {B : Board} {C1 C2 : Container} {x : CardId} :
    (placed (B.swapMats C1 C2)).count x = (placed B).count x := by
  cases C1 <;> cases C2 <;> try rfl
  exact count_swapAll

theorem count_splice {B : Board} {C1 C2 : Container} {i n j : Nat} {rev : Bool} {x : CardId} :
    (placed ((B.cut C1 i n).paste C2 j (B.block C1 i n rev))).count x = (placed B).count x := by
  have a := count_placed_upd B C1 ((B C1).take i ++ (B C1).drop (i + n)) x
  have b := count_placed_upd (B.cut C1 i n) C2
    ((B.cut C1 i n C2).take j ++ B.block C1 i n rev ++ (B.cut C1 i n C2).drop j) x
  have e1 : (B.block C1 i n rev).count x = (((B C1).drop i).take n).count x := by
    unfold Board.block; split <;> simp
  have e2 : (B C1).count x = ((B C1).take i).count x + ((((B C1).drop i).take n).count x +
      ((B C1).drop (i + n)).count x) := by
    rw [Nat.add_comm i n, Nat.add_comm n i, ← List.drop_drop, ← List.count_append, List.take_append_drop, ← List.count_append,
      List.take_append_drop]
  have e3 : ((B.cut C1 i n C2).take j).count x + ((B.cut C1 i n C2).drop j).count x = (B.cut C1 i n C2).count x := by
    rw [← List.count_append, List.take_append_drop]
  unfold Board.paste
  simp only [List.count_append] at a b
  unfold Board.cut at *
  omega

theorem Inv.of_layout {f : Frame} (h : Inv f) {l : Layout}
    (hc : ∀ x, (placed (view l)).count x = (placed (view f.layout)).count x) : Inv { f with layout := l } :=
  ⟨fun x => (hc x).trans (h.count x), h.nodup, h.fresh⟩

/-- Every placed card is owned. -/
theorem Inv.mem_owned {f : Frame} (h : Inv f) {C : Container} {c : CardId} (hc : c ∈ view f.layout C) : c ∈ f.owned := by
  have : c ∈ placed (view f.layout) := mem_placed.mpr ⟨C, hc⟩
  exact h.owns.perm.mem_iff.mp this

theorem Inv.next_fresh {f : Frame} (h : Inv f) (C : Container) : f.next ∉ view f.layout C := by
  intro hc
  exact Nat.lt_irrefl _ (h.fresh _ (h.mem_owned hc))

/-! ## Adding, removing, moving, swapping, splicing -/

theorem Inv.add {f f' : Frame} {p : Place} {c : CardId} (h : Inv f) (ho : f.cardAdd p = .ok (f', c)) : Inv f' := by
  simp only [Frame.cardAdd, Frame.construct, bind_eq_ok, pure_eq_ok, Except.ok.injEq, Prod.mk.injEq] at ho
  obtain ⟨l, hl, rfl, rfl⟩ := ho
  obtain ⟨C, i, _, hf, hv⟩ := Layout.cardInsert_eq_ok.mp hl
  have hn : f.next ∉ f.owned := fun hm => Nat.lt_irrefl _ (h.fresh _ hm)
  refine ⟨fun x => ?_, List.nodup_cons.mpr ⟨hn, h.nodup⟩, ?_⟩
  · have := h.count x
    simp only [hv]
    rw [count_put hf.1, count_cons1 f.next x f.owned, this]
  · intro x hx
    simp only [List.mem_cons] at hx
    rcases hx with rfl | hx
    · exact Nat.lt_succ_self _
    · exact Nat.lt_succ_of_lt (h.fresh x hx)

theorem Frame.cardRemove_eq_ok {f f' : Frame} {p : Place} :
    f.cardRemove p = .ok f' ↔ ∃ C i c, At p C i ∧ (view f.layout C)[i]? = some c ∧ c ∈ f.owned ∧
      view f'.layout = (view f.layout).take C i ∧ f'.owned = f.owned.erase c ∧ f'.next = f.next := by
  simp only [Frame.cardRemove, bind_eq_ok, massert_eq_ok, Frame.destruct_eq_ok]
  constructor
  · rintro ⟨b, h1, _, rfl, ⟨c, l⟩, h2, h3, rfl⟩
    obtain ⟨C, i, ha, hc, hv⟩ := Layout.cardErase_eq_ok.mp h2
    exact ⟨C, i, c, ha, hc, h3, hv, rfl, rfl⟩
  · rintro ⟨C, i, c, ha, hc, hm, hv, ho, hn⟩
    refine ⟨true, Layout.hasCard_true ha (lt_of_getElem?_some hc), (), rfl, (c, f'.layout), ?_, hm, ?_⟩
    · exact Layout.cardErase_eq_ok.mpr ⟨C, i, ha, hc, hv⟩
    · cases f'; simp_all

theorem Inv.remove {f f' : Frame} {p : Place} (h : Inv f) (ho : f.cardRemove p = .ok f') : Inv f' := by
  obtain ⟨C, i, c, _, hc, hm, hv, h2, h3⟩ := Frame.cardRemove_eq_ok.mp ho
  refine ⟨fun x => ?_, h2 ▸ h.nodup.erase c, ?_⟩
  · have a := count_take (x := x) hc
    have b := h.count x
    rw [hv, h2, count_erase1]
    omega
  · intro x hx
    rw [h2] at hx; rw [h3]
    exact h.fresh x (List.mem_of_mem_erase hx)

theorem count_move {l l' : Layout} {a b : Place} {c : CardId} (h : l.cardMove a b = .ok (l', c)) (x : CardId) :
    (placed (view l')).count x = (placed (view l)).count x := by
  obtain ⟨C1, i, C2, j, _, _, _, _, hc, _, hj, hcar, hv⟩ := Layout.cardMove_eq_ok.mp h
  have e : CarryOk (((view l).take C1 i).put C2 j c) C1 C2 := by
    cases C1 <;> cases C2 <;> simp_all [CarryOk, Board.put, Board.take, upd_apply]
  rw [hv, count_carry e, count_put hj, count_take hc]

theorem count_swap {l l' : Layout} {a b : Place} (h : l.cardSwap a b = .ok l') (x : CardId) :
    (placed (view l')).count x = (placed (view l)).count x := by
  obtain ⟨⟨C, i, ha⟩, D, j, hb⟩ := Layout.cardSwap_places h
  obtain ⟨_, _, _, _, _, c1, c2, h1, h2, hv⟩ := (Layout.cardSwap_at ha hb).mp h
  rw [hv, count_swapMats, count_exchange h1 h2]

theorem count_pileSplice {l l' : Layout} {a b : Place} {n : Nat} {rev : Bool} (h : l.pileSplice a n b rev = .ok l')
    (x : CardId) : (placed (view l')).count x = (placed (view l)).count x := by
  obtain ⟨k1, i, k2, j, _, _, _, _, hv⟩ := Layout.pileSplice_eq_ok.mp h
  rw [hv, count_splice]

theorem count_pileSwap {l l' : Layout} {a b : Place} (h : l.pileSwap a b = .ok l') (x : CardId) :
    (placed (view l')).count x = (placed (view l)).count x := by
  obtain ⟨k1, i, k2, j, _, _, hv⟩ := Layout.pileSwap_eq_ok.mp h
  rw [hv, count_swapAll]

/-! ## Shuffling only swaps zones -/

theorem view_swapZones (l : Layout) (k1 k2 : ZoneKey) :
    view (l.swapZones k1 k2) = ((view l).swapAll (.slot k1) (.slot k2)).swapAll (.mats k1) (.mats k2) := by
  funext C
  cases C with
  | pile k => simp [Layout.swapZones, Board.swapAll, upd_apply]
  | slot k =>
    simp only [view_slot, Layout.swapZones, Layout.zone_setZone, Board.swapAll, upd_apply]
    by_cases h1 : k = k1 <;> by_cases h2 : k = k2 <;> simp [h1, h2] <;> split <;> rfl
  | mats k =>
    simp only [view_mats, Layout.swapZones, Layout.zone_setZone, Board.swapAll, upd_apply]
    by_cases h1 : k = k1 <;> by_cases h2 : k = k2 <;> simp [h1, h2] <;> split <;> rfl

theorem count_shuffleLoop {n i : Nat} {ps : List Place} {seqs : List Nat} {l l' : Layout}
    (h : Layout.shuffleLoop n i ps seqs l = .ok l') (x : CardId) :
    (placed (view l')).count x = (placed (view l)).count x := by
  induction n generalizing i ps seqs l with
  | zero => simp only [Layout.shuffleLoop, Except.ok.injEq] at h; rw [h]
  | succ n ih =>
    cases ps with
    | nil => simp [Layout.shuffleLoop] at h
    | cons p ps =>
      simp only [Layout.shuffleLoop] at h
      split at h
      · exact ih h
      · simp only [bind_eq_ok] at h
        obtain ⟨si, _, k1, _, k2, _, h⟩ := h
        rw [ih h, view_swapZones, count_swapAll, count_swapAll]

theorem count_shuffle {l l' : Layout} {prev cur : List Place} {n : Nat} (h : l.cardShuffle prev cur n = .ok l')
    (x : CardId) : (placed (view l')).count x = (placed (view l)).count x := by
  simp only [Layout.cardShuffle, bind_eq_ok] at h
  obtain ⟨_, _, _, _, _, _, _, _, _, _, h⟩ := h
  exact count_shuffleLoop h x

/-! ## Resizing -/

theorem count_eraseAll {cs owned : List CardId} {x : CardId} :
    (Frame.eraseAll cs owned).count x = owned.count x - cs.count x := by
  induction cs generalizing owned with
  | nil => simp [Frame.eraseAll]
  | cons c cs ih =>
    have : Frame.eraseAll (c :: cs) owned = Frame.eraseAll cs (owned.erase c) := rfl
    rw [this, ih, count_erase1, count_cons1 c x cs]
    omega

theorem nodup_eraseAll {cs owned : List CardId} (h : owned.Nodup) : (Frame.eraseAll cs owned).Nodup := by
  induction cs generalizing owned with
  | nil => exact h
  | cons c cs ih => exact ih (h.erase c)

theorem mem_of_mem_eraseAll {cs owned : List CardId} {x : CardId} (h : x ∈ Frame.eraseAll cs owned) : x ∈ owned := by
  induction cs generalizing owned with
  | nil => exact h
  | cons c cs ih => exact List.mem_of_mem_erase (ih h)

theorem Inv.resize {f f' : Frame} {p : Place} {n : Nat} (h : Inv f) (ho : f.pileResize p n = .ok f') : Inv f' := by
  obtain ⟨k, hp⟩ := Frame.pileResize_place ho
  obtain ⟨h1, h2, h3⟩ := Frame.pileResize_at hp ho
  refine ⟨fun x => ?_, ?_, ?_⟩
  · rw [h1, h2]
    have a := count_placed_upd (view f.layout) (.pile k)
      ((f.layout.pile k).take n ++ List.range' f.next (n - (f.layout.pile k).length)) x
    have b := h.count x
    have e : ((f.layout.pile k).take n).count x + ((f.layout.pile k).drop n).count x = (f.layout.pile k).count x := by
      rw [← List.count_append, List.take_append_drop]
    have z := count_placed_upd (view f.layout) (.pile k) [] x
    simp only [List.count_append, List.count_reverse, count_eraseAll, view_pile, List.count_nil] at a z ⊢
    omega
  · rw [h2, List.nodup_append]
    refine ⟨(List.reverse_perm _).nodup_iff.mpr List.nodup_range', nodup_eraseAll h.nodup, ?_⟩
    intro a ha b hb hab
    subst hab
    simp at ha
    have := h.fresh a (mem_of_mem_eraseAll hb)
    omega
  · intro x hx
    rw [h2] at hx; rw [h3]
    simp only [List.mem_append, List.mem_reverse, List.mem_range'_1] at hx
    rcases hx with hx | hx
    · omega
    · have := h.fresh x (mem_of_mem_eraseAll hx); omega

/-! ## Clearing -/

theorem Inv.destructAll {f : Frame} (h : Inv f) (C : Container) :
    ∃ g, Frame.destructCards (view f.layout C) f = .ok g ∧ g.layout = f.layout ∧ g.next = f.next ∧
      ∀ l, view l = (view f.layout).upd C [] → Inv { g with layout := l } := by
  have key : ∀ (cs : List CardId) (g : Frame), (∀ x, cs.count x ≤ g.owned.count x) →
      Frame.destructCards cs g = .ok { g with owned := Frame.eraseAll cs g.owned } := by
    intro cs
    induction cs with
    | nil => intro g _; rfl
    | cons c cs ih =>
      intro g hg
      have hm : c ∈ g.owned := by
        have := hg c
        simp at this
        exact List.count_pos_iff.mp (by omega)
      simp only [Frame.destructCards, (Frame.destruct_eq_ok (f' := _)).mpr ⟨hm, rfl⟩, bind_ok]
      rw [ih]
      · rfl
      · intro x
        have := hg x
        rw [count_erase1]
        rw [count_cons1 c x cs] at this
        omega
  have hsub : ∀ x, (view f.layout C).count x ≤ f.owned.count x := by
    intro x
    have a := count_placed_upd (view f.layout) C [] x
    have b := h.count x
    simp at a
    omega
  refine ⟨_, key _ f hsub, rfl, rfl, ?_⟩
  intro l hl
  refine ⟨fun x => ?_, nodup_eraseAll h.nodup, fun x hx => h.fresh x (mem_of_mem_eraseAll hx)⟩
  have a := count_placed_upd (view f.layout) C [] x
  have b := h.count x
  simp only [hl, count_eraseAll]
  simp at a
  omega

theorem Inv.clearPiles {f : Frame} (h : Inv f) (ks : List PileKey) :
    ∃ g, Frame.clearPiles ks f = .ok g ∧ Inv g ∧ g.next = f.next ∧
      (∀ k ∈ ks, g.layout.pile k = []) ∧
      (∀ C, view f.layout C = [] → view g.layout C = []) := by
  induction ks generalizing f with
  | nil => exact ⟨f, rfl, h, rfl, by simp, fun _ h => h⟩
  | cons k ks ih =>
    obtain ⟨g, h1, h2, h3, h4⟩ := h.destructAll (.pile k)
    rw [view_pile] at h1
    have h5 := h4 (g.layout.setPile k []) (by rw [view_setPile, h2])
    obtain ⟨g', e1, e2, e3, e4, e5⟩ := ih h5
    refine ⟨g', ?_, e2, e3.trans h3, ?_, ?_⟩
    · simp only [Frame.clearPiles, h1, bind_ok]; exact e1
    · intro k' hk'
      simp only [List.mem_cons] at hk'
      by_cases hk : k' ∈ ks
      · exact e4 k' hk
      · have : k' = k := by simpa [hk] using hk'
        subst this
        have := e5 (.pile k') (by simp)
        simpa using this
    · intro C hC
      apply e5
      rw [view_setPile, upd_apply]
      split
      · rfl
      · rw [h2]; exact hC

theorem Inv.clearZones {f : Frame} (h : Inv f) (ks : List ZoneKey) :
    ∃ g, Frame.clearZones ks f = .ok g ∧ Inv g ∧ g.next = f.next ∧
      (∀ k ∈ ks, view g.layout (.slot k) = [] ∧ view g.layout (.mats k) = []) ∧
      (∀ C, view f.layout C = [] → view g.layout C = []) := by
  induction ks generalizing f with
  | nil => exact ⟨f, rfl, h, rfl, by simp, fun _ h => h⟩
  | cons k ks ih =>
    obtain ⟨g, h1, h2, h3, h4⟩ := h.destructAll (.slot k)
    rw [view_slot] at h1
    have h5 := h4 (g.layout.setCard k none) (by rw [view_setCard, h2]; rfl)
    obtain ⟨g1, i1, i2, i3, i4⟩ := h5.destructAll (.mats k)
    rw [view_mats] at i1
    have h6 := i4 (g1.layout.setMats k []) (by rw [view_setMats, i2])
    obtain ⟨g', e1, e2, e3, e4, e5⟩ := ih h6
    have hz : ∀ C, view f.layout C = [] → view g'.layout C = [] := by
      intro C hC
      apply e5
      rw [view_setMats, i2, view_setCard, h2, upd_apply, upd_apply]
      split
      · rfl
      · split
        · rfl
        · exact hC
    refine ⟨g', ?_, e2, e3.trans (i3.trans h3), ?_, hz⟩
    · simp only [Frame.clearZones, h1, bind_ok, i1]; exact e1
    · intro k' hk'
      simp only [List.mem_cons] at hk'
      by_cases hk : k' ∈ ks
      · exact e4 k' hk
      · have : k' = k := by simpa [hk] using hk'
        subst this
        refine ⟨e5 _ ?_, e5 _ ?_⟩ <;> simp [i2]

theorem Inv.clear {f : Frame} (h : Inv f) :
    ∃ g, f.clear = .ok g ∧ Inv g ∧ g.next = f.next ∧ (∀ C, view g.layout C = []) ∧ g.owned = [] := by
  obtain ⟨g1, a1, a2, a3, a4, _⟩ := h.clearPiles allPiles
  obtain ⟨g2, b1, b2, b3, b4, b5⟩ := a2.clearZones allZones
  have hall : ∀ C, view g2.layout C = [] := by
    intro C
    cases C with
    | pile k => exact b5 _ (a4 k (mem_allPiles k))
    | slot k => exact (b4 k (mem_allZones k)).1
    | mats k => exact (b4 k (mem_allZones k)).2
  refine ⟨g2, by unfold Frame.clear; rw [a1, bind_ok, b1], b2, b3.trans a3, hall, ?_⟩
  have := b2.owns.perm
  rw [placed_nil hall] at this
  exact this.symm.eq_nil

/-! ## Histories -/

theorem Inv.step {f f' : Frame} {op : FrameOp} (h : Inv f) (ho : f.step op = .ok f') : Inv f' := by
  cases op <;> simp only [Frame.step] at ho
  case add p =>
    simp only [bind_eq_ok] at ho
    obtain ⟨⟨g, c⟩, h1, h2⟩ := ho
    cases h2; exact h.add h1
  case remove p => exact h.remove ho
  case move a b =>
    simp only [bind_eq_ok] at ho
    obtain ⟨⟨g, c⟩, h1, h2⟩ := ho
    cases h2
    simp only [Frame.cardMove, bind_eq_ok] at h1
    obtain ⟨⟨l, c'⟩, h3, h4⟩ := h1
    cases h4
    exact h.of_layout (count_move h3)
  case shuffle p c n =>
    simp only [Frame.cardShuffle, bind_eq_ok] at ho
    obtain ⟨l, h1, h2⟩ := ho
    cases h2; exact h.of_layout (count_shuffle h1)
  case swap a b =>
    simp only [Frame.cardSwap, bind_eq_ok] at ho
    obtain ⟨l, h1, h2⟩ := ho
    cases h2; exact h.of_layout (count_swap h1)
  case resize p n => exact h.resize ho
  case splice a n b r =>
    simp only [Frame.pileSplice, bind_eq_ok] at ho
    obtain ⟨l, h1, h2⟩ := ho
    cases h2; exact h.of_layout (count_pileSplice h1)
  case pswap a b =>
    simp only [Frame.pileSwap, bind_eq_ok] at ho
    obtain ⟨l, h1, h2⟩ := ho
    cases h2; exact h.of_layout (count_pileSwap h1)
  case clear =>
    obtain ⟨g, h1, h2, _⟩ := h.clear
    rw [h1] at ho; cases ho; exact h2

theorem Inv.run {f f' : Frame} {ops : List FrameOp} (h : Inv f) (ho : f.run ops = .ok f') : Inv f' := by
  induction ops generalizing f with
  | nil => simp only [Frame.run, Except.ok.injEq] at ho; exact ho ▸ h
  | cons op ops ih =>
    simp only [Frame.run, bind_eq_ok] at ho
    obtain ⟨g, h1, h2⟩ := ho
    exact ih (h.step h1) h2

end Ygo
