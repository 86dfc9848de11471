import Verif.Lemmas.Release

set_option linter.unusedSimpArgs false

namespace Ygo
open Ygo.Spec

/-! ## Boards that are views -/

/-- Every slot holds one pointer. -/
def Slotted (B : PtrBoard) : Prop := ∀ k, (B (.slot k)).length = 1

def ofPtrs (B : PtrBoard) : RawLayout := ⟨fun k => B (.pile k), fun k => ⟨(B (.slot k)).head?.join, B (.mats k)⟩⟩

theorem rawView_ofPtrs {B : PtrBoard} (h : Slotted B) : rawView (ofPtrs B) = B := by
  funext C
  cases C with
  | pile k => rfl
  | mats k => rfl
  | slot k =>
    obtain ⟨c, hc⟩ := List.length_eq_one_iff.mp (h k)
    simp [ofPtrs, hc]

theorem slotted_rawView (l : RawLayout) : Slotted (rawView l) := fun k => by simp

theorem Slotted.upd_pile {B : PtrBoard} (h : Slotted B) (k : PileKey) (v : List Ptr) : Slotted (B.upd (.pile k) v) := fun k' => by
  rw [pupd_ne (by simp)]; exact h k'
theorem Slotted.upd_mats {B : PtrBoard} (h : Slotted B) (k : ZoneKey) (v : List Ptr) : Slotted (B.upd (.mats k) v) := fun k' => by
  rw [pupd_ne (by simp)]; exact h k'
theorem Slotted.upd_one {B : PtrBoard} (h : Slotted B) (C : Container) (v : List Ptr) (hv : v.length = (B C).length) : Slotted (B.upd C v) := fun k => by
  rw [pupd_apply]; split
  · rename_i e; rw [hv, ← e]; exact h k
  · exact h k
theorem Slotted.put {B : PtrBoard} (h : Slotted B) (C : Container) (i : Nat) (c : Ptr) : Slotted (B.put C i c) := by
  cases C with
  | pile k => exact h.upd_pile _ _
  | slot k => exact h.upd_one _ _ (by rw [h k]; rfl)
  | mats k => exact h.upd_mats _ _
theorem Slotted.take {B : PtrBoard} (h : Slotted B) (C : Container) (i : Nat) : Slotted (B.take C i) := by
  cases C with
  | pile k => exact h.upd_pile _ _
  | slot k => exact h.upd_one _ _ (by rw [h k]; rfl)
  | mats k => exact h.upd_mats _ _
theorem Slotted.swapMats {B : PtrBoard} (h : Slotted B) (C1 C2 : Container) : Slotted (B.swapMats C1 C2) := by
  cases C1 <;> cases C2 <;> first | exact h | exact (h.upd_mats _ _).upd_mats _ _
theorem Slotted.exchange {B : PtrBoard} (h : Slotted B) (C1 : Container) (i : Nat) (C2 : Container) (j : Nat) (c1 c2 : Ptr) :
    Slotted (B.exchange C1 i C2 j c1 c2) :=
  (h.upd_one _ _ (by simp)).upd_one _ _ (by simp)

/-! ## One call -/

namespace RawFrame

theorem rawTable_mk (l : RawLayout) (o : List CardId) (x : CardId) : rawTable ⟨l, o, x⟩ = ⟨rawView l, x⟩ := rfl

/-- Which calls return, and what they make of the table. -/
theorem step_table {f : RawFrame} {op : FrameOp} {T' : PtrTable} (hop : ¬ IsShuffle op) :
    (∃ f', f.step op = .ok f' ∧ rawTable f' = T') ↔ (rawTable f).Step op T' := by
  have hs := slotted_rawView f.layout
  have eta : (⟨f.layout, f.owned, f.next⟩ : RawFrame) = f := rfl
  cases op with
  | shuffle p c n => exact absurd trivial hop
  | add p =>
    simp only [step, cardAdd, construct, bind_eq_ok, pure_eq_ok, Except.ok.injEq, RawLayout.cardInsert_eq_ok, PtrTable.Step, rawTable]
    constructor
    · rintro ⟨f', ⟨l, ⟨C, i, h1, h2, h3⟩, rfl⟩, rfl⟩; exact ⟨C, i, h1, h2, by rw [h3]⟩
    · rintro ⟨C, i, h1, h2, rfl⟩
      exact ⟨_, ⟨ofPtrs _, ⟨C, i, h1, h2, rawView_ofPtrs (hs.put C i _)⟩, rfl⟩, by rw [rawView_ofPtrs (hs.put C i _)]⟩
  | remove p =>
    simp only [step, cardRemove, bind_eq_ok, destruct_eq_ok, Prod.exists, RawLayout.cardErase_eq_ok, PtrTable.Step, rawTable]
    constructor
    · rintro ⟨f', ⟨c, l, ⟨C, i, h1, h2, h3⟩, x, _, rfl⟩, rfl⟩; exact ⟨C, i, c, h1, h2, by rw [h3]⟩
    · rintro ⟨C, i, c, h1, h2, rfl⟩
      exact ⟨_, ⟨c, ofPtrs _, ⟨C, i, h1, h2, rawView_ofPtrs (hs.take C i)⟩, c, rfl, rfl⟩, by rw [rawView_ofPtrs (hs.take C i)]⟩
  | move a b =>
    simp only [step, bind_eq_ok, pure_eq_ok, Except.ok.injEq, Prod.exists, RawLayout.cardMove_eq_ok, PtrTable.Step, rawTable]
    constructor
    · rintro ⟨f', ⟨l, c, ⟨C1, i, C2, j, h1, h2, h3, h4, h5⟩, rfl⟩, rfl⟩; exact ⟨C1, i, C2, j, c, h1, h2, h3, h4, by rw [h5]⟩
    · rintro ⟨C1, i, C2, j, c, h1, h2, h3, h4, rfl⟩
      have hv := rawView_ofPtrs (((hs.take C1 i).put C2 j (some c)).swapMats C1 C2)
      exact ⟨_, ⟨ofPtrs _, c, ⟨C1, i, C2, j, h1, h2, h3, h4, hv⟩, rfl⟩, by rw [hv]⟩
  | swap a b =>
    simp only [step, within, bind_eq_ok, pure_eq_ok, Except.ok.injEq, RawLayout.cardSwap_eq_ok, PtrTable.Step, rawTable]
    constructor
    · rintro ⟨f', ⟨l, ⟨C1, i, C2, j, c1, c2, h1, h2, h3, h4, h5⟩, rfl⟩, rfl⟩; exact ⟨C1, i, C2, j, c1, c2, h1, h2, h3, h4, by rw [h5]⟩
    · rintro ⟨C1, i, C2, j, c1, c2, h1, h2, h3, h4, rfl⟩
      have hv := rawView_ofPtrs ((hs.exchange C1 (swappedIndex C1 C2 i) C2 j c1 c2).swapMats C1 C2)
      exact ⟨_, ⟨ofPtrs _, ⟨C1, i, C2, j, c1, c2, h1, h2, h3, h4, hv⟩, rfl⟩, by rw [hv]⟩
  | resize p n =>
    simp only [step, pileResize_eq_ok, PtrTable.Step, rawTable, rawView_pile]
    constructor
    · rintro ⟨f', ⟨k, i, h1, h2, h3, h4, h5⟩, rfl⟩
      exact ⟨k, i, h1, fun c hc e => h2 (e ▸ hc), by rw [h3, h5]⟩
    · rintro ⟨k, i, h1, h2, rfl⟩
      have hv := rawView_ofPtrs (hs.upd_pile k ((f.layout.pile k).take n ++ (List.range' f.next (n - (f.layout.pile k).length)).map some))
      exact ⟨⟨ofPtrs _, _, _⟩, ⟨k, i, h1, fun h => h2 _ h rfl, hv, rfl, rfl⟩, by simp only [hv]⟩
  | splice a n b r =>
    simp only [step, within, bind_eq_ok, pure_eq_ok, Except.ok.injEq, RawLayout.pileSplice_eq_ok, PtrTable.Step, rawTable]
    constructor
    · rintro ⟨f', ⟨l, ⟨k1, i, k2, j, h1, h2, h3, h4, h5⟩, rfl⟩, rfl⟩; exact ⟨k1, i, k2, j, h1, h2, h3, h4, by rw [h5]⟩
    · rintro ⟨k1, i, k2, j, h1, h2, h3, h4, rfl⟩
      have hv : rawView (ofPtrs (((rawView f.layout).cut (.pile k1) i n).paste (.pile k2) j ((rawView f.layout).block (.pile k1) i n r))) = _ :=
        rawView_ofPtrs ((hs.upd_pile _ _).upd_pile _ _)
      exact ⟨_, ⟨ofPtrs _, ⟨k1, i, k2, j, h1, h2, h3, h4, hv⟩, rfl⟩, by rw [hv]⟩
  | pswap a b =>
    simp only [step, within, bind_eq_ok, pure_eq_ok, Except.ok.injEq, RawLayout.pileSwap_eq_ok, PtrTable.Step, rawTable]
    constructor
    · rintro ⟨f', ⟨l, ⟨k1, i, k2, j, h1, h2, h5⟩, rfl⟩, rfl⟩; exact ⟨k1, i, k2, j, h1, h2, by rw [h5]⟩
    · rintro ⟨k1, i, k2, j, h1, h2, rfl⟩
      have hv : rawView (ofPtrs ((rawView f.layout).swapAll (.pile k1) (.pile k2))) = _ := rawView_ofPtrs ((hs.upd_pile _ _).upd_pile _ _)
      exact ⟨_, ⟨ofPtrs _, ⟨k1, i, k2, j, h1, h2, hv⟩, rfl⟩, by rw [hv]⟩
  | clear =>
    have e : rawView RawLayout.empty = noCards := by
      funext C; cases C <;> rfl
    simp only [step, clear_eq_ok, PtrTable.Step, rawTable, rawView_pile, rawView_mats]
    constructor
    · rintro ⟨f', ⟨h1, h2, rfl⟩, rfl⟩; exact ⟨h1, h2, by rw [e]⟩
    · rintro ⟨h1, h2, rfl⟩; exact ⟨_, ⟨h1, h2, rfl⟩, by rw [e]⟩

end RawFrame

/-! ## Counting -/

theorem count_filterMap_id (v : List Ptr) (x : CardId) : (v.filterMap id).count x = v.count (some x) := by
  induction v with
  | nil => rfl
  | cons c v ih => cases c <;> simp [List.count_cons, ih]

theorem countOn_upd (B : PtrBoard) (C : Container) (v : List Ptr) (x : CardId) :
    (cardsOn (B.upd C v)).count x + (B C).count (some x) = (cardsOn B).count x + v.count (some x) := by
  have := count_placed_upd (fun C => (B C).filterMap id) C (v.filterMap id) x
  rw [count_filterMap_id, count_filterMap_id] at this
  have e : cardsOn (B.upd C v) = placed (Board.upd (fun C => (B C).filterMap id) C (v.filterMap id)) := by
    unfold cardsOn placed
    congr 1
    funext C'
    simp only [pupd_apply, upd_apply]
    split <;> rfl
  rw [e]; exact this

theorem mem_cardsOn {B : PtrBoard} {x : CardId} : x ∈ cardsOn B ↔ ∃ C, some x ∈ B C := by
  simp only [cardsOn, List.mem_flatMap, List.mem_filterMap, id]
  constructor
  · rintro ⟨C, _, c, h, rfl⟩; exact ⟨C, h⟩
  · rintro ⟨C, h⟩; exact ⟨C, mem_containers C, _, h, rfl⟩

theorem pcount_cons1 (c x : Ptr) (l : List Ptr) : (c :: l).count x = l.count x + [c].count x := by
  rw [List.count_cons, List.count_cons (l := [])]; simp

theorem pcount_insertIdx {l : List Ptr} {i : Nat} {c x : Ptr} (h : i ≤ l.length) : (l.insertIdx i c).count x = l.count x + [c].count x := by
  rw [(insertIdx_perm c h).count_eq, pcount_cons1]

theorem pcount_eraseIdx {l : List Ptr} {i : Nat} {c x : Ptr} (h : l[i]? = some c) : (l.eraseIdx i).count x + [c].count x = l.count x := by
  rw [← (eraseIdx_perm h).count_eq, ← pcount_cons1]

theorem pcount_set {l : List Ptr} {i : Nat} {c d x : Ptr} (h : l[i]? = some c) : (l.set i d).count x + [c].count x = l.count x + [d].count x := by
  induction l generalizing i with
  | nil => simp at h
  | cons a t ih =>
    cases i with
    | zero => simp at h; subst h; simp [List.count_cons]; omega
    | succ i => simp at h; have := ih h; simp [List.count_cons] at this ⊢; omega

/-- What a call drops: the card in the slot that is written over. -/
def overwritten (B : PtrBoard) : Container → List Ptr
  | .slot k => B (.slot k)
  | _ => []

theorem countOn_put {B : PtrBoard} {C : Container} {i : Nat} {c : Ptr} {x : CardId} (h : B.Room C i) :
    (cardsOn (B.put C i c)).count x + (overwritten B C).count (some x) = (cardsOn B).count x + [c].count (some x) := by
  cases C with
  | pile k =>
    have := countOn_upd B (.pile k) ((B (.pile k)).insertIdx i c) x
    rw [pcount_insertIdx h] at this
    simp only [PtrBoard.put, overwritten, List.count_nil]; omega
  | mats k =>
    have := countOn_upd B (.mats k) ((B (.mats k)).insertIdx i c) x
    rw [pcount_insertIdx h] at this
    simp only [PtrBoard.put, overwritten, List.count_nil]; omega
  | slot k => exact countOn_upd B (.slot k) [c] x

theorem countOn_take {B : PtrBoard} {C : Container} {i : Nat} {c : Ptr} {x : CardId} (hs : Slotted B) (h : (B C)[i]? = some c) :
    (cardsOn (B.take C i)).count x + [c].count (some x) = (cardsOn B).count x := by
  cases C with
  | pile k =>
    have h1 := countOn_upd B (.pile k) ((B (.pile k)).eraseIdx i) x
    have h2 := pcount_eraseIdx (x := some x) h
    simp only [PtrBoard.take]; omega
  | mats k =>
    have h1 := countOn_upd B (.mats k) ((B (.mats k)).eraseIdx i) x
    have h2 := pcount_eraseIdx (x := some x) h
    simp only [PtrBoard.take]; omega
  | slot k =>
    have h1 := countOn_upd B (.slot k) [none] x
    obtain ⟨d, hd⟩ := List.length_eq_one_iff.mp (hs k)
    have : i = 0 ∧ d = c := by
      rw [hd] at h
      cases i with
      | zero => simpa using h
      | succ i => simp at h
    rw [hd, this.2] at h1
    simp only [PtrBoard.take]
    simpa using h1

theorem countOn_swapAll {B : PtrBoard} {C1 C2 : Container} {x : CardId} :
    (cardsOn (B.swapAll C1 C2)).count x = (cardsOn B).count x := by
  simp only [PtrBoard.swapAll]
  have a := countOn_upd B C1 (B C2) x
  have b := countOn_upd (B.upd C1 (B C2)) C2 (B C1) x
  rw [pupd_apply] at b
  split at b
  · rename_i e; subst e; simp
  · omega

theorem countOn_swapMats {B : PtrBoard} {C1 C2 : Container} {x : CardId} :
    (cardsOn (B.swapMats C1 C2)).count x = (cardsOn B).count x := by
  cases C1 <;> cases C2 <;> try rfl
  exact countOn_swapAll

theorem countOn_exchange {B : PtrBoard} {C1 C2 : Container} {i j : Nat} {c1 c2 : Ptr} {x : CardId}
    (h1 : (B C1)[i]? = some c1) (h2 : (B C2)[j]? = some c2) :
    (cardsOn (B.exchange C1 i C2 j c1 c2)).count x = (cardsOn B).count x := by
  simp only [PtrBoard.exchange]
  have a := countOn_upd B C1 ((B C1).set i c2) x
  have b := countOn_upd (B.upd C1 ((B C1).set i c2)) C2 (((B.upd C1 ((B C1).set i c2)) C2).set j c1) x
  have e1 := pcount_set (d := c2) (x := some x) h1
  have h3 : ((B.upd C1 ((B C1).set i c2)) C2)[j]? = some c2 := by
    rw [pupd_apply]
    split
    · rename_i e; subst e
      rw [List.getElem?_set]
      split
      · simp [lt_of_getElem?_some h1]
      · exact h2
    · exact h2
  have e2 := pcount_set (d := c1) (x := some x) h3
  omega

theorem countOn_splice {B : PtrBoard} {C1 C2 : Container} {i n j : Nat} {rev : Bool} {x : CardId} :
    (cardsOn ((B.cut C1 i n).paste C2 j (B.block C1 i n rev))).count x = (cardsOn B).count x := by
  have a := countOn_upd B C1 ((B C1).take i ++ (B C1).drop (i + n)) x
  have b := countOn_upd (B.cut C1 i n) C2
    ((B.cut C1 i n C2).take j ++ B.block C1 i n rev ++ (B.cut C1 i n C2).drop j) x
  have e1 : (B.block C1 i n rev).count (some x) = (((B C1).drop i).take n).count (some x) := by
    unfold PtrBoard.block; split <;> simp
  have e2 : (B C1).count (some x) = ((B C1).take i).count (some x) + ((((B C1).drop i).take n).count (some x) +
      ((B C1).drop (i + n)).count (some x)) := by
    rw [Nat.add_comm i n, Nat.add_comm n i, ← List.drop_drop, ← List.count_append, List.take_append_drop, ← List.count_append,
      List.take_append_drop]
  have e3 : ((B.cut C1 i n C2).take j).count (some x) + ((B.cut C1 i n C2).drop j).count (some x) = (B.cut C1 i n C2).count (some x) := by
    rw [← List.count_append, List.take_append_drop]
  unfold PtrBoard.paste
  simp only [List.count_append] at a b
  unfold PtrBoard.cut at *
  omega

theorem rawView_swapZones (l : RawLayout) (k1 k2 : ZoneKey) :
    rawView (l.swapZones k1 k2) = ((rawView l).swapAll (.slot k1) (.slot k2)).swapAll (.mats k1) (.mats k2) := by
  funext C
  cases C with
  | pile k => simp [RawLayout.swapZones, PtrBoard.swapAll, pupd_apply]
  | slot k =>
    simp only [rawView_slot, RawLayout.swapZones, RawLayout.zone_setZone, PtrBoard.swapAll, pupd_apply]
    by_cases h1 : k = k1 <;> by_cases h2 : k = k2 <;> simp [h1, h2] <;> split <;> rfl
  | mats k =>
    simp only [rawView_mats, RawLayout.swapZones, RawLayout.zone_setZone, PtrBoard.swapAll, pupd_apply]
    by_cases h1 : k = k1 <;> by_cases h2 : k = k2 <;> simp [h1, h2] <;> split <;> rfl

/-- Some zones change places. -/
def permuted (π : ZoneKey → ZoneKey) (l : RawLayout) : RawLayout := ⟨l.pile, fun k => l.zone (π k)⟩

theorem countOn_shuffleLoop {n i : Nat} {ps : List Place} {seqs : List Nat} {l l' : RawLayout}
    (h : RawLayout.shuffleLoop n i ps seqs l = .ok l') (x : CardId) :
    (cardsOn (rawView l')).count x = (cardsOn (rawView l)).count x := by
  induction n generalizing i ps seqs l with
  | zero => simp only [RawLayout.shuffleLoop, Except.ok.injEq] at h; rw [h]
  | succ n ih =>
    cases ps with
    | nil => simp [RawLayout.shuffleLoop] at h
    | cons p ps =>
      simp only [RawLayout.shuffleLoop] at h
      split at h
      · exact ih h
      · simp only [bind_eq_ok] at h
        obtain ⟨si, _, k1, _, k2, _, h⟩ := h
        rw [ih h, rawView_swapZones, countOn_swapAll, countOn_swapAll]

theorem countOn_shuffle {l l' : RawLayout} {prev cur : List Place} {n : Nat} (h : l.cardShuffle prev cur n = .ok l')
    (x : CardId) : (cardsOn (rawView l')).count x = (cardsOn (rawView l)).count x := by
  simp only [RawLayout.cardShuffle, bind_eq_ok] at h
  obtain ⟨_, _, _, _, h⟩ := h
  exact countOn_shuffleLoop h x

theorem count_visited (l : RawLayout) (x : CardId) : (RawFrame.visited l).count x = (cardsOn (rawView l)).count x := by
  have e : (cardsOn (rawView l)).count x =
      ((allPiles.flatMap fun k => (l.pile k).filterMap id) ++ (allZones.flatMap fun k => (l.zone k).card.toList) ++
        allZones.flatMap fun k => (l.zone k).materials.filterMap id).count x := by
    unfold cardsOn containers
    rw [List.flatMap_append, List.flatMap_append, List.flatMap_map, List.flatMap_map, List.flatMap_map]
    have : (fun k => List.filterMap id (rawView l (.slot k))) = fun k => (l.zone k).card.toList := by
      funext k
      simp only [rawView_slot]
      cases (l.zone k).card <;> rfl
    rw [this]; rfl
  have s : ∀ (zs : List ZoneKey) (f g : ZoneKey → List CardId),
      (zs.flatMap fun k => f k ++ g k).count x = (zs.flatMap f).count x + (zs.flatMap g).count x := by
    intro zs f g
    induction zs with
    | nil => rfl
    | cons z zs ih => simp only [List.flatMap_cons, List.count_append, ih]; omega
  rw [e, RawFrame.visited, List.count_append, s, List.count_append, List.count_append]
  omega

end Ygo
