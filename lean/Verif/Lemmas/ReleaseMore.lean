import Verif.Lemmas.ReleaseHistory
import Verif.Lemmas.ReleaseSame

set_option linter.unusedSimpArgs false

namespace Ygo
open Ygo.Spec

/-! ## How calls can fail -/

/-- The outcome is a value or one of the failures `P` allows. -/
def Only {α : Type} (P : Err → Prop) (x : Res α) : Prop := ∀ e, x = .error e → P e

namespace Only
variable {α β : Type} {P : Err → Prop}

theorem ok (a : α) : Only P (.ok a : Res α) := fun _ h => by cases h
theorem pure (a : α) : Only P (Pure.pure a : Res α) := fun _ h => by cases h
theorem bind {x : Res α} {g : α → Res β} (hx : Only P x) (hg : ∀ a, Only P (g a)) : Only P (x >>= g) := by
  intro e h
  cases hr : x with
  | ok a => rw [hr] at h; exact hg a e h
  | error e' => rw [hr] at h; cases h; exact hx _ hr
theorem ub (h : P .ub) : Only P (Ygo.ub : Res α) := fun e he => by cases he; exact h
theorem massert (h : P .assert) (p : Prop) [Decidable p] : Only P (Ygo.massert p) := by
  intro e he; unfold Ygo.massert at he; split at he <;> cases he; exact h
theorem guardUb (h : P .ub) (p : Prop) [Decidable p] : Only P (Ygo.guardUb p) := by
  intro e he; unfold Ygo.guardUb at he; split at he <;> cases he; exact h
theorem orUb (h : P .ub) (o : Option α) : Only P (Ygo.orUb o) := by
  intro e he; cases o <;> cases he; exact h
theorem conIdx (h : P .ub) (c : Int) : Only P (Ygo.conIdx c) := by
  unfold Ygo.conIdx; split; exact ok _; split; exact ok _; exact ub h
theorem zoneAt (h : P .ub) (c : Int) (l : ZoneLoc) (s : Nat) : Only P (Ygo.zoneAt c l s) := by
  unfold Ygo.zoneAt; refine bind (conIdx h c) fun _ => ?_; split; exact pure _; exact ub h
end Only

/-- Take a computation apart. -/
macro "only" : tactic => `(tactic| repeat' (first
  | assumption
  | exact Only.ok _ | exact Only.pure _ | exact Only.ub (by first | rfl | exact .inl rfl | exact .inr rfl) | exact Only.massert (by first | rfl | exact .inl rfl | exact .inr rfl) _ | exact Only.guardUb (by first | rfl | exact .inl rfl | exact .inr rfl) _
  | exact Only.orUb (by first | rfl | exact .inl rfl | exact .inr rfl) _ | exact Only.conIdx (by first | rfl | exact .inl rfl | exact .inr rfl) _ | exact Only.zoneAt (by first | rfl | exact .inl rfl | exact .inr rfl) _ _ _
  | refine Only.bind ?_ fun _ => ?_
  | split))

section Raw
open Raw
/-- Undefined behaviour. -/
def IsUb (e : Err) : Prop := e = .ub

theorem isUb : IsUb .ub := rfl

abbrev OnlyUb {α : Type} (x : Res α) : Prop := Only IsUb x

theorem Raw.pileKey_only (c : Int) (l : Nat) : OnlyUb (Raw.pileKey c l) := by unfold Raw.pileKey; only
theorem Raw.zoneKey_only (c : Int) (l s : Nat) : OnlyUb (Raw.zoneKey c l s) := by unfold Raw.zoneKey; only
theorem Raw.pileOf_only (p : Place) : OnlyUb (pileOf p) := Raw.pileKey_only _ _
theorem Raw.zoneOf_only (p : Place) : OnlyUb (zoneOf p) := Raw.zoneKey_only _ _ _
theorem Raw.rawTake_only (p : List Ptr) (i : Nat) : OnlyUb (rawTake p i) := by unfold rawTake; only
theorem Raw.rawInsert_only (p : List Ptr) (i : Nat) (c : Ptr) : OnlyUb (rawInsert p i c) := by unfold rawInsert; only
theorem RawFrame.destruct_only (f : RawFrame) (c : Ptr) : OnlyUb (f.destruct c) := by unfold RawFrame.destruct; only
theorem RawLayout.read_only (l : RawLayout) (r : Layout.Ref) : OnlyUb (l.read r) := by cases r <;> unfold RawLayout.read <;> only
theorem RawLayout.swapRefs_only (l : RawLayout) (a b : Layout.Ref) : OnlyUb (l.swapRefs a b) := by
  have := l.read_only
  unfold RawLayout.swapRefs
  exact .bind (this a) fun _ => .bind (this b) fun _ => .pure _

macro "raw_only" : tactic => `(tactic| repeat' (first
  | assumption
  | exact Only.ok _ | exact Only.pure _ | exact Only.ub isUb | exact Only.guardUb isUb _ | exact Only.orUb isUb _
  | exact Raw.pileOf_only _ | exact Raw.zoneOf_only _ | exact Raw.zoneKey_only _ _ _ | exact Raw.rawTake_only _ _ | exact Raw.rawInsert_only _ _ _
  | exact RawFrame.destruct_only _ _ | exact RawLayout.swapRefs_only _ _ _
  | refine Only.bind ?_ fun _ => ?_
  | split))

theorem RawLayout.shuffleSeqs_only (n : Nat) (ps : List Place) : OnlyUb (RawLayout.shuffleSeqs n ps) := by
  induction n generalizing ps with
  | zero => exact .ok _
  | succ n ih => cases ps with
    | nil => exact .ub isUb
    | cons p ps => exact .bind (ih ps) fun _ => .pure _

theorem RawLayout.shuffleLoop_only (n i : Nat) (ps : List Place) (seqs : List Nat) (l : RawLayout) : OnlyUb (RawLayout.shuffleLoop n i ps seqs l) := by
  induction n generalizing i ps seqs l with
  | zero => exact .ok _
  | succ n ih => cases ps with
    | nil => exact .ub isUb
    | cons p ps =>
      simp only [RawLayout.shuffleLoop]
      split
      · exact ih _ _ _ _
      · exact .bind (.orUb isUb _) fun _ => .bind (Raw.zoneKey_only _ _ _) fun _ => .bind (Raw.zoneOf_only _) fun _ => ih _ _ _ _

theorem RawFrame.shrinkPile_only (k : PileKey) (n : Nat) (f : RawFrame) : OnlyUb (RawFrame.shrinkPile k n f) := by
  induction n generalizing f with
  | zero => exact .ok _
  | succ n ih => exact .bind (.orUb isUb _) fun _ => .bind (RawFrame.destruct_only _ _) fun _ => ih _

theorem RawFrame.destructCards_only (cs : List Ptr) (f : RawFrame) : OnlyUb (RawFrame.destructCards cs f) := by
  induction cs generalizing f with
  | nil => exact .ok _
  | cons c cs ih => exact .bind (RawFrame.destruct_only _ _) fun _ => ih _

theorem RawFrame.clearPiles_only (ks : List PileKey) (f : RawFrame) : OnlyUb (RawFrame.clearPiles ks f) := by
  induction ks generalizing f with
  | nil => exact .ok _
  | cons c cs ih => exact .bind (RawFrame.destructCards_only _ _) fun _ => ih _

theorem RawFrame.clearZones_only (ks : List ZoneKey) (f : RawFrame) : OnlyUb (RawFrame.clearZones ks f) := by
  induction ks generalizing f with
  | nil => exact .ok _
  | cons c cs ih => rw [RawFrame.clearZones_cons]; exact .bind (RawFrame.destructCards_only _ _) fun _ => ih _

/-- Without asserts a call returns or is undefined. -/
theorem RawFrame.step_only (f : RawFrame) (op : FrameOp) : OnlyUb (f.step op) := by
  cases op with
  | add p => simp only [RawFrame.step, RawFrame.cardAdd, RawLayout.cardInsert]; raw_only
  | remove p => simp only [RawFrame.step, RawFrame.cardRemove, RawLayout.cardErase]; raw_only
  | move a b => simp only [RawFrame.step, RawLayout.cardMove]; raw_only
  | shuffle p c n =>
    simp only [RawFrame.step, RawFrame.within, RawLayout.cardShuffle]
    exact .bind (.bind (.guardUb isUb _) fun _ => .bind (RawLayout.shuffleSeqs_only _ _) fun _ => RawLayout.shuffleLoop_only _ _ _ _ _) fun _ => .pure _
  | swap a b => simp only [RawFrame.step, RawFrame.within, RawLayout.cardSwap]; raw_only
  | resize p n =>
    simp only [RawFrame.step, RawFrame.pileResize]
    refine .bind (Raw.pileOf_only _) fun _ => ?_
    split
    · exact .pure _
    · split
      · exact RawFrame.shrinkPile_only _ _ _
      · exact .pure _
  | splice a n b r => simp only [RawFrame.step, RawFrame.within, RawLayout.pileSplice]; raw_only
  | pswap a b => simp only [RawFrame.step, RawFrame.within, RawLayout.pileSwap]; raw_only
  | clear => exact .bind (RawFrame.clearPiles_only _ _) fun _ => RawFrame.clearZones_only _ _

theorem RawFrame.run_only (f : RawFrame) (ops : List FrameOp) : OnlyUb (f.run ops) := by
  induction ops generalizing f with
  | nil => exact .ok _
  | cons op ops ih => exact .bind (f.step_only op) fun _ => ih _

end Raw

/-! ## Null pointers -/

theorem _root_.Ygo.Spec.Full.upd {B : PtrBoard} (h : Full B) {C : Container} {v : List Ptr} (hv : (∀ k, C ≠ .slot k) → none ∉ v) : Full (B.upd C v) := by
  intro C' hC'
  rw [pupd_apply]
  split
  · rename_i e; subst e; exact hv hC'
  · exact h C' hC'

theorem mem_insertIdx_ptr {l : List Ptr} {i : Nat} {c x : Ptr} (h : x ∈ l.insertIdx i c) : x = c ∨ x ∈ l := by
  induction l generalizing i with
  | nil => cases i <;> simp at h; exact .inl h
  | cons a l ih =>
    cases i with
    | zero => simpa using h
    | succ i =>
      simp only [List.insertIdx_succ_cons, List.mem_cons] at h
      rcases h with h | h
      · exact .inr (by simp [h])
      · rcases ih h with h | h
        · exact .inl h
        · exact .inr (by simp [h])

theorem _root_.Ygo.Spec.Full.put {B : PtrBoard} (h : Full B) (C : Container) (i : Nat) (c : CardId) : Full (B.put C i (some c)) := by
  cases C with
  | slot k => exact h.upd fun hk => absurd rfl (hk k)
  | pile k => exact h.upd fun hk hm => by rcases mem_insertIdx_ptr hm with e | e; cases e; exact h _ hk e
  | mats k => exact h.upd fun hk hm => by rcases mem_insertIdx_ptr hm with e | e; cases e; exact h _ hk e

theorem _root_.Ygo.Spec.Full.take {B : PtrBoard} (h : Full B) (C : Container) (i : Nat) : Full (B.take C i) := by
  cases C with
  | slot k => exact h.upd fun hk => absurd rfl (hk k)
  | pile k => exact h.upd fun hk hm => h _ hk (List.mem_of_mem_eraseIdx hm)
  | mats k => exact h.upd fun hk hm => h _ hk (List.mem_of_mem_eraseIdx hm)

theorem _root_.Ygo.Spec.Full.swapMats_iff {B : PtrBoard} {C1 C2 : Container} : Full (B.swapMats C1 C2) ↔ Full B := by
  have one : ∀ {B : PtrBoard} {C1 C2 : Container}, Full B → Full (B.swapMats C1 C2) := by
    intro B C1 C2 h
    cases C1 <;> cases C2 <;> first | exact h | exact (h.upd fun _ => h _ (by simp)).upd fun _ => h _ (by simp)
  refine ⟨fun h => ?_, one⟩
  have e : (B.swapMats C1 C2).swapMats C1 C2 = B := by
    cases C1 <;> cases C2 <;> try rfl
    rename_i k1 k2
    funext C
    simp only [PtrBoard.swapMats, pupd_apply]
    repeat' split
    all_goals simp_all
  rw [← e]; exact one h

/-- When the swap of two pointers puts a null pointer into a pile or among materials. -/
theorem _root_.Ygo.Spec.Full.exchange_iff {B : PtrBoard} {C1 C2 : Container} {i j : Nat} {c1 c2 : Ptr} (h : Full B) (h1 : (B C1)[i]? = some c1)
    (h2 : (B C2)[j]? = some c2) :
    Full (B.exchange C1 i C2 j c1 c2) ↔ ((∀ k, C1 ≠ .slot k) → c2 ≠ none) ∧ ((∀ k, C2 ≠ .slot k) → c1 ≠ none) := by
  have hi : i < (B C1).length := List.getElem?_eq_some_iff.mp h1 |>.1
  have hj : j < (B C2).length := List.getElem?_eq_some_iff.mp h2 |>.1
  constructor
  · intro hf
    constructor
    · intro hC e
      subst e
      by_cases hc : C2 = C1
      · subst hc; exact h _ hC (List.mem_of_getElem? h2)
      · apply hf C1 hC
        simp only [PtrBoard.exchange]
        rw [pupd_ne (fun e => hc e.symm), pupd_self]
        exact List.mem_set hi _
    · intro hC e
      subst e
      apply hf C2 hC
      simp only [PtrBoard.exchange, pupd_self]
      exact List.mem_set (by rw [pupd_apply]; split <;> simp_all) _
  · rintro ⟨a, b⟩
    refine (h.upd fun hk hm => ?_).upd fun hk hm => ?_
    · rcases List.mem_or_eq_of_mem_set hm with e | e
      · exact h _ hk e
      · exact a hk e.symm
    · rcases List.mem_or_eq_of_mem_set hm with e | e
      · rw [pupd_apply] at e
        split at e
        · rename_i hcc
          rcases List.mem_or_eq_of_mem_set e with e | e
          · exact h _ (hcc ▸ hk) e
          · exact a (hcc ▸ hk) e.symm
        · exact h _ hk e
      · exact b hk e.symm

theorem _root_.Ygo.Spec.Full.swapZones {l : RawLayout} (h : Full (rawView l)) (k1 k2 : ZoneKey) : Full (rawView (l.swapZones k1 k2)) := by
  rw [rawView_swapZones]
  have h' : Full ((rawView l).swapAll (.slot k1) (.slot k2)) := (h.upd fun hk => absurd rfl (hk _)).upd fun hk => absurd rfl (hk _)
  exact (h'.upd fun _ => h' _ (by simp)).upd fun _ => h' _ (by simp)

theorem _root_.Ygo.Spec.Full.shuffleLoop {n i : Nat} {ps : List Place} {seqs : List Nat} {l l' : RawLayout} (hf : Full (rawView l))
    (h : RawLayout.shuffleLoop n i ps seqs l = .ok l') : Full (rawView l') := by
  induction n generalizing i ps seqs l with
  | zero => simp only [RawLayout.shuffleLoop, Except.ok.injEq] at h; rw [← h]; exact hf
  | succ n ih =>
    cases ps with
    | nil => simp [RawLayout.shuffleLoop] at h
    | cons p ps =>
      simp only [RawLayout.shuffleLoop] at h
      split at h
      · exact ih hf h
      · simp only [bind_eq_ok] at h
        obtain ⟨si, _, k1, _, k2, _, h⟩ := h
        exact ih (hf.swapZones k1 k2) h

theorem _root_.Ygo.Spec.Full.noCards : Full noCards := by
  intro C hC
  cases C with
  | slot k => exact absurd rfl (hC k)
  | pile k => simp [Spec.noCards]
  | mats k => simp [Spec.noCards]

/-- Exactly the swaps of an empty slot with a place in a pile or among materials put a null pointer there. -/
theorem _root_.Ygo.Spec.Full.step_iff {f f' : RawFrame} {op : FrameOp} (hf : Full (rawView f.layout)) (h : f.step op = .ok f') :
    Full (rawView f'.layout) ↔ ¬ SwapsNull (rawView f.layout) op := by
  have hs := slotted_rawView f.layout
  have here : (¬ IsShuffle op) → (rawTable f).Step op (rawTable f') := fun hop => (RawFrame.step_table hop).mp ⟨f', h, rfl⟩
  cases op with
  | shuffle p c n =>
    simp only [RawFrame.step, RawFrame.within, RawLayout.cardShuffle, bind_eq_ok, pure_eq_ok, Except.ok.injEq] at h
    obtain ⟨l, ⟨_, _, _, _, h⟩, rfl⟩ := h
    simpa [SwapsNull] using hf.shuffleLoop h
  | add p =>
    obtain ⟨C, i, h1, h2, h3⟩ := here id
    simp only [rawTable, PtrTable.mk.injEq] at h3
    simpa [SwapsNull, h3.1] using hf.put C i _
  | remove p =>
    obtain ⟨C, i, c, h1, h2, h3⟩ := here id
    simp only [rawTable, PtrTable.mk.injEq] at h3
    simpa [SwapsNull, h3.1] using hf.take C i
  | move a b =>
    obtain ⟨C1, i, C2, j, c, h1, h2, h3, h4, h5⟩ := here id
    simp only [rawTable, PtrTable.mk.injEq] at h5
    simpa [SwapsNull, h5.1, Full.swapMats_iff] using (hf.take C1 i).put C2 j c
  | resize p n =>
    obtain ⟨k, i, h1, h2, h3⟩ := here id
    simp only [rawTable, PtrTable.mk.injEq] at h3
    simp only [SwapsNull, not_false_eq_true, iff_true, h3.1]
    refine hf.upd fun hk hm => ?_
    rcases List.mem_append.mp hm with e | e
    · exact hf _ hk (List.mem_of_mem_take e)
    · simp at e
  | splice a n b r =>
    obtain ⟨k1, i, k2, j, h1, h2, h3, h4, h5⟩ := here id
    simp only [rawTable, PtrTable.mk.injEq] at h5
    simp only [SwapsNull, not_false_eq_true, iff_true, h5.1]
    have hc : Full ((rawView f.layout).cut (.pile k1) i n) := hf.upd fun hk hm => by
      rcases List.mem_append.mp hm with e | e
      · exact hf _ hk (List.mem_of_mem_take e)
      · exact hf _ hk (List.mem_of_mem_drop e)
    refine hc.upd fun hk hm => ?_
    simp only [List.mem_append] at hm
    rcases hm with (e | e) | e
    · exact hc _ hk (List.mem_of_mem_take e)
    · have hb : none ∈ rawView f.layout (.pile k1) := by
        unfold PtrBoard.block at e
        split at e
        · exact List.mem_of_mem_drop (List.mem_of_mem_take (List.mem_reverse.mp e))
        · exact List.mem_of_mem_drop (List.mem_of_mem_take e)
      exact hf _ (by simp) hb
    · exact hc _ hk (List.mem_of_mem_drop e)
  | pswap a b =>
    obtain ⟨k1, i, k2, j, h1, h2, h5⟩ := here id
    simp only [rawTable, PtrTable.mk.injEq] at h5
    simp only [SwapsNull, not_false_eq_true, iff_true, h5.1]
    exact (hf.upd fun _ => hf _ (by simp)).upd fun _ => hf _ (by simp)
  | clear =>
    obtain ⟨h1, h2, h3⟩ := here id
    simp only [rawTable, PtrTable.mk.injEq] at h3
    simpa [SwapsNull, h3.1] using Full.noCards
  | swap a b =>
    obtain ⟨C1, i, C2, j, c1, c2, h1, h2, h3, h4, h5⟩ := here id
    simp only [rawTable, PtrTable.mk.injEq] at h3 h4 h5
    rw [h5.1, Full.swapMats_iff, hf.exchange_iff h3 h4]
    have s1 : ∀ k, C1 = .slot k → rawView f.layout (.slot k) = [c1] := by
      rintro k rfl
      simp only [rawView_slot] at h3 ⊢
      rw [(List.mem_singleton.mp (List.mem_of_getElem? h3))]
    have s2 : ∀ k, C2 = .slot k → rawView f.layout (.slot k) = [c2] := by
      rintro k rfl
      simp only [rawView_slot] at h4 ⊢
      rw [(List.mem_singleton.mp (List.mem_of_getElem? h4))]
    have p1 : (∀ k, C1 ≠ .slot k) → c1 ≠ none := fun hk e => hf _ hk (e ▸ List.mem_of_getElem? h3)
    have p2 : (∀ k, C2 ≠ .slot k) → c2 ≠ none := fun hk e => hf _ hk (e ▸ List.mem_of_getElem? h4)
    constructor
    · rintro ⟨a1, a2⟩ ⟨k, i', C, j', hn, hC, ⟨b1, b2⟩ | ⟨b1, b2⟩⟩
      · obtain ⟨e1, _⟩ := At.unique h1 b1
        obtain ⟨e2, _⟩ := At.unique h2 b2
        have := s1 k e1
        rw [hn] at this
        exact a2 (e2 ▸ hC) (by simpa using this.symm)
      · obtain ⟨e1, _⟩ := At.unique h1 b1
        obtain ⟨e2, _⟩ := At.unique h2 b2
        have := s2 k e2
        rw [hn] at this
        exact a1 (e1 ▸ hC) (by simpa using this.symm)
    · intro hno
      constructor
      · intro hk e
        subst e
        cases C2 with
        | slot k => exact hno ⟨k, j, C1, i, s2 k rfl, hk, .inr ⟨h1, h2⟩⟩
        | pile k => exact p2 (by simp) rfl
        | mats k => exact p2 (by simp) rfl
      · intro hk e
        subst e
        cases C1 with
        | slot k => exact hno ⟨k, i, C2, j, s1 k rfl, hk, .inl ⟨h1, h2⟩⟩
        | pile k => exact p1 (by simp) rfl
        | mats k => exact p1 (by simp) rfl

/-! ## Shuffles -/

theorem swapZones_permuted (l : RawLayout) (k1 k2 : ZoneKey) : l.swapZones k1 k2 = permuted (exchanged k1 k2) l := by
  apply RawLayout.ext'
  · intro k; simp [RawLayout.swapZones, permuted]
  · intro k
    simp only [RawLayout.swapZones, permuted, RawLayout.zone_setZone, exchanged]
    split
    · rfl
    · split <;> rfl
  · intro k
    simp only [RawLayout.swapZones, permuted, RawLayout.zone_setZone, exchanged]
    split
    · rfl
    · split <;> rfl

theorem exchanged_twice (k1 k2 k : ZoneKey) : exchanged k1 k2 (exchanged k1 k2 k) = k := by
  unfold exchanged
  split <;> split <;> simp_all

/-- A shuffle does not look at cards: it rearranges zones, always in the same way. -/
theorem shuffleLoop_permuted {n i : Nat} {ps : List Place} {seqs : List Nat} {l l' : RawLayout}
    (h : RawLayout.shuffleLoop n i ps seqs l = .ok l') :
    ∃ π σ : ZoneKey → ZoneKey, (∀ k, σ (π k) = k) ∧ (∀ k, π (σ k) = k) ∧
      ∀ m, RawLayout.shuffleLoop n i ps seqs m = .ok (permuted π m) := by
  induction n generalizing i ps seqs l with
  | zero => exact ⟨id, id, fun _ => rfl, fun _ => rfl, fun m => rfl⟩
  | succ n ih =>
    cases ps with
    | nil => simp [RawLayout.shuffleLoop] at h
    | cons p ps =>
      simp only [RawLayout.shuffleLoop] at h ⊢
      by_cases he : p.isEmpty = true
      · simp only [he, if_true] at h ⊢
        exact ih h
      · simp only [he] at h ⊢
        simp only [Bool.false_eq_true, if_false, bind_eq_ok] at h ⊢
        obtain ⟨si, a1, k1, a2, k2, a3, h⟩ := h
        obtain ⟨π, σ, e1, e2, e3⟩ := ih h
        refine ⟨fun k => exchanged k1 k2 (π k), fun k => σ (exchanged k1 k2 k), ?_, ?_, ?_⟩
        · intro k; simp only [exchanged_twice, e1]
        · intro k; simp only [e2, exchanged_twice]
        · intro m
          refine ⟨si, a1, k1, a2, k2, a3, ?_⟩
          rw [e3, swapZones_permuted]
          rfl

theorem replaceFirst_get? (a b : Nat) (l : List Nat) (j : Nat) :
    (Layout.replaceFirst a b l)[j]? = l[j]? ∨ (l[j]? = some a ∧ (Layout.replaceFirst a b l)[j]? = some b) := by
  induction l generalizing j with
  | nil => simp [Layout.replaceFirst]
  | cons s l ih =>
    simp only [Layout.replaceFirst]
    by_cases hs : s = a
    · subst hs
      simp only [ne_eq, not_true, if_false]
      cases j with
      | zero => simp
      | succ j => simp
    · simp only [ne_eq, hs, not_false_eq_true, if_true]
      cases j with
      | zero => simp
      | succ j => simpa using ih j

/-- Entry `j` is a sequence of the row. -/
def InRow (loc : ZoneLoc) (seqs : List Nat) (j : Nat) : Prop := ∃ s, seqs[j]? = some s ∧ s < loc.limit

theorem inRow_after {loc : ZoneLoc} {seqs : List Nat} {i j s p : Nat} (hs : s < loc.limit) (hp : p < loc.limit) (hij : i ≠ j) :
    InRow loc ((Layout.replaceFirst p s seqs).set i p) j ↔ InRow loc seqs j := by
  unfold InRow
  rw [List.getElem?_set_ne hij]
  rcases replaceFirst_get? p s seqs j with e | ⟨e1, e2⟩
  · rw [e]
  · rw [e1, e2]
    exact ⟨fun _ => ⟨p, rfl, hp⟩, fun _ => ⟨s, rfl, hs⟩⟩

theorem zoneLoc_code_inj {a b : ZoneLoc} (h : a.code = b.code) : a = b := by
  cases a <;> cases b <;> first | rfl | (simp [ZoneLoc.code] at h)

/-- When the second loop returns: every new place names a zone of the row or is empty, and where it names a zone the old sequence is one
of the row. -/
theorem shuffleLoop_returns {n i : Nat} {ps : List Place} {seqs : List Nat} {l : RawLayout} {loc : ZoneLoc}
    (hrow : ∀ q ∈ ps, q.isEmpty = false → q.loc = loc.code) :
    (∃ l', RawLayout.shuffleLoop n i ps seqs l = .ok l') ↔
      ∀ m, m < n → ∃ q, ps[m]? = some q ∧ (q.isEmpty = false → InRow loc seqs (i + m) ∧ ∃ k, Names q k) := by
  induction n generalizing i ps seqs l with
  | zero => simp [RawLayout.shuffleLoop]
  | succ n ih =>
    cases ps with
    | nil =>
      simp only [RawLayout.shuffleLoop, ub]
      constructor
      · rintro ⟨l', h⟩; cases h
      · intro h; obtain ⟨q, hq, _⟩ := h 0 (by omega); simp at hq
    | cons p ps =>
      have hrow' : ∀ q ∈ ps, q.isEmpty = false → q.loc = loc.code := fun q hq => hrow q (List.mem_cons_of_mem _ hq)
      simp only [RawLayout.shuffleLoop]
      by_cases he : p.isEmpty = true
      · simp only [he, if_true]
        rw [ih hrow']
        constructor
        · intro h m hm
          cases m with
          | zero => exact ⟨p, rfl, fun e => by rw [he] at e; cases e⟩
          | succ m =>
            obtain ⟨q, h1, h2⟩ := h m (by omega)
            refine ⟨q, by simpa using h1, fun e => ?_⟩
            rw [show i + (m + 1) = i + 1 + m by omega]; exact h2 e
        · intro h m hm
          obtain ⟨q, h1, h2⟩ := h (m + 1) (by omega)
          refine ⟨q, by simpa using h1, fun e => ?_⟩
          rw [show i + 1 + m = i + (m + 1) by omega]; exact h2 e
      · have he' : p.isEmpty = false := by simpa using he
        simp only [he', Bool.false_eq_true, if_false, bind_eq_ok, orUb_eq_ok]
        constructor
        · rintro ⟨l', si, a1, k1, a2, k2, a3, h⟩
          obtain ⟨b1, b2, b3⟩ := Raw.zoneKey_eq_ok.mp a2
          obtain ⟨c1, c2, c3⟩ := Raw.zoneKey_eq_ok.mp a3
          have hl1 : k1.loc = loc := zoneLoc_code_inj (by rw [← b2, hrow p (by simp) he'])
          have hl2 : k2.loc = loc := zoneLoc_code_inj (by rw [← c2, hrow p (by simp) he'])
          have hs : si < loc.limit := by rw [b3, ← hl1]; exact k1.lt
          have hp : p.seq < loc.limit := by rw [c3, ← hl2]; exact k2.lt
          have h := (ih hrow').mp ⟨l', h⟩
          intro m hm
          cases m with
          | zero => exact ⟨p, rfl, fun _ => ⟨⟨si, a1, hs⟩, k2, c1, c2, c3⟩⟩
          | succ m =>
            obtain ⟨q, h1, h2⟩ := h m (by omega)
            refine ⟨q, by simpa using h1, fun e => ?_⟩
            obtain ⟨h3, h4⟩ := h2 e
            rw [inRow_after hs hp (by omega)] at h3
            rw [show i + (m + 1) = i + 1 + m by omega]; exact ⟨h3, h4⟩
        · intro h
          obtain ⟨q, hq, h0⟩ := h 0 (by omega)
          simp only [List.getElem?_cons_zero, Option.some.injEq] at hq
          subst hq
          obtain ⟨⟨si, a1, hs⟩, k2, c1, c2, c3⟩ := h0 he'
          have hl2 : k2.loc = loc := zoneLoc_code_inj (by rw [← c2, hrow p (by simp) he'])
          have hp : p.seq < loc.limit := by rw [c3, ← hl2]; exact k2.lt
          have a2 : Raw.zoneKey p.con p.loc si = .ok ⟨k2.con, loc, si, hs⟩ :=
            Raw.zoneKey_eq_ok.mpr ⟨c1, by rw [c2, hl2], rfl⟩
          obtain ⟨l', h'⟩ := (ih (i := i + 1) (seqs := (Layout.replaceFirst p.seq si seqs).set i p.seq)
            (l := l.swapZones ⟨k2.con, loc, si, hs⟩ k2) hrow').mpr (by
              intro m hm
              obtain ⟨q, h1, h2⟩ := h (m + 1) (by omega)
              refine ⟨q, by simpa using h1, fun e => ?_⟩
              obtain ⟨h3, h4⟩ := h2 e
              rw [inRow_after hs hp (by omega), show i + 1 + m = i + (m + 1) by omega]
              exact ⟨h3, h4⟩)
          exact ⟨l', si, by simpa using a1, _, a2, k2, Raw.zoneKey_eq_ok.mpr ⟨c1, c2, c3⟩, h'⟩

theorem shuffleSeqs_returns {n : Nat} {ps : List Place} {seqs : List Nat} :
    RawLayout.shuffleSeqs n ps = .ok seqs ↔ n ≤ ps.length ∧ seqs = (ps.take n).map Place.seq := by
  induction n generalizing ps seqs with
  | zero => simp [RawLayout.shuffleSeqs, eq_comm]
  | succ n ih =>
    cases ps with
    | nil => simp [RawLayout.shuffleSeqs, ub]
    | cons p ps =>
      simp only [RawLayout.shuffleSeqs, bind_eq_ok, ih, pure_eq_ok, Except.ok.injEq, List.length_cons, List.take_succ_cons, List.map_cons]
      constructor
      · rintro ⟨s, ⟨h1, rfl⟩, rfl⟩; exact ⟨by omega, rfl⟩
      · rintro ⟨h1, rfl⟩; exact ⟨_, ⟨by omega, rfl⟩, rfl⟩

/-- When a shuffle returns without asserts. -/
theorem RawFrame.shuffle_returns {f : RawFrame} {prev cur : List Place} {n : Nat} {loc : ZoneLoc}
    (hrow : ∀ q ∈ cur, q.isEmpty = false → q.loc = loc.code) :
    (∃ f', f.step (.shuffle prev cur n) = .ok f') ↔ n ≤ 7 ∧ n ≤ prev.length ∧
      ∀ m, m < n → ∃ q, cur[m]? = some q ∧ (q.isEmpty = false → (∃ p, prev[m]? = some p ∧ p.seq < loc.limit) ∧ ∃ k, Names q k) := by
  have key : n ≤ prev.length → ∀ m, m < n → (InRow loc ((prev.take n).map Place.seq) (0 + m) ↔ ∃ p, prev[m]? = some p ∧ p.seq < loc.limit) := by
    intro hn m hm
    unfold InRow
    simp [List.getElem?_take, hm]
    exact ⟨fun ⟨s, ⟨a, h1, h2⟩, h3⟩ => ⟨a, h1, h2 ▸ h3⟩, fun ⟨a, h1, h2⟩ => ⟨_, ⟨a, h1, rfl⟩, h2⟩⟩
  simp only [RawFrame.step, RawFrame.within, RawLayout.cardShuffle, bind_eq_ok, guardUb_eq_ok, pure_eq_ok, Except.ok.injEq, shuffleSeqs_returns]
  constructor
  · rintro ⟨f', l, ⟨_, h7, seqs, ⟨h1, rfl⟩, h⟩, _⟩
    refine ⟨h7, h1, fun m hm => ?_⟩
    obtain ⟨q, a, b⟩ := (shuffleLoop_returns hrow).mp ⟨l, h⟩ m hm
    exact ⟨q, a, fun e => ⟨(key h1 m hm).mp (b e).1, (b e).2⟩⟩
  · rintro ⟨h7, h1, h⟩
    obtain ⟨l, hl⟩ := (shuffleLoop_returns (l := f.layout) (i := 0) (seqs := (prev.take n).map Place.seq) hrow).mpr fun m hm => by
      obtain ⟨q, a, b⟩ := h m hm
      exact ⟨q, a, fun e => ⟨(key h1 m hm).mpr (b e).1, (b e).2⟩⟩
    exact ⟨_, l, ⟨(), h7, _, ⟨h1, rfl⟩, hl⟩, rfl⟩

theorem RawFrame.shuffle_permutes {f f' : RawFrame} {prev cur : List Place} {n : Nat} (h : f.step (.shuffle prev cur n) = .ok f') :
    ∃ π σ : ZoneKey → ZoneKey, (∀ k, σ (π k) = k) ∧ (∀ k, π (σ k) = k) ∧
      ∀ g : RawFrame, g.step (.shuffle prev cur n) = .ok ⟨permuted π g.layout, g.owned, g.next⟩ := by
  simp only [RawFrame.step, RawFrame.within, RawLayout.cardShuffle, bind_eq_ok, pure_eq_ok, Except.ok.injEq] at h ⊢
  obtain ⟨l, ⟨_, h7, seqs, h1, h⟩, _⟩ := h
  obtain ⟨π, σ, e1, e2, e3⟩ := shuffleLoop_permuted h
  exact ⟨π, σ, e1, e2, fun g => ⟨_, ⟨(), h7, seqs, h1, e3 _⟩, rfl⟩⟩

end Ygo
