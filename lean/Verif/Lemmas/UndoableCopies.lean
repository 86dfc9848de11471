import Verif.Lemmas.UndoableObjects
import Verif.Spec.UndoableCopies

/-! # Copies of undoable objects in memory -/

set_option linter.unusedSimpArgs false

namespace Ygo
open Spec
variable {α : Type}

/-- All values of an editor, oldest first. -/
def allValues (e : Editor α) : List α := e.past.reverse ++ e.now :: e.future

/-- An object with its list among the lists `L`. -/
structure SheetHolds (L : Nat → Option (List Nat)) (k : Nat) (node : Nat → Option α) (fresh : Nat) (ns : List Nat) (cur : Nat) (t : Sheet α) : Prop where
  home : L t.home = some ns
  low : t.home < k ∧ t.within < k ∧ cur < fresh
  nodup : ns.Nodup
  values : ns.map node = (allValues t.value).map some
  own : t.home = t.within → NodesHold node ns cur t.value
  alive : ∀ ms, L t.within = some ms → cur ∈ ms ∧ node cur = some t.value.now
  dead : L t.within = none → node cur = none

/-- What is in memory for an entry of the ledger. -/
def EntryHolds (L : Nat → Option (List Nat)) (k : Nat) (node : Nat → Option α) (fresh : Nat) : Option (List Nat × Nat) → Option (Option (Sheet α)) → Prop
  | x, none => x = none
  | x, some none => ∃ cur, x = some ([], cur)
  | x, some (some t) => ∃ ns cur, x = some (ns, cur) ∧ SheetHolds L k node fresh ns cur t

/-- Memory and ledger agree, the lists being `L`. -/
structure Charted (L : Nat → Option (List Nat)) (m : Memory α) (l : Ledger α) : Prop where
  holds : ∀ o, EntryHolds L l.lists m.node m.fresh (m.obj o) (l.entry o)
  homes : ∀ o p t u, l.entry o = some (some t) → l.entry p = some (some u) → t.home = u.home → o = p
  had : ∀ i ns, L i = some ns → l.Has i
  apart : ∀ i j ns ms, L i = some ns → L j = some ms → i ≠ j → ∀ a ∈ ns, a ∉ ms
  low : ∀ i ns, L i = some ns → i < l.lists ∧ ∀ a ∈ ns, a < m.fresh

theorem Charted.empty : Charted (fun _ => none) (Memory.empty : Memory α) Ledger.empty :=
  ⟨fun _ => rfl, fun _ _ _ _ h => by simp [Ledger.empty] at h, fun _ _ h => by simp at h, fun _ _ _ _ h => by simp at h, fun _ _ h => by simp at h⟩

/-- Lists and nodes get more, or others go. -/
theorem EntryHolds.change {L L' : Nat → Option (List Nat)} {k k' : Nat} {node node' : Nat → Option α} {fresh fresh' : Nat} {x : Option (List Nat × Nat)}
    {y : Option (Option (Sheet α))} (h : EntryHolds L k node fresh x y) (hk : k ≤ k') (hf : fresh ≤ fresh')
    (hhome : ∀ t, y = some (some t) → L' t.home = L t.home)
    (hnode : ∀ t ns, y = some (some t) → L t.home = some ns → ∀ a ∈ ns, node' a = node a)
    (hkept : ∀ i ns, i < k → L i = some ns → (∃ ns', L' i = some ns' ∧ ∀ a ∈ ns, a ∈ ns' ∧ node' a = node a) ∨ L' i = none ∧ ∀ a ∈ ns, node' a = none)
    (hdead : ∀ i, i < k → L i = none → L' i = none) (hold : ∀ a, a < fresh → node a = none → node' a = none) : EntryHolds L' k' node' fresh' x y := by
  match y, h with
  | none, h => exact h
  | some none, h => exact h
  | some (some t), ⟨ns, cur, hx, h⟩ =>
    refine ⟨ns, cur, hx, (hhome t rfl).trans h.home, ⟨by have := h.low.1; omega, by have := h.low.2.1; omega, by have := h.low.2.2; omega⟩, h.nodup, ?_, ?_, ?_, ?_⟩
    · rw [← h.values]
      exact List.map_congr_left fun a ha => hnode t ns rfl h.home a ha
    · exact fun e => (h.own e).congr (hnode t ns rfl h.home)
    · intro ms hms
      cases hw : L t.within with
      | none => rw [hdead _ h.low.2.1 hw] at hms; cases hms
      | some ws =>
        obtain ⟨h1, h2⟩ := h.alive ws hw
        rcases hkept _ ws h.low.2.1 hw with ⟨ns', e, hn⟩ | ⟨e, _⟩
        · rw [e] at hms
          cases hms
          exact ⟨(hn cur h1).1, (hn cur h1).2.trans h2⟩
        · rw [e] at hms; cases hms
    · intro hms
      cases hw : L t.within with
      | none => exact hold cur h.low.2.2 (h.dead hw)
      | some ws =>
        rcases hkept _ ws h.low.2.1 hw with ⟨ns', e, hn⟩ | ⟨_, hn⟩
        · rw [e] at hms; cases hms
        · exact hn cur (h.alive ws hw).1

theorem Charted.sheet {L : Nat → Option (List Nat)} {m : Memory α} {l : Ledger α} (h : Charted L m l) {o : Nat} {t : Sheet α}
    (ho : l.entry o = some (some t)) : ∃ ns cur, m.obj o = some (ns, cur) ∧ SheetHolds L l.lists m.node m.fresh ns cur t := by
  have := h.holds o
  rwa [ho] at this

theorem Charted.there {L : Nat → Option (List Nat)} {m : Memory α} {l : Ledger α} (h : Charted L m l) {o : Nat} {y : Option (Sheet α)}
    (ho : l.entry o = some y) : ∃ ns cur, m.obj o = some (ns, cur) := by
  have := h.holds o
  rw [ho] at this
  match y, this with
  | none, ⟨cur, h⟩ => exact ⟨_, _, h⟩
  | some _, ⟨ns, cur, h, _⟩ => exact ⟨_, _, h⟩

/-- The iterator of a copy does not point into its own list. -/
theorem Charted.foreign {L : Nat → Option (List Nat)} {m : Memory α} {l : Ledger α} (h : Charted L m l) {o : Nat} {t : Sheet α}
    (ho : l.entry o = some (some t)) (hne : t.home ≠ t.within) : ∃ ns cur, m.obj o = some (ns, cur) ∧ cur ∉ ns := by
  obtain ⟨ns, cur, hx, hs⟩ := h.sheet ho
  refine ⟨ns, cur, hx, fun hm => ?_⟩
  cases hw : L t.within with
  | some ws => exact h.apart _ _ ns ws hs.home hw hne cur hm (hs.alive ws hw).1
  | none =>
    have h1 := hs.dead hw
    have h2 : m.node cur ∈ (allValues t.value).map some := hs.values ▸ List.mem_map_of_mem hm
    rw [h1] at h2
    simp at h2

/-- Reading gives the value if the list into which the iterator points is still there, and is undefined otherwise. -/
theorem Charted.read {L : Nat → Option (List Nat)} {m : Memory α} {l : Ledger α} (h : Charted L m l) {o : Nat} {t : Sheet α}
    (ho : l.entry o = some (some t)) : (l.Has t.within → m.read o = .ok t.value.now) ∧ (¬ l.Has t.within → m.read o = .error .ub) := by
  obtain ⟨ns, cur, hx, hs⟩ := h.sheet ho
  have hr : m.read o = orUb (m.node cur) := by simp [Memory.read, hx, orUb]
  constructor
  · rintro ⟨p, u, hp, hu⟩
    obtain ⟨ms, c, _, hu'⟩ := h.sheet hp
    rw [hr, (hs.alive ms (hu ▸ hu'.home)).2]
    rfl
  · intro hn
    cases hw : L t.within with
    | some ws => exact absurd (h.had _ _ hw) hn
    | none => rw [hr, hs.dead hw]; rfl

/-! ## Operations -/

/-- A new list, of new nodes. -/
theorem Charted.make {L : Nat → Option (List Nat)} {m : Memory α} {l : Ledger α} (h : Charted L m l) {o : Nat} (ho : l.entry o = none)
    {node' : Nat → Option α} {fresh' : Nat} {ns : List Nat} {cur : Nat} {t : Sheet α} (hhome : t.home = l.lists) (hf : m.fresh ≤ fresh')
    (hnode : ∀ a, a < m.fresh → node' a = m.node a) (hns : ∀ a ∈ ns, m.fresh ≤ a ∧ a < fresh')
    (hs : SheetHolds (fun i => if i = l.lists then some ns else L i) (l.lists + 1) node' fresh' ns cur t) :
    ∃ L', Charted L' ⟨node', fun p => if p = o then some (ns, cur) else m.obj p, fresh'⟩ { l.put o (some (some t)) with lists := l.lists + 1 } := by
  have old : ∀ i ms, L i = some ms → i ≠ l.lists := fun i ms hi => by have := (h.low i ms hi).1; omega
  refine ⟨fun i => if i = l.lists then some ns else L i, ?_, ?_, ?_, ?_, ?_⟩
  · intro p
    simp only [Ledger.put]
    split
    · exact ⟨ns, cur, rfl, hs⟩
    · refine (h.holds p).change (Nat.le_succ _) hf ?_ ?_ ?_ ?_ ?_
      · intro u hu
        obtain ⟨ms, c, _, hu'⟩ := h.sheet hu
        rw [if_neg (old _ _ hu'.home)]
      · intro u ms hu hm a ha
        exact hnode a ((h.low _ _ hm).2 a ha)
      · intro i ms hi hm
        exact .inl ⟨ms, by rw [if_neg (old _ _ hm)]; exact hm, fun a ha => ⟨ha, hnode a ((h.low _ _ hm).2 a ha)⟩⟩
      · intro i hi hm
        rw [if_neg (by omega)]; exact hm
      · intro a ha hn
        rw [hnode a ha, hn]
  · intro p q t' u hp hq e
    simp only [Ledger.put] at hp hq
    split at hp
    · rename_i hpo
      split at hq
      · rename_i hqo; rw [hpo, hqo]
      · cases hp
        obtain ⟨ms, c, _, hu'⟩ := h.sheet hq
        exact absurd (e.symm.trans hhome) (old _ _ hu'.home)
    · split at hq
      · cases hq
        obtain ⟨ms, c, _, hu'⟩ := h.sheet hp
        exact absurd (e.trans hhome) (old _ _ hu'.home)
      · exact h.homes p q t' u hp hq e
  · intro i ms hi
    split at hi
    · rename_i e
      exact ⟨o, t, by simp [Ledger.put], by rw [hhome, e]⟩
    · obtain ⟨p, u, hp, hu⟩ := h.had i ms hi
      refine ⟨p, u, ?_, hu⟩
      simp only [Ledger.put]
      rw [if_neg (by rintro rfl; rw [ho] at hp; cases hp)]
      exact hp
  · intro i j as bs hi hj hij a ha
    split at hi
    · rw [if_neg (by rename_i e; rw [← e]; exact Ne.symm hij)] at hj
      cases hi
      intro hb
      have := (hns a ha).1
      have := (h.low _ _ hj).2 a hb
      omega
    · split at hj
      · cases hj
        intro hb
        have := (hns a hb).1
        have := (h.low _ _ hi).2 a ha
        omega
      · exact h.apart i j as bs hi hj hij a ha
  · intro i ms hi
    simp only at hi ⊢
    split at hi
    · cases hi
      exact ⟨show _ < l.lists + 1 by omega, fun a ha => (hns a ha).2⟩
    · have := h.low i ms hi
      exact ⟨show _ < l.lists + 1 by omega, fun a ha => by have := this.2 a ha; omega⟩

theorem Charted.construct {L : Nat → Option (List Nat)} {m : Memory α} {l : Ledger α} (h : Charted L m l) {o : Nat} (ho : l.entry o = none) (d : α) :
    ∃ L', Charted L' (m.construct o d) { l.put o (some (some ⟨⟨[], d, []⟩, l.lists, l.lists⟩)) with lists := l.lists + 1 } := by
  refine h.make (node' := (m.alloc d).node) (fresh' := m.fresh + 1) ho rfl (Nat.le_succ _) (fun a ha => Memory.alloc_old (by omega)) (by simp) ?_
  have hn : (m.alloc d).node m.fresh = some d := Memory.alloc_new
  refine ⟨by simp, by simp, by simp, by simp [hn, allValues], fun _ => ⟨by simp, [], [], rfl, rfl, hn, rfl⟩, ?_, by simp⟩
  intro ms hm
  simp at hm
  subst hm
  exact ⟨by simp, hn⟩

theorem clone_values (m : Memory α) (ns : List Nat) (hl : ∀ a ∈ ns, a < m.fresh) (vs : List α) (hv : ns.map m.node = vs.map some) :
    (m.clone ns).2.map (m.clone ns).1.node = vs.map some ∧ (m.clone ns).2.Nodup ∧
      (m.clone ns).1.obj = m.obj ∧ m.fresh ≤ (m.clone ns).1.fresh ∧
      (∀ a, a < m.fresh → (m.clone ns).1.node a = m.node a) ∧ ∀ a ∈ (m.clone ns).2, m.fresh ≤ a ∧ a < (m.clone ns).1.fresh := by
  induction ns generalizing m vs with
  | nil =>
    cases vs with
    | nil => simp [Memory.clone]
    | cons v vs => simp at hv
  | cons a as ih =>
    cases vs with
    | nil => simp at hv
    | cons v vs =>
      simp only [List.map_cons, List.cons.injEq] at hv
      simp only [Memory.clone, hv.1]
      obtain ⟨i1, i2, i3, i4, i5, i6⟩ := ih (m.alloc v) (fun b hb => Nat.lt_succ_of_lt (hl b (by simp [hb]))) vs (by
        rw [← hv.2]
        exact List.map_congr_left fun b hb => Memory.alloc_old (by have := hl b (by simp [hb]); omega))
      have e : (m.alloc v).fresh = m.fresh + 1 := rfl
      rw [e] at i4 i5 i6
      refine ⟨?_, ?_, i3, by omega, fun b hb => ?_, fun b hb => ?_⟩
      · simp only [List.map_cons, i1, List.cons.injEq, and_true]
        rw [i5 _ (Nat.lt_succ_self _)]
        exact Memory.alloc_new
      · exact List.nodup_cons.mpr ⟨fun hm => by have := (i6 _ hm).1; omega, i2⟩
      · rw [i5 b (by omega)]
        exact Memory.alloc_old (by omega)
      · simp only [List.mem_cons] at hb
        rcases hb with rfl | hb
        · exact ⟨Nat.le_refl _, by omega⟩
        · have := i6 b hb
          exact ⟨by omega, this.2⟩

theorem Charted.copy {L : Nat → Option (List Nat)} {m : Memory α} {l : Ledger α} (h : Charted L m l) {o p : Nat} (ho : l.entry o = none) {t : Sheet α}
    (hp : l.entry p = some (some t)) : ∃ L' m', m.copy o p = .ok m' ∧
      Charted L' m' { l.put o (some (some ⟨t.value, l.lists, t.within⟩)) with lists := l.lists + 1 } := by
  obtain ⟨ns, cur, hx, hs⟩ := h.sheet hp
  obtain ⟨c1, c2, c3, c4, c5, c6⟩ := clone_values m ns (h.low _ _ hs.home).2 _ hs.values
  obtain ⟨hl1, hl2, hl3⟩ := hs.low
  have hw : (if t.within = l.lists then some (m.clone ns).2 else L t.within) = L t.within := if_neg (by omega)
  obtain ⟨L', hc⟩ := h.make (o := o) (node' := (m.clone ns).1.node) (fresh' := (m.clone ns).1.fresh) (ns := (m.clone ns).2) (cur := cur)
    (t := ⟨t.value, l.lists, t.within⟩) ho rfl c4 c5 c6 ⟨by simp, ⟨by simp, by simp only; omega, by omega⟩, c2, c1,
      fun e => by simp only at e; omega, fun ms hm => by
        simp only [hw] at hm
        obtain ⟨h1, h2⟩ := hs.alive ms hm
        exact ⟨h1, by rw [c5 cur hl3, h2]⟩, fun hm => by
        simp only [hw] at hm
        rw [c5 cur hl3, hs.dead hm]⟩
  refine ⟨L', _, ?_, hc⟩
  simp only [Memory.copy, hx, orUb, bind_ok, Memory.put, c3]
  rfl

/-- An object hands its list over. -/
theorem Charted.transfer {L : Nat → Option (List Nat)} {m : Memory α} {l : Ledger α} (h : Charted L m l) {o p : Nat} (hop : o ≠ p)
    (ho : l.entry o = none ∨ l.entry o = some none) {y : Option (Sheet α)} (hp : l.entry p = some y) {ns : List Nat} {cur : Nat} (hm : m.obj p = some (ns, cur)) :
    Charted L ((m.put o (some (ns, cur))).put p (some ([], cur))) ((l.put o (some y)).put p (some none)) := by
  have ho' : ∀ t, l.entry o ≠ some (some t) := fun t e => by rcases ho with ho | ho <;> rw [ho] at e <;> cases e
  refine ⟨?_, ?_, ?_, h.apart, h.low⟩
  · intro q
    simp only [Memory.put, Ledger.put]
    split
    · exact ⟨cur, rfl⟩
    · split
      · have := h.holds p
        rw [hm, hp] at this
        exact this
      · exact h.holds q
  · intro q r t u hq hr e
    simp only [Ledger.put] at hq hr
    have key : ∀ {q : Nat} {t : Sheet α}, (if q = p then some none else if q = o then some y else l.entry q) = some (some t) →
        (q = o ∧ l.entry p = some (some t)) ∨ (q ≠ o ∧ q ≠ p ∧ l.entry q = some (some t)) := by
      intro q t hq
      split at hq
      · cases hq
      · split at hq
        · rename_i h2
          exact .inl ⟨h2, hp.trans hq⟩
        · rename_i h1 h2
          exact .inr ⟨h2, h1, hq⟩
    rcases key hq with ⟨rfl, h1⟩ | ⟨_, h0, h1⟩ <;> rcases key hr with ⟨h2', h2⟩ | ⟨_, h0', h2⟩
    · exact h2'.symm
    · exact absurd (h.homes _ _ _ _ h1 h2 e) (Ne.symm h0')
    · exact absurd (h.homes _ _ _ _ h1 h2 e) h0
    · exact h.homes _ _ _ _ h1 h2 e
  · intro i as hi
    obtain ⟨q, t, hq, ht⟩ := h.had i as hi
    by_cases hqp : q = p
    · subst hqp
      refine ⟨o, t, ?_, ht⟩
      simp only [Ledger.put, if_neg hop, if_true]
      exact hp.symm.trans hq
    · refine ⟨q, t, ?_, ht⟩
      simp only [Ledger.put, if_neg hqp]
      rw [if_neg (by rintro rfl; exact ho' t hq)]
      exact hq

/-- The list of an object goes, with the object or without. -/
theorem Charted.drop {L : Nat → Option (List Nat)} {m : Memory α} {l : Ledger α} (h : Charted L m l) {o : Nat} {ns : List Nat} {cur : Nat}
    (hm : m.obj o = some (ns, cur)) (x : Option (List Nat × Nat)) (y : Option (Option (Sheet α))) (hxy : x = none ∧ y = none ∨ x = some ([], cur) ∧ y = some none) :
    ∃ L', Charted L' ((m.free ns).put o x) (l.put o y) := by
  have hy : ∀ t, y ≠ some (some t) := fun t e => by rcases hxy with ⟨_, h⟩ | ⟨_, h⟩ <;> rw [h] at e <;> cases e
  have hxy' : ∀ L k node fresh, EntryHolds (α := α) L k node fresh x y := by
    intro L k node fresh
    rcases hxy with ⟨rfl, rfl⟩ | ⟨rfl, rfl⟩
    · rfl
    · exact ⟨cur, rfl⟩
  by_cases ht : ∃ t, l.entry o = some (some t)
  · obtain ⟨t, ht⟩ := ht
    obtain ⟨ns', cur', hx, hs⟩ := h.sheet ht
    rw [hm] at hx
    cases hx
    refine ⟨fun i => if i = t.home then none else L i, ?_, ?_, ?_, ?_, ?_⟩
    · intro q
      simp only [Memory.put, Ledger.put]
      split
      · exact hxy' ..
      · rename_i hq
        refine (h.holds q).change (Nat.le_refl _) (Nat.le_refl _) ?_ ?_ ?_ ?_ ?_
        · intro u hu
          exact if_neg fun e => hq (h.homes _ _ _ _ hu ht e)
        · intro u ms hu hms a ha
          exact Memory.free_other (h.apart _ _ _ _ hms hs.home (fun e => hq (h.homes _ _ _ _ hu ht e)) a ha)
        · intro i ms hi hms
          by_cases e : i = t.home
          · subst e
            rw [hs.home] at hms
            cases hms
            exact .inr ⟨if_pos rfl, fun a ha => by simp [Memory.free, ha]⟩
          · exact .inl ⟨ms, by rw [if_neg e]; exact hms, fun a ha => ⟨ha, Memory.free_other (h.apart _ _ _ _ hms hs.home e a ha)⟩⟩
        · intro i hi hn
          split
          · rfl
          · exact hn
        · intro a ha hn
          simp only [Memory.free]
          split
          · rfl
          · exact hn
    · intro p q u v hp hq e
      simp only [Ledger.put] at hp hq
      split at hp
      · exact absurd hp (hy u)
      · split at hq
        · exact absurd hq (hy v)
        · exact h.homes _ _ _ _ hp hq e
    · intro i as hi
      split at hi
      · cases hi
      · rename_i hne
        obtain ⟨q, u, hq, hu⟩ := h.had i as hi
        refine ⟨q, u, ?_, hu⟩
        simp only [Ledger.put]
        rw [if_neg]
        · exact hq
        · rintro rfl
          rw [ht] at hq
          cases hq
          exact hne hu.symm
    · intro i j as bs hi hj hij
      split at hi
      · cases hi
      · split at hj
        · cases hj
        · exact h.apart i j as bs hi hj hij
    · intro i as hi
      split at hi
      · cases hi
      · exact h.low i as hi
  · have hns : ns = [] := by
      have := h.holds o
      rw [hm] at this
      match he : l.entry o, this with
      | none, h => cases h
      | some none, ⟨c, h⟩ => cases h; rfl
      | some (some t), _ => exact absurd ⟨t, he⟩ ht
    subst hns
    have hfree : m.free [] = m := by simp [Memory.free]
    rw [hfree]
    refine ⟨L, ?_, ?_, ?_, h.apart, h.low⟩
    · intro q
      simp only [Memory.put, Ledger.put]
      split
      · exact hxy' ..
      · exact h.holds q
    · intro p q u v hp hq e
      simp only [Ledger.put] at hp hq
      split at hp
      · exact absurd hp (hy u)
      · split at hq
        · exact absurd hq (hy v)
        · exact h.homes _ _ _ _ hp hq e
    · intro i as hi
      obtain ⟨q, u, hq, hu⟩ := h.had i as hi
      refine ⟨q, u, ?_, hu⟩
      simp only [Ledger.put]
      rw [if_neg]
      · exact hq
      · rintro rfl
        exact ht ⟨u, hq⟩

/-- An object gets more nodes of its own and stands for another value. -/
theorem Charted.write {L : Nat → Option (List Nat)} {m : Memory α} {l : Ledger α} (h : Charted L m l) {o : Nat} {t : Sheet α}
    (ho : l.entry o = some (some t)) (hown : t.home = t.within) {ns ns' : List Nat} {cur cur' : Nat} (hm : m.obj o = some (ns, cur))
    {node' : Nat → Option α} {fresh' : Nat} {e : Editor α} (hf : m.fresh ≤ fresh') (hnode : ∀ a, a < m.fresh → node' a = m.node a)
    (hsub : ∀ a ∈ ns, a ∈ ns') (hns : ∀ a ∈ ns', a ∈ ns ∨ m.fresh ≤ a ∧ a < fresh') (hn : NodesHold node' ns' cur' e) :
    ∃ L', Charted L' ⟨node', fun p => if p = o then some (ns', cur') else m.obj p, fresh'⟩ (l.put o (some (some { t with value := e }))) := by
  obtain ⟨_, _, hx, hs⟩ := h.sheet ho
  rw [hm] at hx
  cases hx
  obtain ⟨hnd, as, bs, hsplit, h1, h2, h3⟩ := id hn
  have hlow : ∀ a ∈ ns', a < fresh' := fun a ha => by
    rcases hns a ha with ha | ha
    · have := (h.low _ _ hs.home).2 a ha; omega
    · exact ha.2
  refine ⟨fun i => if i = t.home then some ns' else L i, ?_, ?_, ?_, ?_, ?_⟩
  · intro q
    simp only [Ledger.put]
    split
    · refine ⟨ns', cur', rfl, if_pos rfl, ⟨hs.low.1, hs.low.2.1, hlow _ (by simp [hsplit])⟩, hnd, ?_, fun _ => hn, ?_, ?_⟩
      · simp [allValues, hsplit, h1, h2, h3]
      · intro ms hms
        simp only [← hown, if_true, Option.some.injEq] at hms
        subst hms
        exact ⟨by simp [hsplit], h2⟩
      · intro hms
        simp [← hown] at hms
    · rename_i hq
      refine (h.holds q).change (Nat.le_refl _) hf ?_ ?_ ?_ ?_ ?_
      · intro u hu
        exact if_neg fun e => hq (h.homes _ _ _ _ hu ho e)
      · intro u ms hu hms a ha
        exact hnode a ((h.low _ _ hms).2 a ha)
      · intro i ms hi hms
        left
        by_cases e : i = t.home
        · subst e
          rw [hs.home] at hms
          cases hms
          exact ⟨ns', if_pos rfl, fun a ha => ⟨hsub a ha, hnode a ((h.low _ _ hs.home).2 a ha)⟩⟩
        · exact ⟨ms, by rw [if_neg e]; exact hms, fun a ha => ⟨ha, hnode a ((h.low _ _ hms).2 a ha)⟩⟩
      · intro i hi hn
        rw [if_neg (by rintro rfl; rw [hs.home] at hn; cases hn)]
        exact hn
      · intro a ha hn
        rw [hnode a ha, hn]
  · have key : ∀ {q : Nat} {u : Sheet α}, (l.put o (some (some { t with value := e }))).entry q = some (some u) → ∃ v, l.entry q = some (some v) ∧ v.home = u.home := by
      intro q u hq
      simp only [Ledger.put] at hq
      split at hq
      · rename_i e
        cases hq
        exact ⟨t, e ▸ ho, rfl⟩
      · exact ⟨u, hq, rfl⟩
    intro p q u v hp hq e
    obtain ⟨u', hp, e1⟩ := key hp
    obtain ⟨v', hq, e2⟩ := key hq
    exact h.homes _ _ _ _ hp hq (by rw [e1, e2, e])
  · intro i as hi
    have : l.Has i := by
      by_cases hih : i = t.home
      · exact ⟨o, t, ho, hih.symm⟩
      · simp only [if_neg hih] at hi
        exact h.had i as hi
    obtain ⟨q, u, hq, hu⟩ := this
    by_cases hqo : q = o
    · subst hqo
      rw [ho] at hq
      cases hq
      exact ⟨q, { t with value := e }, by simp [Ledger.put], hu⟩
    · exact ⟨q, u, by simp only [Ledger.put, if_neg hqo]; exact hq, hu⟩
  · intro i j as bs hi hj hij a ha
    by_cases e1 : i = t.home
    · subst e1
      simp only [if_true, Option.some.injEq] at hi
      simp only [if_neg (Ne.symm hij)] at hj
      subst hi
      rcases hns a ha with ha | ha
      · exact h.apart _ _ _ _ hs.home hj hij a ha
      · intro hb; have := (h.low _ _ hj).2 a hb; omega
    · simp only [if_neg e1] at hi
      by_cases e2 : j = t.home
      · subst e2
        simp only [if_true, Option.some.injEq] at hj
        subst hj
        intro hb
        rcases hns a hb with hb | hb
        · exact h.apart _ _ _ _ hi hs.home hij a ha hb
        · have := (h.low _ _ hi).2 a ha; omega
      · simp only [if_neg e2] at hj
        exact h.apart i j as bs hi hj hij a ha
  · intro i as hi
    by_cases e1 : i = t.home
    · subst e1
      simp only [if_true, Option.some.injEq] at hi
      subst hi
      exact ⟨(h.low _ _ hs.home).1, hlow⟩
    · simp only [if_neg e1] at hi
      exact ⟨(h.low _ _ hi).1, fun a ha => Nat.lt_of_lt_of_le ((h.low _ _ hi).2 a ha) hf⟩

theorem Charted.assign {L : Nat → Option (List Nat)} {m : Memory α} {l : Ledger α} (h : Charted L m l) {o : Nat} {t : Sheet α}
    (ho : l.entry o = some (some t)) (hown : t.home = t.within) (v : α) :
    ∃ L' m', m.assign o v = .ok m' ∧ Charted L' m' (l.put o (some (some { t with value := t.value.assign v }))) := by
  obtain ⟨ns, cur, hm, hs⟩ := h.sheet ho
  have hl := (h.low _ _ hs.home).2
  obtain ⟨hnd, as, bs, rfl, h2, h3, h4⟩ := hs.own hown
  have hidx := idxOf_mid hnd
  cases bs with
  | nil =>
    have hfut : t.value.future = [] := by simpa using h4.symm
    have hnew : m.fresh ∉ as ++ [cur] := fun hm => Nat.lt_irrefl _ (hl _ hm)
    have hnd' : ((as ++ [cur]) ++ [m.fresh]).Nodup := by
      rw [List.nodup_append]
      exact ⟨hnd, by simp, fun a ha b hb => by simp at hb; subst hb; exact fun e => hnew (e ▸ ha)⟩
    have hidx' : ((as ++ [cur]) ++ [m.fresh]).idxOf cur = as.length := by
      have := idxOf_mid (as := as) (c := cur) (bs := [m.fresh]) (by simpa using hnd')
      simpa using this
    obtain ⟨L', hc⟩ := h.write ho hown hm (node' := (m.alloc v).node) (fresh' := m.fresh + 1) (ns' := as ++ [cur] ++ [m.fresh]) (cur' := m.fresh)
      (e := t.value.assign v) (Nat.le_succ _) (fun a ha => Memory.alloc_old (by omega)) (fun a ha => List.mem_append_left _ ha)
      (fun a ha => by
        rcases List.mem_append.mp ha with ha | ha
        · exact .inl ha
        · simp at ha; subst ha; exact .inr ⟨Nat.le_refl _, Nat.lt_succ_self _⟩)
      ⟨hnd', as ++ [cur], [], rfl, by
        simp only [Editor.assign, hfut, List.map_append, List.map_cons, List.map_nil, List.reverse_cons]
        rw [Memory.alloc_old (fun hh => hnew (by simp [← hh])), h3]
        congr 1
        rw [← h2]
        exact List.map_congr_left fun a ha => by
          have : a < m.fresh := hl a (by simp [ha])
          exact Memory.alloc_old (by omega), by simp [Editor.assign, hfut, Memory.alloc_new], by simp [Editor.assign, hfut]⟩
    refine ⟨L', _, ?_, hc⟩
    simp only [Memory.assign, hm, orUb, bind_ok]
    simp only [List.getLast?_append, List.getLast?_singleton, Option.some_or, bind_ok, guardUb, List.mem_append, List.mem_singleton, or_true,
      if_true, hidx']
    simp [orUb, Memory.put, Memory.alloc]
  | cons b bs =>
    obtain ⟨f0, fs, hfut⟩ : ∃ f0 fs, t.value.future = f0 :: fs := by
      cases hf : t.value.future with
      | nil => rw [hf] at h4; simp at h4
      | cons x xs => exact ⟨x, xs, rfl⟩
    rw [hfut] at h4
    simp only [List.map_cons, List.cons.injEq] at h4
    have hlast : (as ++ cur :: b :: bs).getLast? = some ((b :: bs).getLast (by simp)) := by
      simp [List.getLast?_append, List.getLast?_cons_cons]
      exact List.getLast?_eq_some_getLast _
    have hcl : cur ≠ (b :: bs).getLast (by simp) := by
      intro hh
      have hm : cur ∈ b :: bs := hh ▸ List.getLast_mem _
      have := (List.nodup_append.mp hnd).2.1
      exact (List.nodup_cons.mp this).1 hm
    obtain ⟨L', hc⟩ := h.write ho hown hm (node' := m.node) (fresh' := m.fresh) (ns' := as ++ cur :: b :: bs) (cur' := b)
      (e := t.value.assign v) (Nat.le_refl _) (fun a ha => rfl) (fun a ha => ha) (fun a ha => .inl ha)
      ⟨hnd, as ++ [cur], bs, by simp, by simp [Editor.assign, hfut, h2, h3], by simp [Editor.assign, hfut, h4.1], by simp [Editor.assign, hfut, h4.2]⟩
    refine ⟨L', _, ?_, hc⟩
    simp only [Memory.assign, hm, orUb, bind_ok]
    rw [hlast]
    simp only [bind_ok, guardUb, List.mem_append, List.mem_cons, true_or, or_true, if_true, if_neg hcl, hidx]
    have : (as ++ cur :: b :: bs)[as.length + 1]? = some b := by
      rw [List.getElem?_append_right (by omega)]
      simp
    rw [this]
    rfl

theorem Charted.undo {L : Nat → Option (List Nat)} {m : Memory α} {l : Ledger α} (h : Charted L m l) {o : Nat} {t : Sheet α}
    (ho : l.entry o = some (some t)) (hown : t.home = t.within) {e : Editor α} (hu : t.value.undo = some e) :
    ∃ L' m', m.undo o = .ok m' ∧ Charted L' m' (l.put o (some (some { t with value := e }))) := by
  obtain ⟨ns, cur, hm, hs⟩ := h.sheet ho
  obtain ⟨hnd, as, bs, rfl, h2, h3, h4⟩ := hs.own hown
  have hidx := idxOf_mid hnd
  obtain ⟨x, xs, hpast⟩ : ∃ x xs, t.value.past = x :: xs := by
    cases hp : t.value.past with
    | nil => rw [Editor.undo, hp] at hu; cases hu
    | cons x xs => exact ⟨x, xs, rfl⟩
  simp only [Editor.undo, hpast, Option.some.injEq] at hu
  subst hu
  rw [hpast] at h2
  rcases List.eq_nil_or_concat as with rfl | ⟨as', a, rfl⟩
  · simp at h2
  · simp only [List.concat_eq_append, List.map_append, List.map_cons, List.map_nil, List.reverse_cons] at h2
    obtain ⟨k1, k2⟩ := List.append_inj' h2 rfl
    simp only [List.cons.injEq, and_true] at k2
    simp only [List.concat_eq_append] at *
    have hh : (as' ++ [a] ++ cur :: bs).head? ≠ some cur := by
      cases as' with
      | nil =>
        simp only [List.nil_append, List.singleton_append, List.head?_cons, ne_eq, Option.some.injEq]
        rintro rfl
        simp at hnd
      | cons a0 as0 =>
        simp only [List.cons_append, List.head?_cons, ne_eq, Option.some.injEq]
        rintro rfl
        simp at hnd
    obtain ⟨L', hc⟩ := h.write ho hown hm (node' := m.node) (fresh' := m.fresh) (ns' := as' ++ [a] ++ cur :: bs) (cur' := a)
      (e := ⟨xs, x, t.value.now :: t.value.future⟩) (Nat.le_refl _) (fun a ha => rfl) (fun a ha => ha) (fun a ha => .inl ha)
      ⟨hnd, as', cur :: bs, by simp, by simpa using k1, k2, by simp [h3, h4]⟩
    refine ⟨L', _, ?_, hc⟩
    simp only [Memory.undo, hm, orUb, bind_ok, guardUb, massert]
    rw [if_pos (by simp), if_pos hh, hidx]
    simp [orUb, Memory.put]

end Ygo
