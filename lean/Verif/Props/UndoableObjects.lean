import Verif.Lemmas.UndoableObjects

/-!
# Undoable objects in memory (C95)
-/

set_option linter.unusedSimpArgs false

namespace Ygo.Props
open Ygo Ygo.Spec

variable {α : Type}

/-- **C95** (partial: no copies). Whatever a program does with undoable objects, constructing, assigning, undoing, moving and destroying
them in any order, each object behaves as a value of its own with a past and a future: it reads what it stands for, and undoing without a past
stops at an assertion. Missing from the full claim: copies, for which it is false, see `C95_copies_are_no_values`. -/
theorem C95_objects_partial (ops : List (UndoableOp α)) (hc : NoCopy ops) (s : Shelf α) (hs : Shelf.run (fun _ => none) ops = some s) :
    ∃ m, Memory.empty.run ops = .ok m ∧
      (∀ o e, s o = some (some e) → m.read o = .ok e.now) ∧
      (∀ o e, s o = some (some e) → e.past = [] → m.undo o = .error .assert) ∧
      ∀ o, m.obj o = none ↔ s o = none := by
  obtain ⟨m, h1, h2⟩ := Shelved.empty.run ops hc hs
  refine ⟨m, h1, fun o e he => h2.read he, fun o e he hp => h2.undo_none he hp, fun o => ?_⟩
  constructor
  · intro h
    match hs : s o with
    | none => rfl
    | some y =>
      obtain ⟨ns, cur, h3⟩ := h2.there hs
      rw [h] at h3
      simp at h3
  · intro h
    have := h2.holds o
    rwa [h] at this

/-- **C95.** Swapping two objects, as `std::swap` does, exchanges their values, pasts and futures. An object may be swapped with itself. -/
theorem C95_swap (s : Shelf α) (tmp a b : Nat) (ea eb : Editor α) (ha : s a = some (some ea)) (hb : s b = some (some eb)) (ht : s tmp = none) :
    ∃ s', s.run (swapOps tmp a b) = some s' ∧ NoCopy (swapOps (α := α) tmp a b) ∧ s' a = some (some eb) ∧ s' b = some (some ea) ∧
      ∀ o, o ≠ a → o ≠ b → s' o = s o := by
  have h1 : tmp ≠ a := fun e => by rw [e, ha] at ht; cases ht
  have h2 : tmp ≠ b := fun e => by rw [e, hb] at ht; cases ht
  by_cases hab : a = b
  · subst hab
    rw [ha] at hb
    simp only [Option.some.injEq] at hb
    subst hb
    simp [Shelf.run, swapOps, Shelf.step, Shelf.put, ha, h1, Ne.symm h1, NoCopy]
    intro o h3
    by_cases h4 : o = tmp
    · simp [h4, ht]
    · simp [h3, h4]
  · simp [Shelf.run, swapOps, Shelf.step, Shelf.put, ha, hb, h1, Ne.symm h1, h2, Ne.symm h2, hab, Ne.symm hab, NoCopy]
    intro o h3 h4
    by_cases h5 : o = tmp
    · simp [h5, ht]
    · simp [h3, h4, h5]

/-- Moving objects one after the other to new names. -/
theorem relocate_moves (ps : List (Nat × Nat)) (s : Shelf α) (h1 : (ps.map (·.1)).Nodup) (h2 : (ps.map (·.2)).Nodup)
    (h3 : ∀ p ∈ ps, ∀ q ∈ ps, p.1 ≠ q.2) (h4 : ∀ p ∈ ps, ∃ e, s p.1 = some (some e)) :
    ∃ s', s.run (ps.map fun p => .move p.2 p.1) = some s' ∧ (∀ p ∈ ps, s' p.2 = s p.1 ∧ s' p.1 = some none) ∧
      ∀ o, (∀ p ∈ ps, o ≠ p.1 ∧ o ≠ p.2) → s' o = s o := by
  induction ps generalizing s with
  | nil => exact ⟨s, rfl, by simp, by simp⟩
  | cons p ps ih =>
    obtain ⟨e, he⟩ := h4 p (by simp)
    have hne : p.2 ≠ p.1 := (h3 p (by simp) p (by simp)).symm
    simp only [List.map_cons, List.nodup_cons, List.mem_map, not_exists, not_and] at h1 h2
    let s1 : Shelf α := (s.put p.2 (some (some e))).put p.1 (some none)
    have hs1 : s.step (.move p.2 p.1) = some s1 := by simp [Shelf.step, he, hne, s1]
    have hother : ∀ o, o ≠ p.1 → o ≠ p.2 → s1 o = s o := fun o ho1 ho2 => by simp [s1, Shelf.put, ho1, ho2]
    have h5 : ∀ q ∈ ps, s1 q.1 = s q.1 := fun q hq =>
      hother _ (fun e => h1.1 q hq e) (h3 q (by simp [hq]) p (by simp))
    obtain ⟨s', h6, h7, h8⟩ := ih s1 h1.2 h2.2 (fun q hq r hr => h3 q (by simp [hq]) r (by simp [hr]))
      (fun q hq => by rw [h5 q hq]; exact h4 q (by simp [hq]))
    refine ⟨s', by simp [Shelf.run, hs1, h6], ?_, ?_⟩
    · intro q hq
      rw [List.mem_cons] at hq
      rcases hq with rfl | hq
      · have ha := h8 q.1 fun r hr => ⟨fun e => h1.1 r hr e.symm, h3 q (by simp) r (by simp [hr])⟩
        have hb := h8 q.2 fun r hr => ⟨fun e => h3 r (by simp [hr]) q (by simp) e.symm, fun e => h2.1 r hr e.symm⟩
        rw [ha, hb]
        simp [s1, Shelf.put, hne, he]
      · rw [(h7 q hq).1, (h7 q hq).2, h5 q hq]
        exact ⟨rfl, rfl⟩
    · intro o ho
      rw [h8 o fun r hr => ho r (by simp [hr])]
      exact hother o (ho p (by simp)).1 (ho p (by simp)).2

/-- Destroying objects one after the other. -/
theorem relocate_destroys (ps : List (Nat × Nat)) (s : Shelf α) (h1 : (ps.map (·.1)).Nodup) (h4 : ∀ p ∈ ps, ∃ y, s p.1 = some y) :
    ∃ s', s.run (ps.map fun p => .destroy p.1) = some s' ∧ (∀ p ∈ ps, s' p.1 = none) ∧ ∀ o, (∀ p ∈ ps, o ≠ p.1) → s' o = s o := by
  induction ps generalizing s with
  | nil => exact ⟨s, rfl, by simp, by simp⟩
  | cons p ps ih =>
    obtain ⟨e, he⟩ := h4 p (by simp)
    simp only [List.map_cons, List.nodup_cons, List.mem_map, not_exists, not_and] at h1
    have hs1 : s.step (.destroy p.1) = some (s.put p.1 none) := by simp [Shelf.step, he]
    obtain ⟨s', h6, h7, h8⟩ := ih (s.put p.1 none) h1.2 (fun q hq => by
      obtain ⟨y, hy⟩ := h4 q (by simp [hq])
      exact ⟨y, by simp [Shelf.put, show q.1 ≠ p.1 from fun e => h1.1 q hq e, hy]⟩)
    refine ⟨s', by simp [Shelf.run, hs1, h6], ?_, ?_⟩
    · intro q hq
      rw [List.mem_cons] at hq
      rcases hq with rfl | hq
      · rw [h8 q.1 fun r hr e => h1.1 r hr e.symm]
        simp [Shelf.put]
      · exact h7 q hq
    · intro o ho
      rw [h8 o fun r hr => ho r (by simp [hr])]
      simp [Shelf.put, ho p (by simp)]

theorem Shelf.run_append (s : Shelf α) (xs ys : List (UndoableOp α)) : s.run (xs ++ ys) = (s.run xs).bind (·.run ys) := by
  induction xs generalizing s with
  | nil => rfl
  | cons x xs ih =>
    simp only [List.cons_append, Shelf.run]
    cases s.step x with
    | none => rfl
    | some s1 => simp [ih]

/-- **C95.** When a vector of objects grows, every object moves to new storage with its past and future, and everything else stays. -/
theorem C95_growing_vector (ps : List (Nat × Nat)) (s : Shelf α) (h1 : (ps.map (·.1)).Nodup) (h2 : (ps.map (·.2)).Nodup)
    (h3 : ∀ p ∈ ps, ∀ q ∈ ps, p.1 ≠ q.2) (h4 : ∀ p ∈ ps, ∃ e, s p.1 = some (some e)) :
    ∃ s', s.run (relocateOps ps) = some s' ∧ NoCopy (relocateOps (α := α) ps) ∧ (∀ p ∈ ps, s' p.2 = s p.1 ∧ s' p.1 = none) ∧
      ∀ o, (∀ p ∈ ps, o ≠ p.1 ∧ o ≠ p.2) → s' o = s o := by
  obtain ⟨s1, h5, h6, h7⟩ := relocate_moves ps s h1 h2 h3 h4
  obtain ⟨s', h8, h9, h10⟩ := relocate_destroys ps s1 h1 fun p hp => ⟨none, (h6 p hp).2⟩
  refine ⟨s', by rw [relocateOps, Shelf.run_append, h5]; exact h8, ?_, ?_, ?_⟩
  · intro o p hm
    simp [relocateOps] at hm
  · intro p hp
    rw [h10 p.2 fun q hq e => h3 q hq p hp e.symm]
    exact ⟨(h6 p hp).1, h9 p hp⟩
  · intro o ho
    rw [h10 o fun p hp => (ho p hp).1]
    exact h7 o ho

theorem clone_spec (m : Memory α) (ns : List Nat) : (m.clone ns).1.obj = m.obj ∧ m.fresh ≤ (m.clone ns).1.fresh ∧
    (∀ a, a < m.fresh → (m.clone ns).1.node a = m.node a) ∧ ∀ a ∈ (m.clone ns).2, m.fresh ≤ a := by
  induction ns generalizing m with
  | nil => simp [Memory.clone]
  | cons a as ih =>
    simp only [Memory.clone]
    split
    · exact ih m
    · rename_i v _
      obtain ⟨h1, h2, h3, h4⟩ := ih (m.alloc v)
      refine ⟨h1, Nat.le_of_succ_le h2, fun b hb => ?_, fun b hb => ?_⟩
      · show ((m.alloc v).clone as).1.node b = _
        rw [h3 b (Nat.lt_succ_of_lt hb)]
        exact Memory.alloc_old (by omega)
      · have hb : b = m.fresh ∨ b ∈ ((m.alloc v).clone as).2 := by simpa using hb
        rcases hb with rfl | hb
        · exact Nat.le_refl _
        · exact Nat.le_of_succ_le (h4 b hb)

/-- **C95, the defect.** A copy of an object reads the same value at first. But assigning to it or undoing it is undefined, and so is reading
it when the object it was copied from is gone: the iterator of the copy points into the list of the other. -/
theorem C95_copy (ops : List (UndoableOp α)) (hc : NoCopy ops) (s : Shelf α) (hs : Shelf.run (fun _ => none) ops = some s)
    (o p : Nat) (hop : o ≠ p) (e : Editor α) (he : s p = some (some e)) :
    ∃ m, Memory.empty.run (ops ++ [.copy o p]) = .ok m ∧ m.read o = .ok e.now ∧
      (∀ v, m.assign o v = .error .ub) ∧ m.undo o = .error .ub ∧
      ∃ m', m.destroy p = .ok m' ∧ m'.read o = .error .ub := by
  obtain ⟨m, h1, h2⟩ := Shelved.empty.run ops hc hs
  obtain ⟨ns, cur, h3, hnd, as, bs, hns, _, h4, _⟩ := h2.nodes he
  obtain ⟨c1, c2, c3, c4⟩ := clone_spec m ns
  have hcur : cur < m.fresh := h2.low p ns cur h3 cur (by simp [hns])
  have hnot : cur ∉ (m.clone ns).2 := fun h => by have := c4 cur h; omega
  let m' := (m.clone ns).1.put o (some ((m.clone ns).2, cur))
  have hrun : ∀ (k : Memory α) (xs : List (UndoableOp α)) (y : UndoableOp α), k.run (xs ++ [y]) = (do (← k.run xs).step y) := by
    intro k xs y
    induction xs generalizing k with
    | nil =>
      simp only [List.nil_append, Memory.run, bind_ok]
      cases k.step y <;> rfl
    | cons x xs ih =>
      simp only [List.cons_append, Memory.run]
      cases k.step x with
      | error => rfl
      | ok k' => simp [ih]
  have hobj : m'.obj o = some ((m.clone ns).2, cur) := by simp [m', Memory.put]
  have hobjp : m'.obj p = some (ns, cur) := by simp [m', Memory.put, Ne.symm hop, c1, h3]
  have hnode : m'.node cur = some e.now := by
    show (m.clone ns).1.node cur = _
    rw [c3 cur hcur, h4]
  refine ⟨m', ?_, ?_, ?_, ?_, (m'.free ns).put p none, ?_, ?_⟩
  · rw [hrun, h1, bind_ok]
    simp only [Memory.step, Memory.copy, h3, orUb, bind_ok]
    rfl
  · simp [Memory.read, hobj, hnode, orUb]
  · intro v
    simp only [Memory.assign, hobj, orUb, bind_ok]
    cases (m.clone ns).2.getLast? with
    | none => rfl
    | some l => simp [orUb, guardUb, hnot]
  · simp [Memory.undo, hobj, orUb, guardUb, hnot]
  · simp only [Memory.destroy, hobjp, orUb, bind_ok]
    rfl
  · have : ((m'.free ns).put p none).obj o = some ((m.clone ns).2, cur) := by
      simp [Memory.put, Memory.free, hop, hobj]
    have h5 : ((m'.free ns).put p none).node cur = none := by
      simp [Memory.put, Memory.free, hns]
    simp [Memory.read, this, h5, orUb]

/-- **C95, negation.** An object that was copied and then assigned to is no value of its own. -/
theorem C95_copies_are_no_values : ¬ ∀ (ops : List (UndoableOp Nat)) (s : Shelf Nat), Shelf.run (fun _ => none) ops = some s →
    ∃ m, Memory.empty.run ops = .ok m := by
  intro h
  obtain ⟨m, hm⟩ := h [.construct 0 5, .copy 1 0, .assign 1 6] _ rfl
  obtain ⟨m', h1, h2, h3, _⟩ := C95_copy [.construct 0 5] (by simp [NoCopy]) _ rfl 1 0 (by simp) ⟨[], 5, []⟩ rfl
  simp only [List.cons_append, List.nil_append] at h1
  simp only [Memory.run, bind_eq_ok] at h1 hm
  obtain ⟨m1, e1, m2, e2, e3⟩ := h1
  cases e3
  obtain ⟨k1, f1, k2, f2, k3, f3, _⟩ := hm
  rw [e1] at f1
  cases f1
  rw [e2] at f2
  cases f2
  rw [Memory.step, h3 6] at f3
  cases f3

/-! ## Nodes -/

/-- The node belongs to the object. -/
def Owns (m : Memory α) (o a : Nat) : Prop := ∃ ns cur, m.obj o = some (ns, cur) ∧ a ∈ ns

/-- Every node belongs to one object, and the other way round. -/
structure NodesOwned (m : Memory α) : Prop where
  alive : ∀ a, (∃ v, m.node a = some v) ↔ ∃ o, Owns m o a
  apart : ∀ o p a, Owns m o a → Owns m p a → o = p
  low : ∀ o a, Owns m o a → a < m.fresh

theorem NodesOwned.grow {m m' : Memory α} (h : NodesOwned m) (o : Nat) (S : Nat → Prop) (hS : ∀ a, S a → m.fresh ≤ a ∧ a < m'.fresh)
    (hf : m.fresh ≤ m'.fresh) (h1 : ∀ a, (∃ v, m'.node a = some v) ↔ (∃ v, m.node a = some v) ∨ S a)
    (h2 : ∀ q a, Owns m' q a ↔ Owns m q a ∨ q = o ∧ S a) : NodesOwned m' := by
  refine ⟨fun a => ?_, fun p q a hp hq => ?_, fun q a hq => ?_⟩
  · rw [h1, h.alive]
    simp only [h2]
    constructor
    · rintro (⟨q, hq⟩ | hs)
      · exact ⟨q, .inl hq⟩
      · exact ⟨o, .inr ⟨rfl, hs⟩⟩
    · rintro ⟨q, hq | ⟨-, hs⟩⟩
      · exact .inl ⟨q, hq⟩
      · exact .inr hs
  · rw [h2] at hp hq
    rcases hp with hp | ⟨rfl, hp⟩ <;> rcases hq with hq | ⟨rfl, hq⟩
    · exact h.apart p q a hp hq
    · have := h.low p a hp; have := (hS a hq).1; omega
    · have := h.low q a hq; have := (hS a hp).1; omega
    · rfl
  · rcases (h2 q a).1 hq with hq | ⟨-, hs⟩
    · exact Nat.lt_of_lt_of_le (h.low q a hq) hf
    · exact (hS a hs).2

theorem clone_nodes (m : Memory α) (ns : List Nat) :
    (∀ a ∈ (m.clone ns).2, a < (m.clone ns).1.fresh) ∧
    ∀ a, (∃ v, (m.clone ns).1.node a = some v) ↔ (∃ v, m.node a = some v) ∨ a ∈ (m.clone ns).2 := by
  induction ns generalizing m with
  | nil => exact ⟨by simp [Memory.clone], by simp [Memory.clone]⟩
  | cons a as ih =>
    simp only [Memory.clone]
    split
    · exact ih m
    · rename_i v _
      obtain ⟨h1, h2⟩ := ih (m.alloc v)
      have h3 := (clone_spec (m.alloc v) as).2.1
      refine ⟨fun b hb => ?_, fun b => ?_⟩
      · have hb : b = m.fresh ∨ b ∈ ((m.alloc v).clone as).2 := by simpa using hb
        rcases hb with rfl | hb
        · exact h3
        · exact h1 b hb
      · show (∃ v', ((m.alloc v).clone as).1.node b = some v') ↔ _ ∨ b ∈ m.fresh :: ((m.alloc v).clone as).2
        rw [h2 b, List.mem_cons]
        simp only [Memory.alloc]
        by_cases hb : b = m.fresh
        · simp [hb]
        · simp [hb]

theorem owns_put (m : Memory α) (o : Nat) (x : Option (List Nat × Nat)) (q a : Nat) :
    Owns (m.put o x) q a ↔ (q = o ∧ ∃ ns cur, x = some (ns, cur) ∧ a ∈ ns) ∨ q ≠ o ∧ Owns m q a := by
  simp only [Owns, Memory.put]
  by_cases h : q = o <;> simp [h]

theorem owns_of {m : Memory α} {o : Nat} {ns : List Nat} {cur : Nat} (h : m.obj o = some (ns, cur)) (a : Nat) : Owns m o a ↔ a ∈ ns := by
  simp [Owns, h]

/-- The nodes of one object die. -/
theorem NodesOwned.drop {m m' : Memory α} (h : NodesOwned m) (o : Nat)
    (h1 : ∀ a, (∃ v, m'.node a = some v) ↔ (∃ v, m.node a = some v) ∧ ¬ Owns m o a) (hf : m'.fresh = m.fresh)
    (h2 : ∀ q a, Owns m' q a ↔ q ≠ o ∧ Owns m q a) : NodesOwned m' := by
  refine ⟨fun a => ?_, fun p q a hp hq => h.apart p q a ((h2 p a).1 hp).2 ((h2 q a).1 hq).2, fun q a hq => hf ▸ h.low q a ((h2 q a).1 hq).2⟩
  rw [h1, h.alive]
  simp only [h2]
  constructor
  · rintro ⟨⟨q, hq⟩, hn⟩
    exact ⟨q, fun e => hn (e ▸ hq), hq⟩
  · rintro ⟨q, hne, hq⟩
    exact ⟨⟨q, hq⟩, fun ho => hne (h.apart q o a hq ho)⟩

/-- The nodes of one object die, and it gets those of another. -/
theorem NodesOwned.pass {m m' : Memory α} (h : NodesOwned m) (o p : Nat) (S : Nat → Prop) (hop : o ≠ p)
    (h1 : ∀ a, (∃ v, m'.node a = some v) ↔ (∃ v, m.node a = some v) ∧ ¬ S a) (hf : m'.fresh = m.fresh)
    (h2 : ∀ q a, Owns m' q a ↔ (q = o ∧ Owns m p a) ∨ (q ≠ o ∧ q ≠ p ∧ Owns m q a)) (hS : ∀ a, Owns m o a ↔ S a) : NodesOwned m' := by
  refine ⟨fun a => ?_, fun q r a hq hr => ?_, fun q a hq => ?_⟩
  · rw [h1, h.alive, ← hS]
    simp only [h2]
    constructor
    · rintro ⟨⟨q, hq⟩, hn⟩
      by_cases e : q = p
      · exact ⟨o, .inl ⟨rfl, e ▸ hq⟩⟩
      · exact ⟨q, .inr ⟨fun e => hn (e ▸ hq), e, hq⟩⟩
    · rintro ⟨q, ⟨-, hq⟩ | ⟨hne, -, hq⟩⟩
      · exact ⟨⟨p, hq⟩, fun ho => hop (h.apart o p a ho hq)⟩
      · exact ⟨⟨q, hq⟩, fun ho => hne (h.apart q o a hq ho)⟩
  · rcases (h2 q a).1 hq with ⟨rfl, hq⟩ | ⟨_, hqp, hq⟩ <;> rcases (h2 r a).1 hr with ⟨rfl, hr⟩ | ⟨_, hrp, hr⟩
    · rfl
    · exact absurd (h.apart _ _ a hr hq) hrp
    · exact absurd (h.apart _ _ a hq hr) hqp
    · exact h.apart q r a hq hr
  · rw [hf]
    rcases (h2 q a).1 hq with ⟨-, hq⟩ | ⟨-, -, hq⟩
    · exact h.low p a hq
    · exact h.low q a hq

theorem NodesOwned.step {m m' : Memory α} (h : NodesOwned m) {op : UndoableOp α} {live live' : Nat → Bool}
    (hl : ∀ o, live o = (m.obj o).isSome) (hu : useNames live op = some live') (hm : m.step op = .ok m') :
    NodesOwned m' ∧ ∀ o, live' o = (m'.obj o).isSome := by
  have none_owns : ∀ o, live o = false → ∀ a, ¬ Owns m o a := by
    intro o ho a ⟨ns, cur, h1, _⟩
    rw [hl, h1] at ho
    cases ho
  cases op with
  | construct o d =>
    simp only [useNames, Option.ite_none_left_eq_some, Option.some.injEq, Bool.not_eq_true] at hu
    obtain ⟨ho, rfl⟩ := hu
    cases hm
    refine ⟨h.grow o (· = m.fresh) ?_ ?_ ?_ ?_, ?_⟩
    · rintro a rfl; exact ⟨Nat.le_refl _, Nat.lt_succ_self _⟩
    · exact Nat.le_succ _
    · intro a
      simp only [Memory.construct, Memory.put, Memory.alloc]
      by_cases ha : a = m.fresh <;> simp [ha]
    · intro q a
      simp only [Memory.construct]
      rw [owns_put]
      by_cases hq : q = o
      · subst hq
        simp [none_owns q ho a]
      · simp [hq]; rfl
    · intro q
      simp only [Memory.construct, Memory.put, Memory.alloc, hl]
      by_cases hq : q = o <;> simp [hq]
  | assign o v =>
    simp only [useNames, Option.ite_none_right_eq_some, Option.some.injEq] at hu
    obtain ⟨ho, rfl⟩ := hu
    simp only [Memory.step, Memory.assign, bind_eq_ok, orUb_eq_ok, guardUb_eq_ok, massert_eq_ok, pure_eq_ok, Except.ok.injEq] at hm
    obtain ⟨⟨ns, cur⟩, hob, last, hlast, -, hcur, next, hnext, rfl⟩ := hm
    have hown := owns_of hob
    by_cases hc : cur = last
    · simp only [if_pos hc]
      refine ⟨h.grow o (· = m.fresh) ?_ ?_ ?_ ?_, ?_⟩
      · rintro a rfl; exact ⟨Nat.le_refl _, Nat.lt_succ_self _⟩
      · exact Nat.le_succ _
      · intro a
        simp only [Memory.put, Memory.alloc]
        by_cases ha : a = m.fresh <;> simp [ha]
      · intro q a
        rw [owns_put]
        by_cases hq : q = o
        · subst hq
          simp [hown]
        · simp [hq]; rfl
      · intro q
        simp only [Memory.put, Memory.alloc, hl]
        by_cases hq : q = o <;> simp [hq, hob]
    · simp only [if_neg hc]
      refine ⟨h.grow o (fun _ => False) ?_ ?_ ?_ ?_, ?_⟩
      · rintro a ⟨⟩
      · exact Nat.le_refl _
      · intro a; simp [Memory.put]
      · intro q a
        rw [owns_put]
        by_cases hq : q = o
        · subst hq
          simp [hown]
        · simp [hq]
      · intro q
        simp only [Memory.put, hl]
        by_cases hq : q = o <;> simp [hq, hob]
  | undo o =>
    simp only [useNames, Option.ite_none_right_eq_some, Option.some.injEq] at hu
    obtain ⟨ho, rfl⟩ := hu
    simp only [Memory.step, Memory.undo, bind_eq_ok, orUb_eq_ok, guardUb_eq_ok, massert_eq_ok, pure_eq_ok, Except.ok.injEq] at hm
    obtain ⟨⟨ns, cur⟩, hob, -, hcur, -, hn, next, hnext, rfl⟩ := hm
    have hown := owns_of hob
    refine ⟨h.grow o (fun _ => False) ?_ ?_ ?_ ?_, ?_⟩
    · rintro a ⟨⟩
    · exact Nat.le_refl _
    · intro a; simp [Memory.put]
    · intro q a
      rw [owns_put]
      by_cases hq : q = o
      · subst hq
        simp [hown]
      · simp [hq]
    · intro q
      simp only [Memory.put, hl]
      by_cases hq : q = o <;> simp [hq, hob]
  | copy o p =>
    simp only [useNames, Option.ite_none_right_eq_some, Option.some.injEq, Bool.and_eq_true, Bool.not_eq_true'] at hu
    obtain ⟨⟨hp, ho⟩, rfl⟩ := hu
    simp only [Memory.step, Memory.copy, bind_eq_ok, orUb_eq_ok, pure_eq_ok, Except.ok.injEq] at hm
    obtain ⟨⟨ns, cur⟩, hob, rfl⟩ := hm
    obtain ⟨k1, k2, -, k4⟩ := clone_spec m ns
    obtain ⟨l1, l2⟩ := clone_nodes m ns
    have same : ∀ q a, Owns (m.clone ns).1 q a ↔ Owns m q a := fun q a => by simp only [Owns, k1]
    refine ⟨h.grow o (· ∈ (m.clone ns).2) (fun a ha => ⟨k4 a ha, l1 a ha⟩) k2 l2 ?_, ?_⟩
    · intro q a
      rw [owns_put, same]
      by_cases hq : q = o
      · subst hq
        simp [none_owns q ho a]
      · simp [hq]
    · intro q
      simp only [Memory.put, k1, hl]
      by_cases hq : q = o <;> simp [hq]
  | move o p =>
    simp only [useNames, Option.ite_none_right_eq_some, Option.some.injEq, Bool.and_eq_true, Bool.not_eq_true'] at hu
    obtain ⟨⟨hp, ho⟩, rfl⟩ := hu
    simp only [Memory.step, Memory.move, bind_eq_ok, orUb_eq_ok, pure_eq_ok, Except.ok.injEq] at hm
    obtain ⟨⟨ns, cur⟩, hob, rfl⟩ := hm
    have hop : o ≠ p := by rintro rfl; rw [ho] at hp; cases hp
    refine ⟨h.pass o p (fun _ => False) hop (fun a => by simp [Memory.put]) rfl (fun q a => ?_) (fun a => by simp [none_owns o ho a]), ?_⟩
    · rw [owns_put, owns_put]
      by_cases hq : q = p
      · subst hq; simp [Ne.symm hop]
      · by_cases hq' : q = o
        · subst hq'; simp [hop, owns_of hob]
        · simp [hq, hq']
    · intro q
      simp only [Memory.put, hl]
      by_cases hq : q = p
      · simp [hq, hob]
      · by_cases hq' : q = o <;> simp [hq, hq', hop]
  | moveAssign o p =>
    simp only [useNames, Option.ite_none_right_eq_some, Option.some.injEq, Bool.and_eq_true] at hu
    obtain ⟨⟨ho, hp⟩, rfl⟩ := hu
    simp only [Memory.step, Memory.moveAssign, bind_eq_ok, orUb_eq_ok, pure_eq_ok, Except.ok.injEq] at hm
    obtain ⟨⟨old, oldCur⟩, hob, ⟨ns, cur⟩, hpb, rfl⟩ := hm
    have hown := owns_of hob
    have free : ∀ q a, Owns (m.free old) q a ↔ Owns m q a := fun _ _ => Iff.rfl
    by_cases hop : o = p
    · subst hop
      have e : ns = [] ∧ cur = oldCur := by simpa [Memory.put, Prod.ext_iff, eq_comm] using hpb
      obtain ⟨rfl, rfl⟩ := e
      refine ⟨h.drop o (fun a => ?_) rfl (fun q a => ?_), ?_⟩
      · rw [hown]
        simp only [Memory.put, Memory.free]
        by_cases ha : a ∈ old <;> simp [ha]
      · rw [owns_put, owns_put, owns_put, free]
        by_cases hq : q = o <;> simp [hq]
      · intro q
        simp only [Memory.put, Memory.free, hl]
        by_cases hq : q = o <;> simp [hq, hob]
    · have hpb' : m.obj p = some (ns, cur) := by simpa [Memory.put, Memory.free, Ne.symm hop] using hpb
      refine ⟨h.pass o p (· ∈ old) hop (fun a => ?_) rfl (fun q a => ?_) hown, ?_⟩
      · simp only [Memory.put, Memory.free]
        by_cases ha : a ∈ old <;> simp [ha]
      · rw [owns_put, owns_put, owns_put, free]
        by_cases hq : q = p
        · subst hq; simp [Ne.symm hop]
        · by_cases hq' : q = o
          · subst hq'; simp [hop, owns_of hpb']
          · simp [hq, hq']
      · intro q
        simp only [Memory.put, Memory.free, hl]
        by_cases hq : q = p
        · simp [hq, hpb']
        · by_cases hq' : q = o <;> simp [hq, hq', hop, hob]
  | destroy o =>
    simp only [useNames, Option.ite_none_right_eq_some, Option.some.injEq] at hu
    obtain ⟨ho, rfl⟩ := hu
    simp only [Memory.step, Memory.destroy, bind_eq_ok, orUb_eq_ok, pure_eq_ok, Except.ok.injEq] at hm
    obtain ⟨⟨old, cur⟩, hob, rfl⟩ := hm
    have hown := owns_of hob
    have free : ∀ q a, Owns (m.free old) q a ↔ Owns m q a := fun _ _ => Iff.rfl
    refine ⟨h.drop o (fun a => ?_) rfl (fun q a => ?_), ?_⟩
    · rw [hown]
      simp only [Memory.put, Memory.free]
      by_cases ha : a ∈ old <;> simp [ha]
    · rw [owns_put, free]
      by_cases hq : q = o <;> simp [hq]
    · intro q
      simp only [Memory.put, Memory.free, hl]
      by_cases hq : q = o <;> simp [hq]

theorem NodesOwned.run {m m' : Memory α} (h : NodesOwned m) {ops : List (UndoableOp α)} {live live' : Nat → Bool}
    (hl : ∀ o, live o = (m.obj o).isSome) (hu : namesAfter live ops = some live') (hm : m.run ops = .ok m') :
    NodesOwned m' ∧ ∀ o, live' o = (m'.obj o).isSome := by
  induction ops generalizing m live with
  | nil => cases hu; cases hm; exact ⟨h, hl⟩
  | cons op ops ih =>
    simp only [namesAfter, Option.bind_eq_some_iff] at hu
    obtain ⟨l, hu1, hu2⟩ := hu
    simp only [Memory.run, bind_eq_ok] at hm
    obtain ⟨m1, h1, h2⟩ := hm
    obtain ⟨h3, h4⟩ := h.step hl hu1 h1
    exact ih h3 h4 hu2 h2

/-- Copies or none: whatever a program does, the nodes that live are those of the lists of the objects that live, no node is in two lists, and
once all objects are gone so are all nodes. -/
theorem C95_no_leaks {ops : List (UndoableOp α)} {live : Nat → Bool} {m : Memory α}
    (hn : namesAfter (fun _ => false) ops = some live) (hm : Memory.empty.run ops = .ok m) :
    (∀ a, (m.node a).isSome ↔ ∃ o ns cur, m.obj o = some (ns, cur) ∧ a ∈ ns) ∧
    (∀ o p ns cur ns' cur', m.obj o = some (ns, cur) → m.obj p = some (ns', cur') → o ≠ p → ∀ a ∈ ns, a ∉ ns') ∧
    ((∀ o, live o = false) → ∀ a, m.node a = none) := by
  have h0 : NodesOwned (Memory.empty : Memory α) :=
    ⟨by simp [Memory.empty, Owns], by simp [Memory.empty, Owns], by simp [Memory.empty, Owns]⟩
  obtain ⟨h, hl⟩ := h0.run (fun _ => rfl) hn hm
  refine ⟨fun a => ?_, fun o p ns cur ns' cur' h1 h2 hop a ha hb => ?_, fun hd a => ?_⟩
  · rw [Option.isSome_iff_exists]; exact h.alive a
  · exact hop (h.apart o p a ⟨ns, cur, h1, ha⟩ ⟨ns', cur', h2, hb⟩)
  · rcases e : m.node a with _ | v
    · rfl
    · obtain ⟨o, ns, cur, h1, -⟩ := (h.alive a).1 ⟨v, e⟩
      have := hd o
      rw [hl, h1] at this
      cases this

/-- A program with everything but copies: two objects are changed, swapped and moved, and one is undone. -/
def demoObjects : List (UndoableOp Nat) :=
  [.construct 0 5, .assign 0 6, .construct 1 7, .assign 1 8, .assign 1 9] ++ swapOps 2 0 1 ++ [.undo 0, .move 3 0, .destroy 0]

example : NoCopy demoObjects := by intro o p; simp [demoObjects, swapOps]
example : (Shelf.run (fun _ => none) demoObjects).isSome = true := by decide
example : (do (← Memory.empty.run demoObjects).read 3) = .ok 8 := by decide
example : (do (← Memory.empty.run demoObjects).read 1) = .ok 6 := by decide
example : (do (← (← Memory.empty.run demoObjects).assign 3 1).read 3) = .ok 9 := by decide
example : (do (← Memory.empty.run (demoObjects ++ relocateOps [(1, 10), (3, 11)])).read 11) = .ok 8 := by decide
example : (do (← Memory.empty.run (demoObjects ++ relocateOps [(1, 10), (3, 11)])).read 3) = .error .ub := by decide
example : (do (← Memory.empty.run (demoObjects ++ [UndoableOp.copy 4 3, .assign 3 2])).read 4) = .ok 8 := by decide

example : (namesAfter (fun _ => false) (demoObjects ++ [.copy 4 3, .moveAssign 1 4, .moveAssign 3 3])).isSome = true := by decide
example : (Memory.empty.run (demoObjects ++ [.copy 4 3, .moveAssign 1 4, .moveAssign 3 3])).toOption.map
    (fun m => (List.range m.fresh).filter fun a => (m.node a).isSome) = some [5, 6, 7] := by decide

end Ygo.Props
