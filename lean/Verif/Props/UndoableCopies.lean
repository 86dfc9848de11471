import Verif.Lemmas.UndoableCopies

/-!
# Copied undoable objects, exactly (C95)
-/

set_option linter.unusedSimpArgs false

namespace Ygo.Props
open Ygo Ygo.Spec

variable {α : Type}

theorem Ledger.put_put (l : Ledger α) (o : Nat) (x y : Option (Option (Sheet α))) : (l.put o x).put o y = l.put o y := by
  simp only [Ledger.put, Ledger.mk.injEq, and_true]
  funext p
  split <;> simp_all

/-- The values of a ledger alone. -/
def shelfOf (l : Ledger α) : Shelf α := fun o => (l.entry o).map (·.map (·.value))

theorem shelfOf_put (l : Ledger α) (o : Nat) (x : Option (Option (Sheet α))) : shelfOf (l.put o x) = (shelfOf l).put o (x.map (·.map (·.value))) := by
  funext p
  simp only [shelfOf, Ledger.put, Shelf.put]
  split <;> rfl

theorem shelfOf_some {l : Ledger α} {o : Nat} {e : Editor α} (h : shelfOf l o = some (some e)) : ∃ t, l.entry o = some (some t) ∧ t.value = e := by
  unfold shelfOf at h
  match he : l.entry o with
  | none => rw [he] at h; cases h
  | some none => rw [he] at h; cases h
  | some (some t) => rw [he] at h; cases h; exact ⟨t, rfl, rfl⟩

/-- An operation that makes sense either goes well, in memory as in the ledger, or is one on a copy and undefined. -/
theorem Charted.step {L : Nat → Option (List Nat)} {m : Memory α} {l : Ledger α} (h : Charted L m l) (op : UndoableOp α) {live live' : Nat → Bool}
    (hl : ∀ o, live o = (l.entry o).isSome) (hu : useNames live op = some live') {s : Shelf α} (hs : (shelfOf l).step op = some s) :
    (∃ L' m' l', m.step op = .ok m' ∧ l.step op = some l' ∧ Charted L' m' l' ∧ s = shelfOf l' ∧ ∀ o, live' o = (l'.entry o).isSome) ∨
      m.step op = .error .ub ∧ l.step op = none := by
  have hnone : ∀ {o}, live o = false → l.entry o = none := fun {o} e => by
    rw [hl o] at e
    cases h : l.entry o with
    | none => rfl
    | some _ => rw [h] at e; cases e
  cases op with
  | construct o d =>
    simp only [Shelf.step, Option.some.injEq] at hs
    simp only [useNames] at hu
    split at hu
    · cases hu
    · rename_i hlo
      cases hu
      obtain ⟨L', hc⟩ := h.construct (hnone (by simpa using hlo)) d
      refine .inl ⟨L', _, _, rfl, rfl, hc, ?_, ?_⟩
      · rw [← hs]
        exact (shelfOf_put l o (some (some ⟨⟨[], d, []⟩, l.lists, l.lists⟩))).symm
      · intro q
        simp only [Ledger.put]
        by_cases hq : q = o <;> simp [hq, hl]
  | assign o v =>
    simp only [Shelf.step] at hs
    split at hs
    · rename_i e he
      obtain ⟨t, ht, rfl⟩ := shelfOf_some he
      simp only [useNames] at hu
      split at hu
      · cases hu
        by_cases hown : t.home = t.within
        · obtain ⟨L', m', hm, hc⟩ := h.assign ht hown v
          refine .inl ⟨L', m', _, hm, by simp [Ledger.step, ht, hown], hc, ?_, ?_⟩
          · cases hs
            simp only [shelfOf_put, hown]
            rfl
          · intro q
            simp only [Ledger.put]
            by_cases hq : q = o
            · subst hq; simp [hl, ht]
            · simp [hq, hl]
        · refine .inr ⟨?_, by simp [Ledger.step, ht, hown]⟩
          obtain ⟨ns, cur, hm, hne⟩ := h.foreign ht hown
          simp only [Memory.step, Memory.assign, hm, orUb, bind_ok]
          cases ns.getLast? with
          | none => rfl
          | some a => simp [guardUb, hne]
      · cases hu
    · cases hs
  | undo o =>
    simp only [Shelf.step] at hs
    split at hs
    · rename_i e he
      obtain ⟨t, ht, rfl⟩ := shelfOf_some he
      simp only [Option.map_eq_some_iff] at hs
      obtain ⟨e', hu', rfl⟩ := hs
      simp only [useNames] at hu
      split at hu
      · cases hu
        by_cases hown : t.home = t.within
        · obtain ⟨L', m', hm, hc⟩ := h.undo ht hown hu'
          refine .inl ⟨L', m', l.put o (some (some { t with value := e' })), hm, by simp [Ledger.step, ht, hown, hu'], hc, ?_, ?_⟩
          · rw [shelfOf_put]
            rfl
          · intro q
            simp only [Ledger.put]
            by_cases hq : q = o
            · subst hq; simp [hl, ht]
            · simp [hq, hl]
        · refine .inr ⟨?_, by simp [Ledger.step, ht, hown]⟩
          obtain ⟨ns, cur, hm, hne⟩ := h.foreign ht hown
          simp only [Memory.step, Memory.undo, hm, orUb, bind_ok]
          simp [guardUb, hne]
      · cases hu
    · cases hs
  | copy o p =>
    simp only [Shelf.step] at hs
    split at hs
    · rename_i e he
      obtain ⟨t, ht, rfl⟩ := shelfOf_some he
      simp only [useNames] at hu
      split at hu
      · rename_i hlo
        cases hu
        simp only [Bool.and_eq_true, Bool.not_eq_true'] at hlo
        obtain ⟨L', m', hm, hc⟩ := h.copy (hnone hlo.2) ht
        refine .inl ⟨L', m', _, hm, by simp only [Ledger.step, ht], hc, ?_, ?_⟩
        · cases hs
          exact (shelfOf_put l o (some (some ⟨t.value, l.lists, t.within⟩))).symm
        · intro q
          simp only [Ledger.put]
          by_cases hq : q = o <;> simp [hq, hl]
      · cases hu
    · cases hs
  | move o p =>
    simp only [useNames] at hu
    split at hu
    · rename_i hlo
      cases hu
      simp only [Bool.and_eq_true, Bool.not_eq_true'] at hlo
      have hop : o ≠ p := by rintro rfl; rw [hlo.1] at hlo; simp at hlo
      obtain ⟨y, hy⟩ := Option.isSome_iff_exists.mp ((hl p).symm.trans hlo.1)
      obtain ⟨ns, cur, hm⟩ := h.there hy
      refine .inl ⟨L, _, (l.put o (some y)).put p (some none), by simp only [Memory.step, Memory.move, hm, orUb, bind_ok]; rfl,
        by simp [Ledger.step, hy, hop], h.transfer hop (.inl (hnone hlo.2)) hy hm, ?_, ?_⟩
      · simp only [Shelf.step, shelfOf, hy, Option.map_some, if_neg hop, Option.some.injEq] at hs
        rw [shelfOf_put, shelfOf_put, ← hs]
        rfl
      · intro q
        simp only [Ledger.put]
        by_cases hq : q = o <;> by_cases hq' : q = p <;> simp [hq, hq', hl, hop, hy]
    · cases hu
  | moveAssign o p =>
    simp only [useNames] at hu
    split at hu
    · rename_i hlo
      cases hu
      simp only [Bool.and_eq_true] at hlo
      obtain ⟨z, hz⟩ := Option.isSome_iff_exists.mp ((hl o).symm.trans hlo.1)
      obtain ⟨y, hy⟩ := Option.isSome_iff_exists.mp ((hl p).symm.trans hlo.2)
      obtain ⟨old, oldCur, hm⟩ := h.there hz
      obtain ⟨L', h1⟩ := h.drop hm (some ([], oldCur)) (some none) (.inr ⟨rfl, rfl⟩)
      have hstep : l.step (.moveAssign o p) = some ((l.put o (some y)).put p (some none)) := by simp [Ledger.step, hz, hy]
      have hsh : s = shelfOf ((l.put o (some y)).put p (some none)) := by
        simp only [Shelf.step, shelfOf, hy, hz, Option.map_some, Option.some.injEq] at hs
        rw [shelfOf_put, shelfOf_put, ← hs]
        rfl
      have hlive : ∀ q, live q = (((l.put o (some y)).put p (some none)).entry q).isSome := by
        intro q
        simp only [Ledger.put]
        by_cases hq : q = p
        · subst hq; simp [hl, hy]
        · by_cases hq' : q = o
          · subst hq'; simp [hq, hl, hz]
          · simp [hq, hq', hl]
      by_cases hop : o = p
      · subst hop
        refine .inl ⟨L', (m.free old).put o (some ([], oldCur)), _, ?_, hstep, by rw [Ledger.put_put]; exact h1, hsh, hlive⟩
        have : ((m.free old).put o (some ([], oldCur))).obj o = some ([], oldCur) := by simp [Memory.put]
        simp only [Memory.step, Memory.moveAssign, hm, orUb, bind_ok, this, Memory.put_put]
        rfl
      · obtain ⟨ns, cur, hmp⟩ := h.there hy
        have hmp' : ((m.free old).put o (some ([], oldCur))).obj p = some (ns, cur) := by
          simp [Memory.put, Memory.free, Ne.symm hop, hmp]
        have h2 := h1.transfer (o := o) (p := p) (y := y) hop (.inr (by simp [Ledger.put])) (by simp [Ledger.put, Ne.symm hop, hy]) hmp'
        refine .inl ⟨L', _, _, by simp only [Memory.step, Memory.moveAssign, hm, hmp', orUb, bind_ok]; rfl, hstep, ?_, hsh, hlive⟩
        rw [Ledger.put_put] at h2
        exact h2
    · cases hu
  | destroy o =>
    simp only [useNames] at hu
    split at hu
    · rename_i hlo
      cases hu
      obtain ⟨y, hy⟩ := Option.isSome_iff_exists.mp ((hl o).symm.trans hlo)
      obtain ⟨ns, cur, hm⟩ := h.there hy
      obtain ⟨L', h1⟩ := h.drop hm none none (.inl ⟨rfl, rfl⟩)
      refine .inl ⟨L', _, l.put o none, by simp only [Memory.step, Memory.destroy, hm, orUb, bind_ok]; rfl, by simp [Ledger.step, hy], h1, ?_, ?_⟩
      · simp only [Shelf.step, shelfOf, hy, Option.map_some, Option.some.injEq] at hs
        rw [shelfOf_put, ← hs]
        rfl
      · intro q
        simp only [Ledger.put]
        by_cases hq : q = o <;> simp [hq, hl]
    · cases hu

theorem Charted.run {L : Nat → Option (List Nat)} {m : Memory α} {l : Ledger α} (h : Charted L m l) (ops : List (UndoableOp α)) {live live' : Nat → Bool}
    (hl : ∀ o, live o = (l.entry o).isSome) (hu : namesAfter live ops = some live') {s : Shelf α} (hs : (shelfOf l).run ops = some s) :
    (∃ L' m' l', m.run ops = .ok m' ∧ l.run ops = some l' ∧ Charted L' m' l' ∧ s = shelfOf l') ∨ m.run ops = .error .ub ∧ l.run ops = none := by
  induction ops generalizing L m l live with
  | nil => cases hs; exact .inl ⟨L, m, l, rfl, rfl, h, rfl⟩
  | cons op ops ih =>
    simp only [namesAfter, Option.bind_eq_some_iff] at hu
    obtain ⟨_, hu1, hu2⟩ := hu
    simp only [Shelf.run, Option.bind_eq_some_iff] at hs
    obtain ⟨_, hs1, hs2⟩ := hs
    rcases Charted.step h op hl hu1 hs1 with ⟨L1, m1, l1, e1, e2, h1, rfl, hl1⟩ | ⟨e1, e2⟩
    · simp only [Memory.run, Ledger.run, e1, e2, bind_ok, Option.bind_some]
      exact ih h1 hl1 hu2 hs2
    · exact .inr ⟨by simp only [Memory.run, e1]; rfl, by simp only [Ledger.run, e2]; rfl⟩

/-- **C95, exactly.** A program that makes sense, taking every object as a value of its own, either runs well in memory or is undefined. It runs
well precisely if nothing is assigned to or undone through an iterator that points into another object's list, as those of copies do. -/
theorem C95_exactly {ops : List (UndoableOp α)} {live : Nat → Bool} (hn : namesAfter (fun _ => false) ops = some live)
    {s : Shelf α} (hs : Shelf.run (fun _ => none) ops = some s) :
    ((∃ m, Memory.empty.run ops = .ok m) ↔ ∃ l, Ledger.empty.run ops = some l) ∧
    ((∃ m, Memory.empty.run ops = .ok m) ∨ Memory.empty.run ops = .error .ub) := by
  rcases Charted.run Charted.empty ops (fun _ => rfl) hn hs with ⟨L, m, l, h1, h2, _⟩ | ⟨h1, h2⟩
  · exact ⟨⟨fun _ => ⟨l, h2⟩, fun _ => ⟨m, h1⟩⟩, .inl ⟨m, h1⟩⟩
  · exact ⟨⟨(fun ⟨m, h⟩ => by rw [h1] at h; cases h), (fun ⟨l, h⟩ => by rw [h2] at h; cases h)⟩, .inr h1⟩

/-- **C95, exactly.** After a program that runs well, every object reads the value it stands for as long as the list into which its iterator points is
still some object's, and reading it is undefined as soon as that list is gone. -/
theorem C95_reads_exactly {ops : List (UndoableOp α)} {live : Nat → Bool} (hn : namesAfter (fun _ => false) ops = some live)
    {s : Shelf α} (hs : Shelf.run (fun _ => none) ops = some s) {m : Memory α} (hm : Memory.empty.run ops = .ok m) :
    ∃ l, Ledger.empty.run ops = some l ∧ (∀ o, s o = (l.entry o).map (·.map (·.value))) ∧
      ∀ o t, l.entry o = some (some t) → (l.Has t.within → m.read o = .ok t.value.now) ∧ (¬ l.Has t.within → m.read o = .error .ub) := by
  rcases Charted.run Charted.empty ops (fun _ => rfl) hn hs with ⟨L, m', l, h1, h2, h3, h4⟩ | ⟨h1, _⟩
  · rw [hm] at h1
    cases h1
    exact ⟨l, h2, fun o => congrFun h4 o, fun o t ht => h3.read ht⟩
  · rw [hm] at h1
    cases h1

/-- One that is copied, and the other changed: the copy still reads the old value. -/
def changedSource : List (UndoableOp Nat) := [.construct 0 7, .assign 0 8, .copy 1 0, .assign 0 9, .undo 0]

/-- One that is copied, the other destroyed. -/
def goneSource : List (UndoableOp Nat) := [.construct 0 7, .copy 1 0, .destroy 0]

/-- One that is copied and assigned to. -/
def changedCopy : List (UndoableOp Nat) := [.construct 0 7, .copy 1 0, .assign 1 8]

example : (namesAfter (fun _ => false) changedSource).isSome ∧ (Shelf.run (fun _ => none) changedSource).isSome ∧
    (Memory.empty.run changedSource).isOk ∧ (Memory.empty.run changedSource >>= (·.read 1)) = .ok 8 := by
  decide +kernel

example : (namesAfter (fun _ => false) goneSource).isSome ∧ (Shelf.run (fun _ => none) goneSource).isSome ∧
    (Memory.empty.run goneSource).isOk ∧ (Memory.empty.run goneSource >>= (·.read 1)) = .error .ub := by
  decide +kernel

example : (namesAfter (fun _ => false) changedCopy).isSome ∧ (Shelf.run (fun _ => none) changedCopy).isSome ∧
    (Ledger.empty.run changedCopy).isNone ∧ (Memory.empty.run changedCopy).isOk = false := by
  decide +kernel

end Ygo.Props
