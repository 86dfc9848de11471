import Verif.Lemmas.History
import Verif.Lemmas.UndoExact
import Verif.Props.FrameSafe

/-!
# Undo and redo (C19 to C23, C27 to C29, C58)
-/

set_option linter.unusedSimpArgs false

namespace Ygo.Props
open Ygo Ygo.Spec

/-! ## C19: undoable values -/

/-- Several assignments. -/
def assignAll {α : Type} (u : Undoable α) (vs : List α) : Undoable α := vs.foldl Undoable.set u

/-- Several undos. -/
def undoTimes {α : Type} (u : Undoable α) : Nat → Res (Undoable α)
  | 0 => .ok u
  | n + 1 => do
    let u ← u.undo
    undoTimes u n

theorem assignAll_live {α : Type} {u : Undoable α} (h : LiveCell u) (vs : List α) :
    assignAll u vs = ⟨u.values ++ vs, u.current + vs.length⟩ := by
  induction vs generalizing u with
  | nil => simp [assignAll]
  | cons v vs ih =>
    obtain ⟨h1, h2⟩ := CellSim.liveCell_set (a := v) h
    have := ih h2
    simp only [assignAll, List.foldl_cons] at this ⊢
    rw [this, h1]
    simp; omega

theorem undoTimes_eq {α : Type} {u : Undoable α} {k : Nat} (h : k ≤ u.current) : undoTimes u k = .ok ⟨u.values, u.current - k⟩ := by
  induction k generalizing u with
  | zero => rfl
  | succ k ih =>
    have h1 : u.undo = .ok ⟨u.values, u.current - 1⟩ := by
      have : u.current ≠ 0 := by omega
      simp [Undoable.undo, massert, this]
    simp only [undoTimes, h1, bind_ok]
    rw [ih (by simp; omega)]
    simp; omega

theorem assignAll_replay {α : Type} {u : Undoable α} {ws : List α} (h : u.current + ws.length < u.values.length) :
    assignAll u ws = ⟨u.values, u.current + ws.length⟩ := by
  induction ws generalizing u with
  | nil => simp [assignAll]
  | cons w ws ih =>
    simp only [List.length_cons] at h
    have h1 : u.set w = ⟨u.values, u.current + 1⟩ := by
      have : u.current + 1 ≠ u.values.length := by omega
      simp [Undoable.set, this]
    have := ih (u := ⟨u.values, u.current + 1⟩) (by simp; omega)
    simp only [assignAll, List.foldl_cons] at this ⊢
    rw [h1, this]
    simp; omega

/-- **C19.** After the assignments `vs` and `k` undos, the value is the one before the last `k` assignments; assigning anything
`ws` (at most `k` times) then replays the recorded values. -/
theorem C19_undo_and_replay {α : Type} (d : α) (vs ws : List α) (k : Nat) (hk : k ≤ vs.length) (hw : ws.length ≤ k) :
    ∃ u, undoTimes (assignAll (.init d) vs) k = .ok u ∧
      u.get = orUb (d :: vs)[vs.length - k]? ∧
      (assignAll u ws).get = orUb (d :: vs)[vs.length - k + ws.length]? := by
  have hl : LiveCell (Undoable.init d) := rfl
  rw [assignAll_live hl]
  refine ⟨_, undoTimes_eq (by simp [Undoable.init]; omega), ?_, ?_⟩
  · simp [Undoable.get, Undoable.init]
  · rw [assignAll_replay (by simp [Undoable.init]; omega)]
    simp [Undoable.get, Undoable.init]

/-- **C19.** These reads are always defined. -/
theorem C19_reads_defined {α : Type} (d : α) (vs ws : List α) (k : Nat) (hk : k ≤ vs.length) (hw : ws.length ≤ k) :
    ∃ x, orUb (d :: vs)[vs.length - k + ws.length]? = .ok x :=
  ⟨(d :: vs)[vs.length - k + ws.length]'(by simp; omega), by simp⟩

/-- **C19.** Replaying everything and assigning once more records the new value. -/
theorem C19_append_after_replay {α : Type} (d : α) (vs ws : List α) (x : α) (k : Nat) (hk : k ≤ vs.length) (hw : ws.length = k) :
    ∃ u, undoTimes (assignAll (.init d) vs) k = .ok u ∧ assignAll u ws = assignAll (.init d) vs ∧
      (assignAll u (ws ++ [x])).get = .ok x := by
  have hl : LiveCell (Undoable.init d) := rfl
  rw [assignAll_live hl]
  refine ⟨_, undoTimes_eq (by simp [Undoable.init]; omega), ?_, ?_⟩
  · rw [assignAll_replay (by simp [Undoable.init]; omega)]
    simp [Undoable.init]; omega
  · have : assignAll ⟨d :: vs, vs.length - k⟩ (ws ++ [x]) = (assignAll ⟨d :: vs, vs.length - k⟩ ws).set x := by
      simp [assignAll]
    simp only [Undoable.init, List.cons_append, List.nil_append, Nat.zero_add]
    rw [this, assignAll_replay (by simp; omega)]
    apply cell_get_set
    simp [LiveCell]; omega

/-- **C19.** Undoing more than was assigned stops at an assertion. -/
theorem C19_undo_past_first {α : Type} (d : α) (vs : List α) (k : Nat) (hk : vs.length < k) :
    undoTimes (assignAll (.init d) vs) k = .error .assert := by
  have hl : LiveCell (Undoable.init d) := rfl
  rw [assignAll_live hl]
  simp only [Undoable.init, Nat.zero_add]
  generalize d :: vs = l
  generalize hn : vs.length = n at hk
  clear hl hn
  induction n generalizing k with
  | zero =>
    obtain ⟨k, rfl⟩ : ∃ j, k = j + 1 := ⟨k - 1, by omega⟩
    simp [undoTimes, Undoable.undo, massert]
  | succ n ih =>
    obtain ⟨k, rfl⟩ : ∃ j, k = j + 1 := ⟨k - 1, by omega⟩
    have := ih k (by omega)
    simp [undoTimes, Undoable.undo, massert]
    exact this

/-- Any interleaving: `some v` assigns `v`, `none` undoes. -/
def _root_.Ygo.Spec.Editor.exec {α : Type} (e : Editor α) : List (Option α) → Option (Editor α)
  | [] => some e
  | some v :: xs => (e.assign v).exec xs
  | none :: xs => e.undo.bind (·.exec xs)

/-- The same interleaving on the modelled class. -/
def execUndoable {α : Type} (u : Undoable α) : List (Option α) → Res (Undoable α)
  | [] => .ok u
  | some v :: xs => execUndoable (u.set v) xs
  | none :: xs => do execUndoable (← u.undo) xs

/-- **C19.** Every interleaving of assignments and undos on `BasicUndoable` reads what the editor shows, and aborts exactly when
the editor has nothing to undo. -/
theorem C19_is_an_editor {α : Type} (d : α) (xs : List (Option α)) :
    match Editor.exec ⟨[], d, []⟩ xs with
    | some e => ∃ u, execUndoable (.init d) xs = .ok u ∧ u.get = .ok e.now
    | none => execUndoable (.init d) xs = .error .assert := by
  suffices h : ∀ (e : Editor α) (u : Undoable α), u.values = e.past.reverse ++ e.now :: e.future → u.current = e.past.length →
      match e.exec xs with
      | some e => ∃ u', execUndoable u xs = .ok u' ∧ u'.get = .ok e.now
      | none => execUndoable u xs = .error .assert from h ⟨[], d, []⟩ (.init d) rfl rfl
  induction xs with
  | nil =>
    intro e u h1 h2
    refine ⟨u, rfl, ?_⟩
    simp [Undoable.get, h1, h2]
  | cons x xs ih =>
    intro e u h1 h2
    obtain ⟨past, now, future⟩ := e
    obtain ⟨vals, cur⟩ := u
    simp only at h1 h2
    subst h1 h2
    cases x with
    | some v =>
      simp only [Editor.exec, execUndoable]
      cases future with
      | nil =>
        refine ih _ _ ?_ ?_
        · simp [Undoable.set, Editor.assign]
        · simp [Undoable.set, Editor.assign]
      | cons y ys =>
        refine ih _ _ ?_ ?_
        · simp [Undoable.set, Editor.assign]
        · simp [Undoable.set, Editor.assign]
    | none =>
      simp only [Editor.exec, execUndoable]
      cases past with
      | nil => simp [Editor.undo, Undoable.undo, massert]
      | cons y ys =>
        simp only [Editor.undo, Option.bind_some]
        have : Undoable.undo ⟨(y :: ys).reverse ++ now :: future, (y :: ys).length⟩ =
            .ok (⟨(y :: ys).reverse ++ now :: future, ys.length⟩ : Undoable α) := by simp [Undoable.undo, massert]
        rw [this, bind_ok]
        exact ih ⟨ys, y, now :: future⟩ _ (by simp) rfl

example : (do (← undoTimes (assignAll (.init 0) [5, 6, 7]) 2).get) = (.ok 5 : Res Nat) := by decide
example : (do (assignAll (← undoTimes (assignAll (.init 0) [5, 6, 7]) 2) [99]).get) = (.ok 6 : Res Nat) := by decide

/-! ## C20: adding and removing cards -/

/-- **C20.** At the live end, `card_add` can be undone and redone: the undo takes out the card that was added and restores the layout,
the redo puts the same card back; the frame owns the same cards throughout. -/
theorem C20_card_add (f f' : Limbo) (p : Place) (c : CardId) (hl : LiveFrame f) (h : f.cardAdd p = .ok (f', c)) :
    ∃ f1 f2, f'.undoCardAdd p = .ok (f1, c) ∧ f1.base.layout = f.base.layout ∧
      f1.cardAdd p = .ok (f2, c) ∧ f2.base.layout = f'.base.layout ∧
      f1.base.owned = f'.base.owned ∧ f2.base.owned = f'.base.owned := by
  obtain ⟨⟨L, ow, nx⟩, op, q, pre⟩ := f
  obtain ⟨ha, hb⟩ := hl
  simp only at ha hb
  subst ha hb
  simp [Limbo.cardAdd, Limbo.advance, Limbo.emplace, Frame.cardAdd, Frame.construct] at h
  obtain ⟨L', h, rfl, rfl⟩ := h
  have e1 := Layout.erase_insert h
  have e2 := Layout.hasCard_insert h
  refine ⟨⟨⟨L, nx :: ow, nx + 1⟩, pre.length, pre.length + 1, pre ++ [.card nx]⟩,
    ⟨⟨L', nx :: ow, nx + 1⟩, pre.length + 1, pre.length + 1, pre ++ [.card nx]⟩, ?_, rfl, ?_, rfl, rfl, rfl⟩
  · simp [Limbo.undoCardAdd, e1, e2, massert, Limbo.currentCard, Limbo.setLayout, Limbo.current_mk, Limbo.regress_mk]
  · simp [Limbo.cardAdd, Limbo.advance, Limbo.currentCard, Limbo.current_mk, h, e2, massert, Limbo.setLayout]

/-- **C20.** At the live end, `card_remove` can be undone and redone: the undo puts back the card that was removed, the redo removes
it again; the frame owns the same cards throughout. -/
theorem C20_card_remove (f f' : Limbo) (p : Place) (c : CardId) (hl : LiveFrame f) (hc : f.base.layout.card p = .ok c)
    (h : f.cardRemove p = .ok f') :
    ∃ f1 f2, f'.undoCardRemove p = .ok (f1, c) ∧ f1.base.layout = f.base.layout ∧
      f1.cardRemove p = .ok f2 ∧ f2.base.layout = f'.base.layout ∧
      f'.base.owned = f.base.owned ∧ f1.base.owned = f.base.owned ∧ f2.base.owned = f.base.owned := by
  obtain ⟨⟨L, ow, nx⟩, op, q, pre⟩ := f
  obtain ⟨ha, hb⟩ := hl
  simp only at ha hb
  subst ha hb
  simp [Limbo.cardRemove, Limbo.advance, Limbo.emplace, Limbo.setLayout] at h
  obtain ⟨h0, c', L', h, rfl⟩ := h
  obtain rfl : c' = c := by
    obtain ⟨C, i, h1, h2, _⟩ := Layout.cardErase_eq_ok.mp h
    obtain ⟨D, j, h3, h4⟩ := Layout.card_eq_ok.mp hc
    obtain ⟨rfl, rfl⟩ := At.unique h1 h3
    simp only at h4
    rw [h2] at h4
    simpa using h4
  have e1 := Layout.insert_erase h
  refine ⟨⟨⟨L, ow, nx⟩, pre.length, pre.length + 1, pre ++ [.card c']⟩,
    ⟨⟨L', ow, nx⟩, pre.length + 1, pre.length + 1, pre ++ [.card c']⟩, ?_, rfl, ?_, rfl, rfl, rfl, rfl⟩
  · simp [Limbo.undoCardRemove, e1, h0, massert, Limbo.currentCard, Limbo.setLayout, Limbo.current_mk, Limbo.regress_mk]
  · simp [Limbo.cardRemove, Limbo.advance, Limbo.currentCard, Limbo.current_mk, h, h0, massert, Limbo.setLayout]

/-- Operations in order on a new undoable frame. -/
def limboRun : List FrameOp → Res Limbo := runOps Limbo.init

/-- What is at a place after some operations and some undos. -/
def limboCard (ops undos redos : List FrameOp) (p : Place) : Res CardId := do
  let f ← limboRun ops
  let f ← UndoBoard.undoOps f undos
  let f ← runOps f redos
  f.base.layout.card p

example : limboCard demoOps [.add (grave1 0)] [.add (grave1 0)] (grave1 0) = .ok 15 := by decide
example : limboCard demoOps [.add (grave1 0), .remove (deck0 0)] [] (deck0 0) = .ok 0 := by decide

/-! ## C21: resizing piles -/

/-- **C21 (partial).** At the live end, a resize that does not shrink the pile, or that shrinks it to exactly half its size, can be
undone and redone exactly. -/
theorem C21_pile_resize_partial (f f' : Limbo) (p : Place) (n : Nat) (k : PileKey) (i : Nat) (hl : LiveFrame f) (hp : At p (.pile k) i)
    (hn : (f.base.layout.pile k).length ≤ n ∨ (f.base.layout.pile k).length = 2 * n) (h : f.pileResize p n = .ok f') :
    ∃ f1 f2, f'.undoPileResize p n = .ok f1 ∧ f1.base.layout = f.base.layout ∧
      f1.pileResize p n = .ok f2 ∧ f2.base.layout = f'.base.layout ∧
      f1.base.owned = f'.base.owned ∧ f2.base.owned = f'.base.owned := by
  have hu : Undoes f.base.layout (.resize p n) := by
    intro k' i' hk'
    obtain ⟨h1, _⟩ := At.unique hp hk'
    cases h1
    exact hn
  obtain ⟨f0, h1, h2, h3, _⟩ := Between.new (.start hl) hl rfl hu (X := .resize p n) h
  have h1 : f.pileResize p n = .ok f0 := h1
  rw [h] at h1; cases h1
  obtain ⟨f1, h4, h5, h6, _⟩ := Between.back (T1 := []) h2
  obtain ⟨f2, h7, h8, h9, _⟩ := Between.forth h5
  refine ⟨f1, f2, h4, h5.last, h7, ?_, h6, by rw [h9, h6]⟩
  rw [h8.last, h2.last]
  rfl

/-- **C21 (refuted in general).** Shrinking a pile to less than half its size returns, but undoing it always stops at an assertion:
the saved slice contains null cards. -/
theorem C21_shrink_below_half_undo_aborts (f : Limbo) (p : Place) (n : Nat) (k : PileKey) (i : Nat) (hl : LiveFrame f)
    (hp : At p (.pile k) i) (hn : 2 * n < (f.base.layout.pile k).length) :
    ∃ f', f.pileResize p n = .ok f' ∧ f'.undoPileResize p n = .error .assert := by
  obtain ⟨s, h1, h2⟩ := Limbo.resize_live hl hp (.inr (Nat.le_of_lt hn))
  have h2 := h2 (by omega)
  refine ⟨_, h1, ?_⟩
  have hnull : Limbo.verified s = .error .assert := by
    obtain ⟨m, hm⟩ : ∃ m, (f.base.layout.pile k).length - 2 * n = m + 1 := ⟨(f.base.layout.pile k).length - 2 * n - 1, by omega⟩
    rw [h2, hm]
    have : ∀ l : List CardId, ((l.map some ++ List.replicate (m + 1) none).mapM id : Option (List CardId)) = none := by
      intro l
      induction l with
      | nil => simp [List.replicate_succ]
      | cons a l ih => simp only [List.map_cons, List.cons_append, List.mapM_cons, ih]; rfl
    simp only [Limbo.verified, this]; rfl
  have h3 : n - (f.base.layout.pile k).length = 0 := by omega
  have h4 : min n (f.base.layout.pile k).length < (f.base.layout.pile k).length := by omega
  have hop : f.op = f.ops.length := hl.1
  simp [Limbo.undoPileResize, Spec.At.isPile hp, Spec.At.pileKey hp, massert, Limbo.currentResize, hop, Limbo.current_mk, h3, h4, hnull]

/-- **C21 (refuted in general).** Shrinking a pile by less than half its size writes behind the end of the saved slice: undefined
behaviour already when resizing. -/
theorem C21_shrink_above_half_ub (f : Limbo) (p : Place) (n : Nat) (k : PileKey) (i : Nat) (hl : LiveFrame f) (hp : At p (.pile k) i)
    (h1 : n < (f.base.layout.pile k).length) (h2 : (f.base.layout.pile k).length < 2 * n) : f.pileResize p n = .error .ub :=
  Limbo.resize_live_ub hl hp h1 h2

/-- **C21 (exactly when).** At the live end, resizing a pile and undoing it works for exactly these sizes. -/
theorem C21_pile_resize_exactly (f : Limbo) (p : Place) (n : Nat) (k : PileKey) (i : Nat) (hl : LiveFrame f) (hp : At p (.pile k) i) :
    (∃ f' f1, f.pileResize p n = .ok f' ∧ f'.undoPileResize p n = .ok f1 ∧ f1.base.layout = f.base.layout) ↔
      (f.base.layout.pile k).length ≤ n ∨ (f.base.layout.pile k).length = 2 * n := by
  constructor
  · rintro ⟨f', f1, h1, h2, _⟩
    by_cases h : (f.base.layout.pile k).length < 2 * n
    · by_cases h3 : n < (f.base.layout.pile k).length
      · rw [C21_shrink_above_half_ub f p n k i hl hp h3 h] at h1; cases h1
      · exact .inl (by omega)
    · by_cases h3 : (f.base.layout.pile k).length = 2 * n
      · exact .inr h3
      · obtain ⟨f2, h4, h5⟩ := C21_shrink_below_half_undo_aborts f p n k i hl hp (by omega)
        rw [h1] at h4; cases h4
        rw [h2] at h5; cases h5
  · intro h
    obtain ⟨f', hf⟩ : ∃ f', f.pileResize p n = .ok f' := by
      obtain ⟨s, hs, _⟩ := Limbo.resize_live hl hp (n := n) (h.imp_right fun h => Nat.le_of_eq h.symm)
      exact ⟨_, hs⟩
    obtain ⟨f1, _, h1, h2, _⟩ := C21_pile_resize_partial f f' p n k i hl hp h hf
    exact ⟨f', f1, hf, h1, h2⟩

example : limboCard [.resize (deck0 0) 4, .resize (deck0 0) 2] [.resize (deck0 0) 2] [] (deck0 3) = .ok 3 := by decide
example : limboCard [.resize (deck0 0) 4, .resize (deck0 0) 1] [.resize (deck0 0) 1] [] (deck0 3) = .error .assert := by decide
example : limboCard [.resize (deck0 0) 4, .resize (deck0 0) 3] [] [] (deck0 0) = .error .ub := by decide

/-! ## C22: clearing -/

/-- **C22.** At the live end, `clear` always returns and empties the board, undoing it restores the exact layout, redoing it empties the
board again; no card is given up. -/
theorem C22_clear (f : Limbo) (hl : LiveFrame f) :
    ∃ f' f1 f2, f.clear = .ok f' ∧ (∀ C, view f'.base.layout C = []) ∧
      f'.undoClear = .ok f1 ∧ f1.base = f.base ∧
      f1.clear = .ok f2 ∧ (∀ C, view f2.base.layout C = []) ∧ f'.base.owned = f.base.owned ∧ f2.base.owned = f.base.owned := by
  obtain ⟨⟨L, ow, nx⟩, op, q, pre⟩ := f
  obtain ⟨ha, hb⟩ := hl
  simp only at ha hb
  subst ha hb
  refine ⟨⟨⟨Layout.empty, ow, nx⟩, pre.length + 1, pre.length + 1, pre ++ [.clear L]⟩,
    ⟨⟨L, ow, nx⟩, pre.length, pre.length + 1, pre ++ [.clear Layout.empty]⟩,
    ⟨⟨Layout.empty, ow, nx⟩, pre.length + 1, pre.length + 1, pre ++ [.clear L]⟩, ?_, view_empty, ?_, rfl, ?_, view_empty, rfl, rfl⟩
  · simp [Limbo.clear, Limbo.advance, Limbo.emplace, Limbo.currentClear, Limbo.current_mk, Limbo.setCurrent_mk, Limbo.setLayout]
  · simp [Limbo.undoClear, Limbo.currentClear, Limbo.current_mk, Limbo.setCurrent_mk, Limbo.setLayout, Limbo.regress_mk]
  · simp [Limbo.clear, Limbo.advance, Limbo.currentClear, Limbo.current_mk, Limbo.setCurrent_mk, Limbo.setLayout]

example : limboCard (demoOps ++ [.clear]) [.clear] [] (mz0 0 1) = .ok 14 := by decide
example : limboCard (demoOps ++ [.clear]) [.clear] [.clear] (mz0 0 1) = .error .assert := by decide

/-! ## C23: no card lost or duplicated -/

/-- **C23.** In every history of new operations, undos, redos and `erase_history`, every card on the layout is owned by the frame and
none is there twice. -/
theorem C23_cards_kept (f : Limbo) (past future : List FrameOp) (h : History f past future) :
    (placed (view f.base.layout)).Nodup ∧ ∀ c ∈ placed (view f.base.layout), c ∈ f.base.owned := by
  obtain ⟨L0, T1, T2, hi⟩ := history_inv h
  exact hi.here

/-- **C23.** The undos and redos a history offers never abort. -/
theorem C23_undo_redo_return (f : Limbo) (past future : List FrameOp) (h : History f past future) :
    (∀ X rest, past = X :: rest → ∃ f', f.undo X = .ok f') ∧ (∀ X rest, future = X :: rest → ∃ f', f.step X = .ok f') :=
  history_progress h

/-- **C23.** Ownership never shrinks, whatever is done: any operation, in whatever state. -/
theorem C23_owned_never_shrinks (f f' : Limbo) (X : FrameOp) :
    (f.step X = .ok f' → ∀ c ∈ f.base.owned, c ∈ f'.base.owned) ∧ (f.undo X = .ok f' → f'.base.owned = f.base.owned) ∧
    (f.eraseHistory = .ok f' → f'.base.owned = f.base.owned) := by
  exact ⟨Limbo.step_owned, Limbo.undo_owned, fun h => by rw [Limbo.erase_owned h]⟩

/-- Undoing an operation other than the last one is not protected: here a removal is undone after an addition, which puts the added
card on the board a second time. So the order of undos in `History` is needed for C23. -/
theorem C23_misordered_undo_duplicates :
    ∃ f f', limboRun [.add (mz0 0)] = .ok f ∧ f.undo (.remove (mz0 1)) = .ok f' ∧ ¬ (placed (view f'.base.layout)).Nodup := by
  have h1 : (limboRun [.add (mz0 0)]).toOption.isSome = true := by decide
  have h2 : ((limboRun [.add (mz0 0)]).bind (·.undo (.remove (mz0 1)))).toOption.isSome = true := by decide
  have h3 : ((limboRun [.add (mz0 0)]).bind (·.undo (.remove (mz0 1)))).map (fun f => placed (view f.base.layout)) = .ok [0, 0] := by decide
  cases hf : limboRun [.add (mz0 0)] with
  | error e => rw [hf] at h1; cases h1
  | ok f =>
    rw [hf] at h2 h3
    cases hs : f.undo (.remove (mz0 1)) with
    | error e => simp [Except.bind, hs] at h2; cases h2
    | ok f' =>
      refine ⟨f, f', rfl, hs, ?_⟩
      simp [Except.bind, Except.map, hs] at h3
      rw [h3]
      decide

/-- A history with every kind of step. -/
example : ∃ f, History f [.add (mz0 0)] [] := by
  have h1 : (Limbo.init.step (.resize (deck0 0) 3)).toOption.isSome = true := by decide
  have h2 : ((Limbo.init.step (.resize (deck0 0) 3)).bind fun f => (f.step (.add (mz0 0))).bind fun f => (f.undo (.add (mz0 0))).bind fun f =>
    f.step (.add (mz0 0))).toOption.isSome = true := by decide
  have hu : Undoes Limbo.init.base.layout (.resize (deck0 0) 3) := by intro k i _; left; exact Nat.zero_le _
  cases e1 : Limbo.init.step (.resize (deck0 0) 3) with
  | error e => rw [e1] at h1; cases h1
  | ok f1 =>
    rw [e1] at h2
    cases e2 : f1.step (.add (mz0 0)) with
    | error e => simp [Except.bind, e2] at h2; cases h2
    | ok f2 =>
      cases e3 : f2.undo (.add (mz0 0)) with
      | error e => simp [Except.bind, e2, e3] at h2; cases h2
      | ok f3 =>
        cases e4 : f3.step (.add (mz0 0)) with
        | error e => simp [Except.bind, e2, e3, e4] at h2; cases h2
        | ok f4 =>
          exact ⟨f4, .redo (.undo (.new (.barrier .init e1) trivial e2) e3) e4⟩

/-! ## C27, C28: undoing and replaying events -/

/-- **C28 (scrubbing).** Parse any sequence of supported events on a board with nothing undone.  Move back and forth over it in
any way: every parse and undo returns, and the board shows at every position exactly what it showed there on the straight run,
with the same card objects. -/
theorem C28_scrub_partial (b bn : UndoBoard) (es : List Event) (hl : Live b) (hs : Supported b es) (h : b.parseEvents es = .ok bn)
    (ms : List Move) :
    ∃ b' i Bi, scrub es b 0 ms = .ok (b', i) ∧ i ≤ es.length ∧ b.parseEvents (es.take i) = .ok Bi ∧ SameSight b' Bi := by
  have hr := Run.of_parse hl hs h
  obtain ⟨b', i, k, h1, h2⟩ := hr.scrub ms hr.start
  obtain ⟨Bi, h3⟩ := parseEvents_take h i
  refine ⟨b', i, Bi, h1, by have := h2.le; omega, h3, ?_⟩
  have := hr.sight h2
  simpa [runBoard, h3] using this

/-- **C28.** After scrubbing, the cards owned are those of the straight run to the furthest position reached: replaying never
allocates. -/
theorem C28_replay_allocates_nothing (b bn : UndoBoard) (es : List Event) (hl : Live b) (hs : Supported b es)
    (h : b.parseEvents es = .ok bn) (ms : List Move) :
    ∃ b' i j Bj, scrub es b 0 ms = .ok (b', i) ∧ i ≤ j ∧ b.parseEvents (es.take j) = .ok Bj ∧
      b'.frame.base.owned = Bj.frame.base.owned := by
  have hr := Run.of_parse hl hs h
  obtain ⟨b', i, k, h1, h2⟩ := hr.scrub ms hr.start
  obtain ⟨Bj, h3⟩ := parseEvents_take h (i + k)
  refine ⟨b', i, i + k, Bj, h1, by omega, h3, ?_⟩
  have := h2.owned
  simpa [runBoard, h3] using this

theorem scrub_append (es : List Event) (ms ms' : List Move) (b : UndoBoard) (i : Nat) :
    scrub es b i (ms ++ ms') = (do let (b, i) ← scrub es b i ms; scrub es b i ms') := by
  induction ms generalizing b i with
  | nil => rfl
  | cons m ms ih =>
    cases m with
    | forward =>
      simp only [List.cons_append, scrub]
      split
      · cases b.parseEvent _ <;> simp [ih]
      · exact ih _ _
    | backward =>
      simp only [List.cons_append, scrub]
      split
      · exact ih _ _
      · split
        · cases b.undoParseEvent _ <;> simp [ih]
        · exact ih _ _

theorem scrub_forward (b : UndoBoard) (pre es : List Event) :
    scrub (pre ++ es) b pre.length (List.replicate es.length .forward) =
      (do let b ← b.parseEvents es; .ok (b, pre.length + es.length)) := by
  induction es generalizing b pre with
  | nil => rfl
  | cons e es ih =>
    have hb := fun b => ih b (pre ++ [e])
    simp only [List.length_append, List.length_cons, List.length_nil, List.append_assoc, List.cons_append, List.nil_append] at hb
    have he : (pre ++ e :: es)[pre.length]? = some e := by simp
    have hn : pre.length + 1 + es.length = pre.length + (es.length + 1) := by omega
    rw [hn] at hb
    simp only [List.length_cons, List.replicate_succ, scrub, he, DuelBoard.parseEvents]
    cases b.parseEvent e with
    | error e => rfl
    | ok b1 => simp only [bind_ok]; rw [Nat.zero_add] at hb; exact hb b1

theorem undoEvents_append (b : UndoBoard) (es es' : List Event) :
    b.undoEvents (es ++ es') = (do (← b.undoEvents es').undoEvents es) := by
  induction es with
  | nil => cases h : b.undoEvents es' <;> simp [h, UndoBoard.undoEvents]
  | cons e es ih =>
    simp only [List.cons_append, UndoBoard.undoEvents, ih]
    cases b.undoEvents es' <;> simp

theorem scrub_backward {b : UndoBoard} {es post : List Event} {r : UndoBoard × Nat}
    (h : scrub (es ++ post) b es.length (List.replicate es.length .backward) = .ok r) : b.undoEvents es = .ok r.1 ∧ r.2 = 0 := by
  generalize hn : es.length = n at h
  induction n generalizing es post b with
  | zero =>
    have := List.eq_nil_of_length_eq_zero hn
    subst this
    simp [scrub] at h
    subst h
    exact ⟨rfl, rfl⟩
  | succ n ih =>
    obtain ⟨es, e, rfl⟩ : ∃ es' e, es = es' ++ [e] := by
      have hne : es ≠ [] := by intro hB; simp [hB] at hn
      exact ⟨es.dropLast, es.getLast hne, (List.dropLast_concat_getLast hne).symm⟩
    have hlen : es.length = n := by simpa using hn
    have he : (es ++ [e] ++ post)[n]? = some e := by simp [← hlen]
    simp only [List.replicate_succ, scrub, he, bind_eq_ok] at h
    obtain ⟨b1, h1, h2⟩ := h
    rw [List.append_assoc] at h2
    obtain ⟨h3, h4⟩ := ih hlen h2
    exact ⟨by simp [undoEvents_append, UndoBoard.undoEvents, h1, h3], h4⟩

/-- **C27.** Parsing a sequence of supported events and undoing it, last event first, returns and shows the starting board again. -/
theorem C27_undo_events_partial (b bn : UndoBoard) (es : List Event) (hl : Live b) (hs : Supported b es) (h : b.parseEvents es = .ok bn) :
    ∃ b', bn.undoEvents es = .ok b' ∧ SameSight b' b := by
  obtain ⟨b', i, Bi, h1, h2, h3, h4⟩ := C28_scrub_partial b bn es hl hs h (List.replicate es.length .forward ++ List.replicate es.length .backward)
  have h5 := scrub_forward b [] es
  simp only [List.nil_append, List.length_nil, Nat.zero_add, h, bind_ok] at h5
  rw [scrub_append, h5, bind_ok] at h1
  obtain ⟨h6, h7⟩ := scrub_backward (post := []) (by simpa using h1)
  simp only at h6 h7
  subst h7
  cases h3
  exact ⟨b', h6, h4⟩

/-- **C27 (one event).** -/
theorem C27_undo_event_partial (b b1 : UndoBoard) (e : Event) (hl : Live b) (hs : UndoesAll b.frame (frameOps e)) (h : b.parseEvent e = .ok b1) :
    ∃ b', b1.undoParseEvent e = .ok b' ∧ SameSight b' b := by
  obtain ⟨b', h1, h2⟩ := C27_undo_events_partial b b1 [e] hl ⟨hs, fun _ _ => trivial⟩ (by simp [DuelBoard.parseEvents, h])
  exact ⟨b', by simpa [UndoBoard.undoEvents] using h1, h2⟩

/-- **C28.** Parsing, undoing everything and parsing again shows the board reached the first time. -/
theorem C28_replay_partial (b bn : UndoBoard) (es : List Event) (hl : Live b) (hs : Supported b es) (h : b.parseEvents es = .ok bn) :
    ∃ b' bn', bn.undoEvents es = .ok b' ∧ b'.parseEvents es = .ok bn' ∧ SameSight bn' bn := by
  obtain ⟨b', h1, _⟩ := C27_undo_events_partial b bn es hl hs h
  obtain ⟨c', i, Bi, h2, h3, h4, h5⟩ := C28_scrub_partial b bn es hl hs h
    ((List.replicate es.length .forward ++ List.replicate es.length .backward) ++ List.replicate es.length .forward)
  have h6 := scrub_forward b [] es
  simp only [List.nil_append, List.length_nil, Nat.zero_add, h, bind_ok] at h6
  rw [scrub_append, scrub_append, h6, bind_ok] at h2
  simp only [bind_eq_ok] at h2
  obtain ⟨r, h7, h8⟩ := h2
  obtain ⟨h9, h10⟩ := scrub_backward (post := []) (by simpa using h7)
  rw [h1] at h9
  have h9 := Except.ok.inj h9
  rw [← h9, h10] at h8
  have h11 := scrub_forward b' [] es
  simp only [List.nil_append, List.length_nil, Nat.zero_add] at h11
  rw [h11] at h8
  simp only [bind_eq_ok, Except.ok.injEq, Prod.mk.injEq] at h8
  obtain ⟨bn', h12, rfl, rfl⟩ := h8
  rw [List.take_length, h] at h4
  cases h4
  exact ⟨b', bn', h1, h12, h5⟩

/-- **C27 (exactly when).** Parsed events can be undone exactly if they are supported: whenever undoing gets through, it shows the
starting board again. -/
theorem C27_undo_exactly (b bn : UndoBoard) (es : List Event) (hl : Live b) (h : b.parseEvents es = .ok bn) :
    ((∃ b', bn.undoEvents es = .ok b') ↔ Supported b es) ∧ ∀ b', bn.undoEvents es = .ok b' → SameSight b' b := by
  have h1 : (∃ b', bn.undoEvents es = .ok b') → Supported b es := by
    rintro ⟨b', hb⟩
    exact supported_of_all h ((undoOps_iff hl.frame (parseEvents_frame h)).mp ⟨_, undoEvents_frame hb⟩)
  refine ⟨⟨h1, fun hs => ?_⟩, fun b' hb => ?_⟩
  · obtain ⟨b', h2, _⟩ := C27_undo_events_partial b bn es hl hs h
    exact ⟨b', h2⟩
  · obtain ⟨b2, h2, h3⟩ := C27_undo_events_partial b bn es hl (h1 ⟨b', hb⟩) h
    rw [hb] at h2; cases h2
    exact h3

/-- **C28 (exactly when).** One can move back and forth over parsed events in every way exactly if they are supported. -/
theorem C28_scrub_exactly (b bn : UndoBoard) (es : List Event) (hl : Live b) (h : b.parseEvents es = .ok bn) :
    (∀ ms, ∃ r, scrub es b 0 ms = .ok r) ↔ Supported b es := by
  constructor
  · intro hs
    obtain ⟨r, h1⟩ := hs (List.replicate es.length .forward ++ List.replicate es.length .backward)
    have h5 := scrub_forward b [] es
    simp only [List.nil_append, List.length_nil, Nat.zero_add, h, bind_ok] at h5
    rw [scrub_append, h5, bind_ok] at h1
    obtain ⟨h6, _⟩ := scrub_backward (post := []) (by simpa using h1)
    exact (C27_undo_exactly b bn es hl h).1.mp ⟨_, h6⟩
  · intro hs ms
    obtain ⟨b', i, _, h1, _⟩ := C28_scrub_partial b bn es hl hs h ms
    exact ⟨_, h1⟩

/-- Events of every supported kind. -/
def demoEvents : List Event :=
  [.board (.state { turnCounter := 1, lps := [8000, 8000], add := [mz0 0, mz0 0 0, mz0 1], resize := [⟨deck0 0, 4⟩, ⟨hand0 0, 5⟩] }),
   .nextTurn 1, .lp 0 (.damage 9000), .nextPhase 4, .zoneBlock [mz0 4],
   .card 0 (.move [⟨deck0 3, hand0 5⟩]), .card 0 (.exchange [⟨mz0 0, mz0 1⟩]), .card 0 (.remove [mz0 0]), .card 0 (.add [grave1 0]),
   .pile 0 (.splice [⟨hand0 0, 2, deck0 1, true⟩]), .pile 0 (.exchange [⟨deck0 0, hand0 0⟩]),
   .board (.exchange { resize := [⟨grave1 0, 3⟩], remove := [grave1 1], add := [sz1 2] }), .lp 1 (.recover 500)]

/-- Observe some of a board after scrubbing over the demo events. -/
def demoScrub (ms : List Move) : Res (Nat × List CardId × Nat × Nat × Nat) := do
  let (b, i) ← scrub demoEvents UndoBoard.init 0 ms
  return (i, placed (view b.frame.base.layout), ← (b.lp 0).get, ← (b.lp 1).get, ← b.turn.get)

/-- The demo events parse and are supported, and scrubbing over them is not trivial. -/
example : Live UndoBoard.init ∧ Supported UndoBoard.init demoEvents :=
  ⟨⟨⟨rfl, rfl⟩, rfl, rfl, rfl, fun _ => rfl, rfl, rfl⟩, supportedB_sound (by decide)⟩
example : demoScrub (List.replicate 13 .forward) = .ok (13, [9, 10, 11, 6, 3, 8, 7, 4, 5, 12, 14, 0, 15, 1], 0, 8500, 2) := by decide
example : demoScrub (List.replicate 13 .forward ++ List.replicate 9 .backward) = demoScrub (List.replicate 4 .forward) := by decide

/-! ## C29: unsupported operations abort -/

/-- **C29.** Chain events cannot be parsed or undone on an undoable board: they stop at an assertion, on every board. -/
theorem C29_chain_events_abort (b : UndoBoard) (c : Chain) (x : Bool) :
    b.parseEvent (.chainStack (.push c)) = .error .assert ∧ b.parseEvent (.chainStack (.pop x)) = .error .assert ∧
    b.undoParseEvent (.chainStack (.push c)) = .error .assert ∧ b.undoParseEvent (.chainStack (.pop x)) = .error .assert :=
  ⟨rfl, rfl, rfl, rfl⟩

/-- **C29.** Undoing a shuffle event stops at an assertion, on every board. -/
theorem C29_undo_shuffle_aborts (b : UndoBoard) (r : Nat) (prev cur : List Place) :
    b.undoParseEvent (.card r (.shuffle prev cur)) = .error .assert := by
  rfl

/-- A shuffle itself does parse on an undoable board, so the abort is about undoing it. -/
example : ((UndoBoard.init.parseEvents [.card 0 (.add [mz0 0, mz0 1]), .card 0 (.shuffle [mz0 0, mz0 1] [mz0 1, mz0 0])]).bind
    fun b => b.frame.base.layout.card (mz0 0)) = .ok 1 := by decide

/-! ## C58: the undoable board shows what the plain board shows -/

/-- **C58.** Whatever sequence of events a new undoable board accepts, a new plain board accepts too, and both show the same: same
card objects at the same places, same life points, turn, turn player, phase, chain stack and blocked zones. -/
theorem C58_same_as_plain (es : List Event) (u : UndoBoard) (h : UndoBoard.init.parseEvents es = .ok u) :
    ∃ p, PlainBoard.init.parseEvents es = .ok p ∧ Shows p u := by
  suffices hgen : ∀ (es : List Event) (u0 u : UndoBoard) (p0 : PlainBoard), Shows p0 u0 → Refines p0.frame u0.frame → Inv p0.frame →
      Live u0 → u0.parseEvents es = .ok u → ∃ p, p0.parseEvents es = .ok p ∧ Shows p u by
    refine hgen es _ u PlainBoard.init ⟨rfl, rfl, rfl, rfl, fun _ => rfl, rfl, rfl⟩ ⟨rfl, rfl, fun _ h => h⟩ Inv.init ?_ h
    exact ⟨⟨rfl, rfl⟩, rfl, rfl, rfl, fun _ => rfl, rfl, rfl⟩
  intro es
  induction es with
  | nil => intro u0 u p0 hs _ _ _ h; cases h; exact ⟨p0, rfl, hs⟩
  | cons e es ih =>
    intro u0 u p0 hs hr hi hl h
    simp only [DuelBoard.parseEvents, bind_eq_ok] at h
    obtain ⟨u1, h1, h2⟩ := h
    obtain ⟨p1, h3, h4, h5, h6, h7⟩ := parse_shows hs hr hi hl h1
    obtain ⟨p, h8, h9⟩ := ih u1 u p1 h4 h5 h6 h7 h2
    exact ⟨p, by simp [DuelBoard.parseEvents, h3, h8], h9⟩

/-- **C58.** Conversely, an operation the plain frame accepts is accepted by a live undoable frame with the same layout, unless it
shrinks a pile to more than half its size. -/
theorem C58_accepts_what_plain_accepts (g g' : Frame) (f : Limbo) (X : FrameOp) (hl : LiveFrame f) (hsame : g.layout = f.base.layout)
    (hnext : g.next = f.base.next) (h : g.step X = .ok g')
    (hx : ∀ p n k i, X = .resize p n → At p (.pile k) i → (view g.layout (.pile k)).length ≤ n ∨ 2 * n ≤ (view g.layout (.pile k)).length) :
    ∃ f', f.step X = .ok f' :=
  Limbo.step_of_plain hl hsame hnext h hx

example : (PlainBoard.init.parseEvents demoEvents).map (fun p => placed (view p.frame.layout)) =
    .ok [9, 10, 11, 6, 3, 8, 7, 4, 5, 12, 14, 0, 15, 1] := by decide

end Ygo.Props
