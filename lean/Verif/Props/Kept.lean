import Verif.Lemmas.Kept
import Verif.Props.Undo

/-!
# How much a client that can go back keeps (C134)
-/

namespace Ygo.Props
open Ygo Ygo.Spec

theorem tellLogged_take {es : List Event} {i : Nat} {e : Event} (h : es[i]? = some e) : tellLogged (es.take (i + 1)) = tellLogged (es.take i) + tellsLogged e := by
  rw [List.take_add_one, h]; simp [tellLogged]

theorem tellValue_take {es : List Event} {i : Nat} {e : Event} (h : es[i]? = some e) (v : BoardValue) :
    tellValue (es.take (i + 1)) v = tellValue (es.take i) v + tellsValue e v := by
  rw [List.take_add_one, h]; simp [tellValue]

theorem sum_take_mono (l : List Nat) {i j : Nat} (h : i ≤ j) : (l.take i).sum ≤ (l.take j).sum := by
  obtain ⟨d, rfl⟩ := Nat.le.dest h
  rw [List.take_add, List.sum_append]
  omega

theorem tellLogged_mono (es : List Event) {i j : Nat} (h : i ≤ j) : tellLogged (es.take i) ≤ tellLogged (es.take j) := by
  simp only [tellLogged, List.map_take]; exact sum_take_mono _ h

theorem tellValue_mono (es : List Event) (v : BoardValue) {i j : Nat} (h : i ≤ j) : tellValue (es.take i) v ≤ tellValue (es.take j) v := by
  simp only [tellValue, List.map_take]; exact sum_take_mono _ h

/-- What a board is at some position, after having been at some farther one. -/
structure Stands (es : List Event) (u : UndoBoard) (pos far : Nat) : Prop where
  le : pos ≤ far
  end_ : far ≤ es.length
  logged : u.frame.ops.length = u.frame.processed
  op : u.frame.op = tellLogged (es.take pos)
  processed : u.frame.processed = tellLogged (es.take far)
  before : ∀ v, valuesBefore u v = tellValue (es.take pos) v
  kept : ∀ v, valuesKept u v = tellValue (es.take far) v + 1

theorem Stands.start (es : List Event) : Stands es UndoBoard.init 0 0 := by
  refine ⟨Nat.le_refl _, Nat.zero_le _, rfl, rfl, rfl, fun v => ?_, fun v => ?_⟩ <;> cases v <;> rfl

/-- A step forward; no card is made unless it goes farther than before. -/
theorem Stands.forward {es : List Event} {u u' : UndoBoard} {pos far : Nat} {e : Event} (hs : Stands es u pos far) (he : es[pos]? = some e)
    (h : u.parseEvent e = .ok u') : Stands es u' (pos + 1) (max far (pos + 1)) ∧ (pos < far → u'.frame.base.owned = u.frame.base.owned) := by
  have hlt : pos < es.length := (List.getElem?_eq_some_iff.mp he).1
  have hm := tellLogged_mono es hs.le
  have h1 := hs.op
  have h2 := hs.processed
  have hf := runOps_further (by omega) (parse_frame h)
  rw [entries_event] at hf
  have e1 := tellLogged_take he
  have hle := hs.le
  have hend := hs.end_
  have hx : ∀ {n : Nat} (f : Nat → Nat), f (pos + 1) = f pos + n → (∀ i j, i ≤ j → f i ≤ f j) → max (f far) (f pos + n) = f (max far (pos + 1)) := by
    intro n f h1 h2
    rcases Nat.lt_or_ge pos far with h | h
    · rw [Nat.max_eq_left (show pos + 1 ≤ far from h)]
      have := h2 _ _ (show pos + 1 ≤ far from h)
      omega
    · have : far = pos := by omega
      subst this
      rw [Nat.max_eq_right (Nat.le_succ _), ← h1]
      have := h2 _ _ (Nat.le_succ far)
      exact Nat.max_eq_right this
  refine ⟨⟨by omega, by omega, ?_, ?_, ?_, fun v => ?_, fun v => ?_⟩, fun h => hf.owned ?_⟩
  · have hl : Logged u.frame := hs.logged.symm
    have : ∀ (Xs : List FrameOp) (f f' : Limbo), Logged f → runOps f Xs = .ok f' → Logged f' := by
      intro Xs
      induction Xs with
      | nil => intro f f' hl h; cases h; exact hl
      | cons X Xs ih =>
        intro f f' hl h
        simp only [runOps, bind_eq_ok] at h
        obtain ⟨f1, h1, h2⟩ := h
        exact ih _ _ (Limbo.step_logged hl h1) h2
    exact (this _ _ _ hl (parse_frame h)).symm
  · rw [hf.op, e1, h1]
  · rw [hf.processed, h1, h2]
    exact hx (fun i => tellLogged (es.take i)) e1 fun i j h => tellLogged_mono es h
  · have := parse_said h (fun v => by rw [hs.before, hs.kept]; exact Nat.lt_succ_of_le (tellValue_mono es v hs.le)) v
    rw [this.1, hs.before, tellValue_take he]
  · have := parse_said h (fun v => by rw [hs.before, hs.kept]; exact Nat.lt_succ_of_le (tellValue_mono es v hs.le)) v
    rw [this.2, hs.before, hs.kept, ← hx (fun i => tellValue (es.take i) v) (tellValue_take he v) fun i j h => tellValue_mono es v h]
    omega
  · have := tellLogged_mono es (show pos + 1 ≤ far from h)
    omega

theorem Stands.backward {es : List Event} {u u' : UndoBoard} {pos far : Nat} {e : Event} (hs : Stands es u (pos + 1) far) (he : es[pos]? = some e)
    (h : u.undoParseEvent e = .ok u') : Stands es u' pos far ∧ u'.frame.base.owned = u.frame.base.owned := by
  have hu := undo_frame h
  have hb := undoOps_back hu
  have er : entriesOf (frameOps e).reverse = tellsLogged e := by
    rw [← entries_event]; simp only [entriesOf, List.map_reverse, List.sum_reverse]
  rw [er] at hb
  have e1 := tellLogged_take he
  have h1 := hs.op
  have hle := hs.le
  refine ⟨⟨by omega, hs.end_, ?_, by omega, hb.2.1.trans hs.processed, fun v => ?_, fun v => ?_⟩, hb.2.2⟩
  · have hl : Logged u.frame := hs.logged.symm
    have : ∀ (Xs : List FrameOp) (f f' : Limbo), Logged f → UndoBoard.undoOps f Xs = .ok f' → Logged f' := by
      intro Xs
      induction Xs with
      | nil => intro f f' hl h; cases h; exact hl
      | cons X Xs ih =>
        intro f f' hl h
        simp only [UndoBoard.undoOps, bind_eq_ok] at h
        obtain ⟨f1, h1, h2⟩ := h
        exact ih _ _ (Limbo.undo_logged hl h1) h2
    exact (this _ _ _ hl hu).symm
  · have := undo_unsaid_event h v
    have h2 := hs.before v
    have h3 := tellValue_take he v
    omega
  · rw [(undo_unsaid_event h v).2, hs.kept]

/-- A walk from there. -/
theorem Stands.walk {es : List Event} {ms : List Move} {u u' : UndoBoard} {pos far i : Nat} (hs : Stands es u pos far) (h : scrub es u pos ms = .ok (u', i)) :
    i = (ms.foldl (goTo es.length) (pos, far)).1 ∧ Stands es u' i (ms.foldl (goTo es.length) (pos, far)).2 ∧
    ((ms.foldl (goTo es.length) (pos, far)).2 = far → u'.frame.base.owned = u.frame.base.owned) := by
  have far_le : ∀ (ms : List Move) (p : Nat × Nat), p.2 ≤ (ms.foldl (goTo es.length) p).2 := by
    intro ms
    induction ms with
    | nil => intro p; exact Nat.le_refl _
    | cons m ms ih =>
      intro p
      refine Nat.le_trans ?_ (ih _)
      cases m
      · simp only [goTo]; split
        · exact Nat.le_max_left _ _
        · exact Nat.le_refl _
      · exact Nat.le_refl _
  induction ms generalizing u pos far with
  | nil => cases h; exact ⟨rfl, hs, fun _ => rfl⟩
  | cons m ms ih =>
    cases m with
    | forward =>
      rw [scrub] at h
      cases he : es[pos]? with
      | none =>
        rw [he] at h
        have : goTo es.length (pos, far) .forward = (pos, far) := by
          simp only [goTo]; rw [if_neg (by have := List.getElem?_eq_none_iff.mp he; omega)]
        rw [List.foldl_cons, this]
        exact ih hs h
      | some e =>
        rw [he] at h
        simp only [bind_eq_ok] at h
        obtain ⟨u1, h1, h2⟩ := h
        have : goTo es.length (pos, far) .forward = (pos + 1, max far (pos + 1)) := by
          simp only [goTo]; rw [if_pos (List.getElem?_eq_some_iff.mp he).1]
        rw [List.foldl_cons, this]
        obtain ⟨a, b⟩ := hs.forward he h1
        obtain ⟨c, d, f⟩ := ih a h2
        refine ⟨c, d, fun hf => ?_⟩
        have := far_le ms (pos + 1, max far (pos + 1))
        rw [hf] at this
        dsimp only at this
        rw [f (by omega), b (by omega)]
    | backward =>
      rw [List.foldl_cons]
      cases pos with
      | zero => rw [scrub] at h; exact ih hs h
      | succ pos =>
        rw [scrub] at h
        have hlt : pos < es.length := by have := hs.le; have := hs.end_; omega
        rw [List.getElem?_eq_getElem hlt] at h
        simp only [bind_eq_ok] at h
        obtain ⟨u1, h1, h2⟩ := h
        obtain ⟨a, b⟩ := hs.backward (List.getElem?_eq_getElem hlt) h1
        obtain ⟨c, d, f⟩ := ih a h2
        exact ⟨c, d, fun hf => (f hf).trans b⟩

/-- **C134.** However a client goes back and forth over events, it keeps one log entry for each addition, removal, resize and clear up to the
farthest position it has been at, and of each value on the board the first one and one for each event that said a new one up to there. -/
theorem C134_kept (es : List Event) (ms : List Move) (u : UndoBoard) (i : Nat) (h : scrub es UndoBoard.init 0 ms = .ok (u, i)) :
    u.frame.ops.length = tellLogged (es.take (farthest es.length ms)) ∧
    ∀ v, valuesKept u v = tellValue (es.take (farthest es.length ms)) v + 1 := by
  obtain ⟨-, h, -⟩ := (Stands.start es).walk h
  exact ⟨h.logged.trans h.processed, h.kept⟩

/-- **C134.** It can go back over as many as were told of up to where it is. -/
theorem C134_undoable (es : List Event) (ms : List Move) (u : UndoBoard) (i : Nat) (h : scrub es UndoBoard.init 0 ms = .ok (u, i)) :
    u.frame.op = tellLogged (es.take i) ∧ ∀ v, valuesBefore u v = tellValue (es.take i) v := by
  obtain ⟨-, h, -⟩ := (Stands.start es).walk h
  exact ⟨h.op, h.before⟩

/-- **C134.** As long as it goes no farther than before it makes nothing: no cards, no log entries and no values. -/
theorem C134_nothing_new (es : List Event) (ms ms' : List Move) (u u' : UndoBoard) (i j : Nat) (h : scrub es UndoBoard.init 0 ms = .ok (u, i))
    (h' : scrub es u i ms' = .ok (u', j)) (hf : farthest es.length (ms ++ ms') = farthest es.length ms) :
    u'.frame.base.owned = u.frame.base.owned ∧ u'.frame.ops.length = u.frame.ops.length ∧ ∀ v, valuesKept u' v = valuesKept u v := by
  obtain ⟨e, hs, -⟩ := (Stands.start es).walk h
  have e2 : farthest es.length (ms ++ ms') = (ms'.foldl (goTo es.length) (i, farthest es.length ms)).2 := by
    rw [farthest, List.foldl_append, e]; rfl
  have hs : Stands es u i (farthest es.length ms) := hs
  obtain ⟨-, hs', ho⟩ := hs.walk h'
  rw [← e2, hf] at hs' ho
  exact ⟨ho rfl, by rw [hs'.logged, hs'.processed, hs.logged, hs.processed], fun v => by rw [hs'.kept, hs.kept]⟩

/-- **C134.** Going straight through keeps the same as any walk that comes as far. -/
theorem C134_straight (es : List Event) (ms : List Move) (u w : UndoBoard) (i : Nat) (h : scrub es UndoBoard.init 0 ms = .ok (u, i))
    (hw : UndoBoard.init.parseEvents (es.take (farthest es.length ms)) = .ok w) :
    u.frame.ops.length = w.frame.ops.length ∧ ∀ v, valuesKept u v = valuesKept w v := by
  have k : ∀ (xs : List Event) (b : UndoBoard) (n : Nat), Stands es b n n → (es.drop n).take xs.length = xs → b.parseEvents xs = .ok w →
      Stands es w (n + xs.length) (n + xs.length) := by
    intro xs
    induction xs with
    | nil => intro b n hb _ h; cases h; exact hb
    | cons e xs ih =>
      intro b n hb hx h
      simp only [DuelBoard.parseEvents, bind_eq_ok] at h
      obtain ⟨b1, h1, h2⟩ := h
      have he : es[n]? = some e := by
        have := congrArg (·[0]?) hx
        simpa using this
      have a := (hb.forward he h1).1
      rw [Nat.max_eq_right (Nat.le_succ n)] at a
      have := ih b1 (n + 1) a (by
        rw [List.drop_eq_getElem_cons (List.getElem?_eq_some_iff.mp he).1, List.length_cons, List.take_succ_cons] at hx
        exact (List.cons.inj hx).2) h2
      rw [List.length_cons, show n + (xs.length + 1) = n + 1 + xs.length by omega]
      exact this
  obtain ⟨-, hs, -⟩ := (Stands.start es).walk h
  have hs : Stands es u i (farthest es.length ms) := hs
  have hl : (es.take (farthest es.length ms)).length = farthest es.length ms := by rw [List.length_take, Nat.min_eq_left hs.end_]
  have := k _ _ 0 (Stands.start es) (by rw [hl]; rfl) hw
  rw [Nat.zero_add, hl] at this
  exact ⟨by rw [hs.logged, hs.processed, this.logged, this.processed], fun v => by rw [hs.kept, this.kept]⟩

/-! ## Examples -/

/-- A deck of three, a turn, some damage, and a card on the field. -/
def fourEvents : List Event :=
  [.board (.state { turnCounter := 1, lps := [8000, 8000], resize := [⟨deck0 0, 3⟩] }), .nextTurn 0, .lp 1 (.damage 500), .card 0 (.add [mz0 0])]

/-- Three forward, two back, one forward. -/
def backAndForth : List Move := [.forward, .forward, .forward, .backward, .backward, .forward]

example : ((scrub fourEvents UndoBoard.init 0 backAndForth).toOption.map fun r =>
    (r.1.frame.ops.length, valuesKept r.1 .turn, valuesKept r.1 (.lp 1), valuesKept r.1 (.lp 0), r.2)) = some (2, 3, 3, 2, 2) := by
  decide +kernel

example : farthest fourEvents.length backAndForth = 3 ∧ tellLogged (fourEvents.take 3) = 2 ∧ tellValue (fourEvents.take 3) .turn = 2 := by
  decide

/-- To the end: one more log entry, and one more card. -/
example : ((scrub fourEvents UndoBoard.init 0 (backAndForth ++ [.forward, .forward])).toOption.map fun r =>
    (r.1.frame.ops.length, r.1.frame.base.owned.length, r.2)) = some (3, 4, 4) := by
  decide +kernel

end Ygo.Props
