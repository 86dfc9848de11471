import Verif.Lemmas.Branch
import Verif.Lemmas.BranchNames
import Verif.Spec.Rearrange

/-!
# Another way after going back (C113)

A client that keeps a game as it goes (`LimboFrame`, `BasicUndoable`) may step back and then be told something else than what it undid.
-/

set_option linter.unusedSimpArgs false

namespace Ygo.Props
open Ygo Spec

/-! ### Frames -/

/-- **Wherever a walk leads, the table has as many cards in each place as that of a plain frame that was only told what was not
undone.** -/
theorem C113_counts (f : Limbo) (past : List FrameOp) (h : Walk f past) :
    ∃ g, runOps Frame.init past.reverse = .ok g ∧ SameCounts f.base.layout g.layout := by
  obtain ⟨g, _, _, hw⟩ := walk_inv h
  exact ⟨g, hw.kept.run, blank_iff.mp hw.counts⟩

/-- **With `erase_history` before each new call, the table is that of the plain frame, up to the identities of its cards.** -/
theorem C113_erased (f : Limbo) (past future : List FrameOp) (h : Careful f past future) :
    ∃ g, runOps Frame.init past.reverse = .ok g ∧ SameButNames g.layout f.base.layout ∧ (placed (view f.base.layout)).Nodup := by
  obtain ⟨T1, T2, hi, hn⟩ := careful_inv h
  obtain ⟨g, h1, h2, h3⟩ := hn T1 (List.prefix_append _ _)
  rw [hi.past] at h1
  rw [← hi.between.last] at h3
  exact ⟨g, h1, h3.sameButNames h2, hi.here.1⟩

/-- What comes next in the log, if something was undone. -/
theorem walk_next {f : Limbo} {past : List FrameOp} (h : Walk f past) (hu : f.op < f.processed) :
    ∃ e, f.ops[f.op]? = some e ∧ f.advance = ({ f with op := f.op + 1 }, false) := by
  obtain ⟨g, pre, post, hw⟩ := walk_inv h
  have : f.op < f.ops.length := by rw [← hw.processed]; exact hu
  exact ⟨f.ops[f.op], List.getElem?_eq_getElem this, by rw [Limbo.advance, if_neg (by omega)]⟩

theorem current_next {f : Limbo} {e : LimboOp} (h : f.ops[f.op]? = some e) : Limbo.current { f with op := f.op + 1 } = .ok e := by
  have hl := (List.getElem?_eq_some_iff.mp h).1
  simp only [Limbo.current]
  rw [show massert (f.ops.length ≥ f.op + 1) = .ok () from massert_eq_ok.mpr (by omega), bind_ok,
    show guardUb (f.op + 1 ≠ 0) = .ok () from guardUb_eq_ok.mpr (by omega), bind_ok, Nat.add_sub_cancel, h]
  rfl

/-- **After going back, adding a card puts the next recorded card there, and nothing else will do.** -/
theorem C113_add_exactly (f f' : Limbo) (past : List FrameOp) (h : Walk f past) (hu : f.op < f.processed) (p : Place) :
    f.step (.add p) = .ok f' ↔ ∃ c l, f.ops[f.op]? = some (.card c) ∧ f.base.layout.cardInsert p c = .ok l ∧ l.hasCard p = .ok true ∧
      f' = { f with op := f.op + 1, base := { f.base with layout := l } } := by
  obtain ⟨e, he, ha⟩ := walk_next h hu
  have hc := current_next he
  simp only [Limbo.step, Limbo.cardAdd, ha, Limbo.currentCard, hc, bind_ok, Bool.false_eq_true, if_false, he, Option.some.injEq]
  cases e with
  | card c =>
    simp only [bind_eq_ok, massert_eq_ok, pure_eq_ok, Except.ok.injEq, LimboOp.card.injEq, Prod.exists, Prod.mk.injEq]
    constructor
    · rintro ⟨f1, c', ⟨_, rfl, l, hl, x, hx, _, rfl, rfl, rfl⟩, rfl⟩
      exact ⟨_, l, rfl, hl, hx, rfl⟩
    · rintro ⟨c', l, rfl, hl, hx, rfl⟩
      exact ⟨_, c, ⟨c, rfl, l, hl, true, hx, (), rfl, rfl, rfl⟩, rfl⟩
  | resize n s => simp
  | clear s => simp

/-- **After going back, a card can only be removed if it is the next recorded one.** -/
theorem C113_remove_exactly (f f' : Limbo) (past : List FrameOp) (h : Walk f past) (hu : f.op < f.processed) (p : Place) :
    f.step (.remove p) = .ok f' ↔ ∃ c l, f.ops[f.op]? = some (.card c) ∧ f.base.layout.hasCard p = .ok true ∧
      f.base.layout.cardErase p = .ok (c, l) ∧ f' = { f with op := f.op + 1, base := { f.base with layout := l } } := by
  obtain ⟨e, he, ha⟩ := walk_next h hu
  have hc := current_next he
  have ha' : ∀ l, (f.setLayout l).advance = (({ f with op := f.op + 1 } : Limbo).setLayout l, false) := by
    intro l
    have : f.op ≠ f.processed := by omega
    simp [Limbo.advance, Limbo.setLayout, this]
  have hc' : ∀ l, (({ f with op := f.op + 1 } : Limbo).setLayout l).current = .ok e := fun l => hc
  simp only [Limbo.step, Limbo.cardRemove, Limbo.currentCard, ha', hc', bind_ok, Bool.false_eq_true, if_false, he, Option.some.injEq]
  cases e with
  | card c =>
    simp only [bind_eq_ok, massert_eq_ok, pure_eq_ok, Except.ok.injEq, LimboOp.card.injEq, Prod.exists]
    constructor
    · rintro ⟨b, hb, -, rfl, c', l, hl, x, rfl, -, rfl, rfl⟩
      exact ⟨_, l, rfl, hb, hl, rfl⟩
    · rintro ⟨c', l, rfl, hb, hl, rfl⟩
      exact ⟨true, hb, (), rfl, c, l, hl, c, rfl, (), rfl, rfl⟩
  | resize n s => simp
  | clear s => simp

/-- **After going back, a table can only be cleared where clearing is recorded next.** -/
theorem C113_clear_exactly (f : Limbo) (past : List FrameOp) (h : Walk f past) (hu : f.op < f.processed) :
    (∃ f', f.step .clear = .ok f') ↔ ∃ l, f.ops[f.op]? = some (.clear l) := by
  obtain ⟨e, he, ha⟩ := walk_next h hu
  have hc := current_next he
  simp only [Limbo.step, Limbo.clear, ha, Limbo.currentClear, hc, bind_ok, Bool.false_eq_true, if_false, he, Option.some.injEq]
  cases e <;> simp

theorem verified_iff (slice : List (Option CardId)) (cs : List CardId) : Limbo.verified slice = .ok cs ↔ slice = cs.map some := by
  simp only [Limbo.verified]
  rw [orAssert_eq_ok]
  induction slice generalizing cs with
  | nil => cases cs <;> simp
  | cons a s ih =>
    cases a with
    | none => cases cs <;> simp
    | some a =>
      cases hm : s.mapM (id : Option CardId → Option CardId) with
      | none =>
        simp only [List.mapM_cons, hm]
        constructor
        · intro h; simp at h
        · intro h
          cases cs with
          | nil => cases h
          | cons c cs =>
            simp only [List.map_cons, List.cons.injEq] at h
            have := (ih cs).mpr h.2
            rw [hm] at this
            cases this
      | some q =>
        have := (ih q).mp hm
        subst this
        simp only [List.mapM_cons, hm]
        constructor
        · intro h; simp at h; rw [← h]; rfl
        · intro h
          cases cs with
          | nil => cases h
          | cons c cs =>
            simp only [List.map_cons, List.cons.injEq, Option.some.injEq] at h
            have h2 := (ih cs).mpr h.2
            rw [hm] at h2
            cases h2
            rw [h.1]
            rfl

/-- **After going back, a pile can only be resized where a resize is recorded next, and then: to the size it has; or to a larger one if exactly the
missing cards are recorded, which come back; or to at most half of its size.** -/
theorem C113_resize_exactly (f f' : Limbo) (past : List FrameOp) (h : Walk f past) (hu : f.op < f.processed) (p : Place) (n : Nat) :
    f.step (.resize p n) = .ok f' ↔ ∃ k old slice, p.isPile = true ∧ p.pileKey = .ok k ∧ f.ops[f.op]? = some (.resize old slice) ∧
      ((n = (f.base.layout.pile k).length ∧ f' = { f with op := f.op + 1, ops := f.ops.set f.op (.resize n slice) }) ∨
       (∃ cs, slice = cs.map some ∧ cs ≠ [] ∧ n = (f.base.layout.pile k).length + cs.length ∧
          f' = { f with op := f.op + 1, ops := f.ops.set f.op (.resize (f.base.layout.pile k).length slice),
                        base := { f.base with layout := f.base.layout.setPile k (f.base.layout.pile k ++ cs) } }) ∨
       (n < (f.base.layout.pile k).length ∧ 2 * n ≤ (f.base.layout.pile k).length ∧
          ∃ slice', f' = { f with op := f.op + 1, ops := f.ops.set f.op (.resize (f.base.layout.pile k).length slice'),
                                  base := { f.base with layout := f.base.layout.setPile k ((f.base.layout.pile k).take n) } } ∧
            slice' = ((f.base.layout.pile k).drop ((f.base.layout.pile k).length - n)).map some ++
              (Limbo.resizeSlice slice ((f.base.layout.pile k).length - n)).drop n)) := by
  obtain ⟨e, he, ha⟩ := walk_next h hu
  have hc := current_next he
  cases hp : p.isPile with
  | false => simp [Limbo.step, Limbo.pileResize, hp]
  | true =>
  cases hk : p.pileKey with
  | error _ => simp [Limbo.step, Limbo.pileResize, hp, hk, ha]
  | ok k =>
  simp only [Limbo.step, Limbo.pileResize, hp, hk, ha, Limbo.currentResize, hc, bind_ok, Bool.false_eq_true, if_false, he, Option.some.injEq,
    show massert True = .ok () from massert_eq_ok.mpr trivial]
  cases e with
  | card c => simp
  | clear s => simp
  | resize old slice =>
    simp only [pure_eq_ok, bind_ok, LimboOp.resize.injEq, Except.ok.injEq]
    generalize hP : f.base.layout.pile k = P
    have hs : ∀ o, Limbo.setCurrent { f with op := f.op + 1 } o = { f with op := f.op + 1, ops := f.ops.set f.op o } := fun o => by
      simp [Limbo.setCurrent]
    have core : ∀ {Q : Prop}, (Q ↔ ((n = P.length ∧ f' = { f with op := f.op + 1, ops := f.ops.set f.op (.resize n slice) }) ∨
       (∃ cs, slice = cs.map some ∧ cs ≠ [] ∧ n = P.length + cs.length ∧
          f' = { f with op := f.op + 1, ops := f.ops.set f.op (.resize P.length slice), base := { f.base with layout := f.base.layout.setPile k (P ++ cs) } }) ∨
       (n < P.length ∧ 2 * n ≤ P.length ∧
          ∃ slice', f' = { f with op := f.op + 1, ops := f.ops.set f.op (.resize P.length slice'), base := { f.base with layout := f.base.layout.setPile k (P.take n) } } ∧
            slice' = (P.drop (P.length - n)).map some ++ (Limbo.resizeSlice slice (P.length - n)).drop n))) →
        (Q ↔ ∃ k' old' slice0, True ∧ k = k' ∧ (old = old' ∧ slice = slice0) ∧
          ((n = (f.base.layout.pile k').length ∧ f' = { f with op := f.op + 1, ops := f.ops.set f.op (.resize n slice0) }) ∨
       (∃ cs, slice0 = cs.map some ∧ cs ≠ [] ∧ n = (f.base.layout.pile k').length + cs.length ∧
          f' = { f with op := f.op + 1, ops := f.ops.set f.op (.resize (f.base.layout.pile k').length slice0),
                        base := { f.base with layout := f.base.layout.setPile k' (f.base.layout.pile k' ++ cs) } }) ∨
       (n < (f.base.layout.pile k').length ∧ 2 * n ≤ (f.base.layout.pile k').length ∧
          ∃ slice', f' = { f with op := f.op + 1, ops := f.ops.set f.op (.resize (f.base.layout.pile k').length slice'),
                                  base := { f.base with layout := f.base.layout.setPile k' ((f.base.layout.pile k').take n) } } ∧
            slice' = ((f.base.layout.pile k').drop ((f.base.layout.pile k').length - n)).map some ++
              (Limbo.resizeSlice slice0 ((f.base.layout.pile k').length - n)).drop n))) := by
      intro Q hq
      rw [hq]
      constructor
      · intro h
        exact ⟨k, old, slice, trivial, rfl, ⟨rfl, rfl⟩, by simpa only [hP] using h⟩
      · rintro ⟨_, _, _, _, rfl, ⟨rfl, rfl⟩, h⟩
        simpa only [hP] using h
    simp only [hs]
    refine core ?_
    rcases Nat.lt_trichotomy P.length n with hlt | heq | hgt
    · rw [if_pos hlt]
      have hv := verified_iff slice
      simp only [bind_eq_ok, hv, massert_eq_ok, pure_eq_ok, Except.ok.injEq, Limbo.setLayout]
      constructor
      · rintro ⟨cs, h1, _, h2, h3⟩
        rw [List.length_append] at h2
        refine .inr (.inl ⟨cs, h1, ?_, h2.symm, h3.symm⟩)
        rintro rfl
        simp at h2
        omega
      · rintro (⟨h1, _⟩ | ⟨cs, h1, _, h2, h3⟩ | ⟨h1, _⟩)
        · omega
        · exact ⟨cs, h1, (), by rw [List.length_append]; exact h2.symm, h3.symm⟩
        · omega
    · subst heq
      simp only [Nat.lt_irrefl, if_false, Except.ok.injEq]
      constructor
      · intro h; exact .inl ⟨trivial, h.symm⟩
      · rintro (⟨_, h⟩ | ⟨cs, _, h1, h2, _⟩ | ⟨h1, _⟩)
        · exact h.symm
        · exact absurd (List.length_eq_zero_iff.mp (by omega)) h1
        · exact absurd h1 (by simp)
    · rw [if_neg (by omega), if_pos hgt]
      have hd : (P.drop (P.length - n)).length = n := by rw [List.length_drop]; omega
      have hr : (Limbo.resizeSlice slice (P.length - n)).length = P.length - n := by
        simp only [Limbo.resizeSlice, List.length_append, List.length_take, List.length_replicate]; omega
      simp only [Limbo.copyOver, hd, hr, bind_eq_ok, guardUb_eq_ok, pure_eq_ok, Except.ok.injEq, Limbo.setLayout, Limbo.setCurrent, Nat.add_sub_cancel, List.set_set]
      constructor
      · rintro ⟨sl, ⟨_, h1, rfl⟩, h2⟩
        exact .inr (.inr ⟨hgt, by omega, _, h2.symm, rfl⟩)
      · rintro (⟨h1, _⟩ | ⟨cs, _, _, h2, _⟩ | ⟨_, h1, sl, h2, rfl⟩)
        · omega
        · omega
        · exact ⟨_, ⟨(), by omega, rfl⟩, h2.symm⟩

/-- **All other calls do what they do on a plain frame, after going back as before.** -/
theorem C113_others_exactly (f : Limbo) (X : FrameOp) (hX : OnlyRearranges X) : f.step X = (f.base.step X).map fun b => { f with base := b } := by
  cases X with
  | add | remove | resize | clear => cases hX
  | move a b => simp only [Limbo.step, Limbo.cardMove, Frame.step]; cases f.base.cardMove a b <;> rfl
  | shuffle a b n => simp only [Limbo.step, Limbo.cardShuffle, Frame.step]; cases f.base.cardShuffle a b n <;> rfl
  | swap a b => simp only [Limbo.step, Limbo.cardSwap, Frame.step]; cases f.base.cardSwap a b <;> rfl
  | splice a n b r => simp only [Limbo.step, Limbo.pileSplice, Frame.step]; cases f.base.pileSplice a n b r <;> rfl
  | pswap a b => simp only [Limbo.step, Limbo.pileSwap, Frame.step]; cases f.base.pileSwap a b <;> rfl

/-! ### Boards -/

theorem plain_parse {u u' : UndoBoard} {p : PlainBoard} {g : Frame} {e : Event} (hu : u.parseEvent e = .ok u')
    (hf : runOps p.frame (frameOps e) = .ok g) : ∃ p', p.parseEvent e = .ok p' ∧ p'.frame = g := by
  cases e with
  | board e =>
    cases e with
    | unset => cases hf; exact ⟨p, rfl, rfl⟩
    | exchange e => exact ⟨{ p with frame := g }, by simp only [DuelBoard.parseEvent, DuelBoard.onFrame]; rw [show runOps p.frame (DuelBoard.exchangeOps e) = .ok g from hf]; rfl, rfl⟩
    | state s =>
      simp only [DuelBoard.parseEvent, DuelBoard.parseState, bind_eq_ok] at hu
      obtain ⟨a, ha, b, hb, _⟩ := hu
      simp only [frameOps] at hf
      simp only [DuelBoard.parseEvent, DuelBoard.parseState, ha, hb, bind_ok, DuelBoard.onFrame]
      by_cases ht : 0 ≤ s.turnCounter <;> simp [ht, DuelBoard.setLp, hf]
  | card r e => exact ⟨{ p with frame := g }, by simp only [DuelBoard.parseEvent, DuelBoard.onFrame]; rw [show runOps p.frame (DuelBoard.cardOps e) = .ok g from hf]; rfl, rfl⟩
  | chainStack e =>
    cases e with
    | unset => cases hf; exact ⟨p, rfl, rfl⟩
    | push c => simp [DuelBoard.parseEvent, Cell.push, Undoable.unsupported] at hu
    | pop c => simp [DuelBoard.parseEvent, Cell.pop, Undoable.unsupported] at hu
  | nextTurn c =>
    cases hf
    exact ⟨_, rfl, rfl⟩
  | lp con c =>
    cases hf
    simp only [DuelBoard.parseEvent, bind_eq_ok] at hu
    obtain ⟨i, hi, _⟩ := hu
    simp only [DuelBoard.parseEvent, hi, bind_ok]
    exact ⟨_, rfl, rfl⟩
  | nextPhase q => cases hf; exact ⟨_, rfl, rfl⟩
  | pile r e => exact ⟨{ p with frame := g }, by simp only [DuelBoard.parseEvent, DuelBoard.onFrame]; rw [show runOps p.frame (DuelBoard.pileOps e) = .ok g from hf]; rfl, rfl⟩
  | zoneBlock zs => cases hf; exact ⟨_, rfl, rfl⟩
  | finish => cases hf; exact ⟨_, rfl, rfl⟩
  | metaInfo => cases hf; exact ⟨_, rfl, rfl⟩
  | result => cases hf; exact ⟨_, rfl, rfl⟩
  | unset => cases hf; exact ⟨_, rfl, rfl⟩

theorem parseEvents_concat {F : Type} {V : Type → Type} [FrameLike F] [Cell V] (b : DuelBoard F V) (xs ys : List Event) :
    b.parseEvents (xs ++ ys) = (b.parseEvents xs).bind fun b => b.parseEvents ys := by
  induction xs generalizing b with
  | nil => rfl
  | cons x xs ih =>
    simp only [List.cons_append, DuelBoard.parseEvents]
    cases b.parseEvent x with
    | error e => rfl
    | ok b1 => exact ih b1

theorem boardWalk_plain {b : UndoBoard} {past : List Event} (h : BoardWalk b past) :
    ∃ p, PlainBoard.init.parseEvents past.reverse = .ok p ∧ runOps Frame.init (allOps past.reverse) = .ok p.frame := by
  induction h with
  | init => exact ⟨PlainBoard.init, rfl, rfl⟩
  | parse h hs ih =>
    rename_i b b' past e
    obtain ⟨p, h1, h2⟩ := ih
    obtain ⟨g, _, _, hw⟩ := walk_inv (BoardWalk.frame (.parse h hs))
    have h3 := hw.kept.run
    rw [List.reverse_reverse, List.reverse_cons, show allOps (past.reverse ++ [e]) = allOps past.reverse ++ frameOps e by simp [allOps],
      runOps_concat, h2] at h3
    obtain ⟨p', h4, h5⟩ := plain_parse hs (show runOps p.frame (frameOps e) = .ok g from h3)
    refine ⟨p', ?_, ?_⟩
    · rw [List.reverse_cons, parseEvents_concat, h1]
      show DuelBoard.parseEvents p [e] = _
      simp only [DuelBoard.parseEvents, h4, bind_ok]
    · rw [List.reverse_cons, show allOps (past.reverse ++ [e]) = allOps past.reverse ++ frameOps e by simp [allOps], runOps_concat, h2, h5]
      exact h3
  | undo h hs ih =>
    rename_i b b' past e
    obtain ⟨p, h1, h2⟩ := ih
    rw [List.reverse_cons, parseEvents_concat] at h1
    cases hq : PlainBoard.init.parseEvents past.reverse with
    | error _ => rw [hq] at h1; cases h1
    | ok q =>
      obtain ⟨g, _, _, hw⟩ := walk_inv (BoardWalk.frame (.undo h hs))
      refine ⟨q, rfl, ?_⟩
      clear h1 h2 hw h hs p g
      generalize past.reverse = es at hq
      suffices ∀ a : PlainBoard, a.parseEvents es = .ok q → runOps a.frame (allOps es) = .ok q.frame from this _ hq
      clear hq
      induction es with
      | nil => intro a ha; cases ha; rfl
      | cons x es ih =>
        intro a ha
        simp only [DuelBoard.parseEvents, bind_eq_ok] at ha
        obtain ⟨a1, h1, h2⟩ := ha
        show runOps _ (frameOps x ++ allOps es) = _
        rw [runOps_concat, parse_frame h1]
        exact ih a1 h2

/-- **Boards: wherever parsing and undoing the last event leads, each place has as many cards as on a plain board that was only told what
was not undone.** -/
theorem C113_board_partial (b : UndoBoard) (past : List Event) (h : BoardWalk b past) :
    ∃ p, PlainBoard.init.parseEvents past.reverse = .ok p ∧ SameCounts b.frame.base.layout p.frame.layout := by
  obtain ⟨p, h1, h2⟩ := boardWalk_plain h
  obtain ⟨g, h3, h4⟩ := C113_counts _ _ h.frame
  rw [List.reverse_reverse, h2] at h3
  cases h3
  exact ⟨p, h1, h4⟩

/-- **A value written after going back shows only if it is the one that was undone.** -/
theorem C113_write_exactly {α : Type} (u : Undoable α) (v : α) (h : u.current + 1 < u.values.length) :
    (u.set v).get = .ok v ↔ u.values[u.current + 1]? = some v := by
  have : ¬ u.current + 1 = u.values.length := by omega
  simp only [Undoable.set, Undoable.get, this, if_false]
  cases u.values[u.current + 1]? <;> simp [orUb, ub]

/-! ### Examples and violations -/

/-- Parse events (`some`) or undo the last one (`none`). -/
def wander (b : UndoBoard) (past : List Event) : List (Option Event) → Res (UndoBoard × List Event)
  | [] => .ok (b, past)
  | some e :: ms => do wander (← b.parseEvent e) (e :: past) ms
  | none :: ms =>
    match past with
    | [] => .error .assert
    | e :: past => do wander (← b.undoParseEvent e) past ms

theorem wander_walk {ms : List (Option Event)} {b b' : UndoBoard} {past past' : List Event} (h : BoardWalk b past)
    (hw : wander b past ms = .ok (b', past')) : BoardWalk b' past' := by
  induction ms generalizing b past with
  | nil => cases hw; exact h
  | cons m ms ih =>
    cases m with
    | some e =>
      simp only [wander, bind_eq_ok] at hw
      obtain ⟨b1, h1, h2⟩ := hw
      exact ih (.parse h h1) h2
    | none =>
      cases past with
      | nil => cases hw
      | cons e past =>
        simp only [wander, bind_eq_ok] at hw
        obtain ⟨b1, h1, h2⟩ := hw
        exact ih (.undo h h1) h2

/-- What is left of the events and what a board shows at the end. -/
def shownAfter {α : Type} (ms : List (Option Event)) (show' : UndoBoard → Res α) : Res (List Event × α) := do
  let (b, past) ← wander UndoBoard.init [] ms
  return (past, ← show' b)

theorem shownAfter_walk {α : Type} {ms : List (Option Event)} {s : UndoBoard → Res α} {past : List Event} {a : α}
    (h : shownAfter ms s = .ok (past, a)) : ∃ b, BoardWalk b past ∧ s b = .ok a := by
  simp only [shownAfter, bind_eq_ok, pure_eq_ok, Except.ok.injEq, Prod.mk.injEq] at h
  obtain ⟨⟨b, p⟩, h1, x, h2, rfl, rfl⟩ := h
  exact ⟨b, wander_walk .init h1, h2⟩

/-- Values shown are wrong after another way: the life points of a player. -/
theorem C113_value_wrong : ∃ b p, BoardWalk b [.lp 0 (.become 7)] ∧ PlainBoard.init.parseEvents [.lp 0 (.become 7)] = .ok p ∧
    (b.lp 0).get = .ok 5 ∧ (p.lp 0).val = 7 := by
  obtain ⟨b, h1, h2⟩ := shownAfter_walk (ms := [some (.lp 0 (.become 5)), none, some (.lp 0 (.become 7))]) (s := fun b => (b.lp 0).get)
    (past := [.lp 0 (.become 7)]) (a := 5) (by decide)
  exact ⟨b, _, h1, rfl, h2, rfl⟩

/-- Monster zones of the first player. -/
private def mz (i : Nat) : Place := ⟨0, 4, i, -1⟩

/-- Cards are wrong after another way: the same card lies in two places. -/
theorem C113_card_twice : ∃ b, BoardWalk b [.card 0 (.add [mz 0, mz 1])] ∧ b.frame.base.layout.card (mz 0) = .ok 0 ∧ b.frame.base.layout.card (mz 1) = .ok 0 := by
  obtain ⟨b, h1, h2⟩ := shownAfter_walk (ms := [some (.card 0 (.add [mz 0])), some (.card 0 (.remove [mz 0])), none, none, some (.card 0 (.add [mz 0, mz 1]))])
    (s := fun b => do return (← b.frame.base.layout.card (mz 0), ← b.frame.base.layout.card (mz 1)))
    (past := [.card 0 (.add [mz 0, mz 1])]) (a := (0, 0)) (by decide)
  simp only [bind_eq_ok, pure_eq_ok, Except.ok.injEq, Prod.mk.injEq] at h2
  obtain ⟨_, h2, _, h3, rfl, rfl⟩ := h2
  exact ⟨b, h1, h2, h3⟩

/-- The hypotheses of `C113_erased` are met: a card is added, that is undone and erased, and another one is added elsewhere, which is card 1;
on the plain frame it is card 0. -/
example : ∃ f, Careful f [.add (mz 1)] [] ∧ f.base.layout.card (mz 1) = .ok 1 := by
  have h1 := Careful.new (X := .add (mz 0)) .init (by simp [Undoes]) rfl
  have h2 := Careful.undo h1 rfl
  have h3 := Careful.erase h2 rfl
  have h4 := Careful.new (X := .add (mz 1)) h3 (by simp [Undoes]) rfl
  exact ⟨_, h4, by decide⟩

/-- A pile of four, cut to two and back: now it can be cut to one, but not to three. -/
example : ∃ f past, Walk f past ∧ f.op < f.processed ∧ (∃ f', f.step (.resize ⟨0, 1, 0, -1⟩ 1) = .ok f') ∧ ¬ ∃ f', f.step (.resize ⟨0, 1, 0, -1⟩ 3) = .ok f' := by
  have h1 := Walk.step (X := .resize ⟨0, 1, 0, -1⟩ 4) .init rfl
  have h2 := Walk.step (X := .resize ⟨0, 1, 0, -1⟩ 2) h1 rfl
  have h3 := Walk.undo h2 rfl
  refine ⟨_, _, h3, by decide, ⟨_, rfl⟩, ?_⟩
  rintro ⟨f', h⟩
  cases h

/-- The hypotheses of the exact characterisations are met, and both sides of them occur. -/
example : ∃ f past, Walk f past ∧ f.op < f.processed ∧ (∃ f', f.step (.add (mz 1)) = .ok f') ∧ ¬ ∃ f', f.step .clear = .ok f' := by
  refine ⟨_, _, .undo (X := .add (mz 0)) (.step (f := Limbo.init) .init rfl) rfl, by decide, ⟨_, rfl⟩, ?_⟩
  rintro ⟨f', h⟩
  cases h

example : (Undoable.mk [0, 5] 0).current + 1 < (Undoable.mk [0, 5] 0).values.length ∧ ((Undoable.mk [0, 5] 0).set 7).get = .ok 5 := by decide

end Ygo.Props
