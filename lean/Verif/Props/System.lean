import Verif.Spec.System
import Verif.Props.Setup
import Verif.Props.Query
import Verif.Props.Undo
import Verif.Lemmas.History

/-!
# The system as a whole

What the server tracks is a consistent board whatever the core sends (C65), and clients that follow the server's messages show the
board that the server tracks (C66).
-/

namespace Ygo.Props
open Ygo.Spec Ygo.P

set_option linter.unusedSimpArgs false

/-! ## Encoding does not touch the board -/

theorem Same.refl (c : BasicContext) : Same c c := ⟨rfl, rfl⟩

theorem contextCase_same (c : BasicContext) (k : Kind) (p : P (Outcome × BasicContext)) (h : contextCase c k = some p) :
    Gives (fun x => Same c x.2) p := by
  have kept : ∀ {q : P Outcome}, Gives (fun x : Outcome × BasicContext => Same c x.2) (q >>= fun o => Pure.pure (o, c)) :=
    Gives.bind fun _ => Gives.pure (Same.refl c)
  cases k <;> simp only [contextCase, Option.some.injEq, reduceCtorEq] at h <;> subst h
  case move =>
    refine Gives.bind fun _ => Gives.bind fun _ => Gives.bind fun _ => Gives.bind fun _ => ?_
    intro s x r e
    exact (moveOutcome_ctx c _ _ _ x.1 x.2 (lift_eq_ok.mp e).1).1
  case matchKill => exact Gives.bind fun _ => Gives.pure ⟨rfl, rfl⟩
  all_goals exact kept

theorem encodeOne_same {c c' : BasicContext} {data : List UInt8} {r : Encoded} (h : encodeOne c data = .ok (r, c')) : Same c c' := by
  obtain ⟨o, rest, hb, _⟩ := encodeOne_eq h
  suffices hg : Gives (fun x : Outcome × BasicContext => Same c x.2) (encodeBody c) from hg _ _ _ hb
  unfold encodeBody
  refine Gives.bind fun b => ?_
  split
  · next k _ =>
    unfold encodeCase
    split
    · exact Gives.bind fun _ => Gives.pure (Same.refl c)
    · exact Gives.bind fun _ => Gives.pure (Same.refl c)
    · exact Gives.bind fun _ => Gives.bind fun _ => Gives.pure (Same.refl c)
    · exact Gives.bind fun _ => Gives.pure (Same.refl c)
    · exact contextCase_same c _ _ ‹contextCase c k = some _›
    · exact Gives.pure (Same.refl c)
  · exact Gives.pure (Same.refl c)

/-! ## Clients -/

theorem answer_eq (l : Layout) (qs : List Query) (st st' : CardId → Card Plain) (h : BasicContext.parseQueries l qs st = .ok st') (cache : Bool) :
    Client.answer cache l qs st = .ok st' := by
  induction qs generalizing st with
  | nil => exact h
  | cons q qs ih =>
    simp only [BasicContext.parseQueries, bind_eq_ok, Prod.exists] at h
    obtain ⟨hits, st1, h1, h2⟩ := h
    obtain ⟨hits', h3⟩ : ∃ n, parseQuery cache l st q = .ok (n, st1) := by
      cases cache with
      | false => exact ⟨_, h1⟩
      | true =>
        have : ∃ r, parseQuery true l st q = .ok r := by
          simp only [parseQuery, bind_eq_ok, pure_eq_ok, Except.ok.injEq, Prod.mk.injEq] at h1
          obtain ⟨x, hx, y, hy, c, hc, _⟩ := h1
          obtain ⟨z, hz⟩ := Card.parseData_returns (useCache := true) (d := q.data) (c := st c) fun f => ⟨_, rfl⟩
          exact ⟨_, by simp only [parseQuery, hx, hy, hc, hz, bind_ok]; rfl⟩
        obtain ⟨⟨n, s⟩, hr⟩ := this
        exact ⟨n, by rw [hr, C31_cache_harmless l st s st1 q n hits hr h1]⟩
    simp only [Client.answer, h3, bind_ok]
    exact ih st1 h2

theorem parse_parts {c c' : BasicContext} {m : Msg} (h : c.parse m = .ok c') :
    ∃ b st, (match Msg.event? m with | some e => c.board.parseEvent e | none => .ok c.board) = .ok b ∧
      BasicContext.parseQueries b.frame.layout m.queries c.store = .ok st ∧ c' = { c with board := b, store := st } := by
  unfold BasicContext.parse at h
  unfold Msg.event?
  split at h
  · next e he =>
    simp only [he, bind_eq_ok, pure_eq_ok, Except.ok.injEq] at h ⊢
    obtain ⟨b, hb, st, hs, rfl⟩ := h
    exact ⟨b, st, hb, hs, rfl⟩
  · next he =>
    simp only [bind_eq_ok, pure_eq_ok, Except.ok.injEq] at h
    obtain ⟨b, rfl, st, hs, rfl⟩ := h
    refine ⟨_, st, ?_, hs, rfl⟩
    split <;> simp_all

theorem follow_cons (cache : Bool) (s : Client) (m : Msg) (ms : List Msg) : Client.follow cache s (m :: ms) =
    ((match Msg.event? m with | some e => s.board.parseEvent e | none => .ok s.board) : Res PlainBoard) >>= fun b =>
      Client.answer cache b.frame.layout m.queries s.store >>= fun st => Client.follow cache ⟨b, st⟩ ms := by
  rw [Client.follow]
  cases Msg.event? m <;> rfl

theorem parse_eq (c c' : BasicContext) (m : Msg) (h : c.parse m = .ok c') (cache : Bool) (ms : List Msg) :
    Client.follow cache ⟨c.board, c.store⟩ (m :: ms) = Client.follow cache ⟨c'.board, c'.store⟩ ms := by
  obtain ⟨b, st, hb, hs, rfl⟩ := parse_parts h
  rw [follow_cons, hb, bind_ok, answer_eq _ _ _ _ hs cache, bind_ok]

/-- One buffer. -/
theorem feed_cons {c c' : BasicContext} {d : List UInt8} {ds : List (List UInt8)} {rs : List Encoded} (h : feed c (d :: ds) = .ok (rs, c')) :
    ∃ r c1 c2 rs', encodeOne c d = .ok (r, c1) ∧ Same c c1 ∧ (match r.msg with | some m => c1.parse m | none => .ok c1) = .ok c2 ∧
      feed c2 ds = .ok (rs', c') ∧ rs = r :: rs' := by
  rw [feed, bind_eq_ok] at h
  obtain ⟨⟨r, c1⟩, h1, h⟩ := h
  dsimp only at h
  cases hm : r.msg with
  | none =>
    simp only [hm, bind_eq_ok, pure_eq_ok, Except.ok.injEq, Prod.exists, Prod.mk.injEq] at h
    obtain ⟨c2, rfl, rs', c3, h3, rfl, rfl⟩ := h
    exact ⟨r, _, _, rs', h1, encodeOne_same h1, by rw [hm], h3, rfl⟩
  | some m =>
    simp only [hm, bind_eq_ok, pure_eq_ok, Except.ok.injEq, Prod.exists, Prod.mk.injEq] at h
    obtain ⟨c2, h2, rs', c3, h3, rfl, rfl⟩ := h
    exact ⟨r, c1, c2, rs', h1, encodeOne_same h1, by rw [hm]; exact h2, h3, rfl⟩

/-! ## C65 -/

theorem run_append (f : Frame) (xs ys : List FrameOp) : f.run (xs ++ ys) = (do let f ← f.run xs; f.run ys) := by
  induction xs generalizing f with
  | nil => rfl
  | cons x xs ih =>
    simp only [List.cons_append, Frame.run]
    cases f.step x with
    | error e => rfl
    | ok f => exact ih f

theorem runOps_run (f : Frame) (xs : List FrameOp) : runOps f xs = f.run xs := by
  induction xs generalizing f with
  | nil => rfl
  | cons x xs ih =>
    simp only [runOps, Frame.run, FrameLike.step]
    cases f.step x with
    | error e => rfl
    | ok f => exact ih f

theorem parse_reachable {c c' : BasicContext} {m : Msg} (h : c.parse m = .ok c') (hr : Reachable c.board.frame) : Reachable c'.board.frame := by
  obtain ⟨b, st, hb, hs, rfl⟩ := parse_parts h
  show Reachable b.frame
  have key : ∀ e, c.board.parseEvent e = .ok b → Reachable b.frame := by
    intro e he
    have := parse_frame he
    rw [runOps_run] at this
    obtain ⟨ops, ho⟩ := hr
    exact ⟨ops ++ frameOps e, by rw [run_append, ho]; exact this⟩
  split at hb
  · exact key _ hb
  · cases hb; exact hr

/-- Boards stay what public operations lead to. -/
theorem feed_reachable {c c0 : BasicContext} {ds : List (List UInt8)} {rs : List Encoded} (hr : Reachable c0.board.frame)
    (h : feed c0 ds = .ok (rs, c)) : Reachable c.board.frame := by
  revert c0 rs
  induction ds with
  | nil => intro c0 rs hr h; cases h; exact hr
  | cons d ds ih =>
    intro c0 rs hr h
    obtain ⟨r, c1, c2, rs', _, hs, h2, h3, _⟩ := feed_cons h
    refine ih (c0 := c2) (rs := rs') ?_ h3
    have hr1 : Reachable c1.board.frame := by rw [hs.board]; exact hr
    cases hm : r.msg with
    | none => rw [hm] at h2; cases h2; exact hr1
    | some m => rw [hm] at h2; exact parse_reachable h2 hr1

/-- **C65.** Whatever the core sends, even bytes that are no messages: as long as the server gets on, its board is one that the frame's
public operations lead to, every card on it is owned and is there only once. -/
theorem C65_always_consistent (ds : List (List UInt8)) (rs : List Encoded) (c : BasicContext) (h : feed BasicContext.init ds = .ok (rs, c)) :
    Reachable c.board.frame ∧ Owns c.board.frame := by
  have := feed_reachable (c0 := BasicContext.init) ⟨[], rfl⟩ h
  exact ⟨this, this.inv.owns⟩

/-- Cards that have not been made yet stay blank. -/
theorem feed_blank (c : BasicContext) : ∀ (ds : List (List UInt8)) (c0 : BasicContext) (rs : List Encoded), Reachable c0.board.frame →
    (∀ x, c0.board.frame.next ≤ x → c0.store x = BasicContext.newCard) → feed c0 ds = .ok (rs, c) →
    ∀ x, c.board.frame.next ≤ x → c.store x = BasicContext.newCard := by
  intro ds
  induction ds with
  | nil => intro c0 rs _ hb h; cases h; exact hb
  | cons d ds ih =>
    intro c0 rs hr hb h
    obtain ⟨r, c1, c2, rs', _, hs, h2, h3, _⟩ := feed_cons h
    have hr1 : Reachable c1.board.frame := by rw [hs.board]; exact hr
    have hb1 : ∀ x, c1.board.frame.next ≤ x → c1.store x = BasicContext.newCard := by rw [hs.board, hs.store]; exact hb
    cases hm : r.msg with
    | none => rw [hm] at h2; cases h2; exact ih c1 rs' hr1 hb1 h3
    | some m =>
      rw [hm] at h2
      have hr2 := parse_reachable h2 hr1
      refine ih c2 rs' hr2 ?_ h3
      obtain ⟨b, st, he, hq, rfl⟩ := parse_parts h2
      intro x hx
      have hx : b.frame.next ≤ x := hx
      have hr2 : Reachable b.frame := hr2
      have hn : c1.board.frame.next ≤ b.frame.next := by
        have key : ∀ (ops : List FrameOp) (f g : Frame), Inv f → runOps f ops = .ok g → f.next ≤ g.next := by
          intro ops
          induction ops with
          | nil => intro f g _ h; cases h; exact Nat.le_refl _
          | cons o ops iho =>
            intro f g hi h
            simp only [runOps, FrameLike.step, bind_eq_ok] at h
            obtain ⟨f1, h1, h2⟩ := h
            exact Nat.le_trans (step_next h1) (iho f1 g (hi.step h1) h2)
        split at he
        · exact key _ _ _ hr1.inv (parse_frame he)
        · cases he; exact Nat.le_refl _
      show st x = _
      have key : ∀ (qs : List Query) (s s' : CardId → Card Plain), BasicContext.parseQueries b.frame.layout qs s = .ok s' → s' x = s x := by
        intro qs
        induction qs with
        | nil => intro s s' h; cases h; rfl
        | cons q qs ihq =>
          intro s s' h
          simp only [BasicContext.parseQueries, bind_eq_ok, Prod.exists] at h
          obtain ⟨n, s1, h1, h2⟩ := h
          obtain ⟨y, hy, _, hk⟩ := C30_parse_query _ _ _ _ _ _ h1
          rw [ihq s1 s' h2, hk x]
          rintro rfl
          obtain ⟨C, i, _, hi⟩ := Layout.card_eq_ok.mp hy
          have := hr2.inv.fresh _ (hr2.inv.mem_owned (List.mem_of_getElem? hi))
          omega
      rw [key _ _ _ hq]
      exact hb1 x (Nat.le_trans hn hx)

/-- **C65.** What is known about a card that has not been made yet is what a new card says; so new cards start blank. -/
theorem C65_new_cards_blank (ds : List (List UInt8)) (rs : List Encoded) (c : BasicContext) (h : feed BasicContext.init ds = .ok (rs, c))
    (x : CardId) (hx : c.board.frame.next ≤ x) : c.store x = BasicContext.newCard :=
  feed_blank c ds _ rs ⟨[], rfl⟩ (fun _ _ => rfl) h x hx

/-! ## C66 -/

/-- **C66.** A client that follows the server's messages from the beginning has the server's board and knows the same about every card,
whether it looks values up before changing them or not. -/
theorem C66_clients_in_step (ds : List (List UInt8)) (rs : List Encoded) (c : BasicContext) (h : feed BasicContext.init ds = .ok (rs, c))
    (cache : Bool) : Client.follow cache Client.init (messages rs) = .ok ⟨c.board, c.store⟩ := by
  suffices hg : ∀ (ds : List (List UInt8)) (c0 : BasicContext) (rs : List Encoded), feed c0 ds = .ok (rs, c) →
      Client.follow cache ⟨c0.board, c0.store⟩ (messages rs) = .ok ⟨c.board, c.store⟩ from hg ds _ rs h
  intro ds
  induction ds with
  | nil => intro c0 rs h; cases h; rfl
  | cons d ds ih =>
    intro c0 rs h
    obtain ⟨r, c1, c2, rs', _, hs, h2, h3, rfl⟩ := feed_cons h
    have e := ih c2 rs' h3
    rw [← hs.board, ← hs.store]
    cases hm : r.msg with
    | none =>
      rw [hm] at h2; cases h2
      simp only [messages, List.filterMap_cons, hm]
      exact e
    | some m =>
      rw [hm] at h2
      simp only [messages, List.filterMap_cons, hm]
      rw [parse_eq c1 c2 m h2 cache]
      exact e

theorem runOps_of_plain {Xs : List FrameOp} {g g' : Frame} {f : Limbo} (hl : LiveFrame f) (hi : Inv g) (hr : Refines g f)
    (h : runOps g Xs = .ok g') (hx : ShrinksByHalf g Xs) : ∃ f', runOps f Xs = .ok f' := by
  induction Xs generalizing f g with
  | nil => exact ⟨f, rfl⟩
  | cons X Xs ih =>
    simp only [runOps, FrameLike.step, bind_eq_ok] at h
    obtain ⟨g1, h1, h2⟩ := h
    obtain ⟨f1, h3⟩ := Limbo.step_of_plain hl hr.layout.symm hr.next.symm h1 hx.1
    obtain ⟨h4, _, g1', h5, h6⟩ := Limbo.step_refines hl hi hr h3
    rw [h1] at h5; cases h5
    obtain ⟨f', h7⟩ := ih h4 (hi.step h1) h6 h2 (hx.2 _ h1)
    exact ⟨f', by simp only [runOps, FrameLike.step, h3, bind_ok]; exact h7⟩

theorem parse_of_plain {p p' : PlainBoard} {u : UndoBoard} {e : Event} (hs : Shows p u) (hr : Refines p.frame u.frame) (hi : Inv p.frame)
    (hl : Live u) (h : p.parseEvent e = .ok p') (hc : NoSingleLinks e)
    (hx : ShrinksByHalf p.frame (frameOps e)) : ∃ u', u.parseEvent e = .ok u' := by
  obtain ⟨f', hf⟩ := runOps_of_plain hl.frame hi hr (parse_frame h) hx
  cases e with
  | board e =>
    cases e with
    | unset => exact ⟨u, rfl⟩
    | exchange e => exact ⟨_, by simp only [DuelBoard.parseEvent, DuelBoard.onFrame, frameOps] at hf ⊢; rw [hf, bind_ok]; rfl⟩
    | state s =>
      simp only [frameOps] at hf
      simp only [DuelBoard.parseEvent, DuelBoard.parseState, DuelBoard.onFrame, DuelBoard.setLp, bind_eq_ok, pure_eq_ok, Except.ok.injEq] at h ⊢
      obtain ⟨x, hx, y, hy, f, h, rfl⟩ := h
      refine ⟨_, x, hx, y, hy, f', ?_, rfl⟩
      split <;> exact hf
  | card r e => exact ⟨_, by simp only [DuelBoard.parseEvent, DuelBoard.onFrame, frameOps] at hf ⊢; rw [hf, bind_ok]; rfl⟩
  | chainStack e =>
    cases e with
    | unset => exact ⟨u, rfl⟩
    | push c => exact hc.elim
    | pop n => exact hc.elim
  | nextTurn c => exact ⟨_, by simp only [DuelBoard.parseEvent]; rw [show Cell.get u.turn = _ from hs.turn, bind_ok]; rfl⟩
  | lp con c =>
    simp only [DuelBoard.parseEvent, bind_eq_ok] at h
    obtain ⟨i, hi, _⟩ := h
    exact ⟨_, by simp only [DuelBoard.parseEvent]; rw [hi, bind_ok, show Cell.get (u.lp i) = _ from hs.lp i, bind_ok]; rfl⟩
  | nextPhase ph => exact ⟨_, rfl⟩
  | pile r e => exact ⟨_, by simp only [DuelBoard.parseEvent, DuelBoard.onFrame, frameOps] at hf ⊢; rw [hf, bind_ok]; rfl⟩
  | zoneBlock zs => exact ⟨_, rfl⟩
  | finish | metaInfo | result | unset => exact ⟨u, rfl⟩

/-- The events of the messages that a client follows. -/
theorem follow_events {cache : Bool} {ms : List Msg} {s s' : Client} (h : Client.follow cache s ms = .ok s') :
    s.board.parseEvents (ms.filterMap Msg.event?) = .ok s'.board := by
  induction ms generalizing s with
  | nil => cases h; rfl
  | cons m ms ih =>
    simp only [follow_cons, bind_eq_ok] at h
    obtain ⟨b, hb, st, _, h⟩ := h
    have := ih h
    cases hm : Msg.event? m with
    | none =>
      rw [hm] at hb; cases hb
      simp only [List.filterMap_cons, hm]
      exact this
    | some e =>
      rw [hm] at hb
      have hb : s.board.parseEvent e = .ok b := hb
      simp only [List.filterMap_cons, hm, DuelBoard.parseEvents]
      rw [hb, bind_ok]
      exact this

/-- **C66.** A client whose board can be undone shows the server's board too, if it gets through the same events. -/
theorem C66_undoable_clients_in_step (ds : List (List UInt8)) (rs : List Encoded) (c : BasicContext)
    (h : feed BasicContext.init ds = .ok (rs, c)) (u : UndoBoard)
    (hu : UndoBoard.init.parseEvents ((messages rs).filterMap Msg.event?) = .ok u) : Shows c.board u := by
  obtain ⟨p, h1, h2⟩ := C58_same_as_plain _ u hu
  have h3 := follow_events (C66_clients_in_step ds rs c h false)
  rw [show Client.init.board = PlainBoard.init from rfl, h1] at h3
  cases h3
  exact h2

/-- **C66.** It gets through them if they are of the supported kind. -/
theorem C66_undoable_clients_get_through (ds : List (List UInt8)) (rs : List Encoded) (c : BasicContext)
    (h : feed BasicContext.init ds = .ok (rs, c)) (hf : Followable PlainBoard.init ((messages rs).filterMap Msg.event?)) :
    ∃ u, UndoBoard.init.parseEvents ((messages rs).filterMap Msg.event?) = .ok u ∧ Shows c.board u := by
  suffices hu : ∃ u, UndoBoard.init.parseEvents ((messages rs).filterMap Msg.event?) = .ok u by
    obtain ⟨u, hu⟩ := hu
    exact ⟨u, hu, C66_undoable_clients_in_step ds rs c h u hu⟩
  have h3 := follow_events (C66_clients_in_step ds rs c h false)
  suffices hg : ∀ (es : List Event) (p p' : PlainBoard) (u : UndoBoard), Shows p u → Refines p.frame u.frame → Inv p.frame → Live u →
      p.parseEvents es = .ok p' → Followable p es → ∃ u', u.parseEvents es = .ok u' by
    refine hg _ _ _ _ ⟨rfl, rfl, rfl, rfl, fun _ => rfl, rfl, rfl⟩ ⟨rfl, rfl, fun _ h => h⟩ Inv.init ?_ h3 hf
    exact ⟨⟨rfl, rfl⟩, rfl, rfl, rfl, fun _ => rfl, rfl, rfl⟩
  intro es
  induction es with
  | nil => intro _ _ u _ _ _ _ _ _; exact ⟨u, rfl⟩
  | cons e es ih =>
    intro p p' u hs hr hi hl h hf
    simp only [DuelBoard.parseEvents, bind_eq_ok] at h
    obtain ⟨p1, h1, h2⟩ := h
    obtain ⟨u1, h4⟩ := parse_of_plain hs hr hi hl h1 hf.1 hf.2.1
    obtain ⟨p2, h5, h6, h7, h8, h9⟩ := parse_shows hs hr hi hl h4
    rw [h1] at h5; cases h5
    obtain ⟨u', h10⟩ := ih p1 p' u1 h6 h7 h8 h9 h2 (hf.2.2 _ h1)
    exact ⟨u', by simp only [DuelBoard.parseEvents, h4, bind_ok]; exact h10⟩

theorem runOps_shrinks {Xs : List FrameOp} {g : Frame} {f f' : Limbo} (hl : LiveFrame f) (hi : Inv g) (hr : Refines g f)
    (h : runOps f Xs = .ok f') : ShrinksByHalf g Xs := by
  induction Xs generalizing f g with
  | nil => trivial
  | cons X Xs ih =>
    simp only [runOps, FrameLike.step, bind_eq_ok] at h
    obtain ⟨f1, h1, h2⟩ := h
    obtain ⟨h4, _, g1, h5, h6⟩ := Limbo.step_refines hl hi hr h1
    refine ⟨?_, fun g' hg => by rw [h5] at hg; cases hg; exact ih h4 (hi.step h5) h6 h2⟩
    rintro p n k i rfl hp
    have e : view g.layout (.pile k) = f.base.layout.pile k := by rw [hr.layout]; rfl
    rw [e]
    by_cases hn : n < (f.base.layout.pile k).length ∧ (f.base.layout.pile k).length < 2 * n
    · have : f.step (.resize p n) = .error .ub := Limbo.resize_live_ub hl hp hn.1 hn.2
      rw [this] at h1
      cases h1
    · omega

/-- What an undoable board gets through is of the supported kind. -/
theorem parseEvents_followable {es : List Event} {p : PlainBoard} {u u' : UndoBoard} (hs : Shows p u) (hr : Refines p.frame u.frame)
    (hi : Inv p.frame) (hl : Live u) (h : u.parseEvents es = .ok u') : Followable p es := by
  induction es generalizing p u with
  | nil => trivial
  | cons e es ih =>
    simp only [DuelBoard.parseEvents, bind_eq_ok] at h
    obtain ⟨u1, h1, h2⟩ := h
    obtain ⟨p1, h5, h6, h7, h8, h9⟩ := parse_shows hs hr hi hl h1
    refine ⟨?_, runOps_shrinks hl.frame hi hr (parse_frame h1), fun p' hp => by rw [h5] at hp; cases hp; exact ih h6 h7 h8 h9 h2⟩
    cases e with
    | chainStack e =>
      cases e with
      | unset => trivial
      | push c => cases h1
      | pop x => cases h1
    | _ => trivial

/-- **C66 (exactly when).** A client whose board can be undone gets through exactly the events of the supported kind. -/
theorem C66_undoable_clients_exactly (ds : List (List UInt8)) (rs : List Encoded) (c : BasicContext)
    (h : feed BasicContext.init ds = .ok (rs, c)) :
    (∃ u, UndoBoard.init.parseEvents ((messages rs).filterMap Msg.event?) = .ok u) ↔
      Followable PlainBoard.init ((messages rs).filterMap Msg.event?) := by
  constructor
  · rintro ⟨u, hu⟩
    refine parseEvents_followable ⟨rfl, rfl, rfl, rfl, fun _ => rfl, rfl, rfl⟩ ⟨rfl, rfl, fun _ h => h⟩ Inv.init ?_ hu
    exact ⟨⟨rfl, rfl⟩, rfl, rfl, rfl, fun _ => rfl, rfl, rfl⟩
  · intro hf
    obtain ⟨u, hu, _⟩ := C66_undoable_clients_get_through ds rs c h hf
    exact ⟨u, hu⟩

/-! ### Buffers whose events are supported -/

theorem Gives.bind' {α β : Type} {Q : α → Prop} {R : β → Prop} {p : P α} {f : α → P β} (hp : Gives Q p) (hf : ∀ a, Q a → Gives R (f a)) :
    Gives R (p >>= f) := by
  intro s b r h
  obtain ⟨a, t, h1, h2⟩ := bind_eq_ok_iff.mp h
  exact hf a (hp _ _ _ h1) _ _ _ h2

/-- An event that fills an empty board: cards are added to zones and each pile gets its size once. -/
def FromScratch (e : Event) : Prop :=
  ∃ (s : BoardState) (rs : List (ResizeOp × PileKey)), e = .board (.state s) ∧ (∀ p ∈ s.add, p.isPile = false) ∧ s.resize = rs.map (·.1) ∧
    (∀ r ∈ rs, At r.1.place (.pile r.2) r.1.place.seq) ∧ (rs.map (·.2)).Nodup

/-- An event that does not resize any pile. -/
def NoResize (e : Event) : Prop := NoSingleLinks e ∧ ∀ X ∈ frameOps e, ∀ p n, X ≠ .resize p n

/-- Only events of these two kinds. -/
def Calm (o : Outcome) : Prop := ∀ m e, o.msg = some m → Msg.event? m = some e → FromScratch e ∨ NoResize e

theorem Calm.event {e : Event} (h : FromScratch e ∨ NoResize e) : Calm (.event e) := by
  rintro m e' hm he
  cases hm; cases he
  exact h

theorem Calm.swallowed : Calm .swallowed := by rintro m e hm; cases hm
theorem Calm.unknown : Calm {} := by rintro m e hm; cases hm
theorem Calm.request (r : Int) (q : Request) : Calm (.request r q) := by rintro m e hm he; cases hm; cases he
theorem Calm.queries (qs : List Query) : Calm (.queries qs) := by rintro m e hm he; cases hm; cases he

theorem calm_card (reason : Nat) (e : CardEvent) : Calm (.event (.card reason e)) := by
  refine .event (.inr ⟨trivial, ?_⟩)
  intro X hX p n
  cases e <;> simp only [frameOps, DuelBoard.cardOps, List.mem_map, List.mem_singleton, List.not_mem_nil] at hX
  case shuffle => subst hX; exact FrameOp.noConfusion
  all_goals (obtain ⟨_, _, rfl⟩ := hX; exact FrameOp.noConfusion)

theorem calm_pile (reason : Nat) (e : PileEvent) : Calm (.event (.pile reason e)) := by
  refine .event (.inr ⟨trivial, ?_⟩)
  intro X hX p n
  cases e <;> simp only [frameOps, DuelBoard.pileOps, List.mem_map, List.mem_singleton, List.not_mem_nil] at hX
  all_goals (obtain ⟨_, _, rfl⟩ := hX; exact FrameOp.noConfusion)

theorem calm_other {e : Event} (hc : NoSingleLinks e) (h : frameOps e = []) : Calm (.event e) :=
  .event (.inr ⟨hc, by rw [h]; intro X hX; cases hX⟩)

theorem fixSpell_zone (seq : Nat) : locIsPile (fixSpell Loc.spellZone seq).1 = false := by
  unfold fixSpell
  split
  · split
    · show locIsPile Loc.fieldZone = false; decide
    · show locIsPile Loc.pendulumZone = false; decide
  · show locIsPile Loc.spellZone = false; decide

theorem reloadZone_zone (con : Int) (loc seq : Nat) (h : loc = Loc.monsterZone ∨ loc = Loc.spellZone) :
    Gives (fun ps => ∀ p ∈ ps, p.isPile = false) (reloadZone con loc seq) := by
  unfold reloadZone
  refine Gives.bind fun b => ?_
  split
  · exact Gives.pure (by simp)
  · refine Gives.bind fun _ => Gives.bind fun n => Gives.pure ?_
    intro p hp
    simp only [List.mem_cons, List.mem_map] at hp
    have hl : locIsPile loc = false := by rcases h with rfl | rfl <;> rfl
    rcases hp with rfl | ⟨_, _, rfl⟩
    · show locIsPile (if loc = Loc.spellZone then fixSpell loc seq else (loc, seq)).1 = false
      split
      · rename_i hs; rw [hs]; exact fixSpell_zone seq
      · exact hl
    · exact hl

theorem forEach_zone (con : Int) (loc : Nat) (h : loc = Loc.monsterZone ∨ loc = Loc.spellZone) (xs : List Nat) :
    Gives (fun ps => ∀ p ∈ ps, p.isPile = false) (forEach (reloadZone con loc) xs) := by
  induction xs with
  | nil => exact Gives.pure (by simp)
  | cons x xs ih =>
    refine Gives.bind' (reloadZone_zone con loc x h) fun a ha => Gives.bind' ih fun as has => Gives.pure ?_
    intro p hp
    rcases List.mem_append.mp hp with hp | hp
    · exact ha p hp
    · exact has p hp

theorem reloadController_scratch (c : Fin 2) : Gives (fun (x : Nat × List Place × List ResizeOp) => (∀ p ∈ x.2.1, p.isPile = false) ∧
    ∃ rs : List (ResizeOp × PileKey), x.2.2 = rs.map (·.1) ∧ (∀ r ∈ rs, At r.1.place (.pile r.2) r.1.place.seq) ∧
      rs.map (·.2) = [⟨c, .mainDeck⟩, ⟨c, .hand⟩, ⟨c, .graveyard⟩, ⟨c, .banished⟩, ⟨c, .extraDeck⟩]) (reloadController c.val) := by
  unfold reloadController
  refine Gives.bind fun lp => Gives.bind' (forEach_zone _ _ (.inl rfl) _) fun ms hm => Gives.bind' (forEach_zone _ _ (.inr rfl) _) fun ss hs =>
    Gives.bind fun a => Gives.bind fun b => Gives.bind fun g => Gives.bind fun d => Gives.bind fun e => Gives.bind fun _ => Gives.pure ⟨?_, ?_⟩
  · intro p hp
    rcases List.mem_append.mp hp with hp | hp
    · exact hm p hp
    · exact hs p hp
  · refine ⟨[(pileOp c.val Loc.mainDeck a, ⟨c, .mainDeck⟩), (pileOp c.val Loc.hand b, ⟨c, .hand⟩), (pileOp c.val Loc.graveyard g, ⟨c, .graveyard⟩),
      (pileOp c.val Loc.banished d, ⟨c, .banished⟩), (pileOp c.val Loc.extraDeck e, ⟨c, .extraDeck⟩)], rfl, ?_, rfl⟩
    intro r hr
    simp only [List.mem_cons, List.not_mem_nil, or_false] at hr
    rcases hr with rfl | rfl | rfl | rfl | rfl
    · exact .pile ⟨c, .mainDeck⟩ 0 (-1)
    · exact .pile ⟨c, .hand⟩ 0 (-1)
    · exact .pile ⟨c, .graveyard⟩ 0 (-1)
    · exact .pile ⟨c, .banished⟩ 0 (-1)
    · exact .pile ⟨c, .extraDeck⟩ 0 (-1)

theorem startEvent_calm : Gives Calm startEvent := by
  unfold startEvent
  refine Gives.bind fun _ => Gives.bind fun l0 => Gives.bind fun l1 => Gives.bind fun a => Gives.bind fun b => Gives.bind fun c => Gives.bind fun d =>
    Gives.pure (.event (.inl ⟨_, [(pileOp 0 Loc.mainDeck a, ⟨0, .mainDeck⟩), (pileOp 0 Loc.extraDeck b, ⟨0, .extraDeck⟩),
      (pileOp 1 Loc.mainDeck c, ⟨1, .mainDeck⟩), (pileOp 1 Loc.extraDeck d, ⟨1, .extraDeck⟩)], rfl, by simp, rfl, ?_, ?_⟩))
  · intro r hr
    simp only [List.mem_cons, List.not_mem_nil, or_false] at hr
    rcases hr with rfl | rfl | rfl | rfl
    · exact .pile ⟨0, .mainDeck⟩ 0 (-1)
    · exact .pile ⟨0, .extraDeck⟩ 0 (-1)
    · exact .pile ⟨1, .mainDeck⟩ 0 (-1)
    · exact .pile ⟨1, .extraDeck⟩ 0 (-1)
  · show ([⟨0, .mainDeck⟩, ⟨0, .extraDeck⟩, ⟨1, .mainDeck⟩, ⟨1, .extraDeck⟩] : List PileKey).Nodup
    decide

theorem reloadEvent_calm : Gives Calm reloadEvent := by
  unfold reloadEvent
  refine Gives.bind fun _ => Gives.bind' (reloadController_scratch 0) ?_
  rintro ⟨l0, a0, r0⟩ ⟨h0, rs0, rfl, hr0, hn0⟩
  refine Gives.bind' (reloadController_scratch 1) ?_
  rintro ⟨l1, a1, r1⟩ ⟨h1, rs1, rfl, hr1, hn1⟩
  refine Gives.bind fun cs => Gives.pure (.event (.inl ⟨_, rs0 ++ rs1, rfl, ?_, ?_, ?_, ?_⟩))
  · intro p hp
    rcases List.mem_append.mp hp with hp | hp
    · exact h0 p hp
    · exact h1 p hp
  · simp
  · intro r hr
    rcases List.mem_append.mp hr with hr | hr
    · exact hr0 r hr
    · exact hr1 r hr
  · rw [List.map_append, hn0, hn1]
    decide

theorem eventCase_calm (k : Kind) (hk : k ≠ .chaining ∧ k ≠ .chainSolved ∧ k ≠ .tagSwap) (p : P Outcome) (h : eventCase k = some p) : Gives Calm p := by
  cases k <;> simp only [Ygo.eventCase, Option.some.injEq, reduceCtorEq] at h
  case start => subst h; exact startEvent_calm
  case reloadField => subst h; exact reloadEvent_calm
  case chaining => exact absurd rfl hk.1
  case chainSolved => exact absurd rfl hk.2.1
  case tagSwap => exact absurd rfl hk.2.2
  all_goals subst h
  all_goals ((try unfold summoningEvent); (try unfold selectedEvent); (try unfold lpEvent))
  all_goals repeat' (first
    | exact Gives.pure (calm_other trivial rfl)
    | exact Gives.pure (calm_card _ _)
    | exact Gives.pure (calm_pile _ _)
    | with_reducible refine Gives.bind fun _ => ?_)

theorem queryCase_calm (k : Kind) (p : P Outcome) (h : queryCase k = some p) : Gives Calm p := by
  cases k <;> simp only [Ygo.queryCase, Option.some.injEq, reduceCtorEq] at h <;> subst h
  all_goals repeat' (first
    | exact Gives.pure (Calm.queries _)
    | with_reducible refine Gives.bind fun _ => ?_)

theorem moveOutcome_calm (c : BasicContext) (prev curr : Place) (reason : Nat) (x : Outcome × BasicContext)
    (h : moveOutcome c prev curr reason = .ok x) : Calm x.1 := by
  have t := calm_card
  have w := Calm.swallowed
  unfold Ygo.moveOutcome at h
  split at h
  · cases h; exact w
  split at h
  · cases h; exact t _ _
  split at h
  · split at h <;> simp only [bind_eq_ok, pure_eq_ok, Except.ok.injEq] at h <;> obtain ⟨_, _, h⟩ := h
    · subst h; exact t _ _
    · obtain ⟨_, _, rfl⟩ := h; exact t _ _
  split at h
  · cases h; exact w
  split at h
  · cases h; exact t _ _
  split at h
  · simp only [bind_eq_ok, pure_eq_ok, Except.ok.injEq] at h
    obtain ⟨_, _, rfl⟩ := h
    exact t _ _
  · split at h <;> simp only [bind_eq_ok, pure_eq_ok, Except.ok.injEq] at h <;> obtain ⟨_, _, h⟩ := h
    · obtain ⟨_, _, rfl⟩ := h; exact t _ _
    · subst h; exact t _ _

theorem contextCase_calm (c : BasicContext) (k : Kind) (p : P (Outcome × BasicContext)) (h : contextCase c k = some p) :
    Gives (fun x => Calm x.1) p := by
  have kept : ∀ {q : P Outcome}, Gives Calm q → Gives (fun x : Outcome × BasicContext => Calm x.1) (q >>= fun o => Pure.pure (o, c)) :=
    fun hq => Gives.bind' hq fun _ h => Gives.pure h
  cases k <;> simp only [contextCase, Option.some.injEq, reduceCtorEq] at h <;> subst h
  case move =>
    refine Gives.bind fun _ => Gives.bind fun _ => Gives.bind fun _ => Gives.bind fun _ => ?_
    intro s x r e
    exact moveOutcome_calm c _ _ _ x (lift_eq_ok.mp e).1
  case matchKill => exact Gives.bind fun _ => Gives.pure Calm.swallowed
  all_goals
    refine kept ?_
    first | unfold winEvent | unfold deckTopEvent | unfold swapGraveDeckEvent | unfold drawEvent | unfold reverseDeckEvent
    repeat' (first
    | exact Gives.pure (calm_other trivial rfl)
    | exact Gives.pure (calm_pile _ _)
    | with_reducible refine Gives.bind fun _ => ?_
    | with_reducible refine Gives.ite ?_ ?_)

theorem encodeOne_calm {c c' : BasicContext} {data : List UInt8} {r : Encoded} (h : encodeOne c data = .ok (r, c'))
    (hd : ∀ b rest, data = b :: rest → b ≠ 70 ∧ b ≠ 73 ∧ b ≠ 161) : ∀ m e, r.msg = some m → Msg.event? m = some e → FromScratch e ∨ NoResize e := by
  obtain ⟨o, rest, hb, rfl⟩ := encodeOne_eq h
  suffices hc : Calm o from hc
  unfold encodeBody at hb
  obtain ⟨b, t, h1, h2⟩ := bind_eq_ok_iff.mp hb
  have hk : ∀ k, Kind.ofByte b = some k → k ≠ .chaining ∧ k ≠ .chainSolved ∧ k ≠ .tagSwap := by
    intro k hk
    obtain ⟨x, xs, rfl⟩ : ∃ x xs, data = x :: xs := by
      cases data with
      | nil => cases h1
      | cons x xs => exact ⟨x, xs, rfl⟩
    obtain ⟨h70, h73, h161⟩ := hd x xs rfl
    have hb : b = x.toNat := by
      simp [P.read] at h1
      rw [← h1.1]
      simp [leVal]
    subst hb
    have n : ∀ m : UInt8, x ≠ m → x.toNat ≠ m.toNat := fun m h h' => h (UInt8.toNat_inj.mp h')
    have n70 := n 70 h70
    have n73 := n 73 h73
    have n161 := n 161 h161
    unfold Kind.ofByte at hk
    cases hf : Kind.table.find? fun e => e.1 = x.toNat with
    | none => rw [hf] at hk; cases hk
    | some y =>
      rw [hf] at hk
      cases hk
      have h1 := List.find?_some hf
      have h2 := List.mem_of_find?_eq_some hf
      simp only [decide_eq_true_eq] at h1
      have key : ∀ y ∈ Kind.table, (y.2 = .chaining → y.1 = 70) ∧ (y.2 = .chainSolved → y.1 = 73) ∧ (y.2 = .tagSwap → y.1 = 161) := by decide
      obtain ⟨k1, k2, k3⟩ := key y h2
      exact ⟨fun h => n70 (h1.symm.trans (k1 h)), fun h => n73 (h1.symm.trans (k2 h)), fun h => n161 (h1.symm.trans (k3 h))⟩
  have hg : Gives (fun x : Outcome × BasicContext => Calm x.1) (match Kind.ofByte b with | some k => encodeCase c k | none => Pure.pure ({}, c)) := by
    split
    · next k hkk =>
      unfold encodeCase
      split
      · exact Gives.bind' (eventCase_calm k (hk k hkk) _ ‹eventCase k = some _›) fun _ h => Gives.pure h
      · exact Gives.bind' (queryCase_calm k _ ‹queryCase k = some _›) fun _ h => Gives.pure h
      · exact Gives.bind fun _ => Gives.bind fun _ => Gives.pure (Calm.request _ _)
      · exact Gives.bind fun _ => Gives.pure Calm.swallowed
      · exact contextCase_calm c _ _ ‹contextCase c k = some _›
      · exact Gives.pure Calm.unknown
    · exact Gives.pure Calm.unknown
  exact hg _ _ _ h2

theorem noResize_shrinks (ops : List FrameOp) (h : ∀ X ∈ ops, ∀ p n, X ≠ .resize p n) (f : Frame) : ShrinksByHalf f ops := by
  induction ops generalizing f with
  | nil => trivial
  | cons X Xs ih =>
    exact ⟨fun p n _ _ hX => absurd hX (h X (by simp) p n), fun f' _ => ih (fun Y hY => h Y (by simp [hY])) f'⟩

theorem resizes_shrink (rs : List (ResizeOp × PileKey)) (ha : ∀ r ∈ rs, At r.1.place (.pile r.2) r.1.place.seq) (hn : (rs.map (·.2)).Nodup)
    (f : Frame) (he : ∀ r ∈ rs, view f.layout (.pile r.2) = []) : ShrinksByHalf f (DuelBoard.resizeOps (rs.map (·.1))) := by
  induction rs generalizing f with
  | nil => trivial
  | cons r rs ih =>
    simp only [List.map_cons, List.nodup_cons] at hn
    refine ⟨?_, ?_⟩
    · intro p n k i hX hp
      cases hX
      obtain ⟨hC, _⟩ := At.unique (ha r (by simp)) hp
      cases hC
      rw [he r (by simp)]
      exact .inl (Nat.zero_le _)
    · intro f' hf
      have hv := (Frame.pileResize_at (ha r (by simp)) hf).1
      refine ih (fun r hr => ha r (by simp [hr])) hn.2 f' fun r' hr' => ?_
      rw [hv, upd_apply, if_neg]
      · exact he r' (by simp [hr'])
      · intro h
        apply hn.1
        rw [List.mem_map]
        exact ⟨r', hr', by injection h⟩

theorem adds_shrink (ps : List Place) (h : ∀ p ∈ ps, p.isPile = false) (rs : List (ResizeOp × PileKey))
    (ha : ∀ r ∈ rs, At r.1.place (.pile r.2) r.1.place.seq) (hn : (rs.map (·.2)).Nodup) (f : Frame) (he : ∀ k, view f.layout (.pile k) = []) :
    ShrinksByHalf f (ps.map .add ++ DuelBoard.resizeOps (rs.map (·.1))) := by
  induction ps generalizing f with
  | nil => exact resizes_shrink rs ha hn f fun r _ => he r.2
  | cons p ps ih =>
    refine ⟨fun _ _ _ _ hX => FrameOp.noConfusion hX, ?_⟩
    intro f' hf
    refine ih (fun p hp => h p (by simp [hp])) f' fun k => ?_
    simp only [Frame.step, bind_eq_ok, pure_eq_ok, Except.ok.injEq, Prod.exists] at hf
    obtain ⟨f1, c, hf, rfl⟩ := hf
    obtain ⟨_, _, _, C, i, hp, _, hv⟩ := (C07_card_add _ _ _ _).mp hf
    rw [hv, Board.put, upd_apply, if_neg]
    · exact he k
    · rintro rfl
      have := hp.isPile
      rw [h p (by simp)] at this
      cases this

theorem fromScratch_shrinks {e : Event} (h : FromScratch e) {f : Frame} (hi : Inv f) : NoSingleLinks e ∧ ShrinksByHalf f (frameOps e) := by
  obtain ⟨s, rs, rfl, hp, hr, ha, hn⟩ := h
  refine ⟨trivial, fun _ _ _ _ hX => FrameOp.noConfusion hX, ?_⟩
  intro f' hf
  obtain ⟨g, h1, _, _, h2, _⟩ := hi.clear
  have hf : f.clear = .ok f' := hf
  rw [h1] at hf; cases hf
  rw [hr]
  exact adds_shrink s.add hp rs ha hn _ fun k => h2 _

/-- **C66.** Clients whose boards can be undone get through whatever the core sends, except for chain links being added or removed
and for the swap of tag partners, which can shrink piles. -/
theorem C66_undoable_clients_partial (ds : List (List UInt8)) (hd : ∀ d ∈ ds, ∀ b rest, d = b :: rest → b ≠ 70 ∧ b ≠ 73 ∧ b ≠ 161)
    (rs : List Encoded) (c : BasicContext) (h : feed BasicContext.init ds = .ok (rs, c)) :
    ∃ u, UndoBoard.init.parseEvents ((messages rs).filterMap Msg.event?) = .ok u ∧ Shows c.board u := by
  refine C66_undoable_clients_get_through ds rs c h ?_
  suffices hg : ∀ (ds : List (List UInt8)) (c0 : BasicContext) (rs : List Encoded), (∀ d ∈ ds, ∀ b rest, d = b :: rest → b ≠ 70 ∧ b ≠ 73 ∧ b ≠ 161) →
      Reachable c0.board.frame → feed c0 ds = .ok (rs, c) → Followable c0.board ((messages rs).filterMap Msg.event?) from hg ds _ rs hd ⟨[], rfl⟩ h
  intro ds
  induction ds with
  | nil => intro c0 rs _ _ h; cases h; trivial
  | cons d ds ih =>
    intro c0 rs hd hr h
    obtain ⟨r, c1, c2, rs', h1, hs, h2, h3, rfl⟩ := feed_cons h
    have hr1 : Reachable c1.board.frame := by rw [hs.board]; exact hr
    have hd' : ∀ d ∈ ds, ∀ b rest, d = b :: rest → b ≠ 70 ∧ b ≠ 73 ∧ b ≠ 161 := fun d h => hd d (by simp [h])
    cases hm : r.msg with
    | none =>
      rw [hm] at h2; cases h2
      simp only [messages, List.filterMap_cons, hm]
      rw [← hs.board]
      exact ih c1 rs' hd' hr1 h3
    | some m =>
      rw [hm] at h2
      have hr2 := parse_reachable h2 hr1
      have hrest := ih c2 rs' hd' hr2 h3
      simp only [messages, List.filterMap_cons, hm]
      obtain ⟨b, st, hb, _, rfl⟩ := parse_parts h2
      rw [← hs.board]
      cases he : Msg.event? m with
      | none =>
        rw [he] at hb; cases hb
        exact hrest
      | some e =>
        rw [he] at hb
        have hb : c1.board.parseEvent e = .ok b := hb
        have hc := encodeOne_calm h1 (hd d (by simp)) m e hm he
        have : NoSingleLinks e ∧ ShrinksByHalf c1.board.frame (frameOps e) := by
          rcases hc with hc | hc
          · exact fromScratch_shrinks hc hr1.inv
          · exact ⟨hc.1, noResize_shrinks _ hc.2 _⟩
        refine ⟨this.1, this.2, fun b' hb' => ?_⟩
        rw [hb] at hb'; cases hb'
        exact hrest

/-- **C66.** The exceptions are real: the first link of a chain stops such a client, and a tag swap that takes one of three cards
out of a deck is undefined behaviour. -/
theorem C66_exceptions_real :
    (∃ ds rs c, feed BasicContext.init ds = .ok (rs, c) ∧ UndoBoard.init.parseEvents ((messages rs).filterMap Msg.event?) = .error .assert) ∧
    ∃ ds rs c, feed BasicContext.init ds = .ok (rs, c) ∧ UndoBoard.init.parseEvents ((messages rs).filterMap Msg.event?) = .error .ub := by
  have key : ∀ (ds : List (List UInt8)) (e : Err), ((feed BasicContext.init ds).toOption.map fun x =>
        (UndoBoard.init.parseEvents ((messages x.1).filterMap Msg.event?)).map fun _ => ()) = some (.error e) →
      ∃ rs c, feed BasicContext.init ds = .ok (rs, c) ∧ UndoBoard.init.parseEvents ((messages rs).filterMap Msg.event?) = .error e := by
    intro ds e h
    cases hf : feed BasicContext.init ds with
    | error e' => rw [hf] at h; cases h
    | ok x =>
      refine ⟨x.1, x.2, rfl, ?_⟩
      rw [hf] at h
      simp only [Except.toOption, Option.map_some, Option.some.injEq] at h
      cases hp : UndoBoard.init.parseEvents ((messages x.1).filterMap Msg.event?) with
      | error e' => rw [hp] at h; cases h; rfl
      | ok u => rw [hp] at h; cases h
  exact ⟨⟨[(CoreMsg.chaining ⟨5, ⟨0, 4, 1, 1⟩, ⟨0, 4, 1⟩, 7⟩ 1).bytes], key _ _ (by decide +kernel)⟩,
    ⟨[(CoreMsg.start 0 8000 8000 3 1 2 0).bytes, (CoreMsg.tagSwap 0 2 0 0 [(1, 1)] []).bytes], key _ _ (by decide +kernel)⟩⟩

/-! ### Examples -/

/-- A start, a shuffle, two draws, a byte that is no message, a turn and damage. -/
def someBuffers : List (List UInt8) :=
  [(CoreMsg.start 0 8000 8000 3 1 2 0).bytes, (CoreMsg.shuffleDeck 0).bytes, (CoreMsg.draw 0 [(1, 1), (2, 1)]).bytes, [200, 1, 2],
   (CoreMsg.newTurn 1).bytes, (CoreMsg.draw 1 [(0, 1)]).bytes, (CoreMsg.damage 0 500).bytes]

example : (feed BasicContext.init someBuffers).toOption.map (fun x =>
      ((messages x.1).length, view x.2.board.frame.layout (.pile ⟨0, .hand⟩), view x.2.board.frame.layout (.pile ⟨0, .mainDeck⟩),
        view x.2.board.frame.layout (.pile ⟨1, .hand⟩), (x.2.board.lp 0).val, x.2.board.frame.next)) =
    some (6, [2, 1], [0], [5], 7500, 6) := by decide +kernel

example : ∀ d ∈ someBuffers, ∀ b rest, d = b :: rest → b ≠ 70 ∧ b ≠ 73 ∧ b ≠ 161 := by
  intro d hd b rest h
  have key : someBuffers.all (fun d => d.head?.all fun b => decide (b ≠ 70 ∧ b ≠ 73 ∧ b ≠ 161)) = true := by decide +kernel
  rw [List.all_eq_true] at key
  have := key d hd
  rw [h] at this
  exact of_decide_eq_true this

end Ygo.Props
