import Verif.Spec.NextDuel
import Verif.Lemmas.Screen
import Verif.Lemmas.AnyContext
import Verif.Props.Handover

/-!
# The next duel
-/

set_option linter.unusedSimpArgs false

namespace Ygo
open Ygo.Spec Ygo.Props P EncodeContext

/-! ## Other values beside the table -/

/-- Values for what a state event does not tell; none keeps the value. -/
structure Aside where
  player : Option Int
  phase : Option Nat
  blocked : Option (List Place)

/-- The same board with other values. -/
def Aside.on (o : Aside) (b : PlainBoard) : PlainBoard :=
  { b with turnController := o.player.elim b.turnController Plain.mk, phase := o.phase.elim b.phase Plain.mk, blockedZones := o.blocked.elim b.blockedZones Plain.mk }

/-- What is left of the values after an event. -/
def Aside.after (o : Aside) : Event → Aside
  | .nextTurn _ => { o with player := none }
  | .nextPhase _ => { o with phase := none }
  | .zoneBlock _ => { o with blocked := none }
  | _ => o

/-- What is left of the values after a message. -/
def Aside.past (o : Aside) (m : Msg) : Aside :=
  match Msg.event? m with
  | some e => o.after e
  | none => o

/-- What is left of the values after messages. -/
def Aside.pastAll (o : Aside) (ms : List Msg) : Aside := ms.foldl Aside.past o

theorem parseEvent_aside (o : Aside) (b : PlainBoard) (e : Event) : (o.on b).parseEvent e = (b.parseEvent e).map (o.after e).on := by
  have on : ∀ (b : PlainBoard) ops, (o.on b).onFrame ops = (b.onFrame ops).map o.on := by
    intro b ops
    simp only [DuelBoard.onFrame, Aside.on]
    cases runOps b.frame ops <;> rfl
  cases e with
  | board x =>
    cases x with
    | unset => rfl
    | exchange x => exact on _ _
    | state s =>
      simp only [DuelBoard.parseEvent, DuelBoard.parseState]
      match hl : s.lps with
      | [] => rfl
      | [x] => rfl
      | x :: y :: r =>
        simp only [List.getElem?_cons_zero, List.getElem?_cons_succ, orUb, bind_ok]
        refine Eq.trans ?_ (on _ _)
        by_cases ht : 0 ≤ s.turnCounter <;> simp only [ht, if_true, if_false] <;> rfl
  | card r x => exact on _ _
  | chainStack x =>
    cases x with
    | unset => rfl
    | push c => rfl
    | pop n =>
      simp only [DuelBoard.parseEvent]
      show (Cell.pop b.chainStack >>= _) = Except.map _ (Cell.pop b.chainStack >>= _)
      cases Cell.pop b.chainStack <;> rfl
  | nextTurn con => rfl
  | lp con c =>
    simp only [DuelBoard.parseEvent]
    cases DuelBoard.lpIdx con <;> rfl
  | nextPhase p => rfl
  | pile r x => exact on _ _
  | zoneBlock zs => rfl
  | finish f => rfl
  | metaInfo x => rfl
  | result x => rfl
  | unset => rfl

/-- The same client with other values. -/
def Aside.client (o : Aside) (s : Client) : Client := ⟨o.on s.board, s.store⟩

theorem follow_aside (o : Aside) (cache : Bool) (s : Client) (ms : List Msg) :
    Client.follow cache (o.client s) ms = (Client.follow cache s ms).map (o.pastAll ms).client := by
  induction ms generalizing o s with
  | nil => rfl
  | cons m ms ih =>
    simp only [Client.follow]
    have rest : ∀ (p : Aside) (b : PlainBoard), (Client.answer cache (p.on b).frame.layout m.queries (o.client s).store >>= fun st => Client.follow cache ⟨p.on b, st⟩ ms) =
        (Client.answer cache b.frame.layout m.queries s.store >>= fun st => Client.follow cache ⟨b, st⟩ ms).map (p.pastAll ms).client := by
      intro p b
      show (Client.answer cache b.frame.layout m.queries s.store >>= _) = _
      cases Client.answer cache b.frame.layout m.queries s.store with
      | error e => rfl
      | ok st => exact ih p ⟨b, st⟩
    show _ = Except.map (Aside.pastAll (o.past m) ms).client _
    unfold Aside.past
    cases Msg.event? m with
    | none => exact rest o s.board
    | some e =>
      show ((o.on s.board).parseEvent e >>= _) = Except.map _ (s.board.parseEvent e >>= _)
      rw [parseEvent_aside]
      cases s.board.parseEvent e with
      | error e => rfl
      | ok b => exact rest (o.after e) b

theorem pastAll_player (o : Aside) (ms : List Msg) : EventTold Event.SaysTurn ms → (o.pastAll ms).player = none := by
  induction ms generalizing o with
  | nil => rintro ⟨_, h, _⟩; cases h
  | cons m ms ih =>
    rintro ⟨m', hm, e, he, hp⟩
    show ((o.past m).pastAll ms).player = none
    rcases List.mem_cons.mp hm with rfl | hm
    · have h0 : (o.past m').player = none := by
        obtain ⟨con, rfl⟩ := hp
        simp only [Aside.past, he, Aside.after]
      have key : ∀ (ms : List Msg) (o : Aside), o.player = none → (o.pastAll ms).player = none := by
        intro ms
        induction ms with
        | nil => exact fun o h => h
        | cons m ms ih =>
          intro o h
          refine ih (o.past m) ?_
          unfold Aside.past
          cases Msg.event? m with
          | none => exact h
          | some e => cases e <;> simp [Aside.after, h]
      exact key ms _ h0
    · exact ih _ ⟨m', hm, e, he, hp⟩

theorem pastAll_phase (o : Aside) (ms : List Msg) : EventTold Event.SaysPhase ms → (o.pastAll ms).phase = none := by
  induction ms generalizing o with
  | nil => rintro ⟨_, h, _⟩; cases h
  | cons m ms ih =>
    rintro ⟨m', hm, e, he, hp⟩
    show ((o.past m).pastAll ms).phase = none
    rcases List.mem_cons.mp hm with rfl | hm
    · have h0 : (o.past m').phase = none := by
        obtain ⟨con, rfl⟩ := hp
        simp only [Aside.past, he, Aside.after]
      have key : ∀ (ms : List Msg) (o : Aside), o.phase = none → (o.pastAll ms).phase = none := by
        intro ms
        induction ms with
        | nil => exact fun o h => h
        | cons m ms ih =>
          intro o h
          refine ih (o.past m) ?_
          unfold Aside.past
          cases Msg.event? m with
          | none => exact h
          | some e => cases e <;> simp [Aside.after, h]
      exact key ms _ h0
    · exact ih _ ⟨m', hm, e, he, hp⟩

theorem pastAll_blocked (o : Aside) (ms : List Msg) : EventTold Event.SaysBlocked ms → (o.pastAll ms).blocked = none := by
  induction ms generalizing o with
  | nil => rintro ⟨_, h, _⟩; cases h
  | cons m ms ih =>
    rintro ⟨m', hm, e, he, hp⟩
    show ((o.past m).pastAll ms).blocked = none
    rcases List.mem_cons.mp hm with rfl | hm
    · have h0 : (o.past m').blocked = none := by
        obtain ⟨con, rfl⟩ := hp
        simp only [Aside.past, he, Aside.after]
      have key : ∀ (ms : List Msg) (o : Aside), o.blocked = none → (o.pastAll ms).blocked = none := by
        intro ms
        induction ms with
        | nil => exact fun o h => h
        | cons m ms ih =>
          intro o h
          refine ih (o.past m) ?_
          unfold Aside.past
          cases Msg.event? m with
          | none => exact h
          | some e => cases e <;> simp [Aside.after, h]
      exact key ms _ h0
    · exact ih _ ⟨m', hm, e, he, hp⟩

theorem pastAll_untold (o : Aside) (ms : List Msg) :
    (¬ EventTold Event.SaysTurn ms → (o.pastAll ms).player = o.player) ∧ (¬ EventTold Event.SaysPhase ms → (o.pastAll ms).phase = o.phase) ∧
    (¬ EventTold Event.SaysBlocked ms → (o.pastAll ms).blocked = o.blocked) := by
  induction ms generalizing o with
  | nil => exact ⟨fun _ => rfl, fun _ => rfl, fun _ => rfl⟩
  | cons m ms ih =>
    have up : ∀ {P : Event → Prop}, ¬ EventTold P (m :: ms) → ¬ EventTold P ms := fun h ⟨m', hm, x⟩ => h ⟨m', List.mem_cons_of_mem _ hm, x⟩
    have here : ∀ {P : Event → Prop}, ¬ EventTold P (m :: ms) → ∀ e, Msg.event? m = some e → ¬ P e :=
      fun h e he hp => h ⟨m, List.mem_cons_self .., e, he, hp⟩
    obtain ⟨h1, h2, h3⟩ := ih (o.past m)
    refine ⟨fun h => (h1 (up h)).trans ?_, fun h => (h2 (up h)).trans ?_, fun h => (h3 (up h)).trans ?_⟩
    all_goals
      have hh := here h
      unfold Aside.past
      cases hm : Msg.event? m with
      | none => rfl
      | some e =>
        have := hh e hm
        cases e <;> first | rfl | exact absurd ⟨_, rfl⟩ this

/-- The values of a board. -/
def Aside.of (b : PlainBoard) : Aside := ⟨some b.turnController.val, some b.phase.val, some b.blockedZones.val⟩

theorem Aside.of_on (b : PlainBoard) : (Aside.of b).on b = b := rfl

theorem Aside.on_inv {o : Aside} {b : PlainBoard} (h : Inv b.frame) : Inv (o.on b).frame := h

theorem Aside.client_sound {o : Aside} {s : Client} (h : Sound s) : Sound (o.client s) := ⟨h.inv, h.blank⟩

theorem follow_stays {cache : Bool} {s t : Client} {ms : List Msg} (h : Client.follow cache s ms = .ok t) : StaysAsBefore ms s t := by
  have k := follow_aside (Aside.of s.board) cache s ms
  rw [show (Aside.of s.board).client s = s from rfl, h] at k
  have e : t = ((Aside.of s.board).pastAll ms).client t := by injection k
  obtain ⟨h1, h2, h3⟩ := pastAll_untold (Aside.of s.board) ms
  refine ⟨fun h => ?_, fun h => ?_, fun h => ?_⟩
  · have := congrArg (fun t => t.board.turnController) e
    simp only [Aside.client, Aside.on, h1 h] at this
    exact this
  · have := congrArg (fun t => t.board.phase) e
    simp only [Aside.client, Aside.on, h2 h] at this
    exact this
  · have := congrArg (fun t => t.board.blockedZones) e
    simp only [Aside.client, Aside.on, h3 h] at this
    exact this

theorem LookSame.since {s s' : Client} {o : Aside} {ms : List Msg} (h : LookSame s ((o.pastAll ms).client s')) : LookSameSince ms s s' := by
  refine ⟨h.cards, h.chain, h.turn, h.lp, fun ht => ?_, fun ht => ?_, fun ht => ?_⟩
  · have := h.turnPlayer
    simp only [Aside.client, Aside.on, pastAll_player o ms ht] at this
    exact this
  · have := h.phase
    simp only [Aside.client, Aside.on, pastAll_phase o ms ht] at this
    exact this
  · have := h.blocked
    simp only [Aside.client, Aside.on, pastAll_blocked o ms ht] at this
    exact this

/-! ## A state event -/

theorem runOps_next {ops : List FrameOp} {f g : Frame} (h : runOps f ops = .ok g) : f.next ≤ g.next := by
  induction ops generalizing f with
  | nil => cases h; exact Nat.le_refl _
  | cons o ops ih =>
    simp only [runOps, FrameLike.step, bind_eq_ok] at h
    obtain ⟨f1, h1, h2⟩ := h
    exact Nat.le_trans (step_next h1) (ih h2)

theorem state_look {s s' : Client} (hs : Sound s) (hs' : Sound s') (x : BoardState) (hx : 0 ≤ x.turnCounter) :
    Together (fun b b' => LookSame ⟨b, s.store⟩ ⟨(Aside.of s.board).on b', s'.store⟩ ∧ Sound ⟨b, s.store⟩ ∧ Sound ⟨b', s'.store⟩)
      (s.board.parseEvent (.board (.state x))) (s'.board.parseEvent (.board (.state x))) := by
  obtain ⟨g, h1, h2, h3, h4, h5⟩ := hs.inv.clear
  obtain ⟨g', k1, k2, k3, k4, k5⟩ := hs'.inv.clear
  have hc : SameCounts g.layout g'.layout := fun C => by rw [h4, k4]
  have e := runOps_counted (ops := x.add.map .add ++ DuelBoard.resizeOps x.resize) h2
  rw [show g.counted = g'.counted from congrArg CountFrame.mk (blank_iff.mpr hc), runOps_counted k2] at e
  have ht := Together.of_map e.symm
  have r1 : runOps s.board.frame (DuelBoard.stateOps x) = runOps g (x.add.map .add ++ DuelBoard.resizeOps x.resize) := by
    simp only [DuelBoard.stateOps, List.cons_append, runOps, FrameLike.step, Frame.step, h1, bind_ok]
  have r2 : runOps s'.board.frame (DuelBoard.stateOps x) = runOps g' (x.add.map .add ++ DuelBoard.resizeOps x.resize) := by
    simp only [DuelBoard.stateOps, List.cons_append, runOps, FrameLike.step, Frame.step, k1, bind_ok]
  simp only [DuelBoard.parseEvent, DuelBoard.parseState, hx, if_true]
  match hl : x.lps with
  | [] => exact rfl
  | [_] => exact rfl
  | a :: b :: r =>
    simp only [List.getElem?_cons_zero, List.getElem?_cons_succ, orUb, bind_ok, DuelBoard.onFrame, DuelBoard.setLp, r1, r2]
    refine ht.bind fun f f' hf hf' hff => ?_
    have i1 := runOps_inv h2 hf
    have i2 := runOps_inv k2 hf'
    have n1 := fun C y hy => runOps_all_new h5 hf i1 C y hy
    have n2 := fun C y hy => runOps_all_new k5 hf' i2 C y hy
    have b1 : ∀ y, g.next ≤ y → s.store y = BasicContext.newCard := fun y hy => hs.blank y (h3 ▸ hy)
    have b2 : ∀ y, g'.next ≤ y → s'.store y = BasicContext.newCard := fun y hy => hs'.blank y (k3 ▸ hy)
    refine ⟨⟨funext fun C => ?_, rfl, rfl, rfl, ?_, rfl, rfl⟩, ⟨i1, fun y hy => b1 y (Nat.le_trans (runOps_next hf) hy)⟩,
      ⟨i2, fun y hy => b2 y (Nat.le_trans (runOps_next hf') hy)⟩⟩
    · show (view f.layout C).map s.store = (view f'.layout C).map s'.store
      have hcc : (view f.layout C).length = (view f'.layout C).length := blank_iff.mp (congrArg CountFrame.layout hff) C
      rw [List.map_congr_left (g := fun _ => BasicContext.newCard) fun y hy => b1 y (n1 C y hy),
        List.map_congr_left (l := view f'.layout C) (g := fun _ => BasicContext.newCard) fun y hy => b2 y (n2 C y hy), List.map_const', List.map_const', hcc]
    · funext i
      match i with
      | 0 => rfl
      | 1 => rfl

theorem follow_event {cache : Bool} {s : Client} {m : Msg} {e : Event} (hm : m.body = .event e) (ms : List Msg) :
    Client.follow cache s (m :: ms) = s.board.parseEvent e >>= fun b => Client.follow cache ⟨b, s.store⟩ ({ m with body := .unset } :: ms) := by
  simp only [Client.follow, Msg.event?, hm]
  rfl

theorem told_unset {P : Event → Prop} {m : Msg} {ms : List Msg} (h : EventTold P ms) : EventTold P ({ m with body := .unset } :: ms) := by
  obtain ⟨m', h1, h2⟩ := h
  exact ⟨m', List.mem_cons_of_mem _ h1, h2⟩

theorem follow_next {s s' : Client} (hs : Sound s) (hs' : Sound s') (cache cache' : Bool) {m : Msg} {x : BoardState} (hm : m.body = .event (.board (.state x)))
    (hx : 0 ≤ x.turnCounter) (ms : List Msg) :
    Together (LookSameSince ms) (Client.follow cache s (m :: ms)) (Client.follow cache' s' (m :: ms)) := by
  rw [follow_event hm, follow_event hm]
  refine (state_look hs hs' x hx).bind fun b b' _ _ h => ?_
  have k := follow_look (s := ⟨b, s.store⟩) (s' := (Aside.of s.board).client ⟨b', s'.store⟩) h.2.1 (Aside.client_sound h.2.2) h.1 cache cache'
    ({ m with body := .unset } :: ms)
  rw [follow_aside] at k
  revert k
  cases Client.follow cache ⟨b, s.store⟩ ({ m with body := .unset } :: ms) with
  | error e => cases Client.follow cache' ⟨b', s'.store⟩ ({ m with body := .unset } :: ms) <;> exact id
  | ok t =>
    cases Client.follow cache' ⟨b', s'.store⟩ ({ m with body := .unset } :: ms) with
    | error e => exact id
    | ok t' =>
      intro k
      have := LookSame.since k.1
      exact ⟨this.cards, this.chain, this.turn, this.lp, fun h => this.turnPlayer (told_unset h), fun h => this.phase (told_unset h),
        fun h => this.blocked (told_unset h)⟩

/-! ## Servers -/

/-- The same server with other values. -/
def Aside.server (o : Aside) (c : BasicContext) : BasicContext := { c with board := o.on c.board }

theorem encodeOne_aside (o : Aside) (c : BasicContext) (d : List UInt8) : encodeOne (o.server c) d = (encodeOne c d).map fun x => (x.1, o.server x.2) := by
  have k := encodeOne_on (c := c) (b := o.on c.board) (st := c.store) (fun _ _ => rfl) (fun _ => rfl) d
  rw [show o.server c = c.on (o.on c.board) c.store from rfl, k]
  cases h : encodeOne c d with
  | error e => rfl
  | ok x =>
    have := encodeOne_same h
    show Except.ok _ = Except.ok _
    congr 1
    refine Prod.ext rfl ?_
    show BasicContext.mk (o.on c.board) c.store x.2.matchWinReason x.2.left x.2.deferred = BasicContext.mk (o.on x.2.board) x.2.store x.2.matchWinReason x.2.left x.2.deferred
    rw [this.board, this.store]

theorem parse_aside (o : Aside) (c : BasicContext) (m : Msg) : (o.server c).parse m = (c.parse m).map (o.past m).server := by
  obtain ⟨body, qs⟩ := m
  have rest : ∀ (p : Aside) (b : PlainBoard), (BasicContext.parseQueries (p.on b).frame.layout qs c.store >>= fun st => Except.ok { o.server c with board := p.on b, store := st }) =
      Except.map p.server (BasicContext.parseQueries b.frame.layout qs c.store >>= fun st => Except.ok { c with board := b, store := st }) := by
    intro p b
    show (BasicContext.parseQueries b.frame.layout qs c.store >>= _) = _
    cases BasicContext.parseQueries b.frame.layout qs c.store <;> rfl
  cases body with
  | event e =>
    show ((o.on c.board).parseEvent e >>= _) = Except.map _ (c.board.parseEvent e >>= _)
    rw [parseEvent_aside]
    cases c.board.parseEvent e with
    | error e => rfl
    | ok b => exact rest (o.after e) b
  | unset => exact rest o c.board
  | request p r => exact rest o c.board

theorem feed_aside (o : Aside) (c : BasicContext) (ds : List (List UInt8)) :
    feed (o.server c) ds = (feed c ds).map fun x => (x.1, (o.pastAll (messages x.1)).server x.2) := by
  induction ds generalizing o c with
  | nil => rfl
  | cons d ds ih =>
    simp only [feed]
    rw [encodeOne_aside]
    cases encodeOne c d with
    | error e => rfl
    | ok x =>
      obtain ⟨r, c1⟩ := x
      simp only [Except.map, bind_ok]
      cases hm : r.msg with
      | none =>
        show (feed (o.server c1) ds >>= _) = Except.map _ (feed c1 ds >>= _)
        rw [ih]
        cases feed c1 ds with
        | error e => rfl
        | ok y =>
          show Except.ok _ = Except.ok _
          simp only [messages, List.filterMap_cons, hm]
      | some m =>
        show ((o.server c1).parse m >>= _) = Except.map _ (c1.parse m >>= _)
        rw [parse_aside]
        cases c1.parse m with
        | error e => rfl
        | ok c2 =>
          show (feed ((o.past m).server c2) ds >>= _) = Except.map _ (feed c2 ds >>= _)
          rw [ih]
          cases feed c2 ds with
          | error e => rfl
          | ok y =>
            show Except.ok _ = Except.ok _
            simp only [messages, List.filterMap_cons, hm]
            rfl

/-! ## More notes -/

/-- The first knows all that the second has noted; nothing else is different. -/
structure MoreNotes (c d : BasicContext) : Prop where
  board : c.board = d.board
  store : c.store = d.store
  deferred : c.deferred = d.deferred
  reason : ∀ x, d.matchWinReason = some x → c.matchWinReason = some x
  left : ∀ p x, d.left p = some x → c.left p = some x

/-- The first succeeds in the same way if the second does. -/
def Covers {α β : Type} (R : α → β → Prop) (x : Res α) (y : Res β) : Prop := ∀ b, y = .ok b → ∃ a, x = .ok a ∧ R a b

/-- The same for readers. -/
def CoversP {α β : Type} (R : α → β → Prop) (p : P α) (q : P β) : Prop := ∀ s, Covers (fun x y => R x.1 y.1 ∧ x.2 = y.2) (p s) (q s)

namespace CoversP
variable {α β γ : Type}

theorem pure {R : α → β → Prop} {a : α} {b : β} (h : R a b) : CoversP R (Pure.pure a) (Pure.pure b) := by
  intro s y e
  cases e
  exact ⟨_, rfl, h, rfl⟩
theorem bind {R : β → γ → Prop} {p : P α} {g : α → P β} {h : α → P γ} (hg : ∀ a, CoversP R (g a) (h a)) : CoversP R (p >>= g) (p >>= h) := by
  intro s y e
  rw [bind_run] at e ⊢
  cases hp : p s with
  | error e' => rw [hp] at e; cases e
  | ok x =>
    rw [hp] at e
    exact hg x.1 x.2 y e
theorem lift {R : α → β → Prop} {x : Res α} {y : Res β} (h : Covers R x y) : CoversP R (P.lift x) (P.lift y) := by
  intro s z e
  cases y with
  | error e' => cases e
  | ok b =>
    cases e
    obtain ⟨a, rfl, ha⟩ := h b rfl
    exact ⟨_, rfl, ha, rfl⟩

end CoversP

theorem moveOutcome_more {c d : BasicContext} (h : MoreNotes c d) (p q : Place) (r : Nat) :
    Covers (NextTo MoreNotes) (moveOutcome c p q r) (moveOutcome d p q r) := by
  have hx : ∀ p, hasXyzMat c p = hasXyzMat d p := fun p => by
    obtain ⟨hb, -, -, -, -⟩ := h
    cases c; cases d; cases hb; rfl
  have hn : ∀ p q, MoreNotes (EncodeContext.xyzLeft c p q) (EncodeContext.xyzLeft d p q) := by
    intro p q
    refine ⟨h.board, h.store, h.deferred, h.reason, fun p' x hx => ?_⟩
    show (if p' = p then some q else c.left p') = some x
    have hx : (if p' = p then some q else d.left p') = some x := hx
    by_cases e : p' = p
    · simpa [e] using hx
    · simp only [e, if_false] at hx ⊢
      exact h.left _ _ hx
  unfold moveOutcome
  simp only [hx]
  split
  · rintro _ ⟨⟩; exact ⟨_, rfl, rfl, h⟩
  split
  · rintro _ ⟨⟩; exact ⟨_, rfl, rfl, h⟩
  split
  · split
    · rintro _ ⟨⟩; exact ⟨_, rfl, rfl, h⟩
    · cases hasXyzMat d p with
      | error e => rintro _ ⟨⟩
      | ok v => cases v <;> rintro _ ⟨⟩ <;> first | exact ⟨_, rfl, rfl, h⟩ | exact ⟨_, rfl, rfl, hn _ _⟩
  split
  · rintro _ ⟨⟩
    exact ⟨_, rfl, rfl, h.board, h.store, by show c.deferred ++ _ = d.deferred ++ _; rw [h.deferred], h.reason, h.left⟩
  split
  · rintro _ ⟨⟩
    refine ⟨_, rfl, ?_, h.board, h.store, rfl, h.reason, h.left⟩
    simp only [takeDeferredXyzMat, h.deferred]
  split
  · show Covers _ (orUb (c.left _) >>= _) (orUb (d.left _) >>= _)
    cases hd : d.left { p with oseq := OSEQ_INVALID } with
    | none => rintro _ ⟨⟩
    | some v =>
      rw [h.left _ _ hd]
      rintro _ ⟨⟩
      exact ⟨_, rfl, rfl, h⟩
  · split
    · cases hasXyzMat d p with
      | error e => rintro _ ⟨⟩
      | ok v => cases v <;> rintro _ ⟨⟩ <;> first | exact ⟨_, rfl, rfl, h⟩ | exact ⟨_, rfl, rfl, hn _ _⟩
    · rintro _ ⟨⟩; exact ⟨_, rfl, rfl, h⟩

theorem encodeCase_more {c d : BasicContext} (h : MoreNotes c d) (k : Kind) : CoversP (NextTo MoreNotes) (encodeCase c k) (encodeCase d k) := by
  have keep : ∀ {p : P Outcome}, CoversP (NextTo MoreNotes) (p >>= fun o => Pure.pure (o, c)) (p >>= fun o => Pure.pure (o, d)) :=
    CoversP.bind fun o => CoversP.pure ⟨rfl, h⟩
  have hs : ∀ con loc, pileSize c con loc = pileSize d con loc := fun con loc => by
    obtain ⟨hb, -, -, -, -⟩ := h
    cases c; cases d; cases hb; rfl
  unfold encodeCase
  cases h1 : eventCase k with
  | some p => exact keep
  | none =>
  cases h2 : queryCase k with
  | some p => exact keep
  | none =>
  cases h3 : requestCase k with
  | some p => exact CoversP.bind fun o => CoversP.bind fun r => CoversP.pure ⟨rfl, h⟩
  | none =>
  cases h4 : swallowedCase k with
  | some p => exact CoversP.bind fun o => CoversP.pure ⟨rfl, h⟩
  | none =>
  cases k <;> simp only [contextCase]
  case win =>
    intro s y e
    have hc : ∀ x, getMatchWinReason d = .ok x → getMatchWinReason c = .ok x := by
      intro x hx
      have hx : orUb d.matchWinReason = .ok x := hx
      show orUb c.matchWinReason = .ok x
      cases hr : d.matchWinReason with
      | none => rw [hr] at hx; cases hx
      | some v =>
        rw [hr] at hx
        rw [h.reason v hr]
        exact hx
    cases hd : getMatchWinReason d with
    | error x =>
      exfalso
      simp only [winEvent, hd, bind_run] at e
      cases h1 : P.read 1 s with
      | error z => rw [h1] at e; cases e
      | ok z =>
        obtain ⟨z, s1⟩ := z
        cases h2 : P.read 1 s1 with
        | error w => simp only [h1, h2] at e; cases e
        | ok w => simp only [h1, h2] at e; cases e
    | ok v =>
      have hv := hc v hd
      have k : winEvent c = winEvent d := by simp only [winEvent, hd, hv]
      rw [k]
      exact keep (p := winEvent d) s y e
  case deckTop => simp only [deckTopEvent, hs]; exact keep
  case move => exact CoversP.bind fun _ => CoversP.bind fun _ => CoversP.bind fun _ => CoversP.bind fun _ => CoversP.lift (moveOutcome_more h _ _ _)
  case swapGraveDeck => simp only [swapGraveDeckEvent, hs]; exact keep
  case draw => simp only [drawEvent, hs]; exact keep
  case reverseDeck => simp only [reverseDeckEvent, hs]; exact keep
  case matchKill => exact CoversP.bind fun r => CoversP.pure ⟨rfl, h.board, h.store, h.deferred, fun _ h => h, h.left⟩
  all_goals exact CoversP.pure ⟨rfl, h⟩

theorem encodeOne_more {c d : BasicContext} (h : MoreNotes c d) (s : List UInt8) :
    Covers (fun x y => x.1 = y.1 ∧ MoreNotes x.2 y.2) (encodeOne c s) (encodeOne d s) := by
  have hb : CoversP (NextTo MoreNotes) (encodeBody c) (encodeBody d) := by
    unfold encodeBody
    refine CoversP.bind fun x => ?_
    cases Kind.ofByte x with
    | none => exact CoversP.pure ⟨rfl, h⟩
    | some k => exact encodeCase_more h k
  intro y e
  unfold encodeOne at e ⊢
  cases he : encodeBody d s with
  | error x => rw [he] at e; cases e
  | ok x =>
    rw [he] at e
    cases e
    obtain ⟨⟨⟨o', d'⟩, r'⟩, k1, ⟨k2, k3⟩, k4⟩ := hb s _ he
    obtain ⟨⟨o, c'⟩, r⟩ := x
    simp only at k2 k3 k4
    subst k2 k4
    rw [k1]
    exact ⟨_, rfl, rfl, k3⟩

theorem parse_more {c d d' : BasicContext} (h : MoreNotes c d) {m : Msg} (e : d.parse m = .ok d') : ∃ c', c.parse m = .ok c' ∧ MoreNotes c' d' := by
  obtain ⟨hb, hs, hd, hr, hl⟩ := h
  cases c; cases d
  cases hb; cases hs; cases hd
  unfold BasicContext.parse at e ⊢
  cases hm : m.body with
  | event ev =>
    simp only [hm, bind_eq_ok, pure_eq_ok, Except.ok.injEq] at e ⊢
    obtain ⟨b, h1, st, h2, rfl⟩ := e
    exact ⟨_, ⟨b, h1, st, h2, rfl⟩, rfl, rfl, rfl, hr, hl⟩
  | unset =>
    simp only [hm, bind_eq_ok, pure_eq_ok, Except.ok.injEq] at e ⊢
    obtain ⟨b, h1, st, h2, rfl⟩ := e
    exact ⟨_, ⟨b, h1, st, h2, rfl⟩, rfl, rfl, rfl, hr, hl⟩
  | request p r =>
    simp only [hm, bind_eq_ok, pure_eq_ok, Except.ok.injEq] at e ⊢
    obtain ⟨b, h1, st, h2, rfl⟩ := e
    exact ⟨_, ⟨b, h1, st, h2, rfl⟩, rfl, rfl, rfl, hr, hl⟩

theorem feed_more {ds : List (List UInt8)} {c d : BasicContext} (h : MoreNotes c d) {rs : List Encoded} {d' : BasicContext} (e : feed d ds = .ok (rs, d')) :
    ∃ c', feed c ds = .ok (rs, c') ∧ MoreNotes c' d' := by
  induction ds generalizing c d rs with
  | nil => cases e; exact ⟨c, rfl, h⟩
  | cons b ds ih =>
    obtain ⟨r, d1, d2, rs', h1, _, h2, h3, rfl⟩ := feed_cons e
    obtain ⟨⟨r', c1⟩, k1, k2, k3⟩ := encodeOne_more h b _ h1
    simp only at k2 k3
    subst k2
    simp only [feed, k1, bind_ok]
    cases hm : r'.msg with
    | none =>
      rw [hm] at h2; cases h2
      obtain ⟨c', j1, j2⟩ := ih k3 h3
      exact ⟨c', by show (feed c1 ds >>= _) = _; rw [j1]; rfl, j2⟩
    | some m =>
      rw [hm] at h2
      obtain ⟨c2, i1, i2⟩ := parse_more k3 h2
      obtain ⟨c', j1, j2⟩ := ih i2 h3
      exact ⟨c', by show (c1.parse m >>= _) = _; rw [i1]; show (feed c2 ds >>= _) = _; rw [j1]; rfl, j2⟩

end Ygo
