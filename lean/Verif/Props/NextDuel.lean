import Verif.Lemmas.NextDuel
import Verif.Props.Move

/-!
# The next duel (C114)
-/

namespace Ygo.Props
open Ygo Ygo.Spec Ygo.Pb

set_option linter.unusedSimpArgs false

/-- **C114.** A client that has followed anything and one that has followed nothing, told the same state of the table and anything after that: they
fail in the same way or show the same cards, the same chain, the same turn and the same life points; whose turn it is, the phase and blocked zones are
the same once they have been told. -/
theorem C114_client_partial (cache cache' : Bool) (ms0 : List Msg) (s : Client) (h : Client.follow cache Client.init ms0 = .ok s) (m : Msg) (x : BoardState)
    (hm : m.body = .event (.board (.state x))) (hx : 0 ≤ x.turnCounter) (ms : List Msg) :
    Together (LookSameSince ms) (Client.follow cache s (m :: ms)) (Client.follow cache' Client.init (m :: ms)) :=
  follow_next (follow_sound .init h) .init cache cache' hm hx ms

/-- **C114.** What was not told is what it was in the last duel. -/
theorem C114_stays (cache : Bool) (s t : Client) (ms : List Msg) (h : Client.follow cache s ms = .ok t) : StaysAsBefore ms s t := follow_stays h

/-- The message that tells of the start. -/
theorem start_msg (rule : UInt8) (lp0 lp1 : UInt32) (m0 e0 m1 e1 : UInt16) : ∃ y : CoreMsg.Meaning, ∃ x : BoardState,
    (CoreMsg.start rule lp0 lp1 m0 e0 m1 e1).meaning = some y ∧ y.msg = some ⟨.event (.board (.state x)), []⟩ ∧ 0 ≤ x.turnCounter :=
  ⟨_, _, rfl, rfl, Int.le_refl 0⟩

theorem feed_start (rule : UInt8) (lp0 lp1 : UInt32) (m0 e0 m1 e1 : UInt16) : ∃ x : BoardState, 0 ≤ x.turnCounter ∧
    ∃ r : List UInt8 → Encoded, (∀ more, (r more).msg = some ⟨.event (.board (.state x)), []⟩) ∧ ∀ (c : BasicContext) (more : List UInt8) (ds : List (List UInt8)),
      feed c (((CoreMsg.start rule lp0 lp1 m0 e0 m1 e1).bytes ++ more) :: ds) = c.board.parseEvent (.board (.state x)) >>= fun b =>
        (feed { c with board := b } ds).map fun y => (r more :: y.1, y.2) := by
  obtain ⟨y, x, h1, h2, h3⟩ := start_msg rule lp0 lp1 m0 e0 m1 e1
  refine ⟨x, h3, fun _ => ⟨y.state, (CoreMsg.start rule lp0 lp1 m0 e0 m1 e1).bytes.length, y.msg⟩, fun _ => h2, fun c more ds => ?_⟩
  have e := C34_translation c (CoreMsg.start rule lp0 lp1 m0 e0 m1 e1) trivial y h1 more
  simp only [feed, e, bind_ok, h2, BasicContext.parse]
  cases c.board.parseEvent (.board (.state x)) with
  | error _ => rfl
  | ok b =>
    show (feed { c with board := b } ds >>= _) = Except.map _ (feed { c with board := b } ds)
    cases feed { c with board := b } ds <;> rfl

/-- **C114.** A server that has been given anything and one that has been given nothing but has noted the same, at the start of a duel and after that: they
fail in the same way, or send the same and come to the same. The buffers are arbitrary. -/
theorem C114_server_partial (ds0 : List (List UInt8)) (rs0 : List Encoded) (c : BasicContext) (h : feed BasicContext.init ds0 = .ok (rs0, c)) (rule : UInt8)
    (lp0 lp1 : UInt32) (m0 e0 m1 e1 : UInt16) (more : List UInt8) (ds : List (List UInt8)) :
    Together (fun x y => x.1 = y.1 ∧ LookSameSince (messages x.1) (clientOf x.2) (clientOf y.2))
      (feed c (((CoreMsg.start rule lp0 lp1 m0 e0 m1 e1).bytes ++ more) :: ds))
      (feed (withNotes BasicContext.init c) (((CoreMsg.start rule lp0 lp1 m0 e0 m1 e1).bytes ++ more) :: ds)) := by
  have hs : Sound (clientOf c) := follow_sound .init (follow_feed false h)
  obtain ⟨x, hx, r, hr, hf⟩ := feed_start rule lp0 lp1 m0 e0 m1 e1
  have same : Together (fun x y => x.1 = y.1) (feed c (((CoreMsg.start rule lp0 lp1 m0 e0 m1 e1).bytes ++ more) :: ds))
      (feed (withNotes BasicContext.init c) (((CoreMsg.start rule lp0 lp1 m0 e0 m1 e1).bytes ++ more) :: ds)) := by
    rw [hf, hf]
    refine (state_look hs Sound.init x hx).bind fun b b' _ _ hb => ?_
    have k := feed_together (ds := ds) (c := { c with board := b })
      (c' := (Aside.of c.board).server { withNotes BasicContext.init c with board := b' }) hb.2.1.inv hb.2.2.inv
      ⟨LookSame.alike (c := { c with board := b }) (c' := (Aside.of c.board).server { withNotes BasicContext.init c with board := b' }) hb.1, rfl, rfl, rfl⟩
    rw [feed_aside] at k
    revert k
    cases feed { c with board := b } ds with
    | error e => cases feed { withNotes BasicContext.init c with board := b' } ds <;> exact id
    | ok t =>
      cases feed { withNotes BasicContext.init c with board := b' } ds with
      | error e => exact id
      | ok t' => exact fun k => congrArg (r more :: ·) k.1
  refine same.mono fun y y' hy hy' e => ⟨e, ?_⟩
  obtain ⟨rs, d⟩ := y
  obtain ⟨rs', d'⟩ := y'
  have e : rs = rs' := e
  subst e
  have f1 := follow_feed false hy
  have f2 := follow_feed false hy'
  rw [hf, bind_eq_ok] at hy
  obtain ⟨b, _, hy⟩ := hy
  cases hq : feed { c with board := b } ds with
  | error z => rw [hq] at hy; cases hy
  | ok z =>
    rw [hq] at hy
    cases hy
    have hmm : messages (r more :: z.1) = ⟨.event (.board (.state x)), []⟩ :: messages z.1 := by
      simp only [messages, List.filterMap_cons, hr]
    simp only at f1 f2 ⊢
    rw [hmm] at f1 f2 ⊢
    have k := follow_next hs .init false false (m := ⟨.event (.board (.state x)), []⟩) rfl hx (messages z.1)
    rw [f1, show Client.follow false Client.init _ = .ok (clientOf d') from f2] at k
    have drop : ∀ {P : Event → Prop}, ¬ P (.board (.state x)) → EventTold P (⟨.event (.board (.state x)), []⟩ :: messages z.1) → EventTold P (messages z.1) := by
      rintro P hP ⟨m, hm, e, he, hp⟩
      rcases List.mem_cons.mp hm with rfl | hm
      · cases he
        exact absurd hp hP
      · exact ⟨m, hm, e, he, hp⟩
    exact ⟨k.cards, k.chain, k.turn, k.lp, fun h => k.turnPlayer (drop (by rintro ⟨_, ⟨⟩⟩) h), fun h => k.phase (drop (by rintro ⟨_, ⟨⟩⟩) h),
      fun h => k.blocked (drop (by rintro ⟨_, ⟨⟩⟩) h)⟩

/-- **C114.** So a server can be used for one duel after the other if no material has been put off at the end of each: it sends for the next duel what
a new server sends, if a new server can send it. -/
theorem C114_reused_partial (ds0 : List (List UInt8)) (rs0 : List Encoded) (c : BasicContext) (h : feed BasicContext.init ds0 = .ok (rs0, c)) (hd : c.deferred = [])
    (rule : UInt8) (lp0 lp1 : UInt32) (m0 e0 m1 e1 : UInt16) (more : List UInt8) (ds : List (List UInt8)) (rs : List Encoded) (d : BasicContext)
    (hn : feed BasicContext.init (((CoreMsg.start rule lp0 lp1 m0 e0 m1 e1).bytes ++ more) :: ds) = .ok (rs, d)) :
    ∃ c', feed c (((CoreMsg.start rule lp0 lp1 m0 e0 m1 e1).bytes ++ more) :: ds) = .ok (rs, c') ∧ LookSameSince (messages rs) (clientOf c') (clientOf d) := by
  have k := C114_server_partial ds0 rs0 c h rule lp0 lp1 m0 e0 m1 e1 more ds
  obtain ⟨d', h1, h2⟩ := feed_more (c := withNotes BasicContext.init c) (d := BasicContext.init) ⟨rfl, rfl, hd, fun _ h => (by cases h), fun _ _ h => (by cases h)⟩ hn
  rw [h1] at k
  cases hc : feed c (((CoreMsg.start rule lp0 lp1 m0 e0 m1 e1).bytes ++ more) :: ds) with
  | error e => rw [hc] at k; exact absurd k id
  | ok z =>
    rw [hc] at k
    obtain ⟨rs', c'⟩ := z
    obtain ⟨e, k⟩ := k
    have e : rs' = rs := e
    subst e
    refine ⟨c', rfl, ?_⟩
    rw [show clientOf d = clientOf d' from by simp only [clientOf, h2.board, h2.store]]
    exact k

/-! ## Where the last duel shows -/

/-- A duel with a card drawn and zones blocked; one in which a card is to go beneath another one that has not been summoned yet. -/
def lastDuel : List (List UInt8) :=
  [(CoreMsg.start 5 8000 8000 3 0 3 0).bytes, (CoreMsg.draw 0 [(7, 0)]).bytes, (CoreMsg.newTurn 1).bytes, (CoreMsg.fieldDisabled 1).bytes]
def lastDuel' : List (List UInt8) :=
  [(CoreMsg.start 5 8000 8000 3 1 3 0).bytes, (CoreMsg.draw 0 [(7, 0)]).bytes, (CoreMsg.move 7 ⟨0, 2, 0, 0⟩ ⟨0, 0xC0, 0, 0⟩ 0).bytes]
/-- The next duel: two cards are drawn and one is summoned. -/
def nextDuel : List (List UInt8) :=
  [(CoreMsg.start 5 8000 8000 3 0 3 0).bytes, (CoreMsg.draw 0 [(5, 0), (6, 0)]).bytes, (CoreMsg.move 6 ⟨0, 2, 0, 0⟩ ⟨0, 4, 0, 1⟩ 0).bytes]

/-- What is shown after buffers: the turn's player, how many zones are blocked, the hand, and the cards in the first zone and beneath. -/
def shownAfterDuels (ds : List (List UInt8)) : Option (Int × Nat × Nat × Bool × Nat) :=
  (feed BasicContext.init ds).toOption.map fun x =>
    (x.2.board.turnController.val, x.2.board.blockedZones.val.length, (x.2.board.frame.layout.pile ⟨0, .hand⟩).length,
      (x.2.board.frame.layout.zone ⟨0, .monster, 0, by decide⟩).card.isSome, (x.2.board.frame.layout.zone ⟨0, .monster, 0, by decide⟩).materials.length)

/-- **C114.** Blocked zones and the player whose turn it was stay from the last duel. -/
theorem C114_violated_shown : shownAfterDuels nextDuel = some (0, 0, 1, true, 0) ∧ shownAfterDuels (lastDuel ++ nextDuel) = some (1, 29, 1, true, 0) := by decide +kernel

/-- **C114.** Material that was put off in the last duel is put beneath the first card of the next. -/
theorem C114_violated_material : shownAfterDuels (lastDuel' ++ nextDuel) = some (0, 0, 0, true, 1) := by decide +kernel

/-- The first or the second monster zone of the first duelist. -/
def arrivalZone (z : Bool) : LocInfo := ⟨0, 4, if z then 1 else 0, 1⟩

theorem arrivalZone_place (z : Bool) : (arrivalZone z).place = ⟨0, 4, if z then 1 else 0, -1⟩ := by cases z <;> decide

/-- A duel that starts with one card in a main deck, which is then put into a monster zone. -/
def oneArrival (z : Bool) : List (List UInt8) :=
  [(CoreMsg.start 0 0 0 1 0 0 0).bytes ++ [], (CoreMsg.move 6 ⟨0, 1, 0, 0⟩ (arrivalZone z) 0).bytes ++ []]

theorem oneArrival_sent {c d : BasicContext} {z : Bool} {rs : List Encoded} (h : feed c (oneArrival z) = .ok (rs, d)) :
    (rs[1]?).bind (·.msg) = some ⟨.event (.card 0 (.move (deferredOps (arrivalZone z).place 0 c.deferred ++
      [⟨(⟨0, 1, 0, 0⟩ : LocInfo).place, (arrivalZone z).place⟩]))), []⟩ := by
  obtain ⟨x, -, r, -, hf⟩ := feed_start 0 0 0 1 0 0 0
  rw [oneArrival, hf] at h
  cases hb : c.board.parseEvent (.board (.state x)) with
  | error e => rw [hb] at h; cases h
  | ok b =>
    rw [hb] at h
    have k : moveKind (⟨0, 1, 0, 0⟩ : LocInfo).place (arrivalZone z).place = .arrival := by
      rw [arrivalZone_place, show (⟨0, 1, 0, 0⟩ : LocInfo).place = ⟨0, 1, 0, -1⟩ by decide]
      simp [moveKind, InPile, show Nat.testBit 4 1 = false by decide, show Nat.testBit 4 4 = false by decide, show Nat.testBit 4 5 = false by decide,
        show Nat.testBit 4 6 = false by decide]
    have e := C39_arrival ({ c with board := b } : BasicContext) 6 _ _ 0 [] k
    simp only [bind_ok, feed, e, reported] at h
    cases hp : BasicContext.parse (EncodeContext.takeDeferredXyzMat ({ c with board := b } : BasicContext)).2 ⟨.event (.card (UInt32.toNat 0) (.move (deferredOps (arrivalZone z).place 0
        (EncodeContext.takeDeferredXyzMat ({ c with board := b } : BasicContext)).1 ++ [⟨(⟨0, 1, 0, 0⟩ : LocInfo).place, (arrivalZone z).place⟩]))), []⟩ with
    | error e => rw [hp] at h; cases h
    | ok y =>
      rw [hp] at h
      cases h
      rfl

theorem oneArrival_new (z : Bool) : ∃ rs d, feed BasicContext.init (oneArrival z) = .ok (rs, d) := by
  have hz : (feed BasicContext.init (oneArrival z)).toOption.isSome = true := by cases z <;> decide +kernel
  cases hf : feed BasicContext.init (oneArrival z) with
  | error _ => rw [hf] at hz; cases hz
  | ok y => exact ⟨y.1, y.2, rfl⟩

/-- **C114.** Exactly: what is sent for the next duel is what a new server sends, whatever the next duel is, if and only if no material has been put off. -/
theorem C114_reused_exactly (ds0 : List (List UInt8)) (rs0 : List Encoded) (c : BasicContext) (h : feed BasicContext.init ds0 = .ok (rs0, c)) :
    (∀ (rule : UInt8) (lp0 lp1 : UInt32) (m0 e0 m1 e1 : UInt16) (more : List UInt8) (ds : List (List UInt8)) (rs : List Encoded) (d : BasicContext),
      feed BasicContext.init (((CoreMsg.start rule lp0 lp1 m0 e0 m1 e1).bytes ++ more) :: ds) = .ok (rs, d) →
      ∃ c', feed c (((CoreMsg.start rule lp0 lp1 m0 e0 m1 e1).bytes ++ more) :: ds) = .ok (rs, c')) ↔ c.deferred = [] := by
  constructor
  · intro k
    cases hd : c.deferred with
    | nil => rfl
    | cons p ps =>
      exfalso
      have key : ∀ z : Bool, ¬ (p.seq = if z then 1 else 0) → False := by
        intro z hp
        obtain ⟨rs, d, hz⟩ := oneArrival_new z
        obtain ⟨c', hc⟩ := k 0 0 0 1 0 0 0 [] _ rs d hz
        have e1 := oneArrival_sent hz
        rw [oneArrival_sent hc, hd, arrivalZone_place] at e1
        simp [deferredOps, BasicContext.init, hp] at e1
      by_cases hp : p.seq = 0
      · exact key true (by rw [hp]; decide)
      · exact key false hp
  · intro hd rule lp0 lp1 m0 e0 m1 e1 more ds rs d hk
    obtain ⟨c', h1, -⟩ := C114_reused_partial ds0 rs0 c h hd rule lp0 lp1 m0 e0 m1 e1 more ds rs d hk
    exact ⟨c', h1⟩

/-! ## Not vacuous -/

example : (feed BasicContext.init lastDuel).toOption.map (·.2.deferred.length) = some 0 ∧ (feed BasicContext.init lastDuel').toOption.map (·.2.deferred.length) = some 1 := by
  decide +kernel

/-- The same is sent. -/
example : ((feed BasicContext.init (lastDuel ++ nextDuel)).map fun x => (messages x.1).length) = .ok 7 := by decide +kernel

/-- The rest is the same again when it has been told. -/
example : shownAfterDuels (nextDuel ++ [(CoreMsg.newTurn 0).bytes, (CoreMsg.fieldDisabled 0).bytes]) =
    shownAfterDuels (lastDuel ++ nextDuel ++ [(CoreMsg.newTurn 0).bytes, (CoreMsg.fieldDisabled 0).bytes]) := by decide +kernel

end Ygo.Props
