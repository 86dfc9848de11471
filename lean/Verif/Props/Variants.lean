import Verif.Spec.Variants
import Verif.Props.System

/-!
# Which kinds of messages there are (C135)
-/

set_option linter.unusedSimpArgs false

namespace Ygo.Props
open Ygo Spec P

section
variable {C : Type} [EncodeContext C]

/-- A message as servers send it. -/
def Sendable (m : Msg) : Prop := Variant.of m ∉ Variant.neverSent ∧ WellMade m

/-- If there is a message it is one servers send. -/
def FineOutcome (o : Outcome) : Prop := ∀ m, o.msg = some m → Sendable m

theorem fine_event {e : Event} (h : Sendable { body := .event e }) : FineOutcome (.event e) := by
  intro m hm; cases hm; exact h

theorem fine_swallowed : FineOutcome .swallowed := by intro m hm; cases hm
theorem fine_unknown : FineOutcome {} := by intro m hm; cases hm
theorem fine_queries (qs : List Query) : FineOutcome (.queries qs) := by
  intro m hm; cases hm; exact ⟨by simp [Variant.of, Variant.neverSent], trivial⟩

theorem many_length {α : Type} (p : P α) (n : Nat) : Gives (fun l => l.length = n) (many p n) := by
  induction n with
  | zero => exact Gives.pure rfl
  | succ n ih => exact Gives.bind fun a => Gives.bind' ih fun l h => Gives.pure (by simp [h])

theorem eventCase_fine (k : Kind) (p : P Outcome) (h : eventCase k = some p) : Gives FineOutcome p := by
  cases k <;> simp only [Ygo.eventCase, Option.some.injEq, reduceCtorEq] at h
  all_goals subst h
  all_goals ((try unfold startEvent); (try unfold reloadEvent); (try unfold tagSwapEvent); (try unfold summoningEvent); (try unfold selectedEvent); (try unfold lpEvent))
  case shuffleSetCard =>
    refine Gives.bind fun _ => Gives.bind fun n => Gives.bind' (many_length _ n) fun l hl => Gives.bind' (many_length _ n) fun l' hl' => Gives.pure (fine_event ?_)
    exact ⟨by simp [Variant.of, Variant.ofEvent, Variant.neverSent], by simp [WellMade, hl, hl']⟩
  case playerHint =>
    refine Gives.bind fun _ => Gives.bind fun n => Gives.bind fun _ => Gives.pure (fine_event ?_)
    split <;> exact ⟨by simp [Variant.of, Variant.ofEvent, Variant.neverSent], by simp [WellMade]⟩
  all_goals repeat' (first
    | exact Gives.pure (fine_event ⟨by simp [Variant.of, Variant.ofEvent, Variant.neverSent], by simp [WellMade]⟩)
    | with_reducible refine Gives.bind fun _ => ?_)

theorem queryCase_fine (k : Kind) (p : P Outcome) (h : queryCase k = some p) : Gives FineOutcome p := by
  cases k <;> simp only [Ygo.queryCase, Option.some.injEq, reduceCtorEq] at h <;> subst h
  all_goals repeat' (first
    | exact Gives.pure (fine_queries _)
    | with_reducible refine Gives.bind fun _ => ?_)

theorem requestCase_fine (k : Kind) (f : Int → P Request) (h : requestCase k = some f) (who : Int) :
    Gives (fun r => Variant.ofRequest r ∉ Variant.neverSent) (f who) := by
  cases k <;> simp only [Ygo.requestCase, Option.some.injEq, reduceCtorEq] at h <;> subst h
  case selectCard =>
    refine Gives.bind' (Q := fun s => Variant.ofRequest (.selectCard s) ∉ Variant.neverSent) ?_ fun _ h => Gives.pure h
    unfold selectCardRequest
    repeat' (first
    | exact Gives.pure (by simp [Variant.ofRequest, Variant.neverSent])
    | with_reducible refine Gives.bind fun _ => ?_
    | with_reducible refine Gives.ite ?_ ?_)
  all_goals repeat' (first
    | exact Gives.pure (by simp [Variant.ofRequest, Variant.neverSent])
    | with_reducible refine Gives.bind fun _ => ?_)

theorem card_fine (r : Nat) (e : CardEvent) (h0 : e ≠ .unset) (h1 : ∀ p q, e ≠ .shuffle p q) : FineOutcome (.event (.card r e)) := by
  refine fine_event ?_
  cases e with
  | unset => exact absurd rfl h0
  | shuffle p q => exact absurd rfl (h1 _ _)
  | _ => exact ⟨by simp [Variant.of, Variant.ofEvent, Variant.neverSent], by simp [WellMade]⟩

theorem moveOutcome_fine (c : C) (prev curr : Place) (reason : Nat) (x : Outcome × C)
    (h : moveOutcome c prev curr reason = .ok x) : FineOutcome x.1 := by
  have w := fine_swallowed
  have t : ∀ r e, e ≠ CardEvent.unset → (∀ p q, e ≠ CardEvent.shuffle p q) → FineOutcome (.event (.card r e)) := card_fine
  unfold Ygo.moveOutcome at h
  split at h
  · cases h; exact w
  split at h
  · cases h; exact t _ _ CardEvent.noConfusion (fun _ _ => CardEvent.noConfusion)
  split at h
  · split at h <;> simp only [bind_eq_ok, pure_eq_ok, Except.ok.injEq] at h <;> obtain ⟨_, _, h⟩ := h
    · subst h; exact t _ _ CardEvent.noConfusion (fun _ _ => CardEvent.noConfusion)
    · obtain ⟨_, _, rfl⟩ := h; exact t _ _ CardEvent.noConfusion (fun _ _ => CardEvent.noConfusion)
  split at h
  · cases h; exact w
  split at h
  · cases h; exact t _ _ CardEvent.noConfusion (fun _ _ => CardEvent.noConfusion)
  split at h
  · simp only [bind_eq_ok, pure_eq_ok, Except.ok.injEq] at h
    obtain ⟨_, _, rfl⟩ := h
    exact t _ _ CardEvent.noConfusion (fun _ _ => CardEvent.noConfusion)
  · split at h <;> simp only [bind_eq_ok, pure_eq_ok, Except.ok.injEq] at h <;> obtain ⟨_, _, h⟩ := h
    · obtain ⟨_, _, rfl⟩ := h; exact t _ _ CardEvent.noConfusion (fun _ _ => CardEvent.noConfusion)
    · subst h; exact t _ _ CardEvent.noConfusion (fun _ _ => CardEvent.noConfusion)

theorem contextCase_fine (c : C) (k : Kind) (p : P (Outcome × C)) (h : contextCase c k = some p) :
    Gives (fun x => FineOutcome x.1) p := by
  have kept : ∀ {q : P Outcome}, Gives FineOutcome q → Gives (fun x : Outcome × C => FineOutcome x.1) (q >>= fun o => Pure.pure (o, c)) :=
    fun hq => Gives.bind' hq fun _ h => Gives.pure h
  cases k <;> simp only [contextCase, Option.some.injEq, reduceCtorEq] at h <;> subst h
  case move =>
    refine Gives.bind fun _ => Gives.bind fun _ => Gives.bind fun _ => Gives.bind fun _ => ?_
    intro s x r e
    exact moveOutcome_fine c _ _ _ x (lift_eq_ok.mp e).1
  case matchKill => exact Gives.bind fun _ => Gives.pure fine_swallowed
  case win =>
    refine kept ?_
    unfold winEvent
    refine Gives.bind fun w => Gives.bind fun _ => Gives.bind fun _ => Gives.pure (fine_event ?_)
    refine ⟨?_, by simp [WellMade]⟩
    by_cases h : w = 2 <;> simp [Variant.of, Variant.ofEvent, Variant.neverSent, h]
  all_goals
    refine kept ?_
    first | unfold deckTopEvent | unfold swapGraveDeckEvent | unfold drawEvent | unfold reverseDeckEvent
    repeat' (first
    | exact Gives.pure (fine_event ⟨by simp [Variant.of, Variant.ofEvent, Variant.neverSent], by simp [WellMade]⟩)
    | with_reducible refine Gives.bind fun _ => ?_
    | with_reducible refine Gives.ite ?_ ?_)

theorem encodeOne_fine {c c' : C} {data : List UInt8} {r : Encoded} (h : encodeOne c data = .ok (r, c')) :
    ∀ m, r.msg = some m → Sendable m := by
  obtain ⟨o, rest, hb, rfl⟩ := encodeOne_eq h
  suffices hc : FineOutcome o from hc
  unfold encodeBody at hb
  obtain ⟨b, t, -, h2⟩ := bind_eq_ok_iff.mp hb
  cases hk : Kind.ofByte b with
  | none => simp only [hk] at h2; cases h2; exact fine_unknown
  | some k =>
    simp only [hk] at h2
    have hg : Gives (fun x : Outcome × C => FineOutcome x.1) (encodeCase c k) := by
      unfold encodeCase
      split
      · exact Gives.bind' (eventCase_fine k _ ‹eventCase k = some _›) fun _ h => Gives.pure h
      · exact Gives.bind' (queryCase_fine k _ ‹queryCase k = some _›) fun _ h => Gives.pure h
      · exact Gives.bind fun w => Gives.bind' (requestCase_fine k _ ‹requestCase k = some _› w) fun r h => Gives.pure (by
          intro m hm; cases hm; exact ⟨h, rfl⟩)
      · exact Gives.bind fun _ => Gives.pure fine_swallowed
      · exact contextCase_fine c _ _ ‹contextCase c k = some _›
      · exact Gives.pure fine_unknown
    exact hg _ _ _ h2

/-- **C135.** Whatever the buffer and whatever the context: a message is of none of the kinds no server sends, and it is well made. -/
theorem C135_well_made (c : C) (data : List UInt8) (r : Encoded) (c' : C) (h : encodeOne c data = .ok (r, c')) (m : Msg)
    (hm : r.msg = some m) : Variant.of m ∉ Variant.neverSent ∧ WellMade m := encodeOne_fine h m hm

end

/-- A message of the core for each of the kinds that are sent. -/
def speaking : Variant → CoreMsg
  | .bodyUnset => .updateData 0 4 []
  | .boardExchange => .tagSwap 0 0 0 0 [] []
  | .boardState => .start 0 8000 8000 1 0 1 0
  | .cardAdd => .move 1 ⟨0, 0, 0, 0⟩ ⟨0, 4, 0, 5⟩ 0
  | .cardExchange => .swap 1 ⟨0, 4, 0, 5⟩ 2 ⟨0, 4, 1, 5⟩
  | .cardMove => .move 1 ⟨0, 2, 0, 0⟩ ⟨0, 4, 0, 5⟩ 0
  | .cardRemove => .move 1 ⟨0, 2, 0, 0⟩ ⟨0, 0, 0, 0⟩ 0
  | .cardShuffle => .shuffleSetCard 8 [(⟨0, 8, 0, 5⟩, ⟨0, 8, 1, 5⟩)]
  | .chainPush => .chaining ⟨1, ⟨0, 4, 0, 5⟩, ⟨0, 4, 0⟩, 0⟩ 1
  | .chainPop => .chainSolved 1
  | .nextTurn => .newTurn 0
  | .nextPhase => .newPhase 4
  | .zoneBlock => .fieldDisabled 1
  | .finishWinner => .win 0 1
  | .finishDraw => .win 2 1
  | .lpBecome => .lpupdate 0 100
  | .lpDamage => .damage 0 100
  | .lpPay => .payLpcost 0 100
  | .lpRecover => .recover 0 100
  | .metaAttack => .attack ⟨0, 4, 0, 5⟩ ⟨1, 4, 0, 5⟩
  | .metaChainStatus => .chained 1
  | .metaConfirm => .confirmCards 0 [(1, ⟨0, 2, 0⟩)]
  | .metaDescriptionAdd => .playerHint 0 1 0
  | .metaDescriptionRemove => .playerHint 0 0 0
  | .metaSelection => .becomeTarget [⟨0, 4, 0, 5⟩]
  | .metaShufflePile => .shuffleDeck 0
  | .metaUpdate => .set 1 ⟨0, 8, 0⟩ 10
  | .pileSplice => .reverseDeck
  | .resultCoin => .tossCoin 0 [1]
  | .resultDice => .tossDice 0 [6]
  | .resultRps => .handRes 6
  | .selectAttribute => .announceAttrib 0 1 3
  | .selectCardLimbo => .selectCard 0 0 1 1 [(1, ⟨0, 0, 0, 0⟩)]
  | .selectCardRecursive => .selectUnselectCard 0 0 0 1 1 [(1, ⟨0, 4, 0, 5⟩)] []
  | .selectCardUniqueRange => .selectCard 0 0 1 1 [(1, ⟨0, 4, 0, 5⟩)]
  | .selectCardUniqueTributes => .selectTribute 0 0 1 1 [(1, ⟨0, 4, 0⟩, 1)]
  | .selectEffect => .selectOption 0 [1, 2]
  | .selectIdle => .selectBattlecmd 0 [] [] 1 1
  | .selectNumber => .announceNumber 0 [1, 2]
  | .selectPosition => .selectPosition 0 1 5
  | .selectRace => .announceRace 0 1 3
  | .selectRockPaperScissors => .rockPaperScissors 0
  | .selectToChain => .selectChain 0 0 0 0 []
  | .selectYesNo => .selectYesno 0 1
  | .selectZone => .selectPlace 0 1 1
  | .sort => .sortCard 0 [(1, ⟨0, 4, 0⟩), (2, ⟨0, 4, 1⟩)]
  | _ => .retry

/-- A server that has just started, and knows what ends the match. -/
def readyServer : BasicContext := EncodeContext.matchWinReason BasicContext.init 0

/-- The kind of what a server says first. -/
def firstKind (data : List UInt8) : Option Variant :=
  (encodeOne readyServer data).toOption.bind fun x => x.1.msg.map Variant.of

theorem speaking_spoken (v : Variant) (h : v ∉ Variant.neverSent) : firstKind (speaking v).bytes = some v := by
  cases v
  all_goals first
    | exact absurd (by decide) h
    | decide +kernel

/-- **C135.** A kind of message is one a server can send exactly if it is none of these nineteen; a server that has just started can
send it as well as any other. -/
theorem C135_exactly (v : Variant) : (∃ c : BasicContext, ∃ data r c' m, encodeOne c data = .ok (r, c') ∧ r.msg = some m ∧ Variant.of m = v) ↔
    v ∉ Variant.neverSent := by
  constructor
  · rintro ⟨c, data, r, c', m, h, hm, rfl⟩
    exact (C135_well_made c data r c' h m hm).1
  · intro h
    have := speaking_spoken v h
    unfold firstKind at this
    cases he : encodeOne readyServer (speaking v).bytes with
    | error e => rw [he] at this; cases this
    | ok x =>
      rw [he] at this
      obtain ⟨m, hm, hv⟩ := Option.map_eq_some_iff.mp (show x.1.msg.map Variant.of = some v from this)
      exact ⟨_, _, x.1, x.2, m, he, hm, hv⟩

/-! ### What clients do about them -/

section
variable {F : Type} {V : Type → Type} [FrameLike F] [Cell V]

/-- **C135.** Events that are not about the board leave any board as it is, plain or undoable, whatever they say. -/
theorem C135_bystanders (b : DuelBoard F V) (e : Event) (h : Variant.ofEvent e ∉ Variant.onBoard) (hl : Variant.ofEvent e ≠ .lpUnset) :
    b.parseEvent e = .ok b := by
  cases e with
  | board x => cases x <;> first | rfl | exact absurd (by simp [Variant.ofEvent, Variant.onBoard]) h
  | card _ x => cases x <;> first | rfl | exact absurd (by simp [Variant.ofEvent, Variant.onBoard]) h
  | chainStack x => cases x <;> first | rfl | exact absurd (by simp [Variant.ofEvent, Variant.onBoard]) h
  | pile _ x => cases x <;> first | rfl | exact absurd (by simp [Variant.ofEvent, Variant.onBoard]) h
  | lp _ x => cases x <;> first | exact absurd rfl hl | exact absurd (by simp [Variant.ofEvent, Variant.onBoard]) h
  | _ => first | rfl | exact absurd (by simp [Variant.ofEvent, Variant.onBoard]) h

end

/-- **C135.** Undoing them does nothing either. -/
theorem C135_bystanders_undo (b : UndoBoard) (e : Event) (h : Variant.ofEvent e ∉ Variant.onBoard) (hl : Variant.ofEvent e ≠ .lpUnset) :
    b.undoParseEvent e = .ok b := by
  cases e with
  | board x => cases x <;> first | rfl | exact absurd (by simp [Variant.ofEvent, Variant.onBoard]) h
  | card _ x => cases x <;> first | rfl | exact absurd (by simp [Variant.ofEvent, Variant.onBoard]) h
  | chainStack x => cases x <;> first | rfl | exact absurd (by simp [Variant.ofEvent, Variant.onBoard]) h
  | pile _ x => cases x <;> first | rfl | exact absurd (by simp [Variant.ofEvent, Variant.onBoard]) h
  | lp _ x => cases x <;> first | exact absurd rfl hl | exact absurd (by simp [Variant.ofEvent, Variant.onBoard]) h
  | _ => first | rfl | exact absurd (by simp [Variant.ofEvent, Variant.onBoard]) h

/-- What there is to see on a board, in part. -/
structure Look where
  piles : List (List CardId)
  zones : List (Option CardId)
  chain : List Chain
  turn : Nat
  turnController : Int
  lp : Nat
  phase : Nat
  blocked : List Place
  deriving DecidableEq

/-- Looking at a board. -/
def lookAt (b : PlainBoard) : Look :=
  { piles := [b.frame.layout.pile ⟨0, .mainDeck⟩, b.frame.layout.pile ⟨0, .hand⟩]
    zones := [(b.frame.layout.zone ⟨0, .monster, 0, by decide⟩).card, (b.frame.layout.zone ⟨0, .monster, 1, by decide⟩).card]
    chain := b.chainStack.val, turn := b.turn.val, turnController := b.turnController.val, lp := (b.lp 0).val
    phase := b.phase.val, blocked := b.blockedZones.val }

/-- Two monsters, two cards in a deck and a chain link. -/
def busyBoard : Event := .board (.state
  { turnCounter := 3, lps := [8000, 8000], chains := [{}], add := [⟨0, 4, 0, -1⟩, ⟨0, 4, 1, -1⟩], resize := [⟨⟨0, 1, 0, -1⟩, 2⟩] })

/-- An event for each kind. -/
def doing : Variant → Event
  | .boardExchange => .board (.exchange { resize := [⟨⟨0, 1, 0, -1⟩, 5⟩] })
  | .boardState => .board (.state { lps := [100, 100] })
  | .cardAdd => .card 0 (.add [⟨0, 2, 0, -1⟩])
  | .cardExchange => .card 0 (.exchange [⟨⟨0, 4, 0, -1⟩, ⟨0, 4, 1, -1⟩⟩])
  | .cardMove => .card 0 (.move [⟨⟨0, 4, 0, -1⟩, ⟨0, 2, 0, -1⟩⟩])
  | .cardRemove => .card 0 (.remove [⟨0, 4, 0, -1⟩])
  | .cardShuffle => .card 0 (.shuffle [⟨0, 4, 0, -1⟩, ⟨0, 4, 1, -1⟩] [⟨0, 4, 1, -1⟩, ⟨0, 4, 0, -1⟩])
  | .chainPush => .chainStack (.push {})
  | .chainPop => .chainStack (.pop true)
  | .nextTurn => .nextTurn 1
  | .nextPhase => .nextPhase 4
  | .zoneBlock => .zoneBlock [⟨0, 4, 2, -1⟩]
  | .lpBecome => .lp 0 (.become 100)
  | .lpDamage => .lp 0 (.damage 100)
  | .lpPay => .lp 0 (.pay 100)
  | .lpRecover => .lp 0 (.recover 100)
  | .pileExchange => .pile 0 (.exchange [⟨⟨0, 1, 0, -1⟩, ⟨0, 2, 0, -1⟩⟩])
  | .pileSplice => .pile 0 (.splice [⟨⟨0, 1, 1, -1⟩, 1, ⟨0, 2, 0, -1⟩, false⟩])
  | _ => .unset

/-- What is seen before and after. -/
def beforeAndAfter (e : Event) : Option Bool :=
  ((PlainBoard.init.parseEvent busyBoard).toOption.bind fun b => (b.parseEvent e).toOption.map fun b' => decide (lookAt b' = lookAt b))

/-- **C135.** Events about the board do change boards, kind for kind, but for one. -/
theorem C135_heard (v : Variant) (h : v ∈ Variant.onBoard) (hr : v ≠ .pileResize) :
    ∃ (b : PlainBoard) (e : Event) (b' : PlainBoard), Variant.ofEvent e = v ∧ b.parseEvent e = .ok b' ∧ lookAt b' ≠ lookAt b := by
  have key : Variant.ofEvent (doing v) = v ∧ beforeAndAfter (doing v) = some false := by
    cases v
    all_goals first
      | exact absurd h (by decide)
      | exact absurd rfl hr
      | exact ⟨rfl, by decide +kernel⟩
  obtain ⟨k1, k2⟩ := key
  unfold beforeAndAfter at k2
  obtain ⟨b, -, k3⟩ := Option.bind_eq_some_iff.mp k2
  cases he : b.parseEvent (doing v) with
  | error e => rw [he] at k3; cases k3
  | ok b' =>
    rw [he] at k3
    have k4 : decide (lookAt b' = lookAt b) = false := by simpa [Except.toOption] using k3
    exact ⟨b, _, b', k1, he, of_decide_eq_false k4⟩

/-- **C135.** That a pile is of another size now is not heard: the board stays as it is. -/
theorem C135_unheard (b : PlainBoard) (e : Event) (h : Variant.ofEvent e = .pileResize) : b.parseEvent e = .ok b := by
  cases e with
  | pile _ x => cases x <;> first | rfl | simp [Variant.ofEvent] at h
  | finish f => simp only [Variant.ofEvent] at h; split at h <;> cases h
  | board x => cases x <;> simp [Variant.ofEvent] at h
  | card _ x => cases x <;> simp [Variant.ofEvent] at h
  | chainStack x => cases x <;> simp [Variant.ofEvent] at h
  | lp _ x => cases x <;> simp [Variant.ofEvent] at h
  | metaInfo x =>
    cases x with
    | description _ d => cases d <;> simp [Variant.ofEvent] at h
    | _ => simp [Variant.ofEvent] at h
  | result x => cases x <;> simp [Variant.ofEvent] at h
  | _ => simp [Variant.ofEvent] at h

/-- **C135.** Nor is it ever said: an event a server sends is of a kind clients act upon, or one that leaves every board as it is on
purpose: how the duel ended, what to show, or what came of chance. -/
theorem C135_nothing_missed {C : Type} [EncodeContext C] (c : C) (data : List UInt8) (r : Encoded) (c' : C) (h : encodeOne c data = .ok (r, c')) (m : Msg) (e : Event)
    (hm : r.msg = some m) (he : m.body = .event e) :
    (Variant.ofEvent e ∈ Variant.onBoard ∧ Variant.ofEvent e ≠ .pileResize) ∨
      ((∃ f, e = .finish f) ∨ (∃ i, e = .metaInfo i) ∨ ∃ i, e = .result i) ∧ ∀ b : PlainBoard, b.parseEvent e = .ok b := by
  have h1 := (C135_well_made c data r c' h m hm).1
  unfold Variant.of at h1
  rw [he] at h1
  cases e with
  | finish f => exact .inr ⟨.inl ⟨f, rfl⟩, fun _ => rfl⟩
  | metaInfo f => exact .inr ⟨.inr (.inl ⟨f, rfl⟩), fun _ => rfl⟩
  | result f => exact .inr ⟨.inr (.inr ⟨f, rfl⟩), fun _ => rfl⟩
  | unset => simp [Variant.ofEvent, Variant.neverSent] at h1
  | board x => cases x <;> first | (refine .inl ?_; simp [Variant.ofEvent, Variant.onBoard]; done) | (exfalso; simp [Variant.ofEvent, Variant.neverSent] at h1)
  | card _ x => cases x <;> first | (refine .inl ?_; simp [Variant.ofEvent, Variant.onBoard]; done) | (exfalso; simp [Variant.ofEvent, Variant.neverSent] at h1)
  | chainStack x => cases x <;> first | (refine .inl ?_; simp [Variant.ofEvent, Variant.onBoard]; done) | (exfalso; simp [Variant.ofEvent, Variant.neverSent] at h1)
  | pile _ x => cases x <;> first | (refine .inl ?_; simp [Variant.ofEvent, Variant.onBoard]; done) | (exfalso; simp [Variant.ofEvent, Variant.neverSent] at h1)
  | lp _ x => cases x <;> first | (refine .inl ?_; simp [Variant.ofEvent, Variant.onBoard]; done) | (exfalso; simp [Variant.ofEvent, Variant.neverSent] at h1)
  | _ => exact .inl (by simp [Variant.ofEvent, Variant.onBoard])

/-- Beginnings of duels are heard; coins are not about the board. -/
example : firstKind (CoreMsg.start 0 8000 8000 1 0 1 0).bytes = some .boardState ∧ Variant.boardState ∈ Variant.onBoard ∧
    firstKind (CoreMsg.tossCoin 0 [1]).bytes = some .resultCoin ∧ Variant.resultCoin ∉ Variant.onBoard := by decide +kernel

/-- Asking for counters (byte 22) says nothing. -/
example : firstKind [22, 0, 0, 0] = none := by decide +kernel

/-- A deck that is said to be of another size. -/
example : Variant.ofEvent (.pile 0 (.resize [⟨⟨0, 1, 0, -1⟩, 40⟩])) = .pileResize := rfl

end Ygo.Props
