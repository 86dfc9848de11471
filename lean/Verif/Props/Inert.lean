import Verif.Spec.Inert
import Verif.Props.Score

/-!
# Which messages can change what (C70)
-/

set_option linter.unusedSimpArgs false

namespace Ygo.Props
open Ygo Spec P

theorem track_parts {c c' : BasicContext} {data : List UInt8} (h : track c data = .ok c') :
    ∃ r c1, encodeOne c data = .ok (r, c1) ∧ Same c c1 ∧ c'.left = c1.left ∧ (r.msg = none → c' = c1) ∧
      ∀ m, r.msg = some m → (∀ e, Msg.event? m = some e → c.board.parseEvent e = .ok c'.board) ∧ (Msg.event? m = none → c'.board = c.board) ∧
        (m.queries = [] → c'.store = c.store) := by
  unfold track at h
  rw [bind_eq_ok] at h
  obtain ⟨⟨r, c1⟩, h1, h⟩ := h
  have hs := encodeOne_same h1
  refine ⟨r, c1, h1, hs, ?_⟩
  dsimp only at h
  cases hm : r.msg with
  | none =>
    simp only [hm] at h; cases h
    exact ⟨rfl, fun _ => rfl, fun m hm => by cases hm⟩
  | some m =>
    simp only [hm] at h
    obtain ⟨b, st, hp, hq, rfl⟩ := parse_parts h
    refine ⟨rfl, fun h => (by simp at h), ?_⟩
    rintro m' hm'
    cases hm'
    refine ⟨?_, ?_, ?_⟩
    · intro e he; rw [he] at hp; rw [← hs.board]; exact hp
    · intro he; rw [he] at hp; cases hp; exact hs.board
    · intro he; rw [he] at hq; cases hq; exact hs.store

/-- Results of messages whose translation depends on what is tracked: nothing, or an event about cards or of no effect, without news about
cards. -/
def Contextual (o : Outcome) : Prop := o = .swallowed ∨ ∃ e, o = .event e ∧ ∀ zs, e ≠ .zoneBlock zs

theorem contextual_event {e : Event} (h : ∀ zs, e ≠ .zoneBlock zs) : Contextual (.event e) := .inr ⟨e, rfl, h⟩

theorem moveOutcome_contextual (c : BasicContext) (prev curr : Place) (reason : Nat) (x : Outcome × BasicContext)
    (h : moveOutcome c prev curr reason = .ok x) : Contextual x.1 := by
  have w : Contextual .swallowed := .inl rfl
  have t : ∀ r e, Contextual (.event (.card r e)) := fun _ _ => contextual_event fun _ => Event.noConfusion
  unfold Ygo.moveOutcome at h
  split at h
  · cases h; exact w
  split at h
  · cases h; exact t _ _
  split at h
  · split at h <;> simp only [bind_eq_ok, pure_eq_ok, Except.ok.injEq] at h <;> obtain ⟨_, _, h⟩ := h
    · subst h; exact t _ _
    · obtain ⟨_, _, rfl⟩ := h; exact t _ _
  split at h
  · cases h; exact w
  split at h
  · cases h; exact t _ _
  split at h
  · simp only [bind_eq_ok, pure_eq_ok, Except.ok.injEq] at h
    obtain ⟨_, _, rfl⟩ := h
    exact t _ _
  · split at h <;> simp only [bind_eq_ok, pure_eq_ok, Except.ok.injEq] at h <;> obtain ⟨_, _, h⟩ := h
    · obtain ⟨_, _, rfl⟩ := h; exact t _ _
    · subst h; exact t _ _

theorem contextCase_contextual (c : BasicContext) (k : Kind) (p : P (Outcome × BasicContext)) (h : contextCase c k = some p) :
    Gives (fun x => Contextual x.1 ∧ (k ≠ .move → x.2.left = c.left)) p := by
  have kept : ∀ {q : P Outcome}, Gives Contextual q →
      Gives (fun x : Outcome × BasicContext => Contextual x.1 ∧ (k ≠ .move → x.2.left = c.left)) (q >>= fun o => Pure.pure (o, c)) :=
    fun hq => Gives.bind' hq fun _ h => Gives.pure ⟨h, fun _ => rfl⟩
  cases k <;> simp only [contextCase, Option.some.injEq, reduceCtorEq] at h <;> subst h
  case move =>
    refine Gives.bind fun _ => Gives.bind fun _ => Gives.bind fun _ => Gives.bind fun _ => ?_
    intro s x r e
    exact ⟨moveOutcome_contextual c _ _ _ x (lift_eq_ok.mp e).1, fun h => absurd rfl h⟩
  case matchKill => exact Gives.bind fun _ => Gives.pure ⟨.inl rfl, fun _ => rfl⟩
  all_goals
    refine kept ?_
    first | unfold winEvent | unfold deckTopEvent | unfold swapGraveDeckEvent | unfold drawEvent | unfold reverseDeckEvent
    repeat' (first
    | exact Gives.pure (contextual_event fun _ => Event.noConfusion)
    | with_reducible refine Gives.bind fun _ => ?_
    | with_reducible refine Gives.ite ?_ ?_)

theorem context_contextual (c : BasicContext) (m : CoreMsg) (hm : m.meaning = none) (more : List UInt8) (r : Encoded) (c1 : BasicContext)
    (h : encodeOne c (m.bytes ++ more) = .ok (r, c1)) :
    (∀ x, r.msg = some x → x.queries = [] ∧ ∃ e, Msg.event? x = some e ∧ ∀ zs, e ≠ .zoneBlock zs) ∧ (¬ IsMove m → c1.left = c.left) := by
  obtain ⟨o, rest, hb, rfl⟩ := encodeOne_eq h
  suffices hq : Contextual o ∧ (¬ IsMove m → c1.left = c.left) by
    refine ⟨?_, hq.2⟩
    intro x hx
    rcases hq.1 with rfl | ⟨e, rfl, he⟩
    · cases hx
    · cases hx; exact ⟨rfl, e, rfl, he⟩
  have go : ∀ {b : UInt8} (k : Kind) {p : P (Outcome × BasicContext)} {s : List UInt8}, Kind.ofByte b.toNat = some k → eventCase k = none →
      queryCase k = none → requestCase k = none → swallowedCase k = none → contextCase c k = some p →
      encodeBody c (b :: s) = .ok ((o, c1), rest) → Contextual o ∧ (k ≠ .move → c1.left = c.left) := by
    intro b k p s h1 h2 h3 h4 h5 h6 hb
    rw [body_context' c h1 h2 h3 h4 h5 h6] at hb
    exact contextCase_contextual c k p h6 _ _ _ hb
  cases m <;> simp only [CoreMsg.meaning, reduceCtorEq] at hm
  all_goals simp only [CoreMsg.bytes, List.append_assoc, List.cons_append, List.nil_append] at hb
  case win => have := go .win rfl rfl rfl rfl rfl rfl hb; exact ⟨this.1, fun _ => this.2 (by decide)⟩
  case swapGraveDeck => have := go .swapGraveDeck rfl rfl rfl rfl rfl rfl hb; exact ⟨this.1, fun _ => this.2 (by decide)⟩
  case reverseDeck => have := go .reverseDeck rfl rfl rfl rfl rfl rfl hb; exact ⟨this.1, fun _ => this.2 (by decide)⟩
  case deckTop => have := go .deckTop rfl rfl rfl rfl rfl rfl hb; exact ⟨this.1, fun _ => this.2 (by decide)⟩
  case move => have := go .move rfl rfl rfl rfl rfl rfl hb; exact ⟨this.1, fun h => absurd trivial h⟩
  case draw => have := go .draw rfl rfl rfl rfl rfl rfl hb; exact ⟨this.1, fun _ => this.2 (by decide)⟩
  case matchKill => have := go .matchKill rfl rfl rfl rfl rfl rfl hb; exact ⟨this.1, fun _ => this.2 (by decide)⟩

/-- **C70.** Cards move only when one of the messages about positions says so. -/
theorem C70_positions (c : BasicContext) (m : CoreMsg) (hf : m.Fits) (hm : ¬ MovesCards m) (more : List UInt8) (c' : BasicContext)
    (h : track c (m.bytes ++ more) = .ok c') : c'.board.frame = c.board.frame := by
  obtain ⟨r, c1, h1, hs, _, hn, hx⟩ := track_parts h
  cases hr : r.msg with
  | none => rw [hn hr, hs.board]
  | some x =>
    obtain ⟨he, hq, _⟩ := hx x hr
    cases hev : Msg.event? x with
    | none => rw [hq hev]
    | some e =>
      have hp := parse_frame (he e hev)
      suffices hz : frameOps e = [] by rw [hz] at hp; exact (Except.ok.inj hp).symm
      cases hmm : m.meaning with
      | some y =>
        rw [C34_translation c m hf y hmm] at h1
        cases h1
        cases m <;> cases hmm <;> first | exact absurd trivial hm | (cases hr; done) | (cases hr; cases hev; done) | (cases hr; cases hev; rfl)
      | none =>
        cases hc : m.inContext c with
        | none => cases m <;> first | exact absurd trivial hm | (cases hmm; done) | simp [CoreMsg.inContext] at hc
        | some y =>
          rw [C34_translation_in_context c m hf y hc] at h1
          cases m <;> simp only [CoreMsg.inContext, reduceCtorEq] at hc <;> cases hc <;>
            simp only [bind_eq_ok, pure_eq_ok, Except.ok.injEq, Prod.mk.injEq] at h1
          case none.some.matchKill.refl => obtain ⟨_, rfl, rfl, _⟩ := h1; cases hr
          case none.some.win.refl => obtain ⟨_, ⟨_, _, rfl⟩, rfl, _⟩ := h1; cases hr; cases hev; rfl
          case none.some.deckTop.refl => obtain ⟨_, ⟨_, _, rfl⟩, rfl, _⟩ := h1; cases hr; cases hev; rfl
          all_goals exact absurd trivial hm

/-- **C70.** What is recorded about cards changes only when a message tells values. -/
theorem C70_data (c : BasicContext) (m : CoreMsg) (hf : m.Fits) (hm : ¬ TellsData m) (more : List UInt8) (c' : BasicContext)
    (h : track c (m.bytes ++ more) = .ok c') : c'.store = c.store := by
  obtain ⟨r, c1, h1, hs, _, hn, hx⟩ := track_parts h
  cases hr : r.msg with
  | none => rw [hn hr, hs.store]
  | some x =>
    refine (hx x hr).2.2 ?_
    cases hmm : m.meaning with
    | some y =>
      rw [C34_translation c m hf y hmm] at h1
      cases h1
      cases m <;> cases hmm <;> first | exact absurd trivial hm | (cases hr; done) | (cases hr; rfl)
    | none => exact ((context_contextual c m hmm more r c1 h1).1 x hr).1

/-- **C70.** The zones that can not be used change only when a message tells them. -/
theorem C70_zones (c : BasicContext) (m : CoreMsg) (hf : m.Fits) (hm : ¬ TellsZones m) (more : List UInt8) (c' : BasicContext)
    (h : track c (m.bytes ++ more) = .ok c') : c'.board.blockedZones = c.board.blockedZones := by
  obtain ⟨r, c1, h1, hs, _, hn, hx⟩ := track_parts h
  cases hr : r.msg with
  | none => rw [hn hr, hs.board]
  | some x =>
    obtain ⟨he, hq, _⟩ := hx x hr
    cases hev : Msg.event? x with
    | none => rw [hq hev]
    | some e =>
      have hp := he e hev
      suffices hz : ∀ zs, e ≠ .zoneBlock zs by
        cases e with
        | board e =>
          cases e with
          | unset => simp only [DuelBoard.parseEvent, Except.ok.injEq] at hp; rw [hp]
          | exchange e =>
            simp only [DuelBoard.parseEvent, DuelBoard.onFrame, bind_eq_ok, pure_eq_ok, Except.ok.injEq] at hp
            obtain ⟨_, _, hp⟩ := hp; rw [← hp]
          | state s =>
            simp only [DuelBoard.parseEvent, DuelBoard.parseState, DuelBoard.onFrame, bind_eq_ok, pure_eq_ok, Except.ok.injEq] at hp
            obtain ⟨_, _, _, _, _, _, hp⟩ := hp
            rw [← hp]
            show DuelBoard.blockedZones (if _ then _ else _) = _
            split <;> rfl
        | card r e =>
          simp only [DuelBoard.parseEvent, DuelBoard.onFrame, bind_eq_ok, pure_eq_ok, Except.ok.injEq] at hp
          obtain ⟨_, _, hp⟩ := hp; rw [← hp]
        | pile r e =>
          simp only [DuelBoard.parseEvent, DuelBoard.onFrame, bind_eq_ok, pure_eq_ok, Except.ok.injEq] at hp
          obtain ⟨_, _, hp⟩ := hp; rw [← hp]
        | chainStack e =>
          cases e <;> simp only [DuelBoard.parseEvent, bind_eq_ok, pure_eq_ok, Except.ok.injEq] at hp
          · rw [hp]
          all_goals (obtain ⟨_, _, hp⟩ := hp; rw [← hp])
        | nextTurn p =>
          simp only [DuelBoard.parseEvent, bind_eq_ok, pure_eq_ok, Except.ok.injEq] at hp
          obtain ⟨_, _, hp⟩ := hp; rw [← hp]
        | lp p ch =>
          simp only [DuelBoard.parseEvent, bind_eq_ok, pure_eq_ok, Except.ok.injEq] at hp
          obtain ⟨_, _, _, _, hp⟩ := hp; rw [← hp]; rfl
        | nextPhase p => simp only [DuelBoard.parseEvent, Except.ok.injEq] at hp; rw [← hp]
        | zoneBlock zs => exact absurd rfl (hz zs)
        | finish | metaInfo | result | unset => simp only [DuelBoard.parseEvent, Except.ok.injEq] at hp; rw [hp]
      cases hmm : m.meaning with
      | some y =>
        rw [C34_translation c m hf y hmm] at h1
        cases h1
        cases m <;> cases hmm <;> first | exact absurd trivial hm | (cases hr; done) | (cases hr; cases hev; done) | (cases hr; cases hev; exact fun _ => Event.noConfusion)
      | none =>
        obtain ⟨_, e', he', hz⟩ := (context_contextual c m hmm more r c1 h1).1 x hr
        rw [hev] at he'; cases he'
        exact hz

/-- **C70.** Which monsters left their materials behind changes only when a card moves. -/
theorem C70_left (c : BasicContext) (m : CoreMsg) (hf : m.Fits) (hm : ¬ IsMove m) (more : List UInt8) (c' : BasicContext)
    (h : track c (m.bytes ++ more) = .ok c') : c'.left = c.left := by
  obtain ⟨r, c1, h1, _, hl, _⟩ := track_parts h
  rw [hl]
  cases hmm : m.meaning with
  | some y =>
    rw [C34_translation c m hf y hmm] at h1
    cases h1
    rfl
  | none => exact (context_contextual c m hmm more r c1 h1).2 hm

/-! ### Examples -/

/-- Many messages leave the board of `someScore` alone. -/
example : ¬ MovesCards (.chaining ⟨5, ⟨0, 4, 1, 1⟩, ⟨0, 4, 1⟩, 7⟩ 1) ∧ ¬ MovesCards (.damage 0 9000) ∧ ¬ MovesCards (.shuffleDeck 1) ∧
    ¬ TellsData (.draw 0 [(1, 1)]) ∧ ¬ TellsZones (.newTurn 1) ∧ ¬ IsMove (.swap 1 ⟨0, 4, 1, 1⟩ 2 ⟨1, 4, 1, 1⟩) := by
  simp [MovesCards, TellsData, TellsZones, IsMove]

example : (trackAll BasicContext.init someScore).toOption.map (fun c => (boardOf c (.pile ⟨0, .mainDeck⟩), boardOf c (.pile ⟨0, .hand⟩))) =
    some ([0, 1], [2]) := by decide +kernel

end Ygo.Props
