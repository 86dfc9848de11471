import Verif.Lemmas.Trackable
import Verif.Lemmas.Range
import Verif.Lemmas.CountsServer

/-!
# Servers do not name skill zones
-/

set_option linter.unusedSimpArgs false

namespace Ygo
open Ygo.Spec P

/-- No call for the event names a skill zone. -/
def EventNear (e : Event) : Prop := ∀ op ∈ callsOf e, ∀ p ∈ placesOf op, Near p

/-- So for the event of the message, if there is one. -/
def OutcomeNear (o : Outcome) : Prop := ∀ m, o.msg = some m → ∀ e, m.body = .event e → EventNear e

theorem OutcomeNear.event {e : Event} (h : EventNear e) : OutcomeNear (.event e) := by
  intro m hm e' he
  simp only [Outcome.event, Option.some.injEq] at hm
  subst hm
  simp only [MsgBody.event.injEq] at he
  exact he ▸ h

theorem OutcomeNear.still {e : Event} (h : callsOf e = []) : OutcomeNear (.event e) := .event (by simp [EventNear, h])

theorem OutcomeNear.request {who : Int} {r : Request} : OutcomeNear (.request who r) := by
  intro m hm e he
  simp only [Outcome.request, Option.some.injEq] at hm
  subst hm
  simp at he

theorem OutcomeNear.queries {qs : List Query} : OutcomeNear (.queries qs) := by
  intro m hm e he
  simp only [Outcome.queries, Option.some.injEq] at hm
  subst hm
  simp at he

theorem OutcomeNear.swallowed : OutcomeNear .swallowed := by intro m hm; simp [Outcome.swallowed] at hm
theorem OutcomeNear.none : OutcomeNear {} := by intro m hm; simp at hm

theorem fixSpell_near {loc : Nat} (seq : Nat) (h : loc < 0x400) : (fixSpell loc seq).1 < 0x400 := by
  unfold fixSpell
  split
  · split <;> simp
  · exact h

theorem PostNear.loc {seqW : Nat} {posW : Option Nat} : Post (readLoc 1 seqW posW) Near := by
  refine Post.after fun con => Post.bind' (Post.read 1) fun l hl => Post.after fun seq => ?_
  have hf := fixSpell_near (loc := l &&& 0xFFFFFF7F) seq (Nat.lt_of_le_of_lt Nat.and_le_left (by omega))
  cases posW with
  | none => exact Post.pure' hf
  | some w => exact Post.after fun pos => Post.pure' hf

theorem PostNear.locInfo : Post readLocInfo Near := PostNear.loc

theorem near_add {ps : List Place} {r : Nat} (h : All Near ps) : EventNear (.card r (.add ps)) := by
  intro op ho p hp
  simp only [callsOf, List.mem_map] at ho
  obtain ⟨q, hq, rfl⟩ := ho
  simp only [placesOf, List.mem_singleton] at hp
  exact hp ▸ h q hq

theorem near_remove {ps : List Place} {r : Nat} (h : All Near ps) : EventNear (.card r (.remove ps)) := by
  intro op ho p hp
  simp only [callsOf, List.mem_map] at ho
  obtain ⟨q, hq, rfl⟩ := ho
  simp only [placesOf, List.mem_singleton] at hp
  exact hp ▸ h q hq

theorem near_move {ps : List PlacePair} {r : Nat} (h : All (fun o => Near o.fst ∧ Near o.snd) ps) : EventNear (.card r (.move ps)) := by
  intro op ho p hp
  simp only [callsOf, List.mem_map] at ho
  obtain ⟨q, hq, rfl⟩ := ho
  simp only [placesOf, List.mem_cons, List.not_mem_nil, or_false] at hp
  rcases hp with rfl | rfl
  · exact (h q hq).1
  · exact (h q hq).2

theorem near_swap {ps : List PlacePair} {r : Nat} (h : All (fun o => Near o.fst ∧ Near o.snd) ps) : EventNear (.card r (.exchange ps)) := by
  intro op ho p hp
  simp only [callsOf, List.mem_map] at ho
  obtain ⟨q, hq, rfl⟩ := ho
  simp only [placesOf, List.mem_cons, List.not_mem_nil, or_false] at hp
  rcases hp with rfl | rfl
  · exact (h q hq).1
  · exact (h q hq).2

theorem near_splice {ps : List SpliceOp} {r : Nat} (h : All (fun o => Near o.src ∧ Near o.dst) ps) : EventNear (.pile r (.splice ps)) := by
  intro op ho p hp
  simp only [callsOf, List.mem_map] at ho
  obtain ⟨q, hq, rfl⟩ := ho
  simp only [placesOf, List.mem_cons, List.not_mem_nil, or_false] at hp
  rcases hp with rfl | rfl
  · exact (h q hq).1
  · exact (h q hq).2

theorem near_shuffle {ps qs : List Place} {r : Nat} (h : All Near ps) (h' : All Near qs) : EventNear (.card r (.shuffle ps qs)) := by
  intro op ho p hp
  simp only [callsOf, List.mem_singleton] at ho
  subst ho
  rcases List.mem_append.mp hp with hp | hp
  · exact h p hp
  · exact h' p hp

theorem near_state {s : BoardState} (h : All Near s.add) (h' : All (fun r => Near r.place) s.resize) : EventNear (.board (.state s)) := by
  intro op ho p hp
  simp only [callsOf, List.mem_cons, List.mem_append, List.mem_map] at ho
  rcases ho with rfl | ⟨q, hq, rfl⟩ | ⟨q, hq, rfl⟩
  · simp [placesOf] at hp
  · simp only [placesOf, List.mem_singleton] at hp
    exact hp ▸ h q hq
  · simp only [placesOf, List.mem_singleton] at hp
    exact hp ▸ h' q hq

theorem near_exchange {e : BoardExchange} (h : All Near e.add) (h0 : All Near e.remove) (h' : All (fun r => Near r.place) e.resize) :
    EventNear (.board (.exchange e)) := by
  intro op ho p hp
  simp only [callsOf, List.mem_append, List.mem_map] at ho
  rcases ho with (⟨q, hq, rfl⟩ | ⟨q, hq, rfl⟩) | ⟨q, hq, rfl⟩ <;> simp only [placesOf, List.mem_singleton] at hp
  · exact hp ▸ h' q hq
  · exact hp ▸ h0 q hq
  · exact hp ▸ h q hq

theorem PostNear.reloadZone {con : Int} {loc seq : Nat} (hl : loc < 0x400) : Post (reloadZone con loc seq) (All Near) := by
  unfold Ygo.reloadZone
  refine Post.after fun b => ?_
  split
  · exact Post.pure' All.nil
  · refine Post.after fun _ => Post.after fun mats => Post.pure' ?_
    refine All.cons ?_ ?_
    · simp only [Near]
      split
      · exact fixSpell_near seq hl
      · exact hl
    · intro p hp
      simp only [List.mem_map, List.mem_range] at hp
      obtain ⟨o, ho, rfl⟩ := hp
      exact hl

theorem near_pileOp {con : Int} {loc count : Nat} (hl : loc < 0x400) : Near (pileOp con loc count).place := hl

theorem PostNear.reloadController {con : Int} : Post (reloadController con) fun x => All Near x.2.1 ∧ All (fun r => Near r.place) x.2.2 := by
  unfold Ygo.reloadController
  refine Post.after fun lp => ?_
  refine Post.bind' (Post.forEach _ fun s hs => PostNear.reloadZone (by simp)) fun ms hms => ?_
  refine Post.bind' (Post.forEach _ fun s hs => PostNear.reloadZone (by simp)) fun ss hss => ?_
  refine Post.after fun a => Post.after fun b => Post.after fun d => Post.after fun e => Post.after fun f => Post.after fun _ =>
    Post.pure' ⟨All.append hms hss, ?_⟩
  exact All.cons (near_pileOp (by simp)) (All.cons (near_pileOp (by simp)) (All.cons (near_pileOp (by simp))
    (All.cons (near_pileOp (by simp)) (All.one (near_pileOp (by simp))))))

theorem PostNear.reloadEvent : Post reloadEvent OutcomeNear := by
  unfold Ygo.reloadEvent
  refine Post.after fun flags => Post.bind' PostNear.reloadController fun x hx => ?_
  obtain ⟨lp0, add0, rs0⟩ := x
  refine Post.bind' PostNear.reloadController fun y hy => ?_
  obtain ⟨lp1, add1, rs1⟩ := y
  exact Post.after fun cs => Post.pure' (.event (near_state (All.append hx.1 hy.1) (All.append hx.2 hy.2)))

theorem PostNear.startEvent : Post startEvent OutcomeNear := by
  refine Post.after fun _ => Post.after fun _ => Post.after fun _ => Post.after fun _ =>
    Post.after fun _ => Post.after fun _ => Post.after fun _ => Post.pure' (.event (near_state All.nil ?_))
  exact All.cons (near_pileOp (by simp)) (All.cons (near_pileOp (by simp)) (All.cons (near_pileOp (by simp)) (All.one (near_pileOp (by simp)))))

theorem PostNear.tagSwapEvent : Post tagSwapEvent OutcomeNear := by
  refine Post.after fun _ => Post.after fun _ => Post.after fun _ => Post.after fun _ => Post.after fun _ => Post.after fun _ => Post.after fun _ =>
    Post.pure' (.event (near_exchange All.nil All.nil ?_))
  exact All.cons (near_pileOp (by simp)) (All.cons (near_pileOp (by simp)) (All.one (near_pileOp (by simp))))

theorem PostNear.eventCase {k : Kind} {p : P Outcome} (h : eventCase k = some p) : Post p OutcomeNear := by
  cases k <;> simp only [Ygo.eventCase, Option.some.injEq, reduceCtorEq] at h <;> subst h
  case shuffleSetCard =>
    exact Post.after fun _ => Post.after fun _ => Post.bind' (Post.many PostNear.locInfo _) fun _ h => Post.bind' (Post.many PostNear.locInfo _) fun _ h' =>
      Post.pure' (.event (near_shuffle h.2 h'.2))
  case swap =>
    exact Post.after fun _ => Post.bind' PostNear.locInfo fun _ h => Post.after fun _ => Post.bind' PostNear.locInfo fun _ h' =>
      Post.pure' (.event (near_swap (All.one ⟨h, h'⟩)))
  case start => exact PostNear.startEvent
  case tagSwap => exact PostNear.tagSwapEvent
  case reloadField => exact PostNear.reloadEvent
  all_goals
    repeat (first | exact Post.pure' (.still rfl) | refine Post.after fun _ => ?_)

theorem PostNear.queryCase {k : Kind} {p : P Outcome} (h : queryCase k = some p) : Post p OutcomeNear := by
  cases k <;> simp only [Ygo.queryCase, Option.some.injEq, reduceCtorEq] at h <;> subst h
  case updateData => exact Post.after fun _ => Post.after fun _ => Post.after fun t => Post.after fun _ => Post.pure' .queries
  case updateCard => exact Post.after fun _ => Post.after fun _ => Post.pure' .queries

/-! ## What the server remembers -/

/-- No skill zone in anything the server remembers, and no card there. -/
structure ServerNear (c : BasicContext) : Prop where
  inv : Inv c.board.frame
  board : Bare (view c.board.frame.layout)
  left : ∀ p q, c.left p = some q → Near q
  deferred : All Near c.deferred

theorem near_deferredOps {curr : Place} (hc : Near curr) : ∀ (ds : List Place) (i : Nat), All Near ds →
    All (fun o => Near o.fst ∧ Near o.snd) (deferredOps curr i ds)
  | [], _, _ => All.nil
  | d :: ds, i, h => by
    have ih := near_deferredOps hc ds (i + 1) fun x hx => h x (by simp [hx])
    unfold deferredOps
    split
    · exact ih
    · exact All.cons ⟨h d (by simp), hc⟩ ih

/-- What a case gives: a message that names no skill zone, and a state that has none. -/
def BothNear (x : Outcome × BasicContext) : Prop := OutcomeNear x.1 ∧ ServerNear x.2

theorem near_moveOutcome {c : BasicContext} (hc : ServerNear c) {prev curr : Place} (hp : Near prev) (hq : Near curr)
    {reason : Nat} {x : Outcome × BasicContext} (h : moveOutcome c prev curr reason = .ok x) : BothNear x := by
  have xyzLeft : ∀ {p q : Place}, Near q → ServerNear (EncodeContext.xyzLeft c p q) := by
    intro p q hq
    refine ⟨hc.inv, hc.board, ?_, hc.deferred⟩
    intro p' q' h'
    simp only [EncodeContext.xyzLeft] at h'
    split at h'
    · simp only [Option.some.injEq] at h'; exact h' ▸ hq
    · exact hc.left _ _ h'
  unfold moveOutcome at h
  split at h
  · simp only [Except.ok.injEq] at h; subst h; exact ⟨.swallowed, hc⟩
  split at h
  · simp only [Except.ok.injEq] at h; subst h; exact ⟨.event (near_add (All.one hq)), hc⟩
  split at h
  · have key : ∀ c', ServerNear c' → BothNear (.event (.card reason (.remove [prev])), c') :=
      fun c' h => ⟨.event (near_remove (All.one hp)), h⟩
    split at h
    · simp only [bind_eq_ok, pure_eq_ok, Except.ok.injEq] at h
      obtain ⟨c', rfl, rfl⟩ := h
      exact key _ hc
    · simp only [bind_eq_ok, pure_eq_ok, Except.ok.injEq] at h
      obtain ⟨b, _, c', rfl, rfl⟩ := h
      refine key _ ?_
      split
      · exact xyzLeft (by simp [Near, Place.zero])
      · exact hc
  split at h
  · simp only [Except.ok.injEq] at h
    subst h
    exact ⟨.swallowed, hc.inv, hc.board, hc.left, All.append hc.deferred (All.one hp)⟩
  split at h
  · simp only [EncodeContext.takeDeferredXyzMat, Except.ok.injEq] at h
    subst h
    exact ⟨.event (near_move (All.append (near_deferredOps hq _ _ hc.deferred) (All.one ⟨hp, hq⟩))), hc.inv, hc.board, hc.left, All.nil⟩
  split at h
  · simp only [bind_eq_ok, pure_eq_ok, Except.ok.injEq, EncodeContext.getXyzLeft] at h
    obtain ⟨src, hs, rfl⟩ := h
    have hsrc : Near src := by
      cases hl : c.left { prev with oseq := OSEQ_INVALID } with
      | none => rw [hl] at hs; simp [orUb, ub] at hs
      | some q => rw [hl] at hs; simp [orUb] at hs; exact hs ▸ hc.left _ _ hl
    exact ⟨.event (near_move (All.one ⟨hsrc, hq⟩)), hc⟩
  · have key : ∀ c', ServerNear c' → BothNear (.event (.card reason (.move [⟨prev, curr⟩])), c') :=
      fun c' h => ⟨.event (near_move (All.one ⟨hp, hq⟩)), h⟩
    split at h
    · simp only [bind_eq_ok, pure_eq_ok, Except.ok.injEq] at h
      obtain ⟨b, _, c', rfl, rfl⟩ := h
      refine key _ ?_
      split
      · exact xyzLeft hp
      · exact hc
    · simp only [bind_eq_ok, pure_eq_ok, Except.ok.injEq] at h
      obtain ⟨c', rfl, rfl⟩ := h
      exact key _ hc

theorem PostNear.graveLoop {con : Int} (pos : Nat) : ∀ n i seq size sent,
    Post (graveLoop con pos n i seq size sent) (All fun o => Near o.src ∧ Near o.dst) := by
  have op : ∀ seq size sent, Near (graveLoop.op con pos seq size sent).src ∧ Near (graveLoop.op con pos seq size sent).dst := fun seq size sent =>
    ⟨by simp [Near, graveLoop.op], by simp [Near, graveLoop.op]⟩
  intro n
  induction n with
  | zero =>
    intro i seq size sent
    unfold Ygo.graveLoop
    refine Post.pure' ?_
    split
    · exact All.one (op _ _ _)
    · exact All.nil
  | succ n ih =>
    intro i seq size sent
    unfold Ygo.graveLoop
    refine Post.after fun b => ?_
    split
    · exact ih _ _ _ _
    · split
      · exact Post.bind' (ih _ _ _ _) fun rest hr => Post.pure' (All.cons (op _ _ _) hr)
      · exact ih _ _ _ _

theorem PostNear.swapGraveDeck (c : BasicContext) : Post (swapGraveDeckEvent c) OutcomeNear := by
  unfold swapGraveDeckEvent
  refine Post.after fun con => Post.after fun pos => Post.after fun bs => Post.after fun gy => Post.after fun deck => ?_
  refine Post.bind' (PostNear.graveLoop pos gy 0 0 0 0) fun toExtra he => ?_
  simp only
  have key : EventNear (.pile 0 (.splice ((if gy > 0 then
      [(⟨⟨con, Loc.graveyard, 0, OSEQ_INVALID⟩, wrap32 gy, ⟨con, Loc.mainDeck, 0, OSEQ_INVALID⟩, false⟩ : SpliceOp)] else []) ++
      (if deck > 0 then [⟨⟨con, Loc.mainDeck, wrap32 gy, OSEQ_INVALID⟩, wrap32 deck, ⟨con, Loc.graveyard, 0, OSEQ_INVALID⟩, false⟩] else []) ++
      toExtra))) := by
    refine near_splice (All.append (All.append ?_ ?_) he)
    · split
      · exact All.one ⟨by simp [Near], by simp [Near]⟩
      · exact All.nil
    · split
      · exact All.one ⟨by simp [Near], by simp [Near]⟩
      · exact All.nil
  split
  · exact Post.bind' (Q := fun _ => False) (Post.lift (by simp)) fun _ h => h.elim
  · exact Post.after fun _ => Post.pure' (.event key)

theorem PostNear.contextCase {c : BasicContext} (hc : ServerNear c) {k : Kind} {p : P (Outcome × BasicContext)}
    (h : contextCase c k = some p) : Post p BothNear := by
  cases k <;> simp only [Ygo.contextCase, Option.some.injEq, reduceCtorEq] at h <;> subst h
  case win =>
    refine Post.bind' (Q := OutcomeNear) ?_ fun _ h => Post.pure' ⟨h, hc⟩
    exact Post.after fun _ => Post.after fun _ => Post.after fun _ => Post.pure' (.still rfl)
  case deckTop =>
    refine Post.bind' (Q := OutcomeNear) ?_ fun _ h => Post.pure' ⟨h, hc⟩
    exact Post.after fun _ => Post.after fun _ => Post.after fun _ => Post.after fun _ => Post.after fun _ => Post.pure' (.still rfl)
  case move =>
    exact Post.after fun _ => Post.bind' PostNear.locInfo fun _ hp => Post.bind' PostNear.locInfo fun _ hq => Post.after fun _ =>
      Post.lift fun _ h => near_moveOutcome hc hp hq h
  case swapGraveDeck => exact Post.bind' (PostNear.swapGraveDeck c) fun _ h => Post.pure' ⟨h, hc⟩
  case draw =>
    refine Post.bind' (Q := OutcomeNear) ?_ fun _ h => Post.pure' ⟨h, hc⟩
    exact Post.after fun _ => Post.after fun _ => Post.after fun _ => Post.after fun _ => Post.after fun x =>
      Post.pure' (.event (near_splice (All.one ⟨by simp [Near], by simp [Near]⟩)))
  case reverseDeck =>
    refine Post.bind' (Q := OutcomeNear) ?_ fun _ h => Post.pure' ⟨h, hc⟩
    exact Post.after fun _ => Post.after fun _ => Post.pure' (.event (near_splice
      (All.cons ⟨by simp [Near], by simp [Near]⟩ (All.one ⟨by simp [Near], by simp [Near]⟩))))
  case matchKill =>
    exact Post.after fun r => Post.pure' ⟨.swallowed, hc.inv, hc.board, hc.left, hc.deferred⟩

theorem PostNear.encodeBody {c : BasicContext} (hc : ServerNear c) : Post (encodeBody c) BothNear := by
  unfold Ygo.encodeBody
  refine Post.after fun b => ?_
  cases Kind.ofByte b with
  | none => exact Post.pure' ⟨.none, hc⟩
  | some k =>
    simp only
    unfold encodeCase
    cases h1 : Ygo.eventCase k with
    | some p => exact Post.bind' (PostNear.eventCase h1) fun _ h => Post.pure' ⟨h, hc⟩
    | none =>
      cases h2 : Ygo.queryCase k with
      | some p => exact Post.bind' (PostNear.queryCase h2) fun _ h => Post.pure' ⟨h, hc⟩
      | none =>
        cases h3 : Ygo.requestCase k with
        | some f => exact Post.after fun w => Post.after fun _ => Post.pure' ⟨.request, hc⟩
        | none =>
          cases swallowedCase k with
          | some p => exact Post.after fun _ => Post.pure' ⟨.swallowed, hc⟩
          | none =>
            cases h5 : Ygo.contextCase c k with
            | some p => exact PostNear.contextCase hc h5
            | none => exact Post.pure' ⟨.none, hc⟩

theorem near_encodeOne {c c' : BasicContext} (hc : ServerNear c) {d : List UInt8} {r : Encoded}
    (h : encodeOne c d = .ok (r, c')) : (∀ m, r.msg = some m → ∀ e, m.body = .event e → EventNear e) ∧ ServerNear c' := by
  unfold encodeOne at h
  split at h
  · rename_i o c'' rest hb
    simp only [Except.ok.injEq, Prod.mk.injEq] at h
    obtain ⟨rfl, rfl⟩ := h
    exact PostNear.encodeBody hc _ _ _ hb
  · simp at h

theorem inv_runOps {ops : List FrameOp} {f f' : Frame} (hi : Inv f) (h : runOps f ops = .ok f') : Inv f' := by
  induction ops generalizing f with
  | nil => simp only [runOps, Except.ok.injEq] at h; exact h ▸ hi
  | cons op ops ih =>
    simp only [runOps, FrameLike.step, bind_eq_ok] at h
    obtain ⟨g, hg, h⟩ := h
    exact ih (hi.step hg) h

theorem near_event {b b' : PlainBoard} {e : Event} (h : b.parseEvent e = .ok b') (hi : Inv b.frame) (hb : Bare (view b.frame.layout)) (he : EventNear e) :
    Inv b'.frame ∧ Bare (view b'.frame.layout) := by
  have onFrame : ∀ {b b' : PlainBoard} {ops : List FrameOp}, b.onFrame ops = .ok b' → Inv b.frame → Bare (view b.frame.layout) →
      (∀ op ∈ ops, ∀ p ∈ placesOf op, Near p) → Inv b'.frame ∧ Bare (view b'.frame.layout) := by
    intro b b' ops h hi hb hp
    simp only [DuelBoard.onFrame, bind_eq_ok, pure_eq_ok, Except.ok.injEq] at h
    obtain ⟨f, hf, rfl⟩ := h
    refine ⟨?_, hb.runOps hi hf hp⟩
    exact inv_runOps hi hf
  cases e with
  | unset | finish _ | metaInfo _ | result _ | nextPhase _ | zoneBlock _ => simp only [DuelBoard.parseEvent, Except.ok.injEq] at h; subst h; exact ⟨hi, hb⟩
  | card r e => cases e <;> exact onFrame h hi hb he
  | pile r e => cases e <;> exact onFrame h hi hb he
  | nextTurn con =>
    simp only [DuelBoard.parseEvent, bind_eq_ok, pure_eq_ok, Except.ok.injEq] at h
    obtain ⟨t, _, rfl⟩ := h
    exact ⟨hi, hb⟩
  | chainStack e =>
    cases e with
    | unset => simp only [DuelBoard.parseEvent, Except.ok.injEq] at h; subst h; exact ⟨hi, hb⟩
    | push c =>
      simp only [DuelBoard.parseEvent, bind_eq_ok, pure_eq_ok, Except.ok.injEq] at h
      obtain ⟨t, _, rfl⟩ := h
      exact ⟨hi, hb⟩
    | pop _ =>
      simp only [DuelBoard.parseEvent, bind_eq_ok, pure_eq_ok, Except.ok.injEq] at h
      obtain ⟨t, _, rfl⟩ := h
      exact ⟨hi, hb⟩
  | lp con c =>
    simp only [DuelBoard.parseEvent, bind_eq_ok, pure_eq_ok, Except.ok.injEq] at h
    obtain ⟨i, _, l, _, rfl⟩ := h
    exact ⟨hi, hb⟩
  | board e =>
    cases e with
    | unset => simp only [DuelBoard.parseEvent, Except.ok.injEq] at h; subst h; exact ⟨hi, hb⟩
    | exchange e => exact onFrame h hi hb he
    | state s =>
      simp only [DuelBoard.parseEvent, DuelBoard.parseState, bind_eq_ok] at h
      obtain ⟨l0, h0, l1, h1, h⟩ := h
      have hf : ((if 0 ≤ s.turnCounter then { b with turn := Cell.set b.turn s.turnCounter.toNat } else b : PlainBoard)).frame = b.frame := by
        split <;> rfl
      refine onFrame h ?_ ?_ he
      · simp only [DuelBoard.setLp, hf]; exact hi
      · simp only [DuelBoard.setLp, hf]; exact hb

theorem near_parse {c c' : BasicContext} {m : Msg} (h : c.parse m = .ok c') (hm : ∀ e, m.body = .event e → EventNear e) (hc : ServerNear c) :
    ServerNear c' := by
  unfold BasicContext.parse at h
  split at h
  · rename_i e he
    simp only [bind_eq_ok, pure_eq_ok, Except.ok.injEq] at h
    obtain ⟨b, hb, st, hs, rfl⟩ := h
    obtain ⟨h1, h2⟩ := near_event hb hc.inv hc.board (hm e he)
    exact ⟨h1, h2, hc.left, hc.deferred⟩
  · simp only [bind_eq_ok, pure_eq_ok, Except.ok.injEq] at h
    obtain ⟨b, rfl, st, hs, rfl⟩ := h
    exact ⟨hc.inv, hc.board, hc.left, hc.deferred⟩

/-- No call for the message's event names a skill zone. -/
def MsgNear (m : Msg) : Prop := ∀ e, m.body = .event e → EventNear e

theorem near_feed : ∀ (ds : List (List UInt8)) (c c' : BasicContext) (rs : List Encoded), ServerNear c → feed c ds = .ok (rs, c') →
    ServerNear c' ∧ ∀ m ∈ messages rs, MsgNear m
  | [], c, c', rs, hc, h => by
    simp only [feed, Except.ok.injEq, Prod.mk.injEq] at h
    obtain ⟨rfl, rfl⟩ := h
    exact ⟨hc, fun m hm => by simp [messages] at hm⟩
  | d :: ds, c, c', rs, hc, h => by
    unfold feed at h
    rw [bind_eq_ok] at h
    obtain ⟨⟨r, c1⟩, h1, h⟩ := h
    obtain ⟨hm, hc1⟩ := near_encodeOne hc h1
    cases he : r.msg with
    | some m =>
      simp only [he, bind_eq_ok, pure_eq_ok, Except.ok.injEq, Prod.mk.injEq] at h
      obtain ⟨c2, h2, ⟨rs', c3⟩, h3, rfl, rfl⟩ := h
      obtain ⟨k1, k2⟩ := near_feed ds c2 _ rs' (near_parse h2 (hm m he) hc1) h3
      refine ⟨k1, fun x hx => ?_⟩
      simp only [messages, List.filterMap_cons, he, List.mem_cons] at hx
      rcases hx with rfl | hx
      · exact hm _ he
      · exact k2 x hx
    | none =>
      simp only [he, bind_eq_ok, pure_eq_ok, Except.ok.injEq, Prod.mk.injEq] at h
      obtain ⟨c2, rfl, ⟨rs', c3⟩, h3, rfl, rfl⟩ := h
      obtain ⟨k1, k2⟩ := near_feed ds _ _ rs' hc1 h3
      refine ⟨k1, fun x hx => ?_⟩
      simp only [messages, List.filterMap_cons, he] at hx
      exact k2 x hx

theorem near_follow (cache : Bool) : ∀ (ms : List Msg) (s s' : Client), Client.follow cache s ms = .ok s' → (∀ m ∈ ms, MsgNear m) →
    Inv s.board.frame → Bare (view s.board.frame.layout) → Bare (view s'.board.frame.layout)
  | [], s, s', h, _, _, hb => by simp only [Client.follow, Except.ok.injEq] at h; exact h ▸ hb
  | m :: ms, s, s', h, hm, hi, hb => by
    have hms : ∀ x ∈ ms, MsgNear x := fun x hx => hm x (by simp [hx])
    unfold Client.follow at h
    cases he : m.body with
    | event e =>
      simp only [Msg.event?, he, bind_eq_ok] at h
      obtain ⟨b, h1, st, h2, h3⟩ := h
      obtain ⟨k1, k2⟩ := near_event h1 hi hb (hm m (by simp) e he)
      exact near_follow cache ms _ _ h3 hms k1 k2
    | _ =>
      simp only [Msg.event?, he, bind_eq_ok, pure_eq_ok, Except.ok.injEq] at h
      obtain ⟨b, rfl, st, h2, h3⟩ := h
      exact near_follow cache ms _ _ h3 hms hi hb

theorem near_track {c c' : BasicContext} {d : List UInt8} (hc : ServerNear c) (h : track c d = .ok c') : ServerNear c' := by
  unfold track at h
  rw [bind_eq_ok] at h
  obtain ⟨⟨r, c1⟩, h1, h⟩ := h
  obtain ⟨hm, hc1⟩ := near_encodeOne hc h1
  cases he : r.msg with
  | some m => simp only [he] at h; exact near_parse h (hm m he) hc1
  | none =>
    simp only [he, pure_eq_ok, Except.ok.injEq] at h
    exact h ▸ hc1

theorem near_init : ServerNear BasicContext.init := by
  refine ⟨Inv.init, ?_, fun _ _ h => by simp [BasicContext.init] at h, All.nil⟩
  intro C _
  show view Layout.empty C = []
  rw [view_empty]

end Ygo
