import Verif.Lemmas.Range
import Verif.Props.System

/-!
# Numbers stay within their types (C87)
-/

set_option linter.unusedSimpArgs false

namespace Ygo.Props
open Ygo Ygo.Spec P

/-- Everything the server remembers holds its numbers, and at most `n` attachments are deferred. -/
structure ServerHolds (n : Nat) (c : BasicContext) : Prop where
  board : BoardHolds c.board
  store : ∀ x, CardHolds (c.store x)
  reason : ∀ r, c.matchWinReason = some r → U32 r
  left : ∀ p q, c.left p = some q → PlaceHolds q
  deferred : All PlaceHolds c.deferred
  count : c.deferred.length ≤ n

theorem ServerHolds.mono {n m : Nat} {c : BasicContext} (h : ServerHolds n c) (hm : n ≤ m) : ServerHolds m c :=
  ⟨h.board, h.store, h.reason, h.left, h.deferred, Nat.le_trans h.count hm⟩

theorem deferredOps_range {curr : Place} (hc : PlaceHolds curr) : ∀ (ds : List Place) (i : Nat), All PlaceHolds ds → i + ds.length ≤ 2 ^ 31 →
    All PairHolds (deferredOps curr i ds)
  | [], _, _, _ => All.nil
  | d :: ds, i, h, hi => by
    have hd : PlaceHolds d := h d (by simp)
    have hds : All PlaceHolds ds := fun x hx => h x (by simp [hx])
    simp only [List.length_cons] at hi
    have ih := deferredOps_range hc ds (i + 1) hds (by omega)
    unfold deferredOps
    split
    · exact ih
    · exact All.cons ⟨hd, hc.con, hc.loc, hc.seq, by simp only [I32]; omega⟩ ih

/-- What a case gives: a message that holds its numbers, and a state that does. -/
def Both (n : Nat) (x : Outcome × BasicContext) : Prop := OutcomeHolds x.1 ∧ ServerHolds n x.2

theorem move_range {n : Nat} (hn : n ≤ 2 ^ 31) {c : BasicContext} (hc : ServerHolds n c) {prev curr : Place} (hp : PlaceHolds prev) (hq : PlaceHolds curr)
    {reason : Nat} (hr : U32 reason) {x : Outcome × BasicContext} (h : moveOutcome c prev curr reason = .ok x) : Both (n + 1) x := by
  have hr' : U64 reason := u64_small hr
  have hc' := hc.mono (Nat.le_succ n)
  have xyzLeft : ∀ {p q : Place}, PlaceHolds q → ServerHolds (n + 1) (EncodeContext.xyzLeft c p q) := by
    intro p q hq
    refine ⟨hc.board, hc.store, hc.reason, ?_, hc.deferred, hc'.count⟩
    intro p' q' h'
    simp only [EncodeContext.xyzLeft] at h'
    split at h'
    · simp only [Option.some.injEq] at h'; exact h' ▸ hq
    · exact hc.left _ _ h'
  unfold moveOutcome at h
  split at h
  · simp only [Except.ok.injEq] at h; subst h; exact ⟨.swallowed, hc'⟩
  split at h
  · simp only [Except.ok.injEq] at h; subst h; exact ⟨.event ⟨hr', All.one hq⟩, hc'⟩
  split at h
  · have key : ∀ c', ServerHolds (n + 1) c' → Both (n + 1) (.event (.card reason (.remove [prev])), c') :=
      fun c' h => ⟨.event ⟨hr', All.one hp⟩, h⟩
    split at h
    · simp only [bind_eq_ok, pure_eq_ok, Except.ok.injEq] at h
      obtain ⟨c', rfl, rfl⟩ := h
      exact key _ hc'
    · simp only [bind_eq_ok, pure_eq_ok, Except.ok.injEq] at h
      obtain ⟨b, _, c', rfl, rfl⟩ := h
      refine key _ ?_
      split
      · exact xyzLeft place_zero_range
      · exact hc'
  split at h
  · simp only [Except.ok.injEq] at h
    subst h
    refine ⟨.swallowed, hc.board, hc.store, hc.reason, hc.left, All.append hc.deferred (All.one hp), ?_⟩
    have := hc.count
    simp only [EncodeContext.xyzMatDefer, List.length_append, List.length_cons, List.length_nil]
    omega
  split at h
  · simp only [EncodeContext.takeDeferredXyzMat, Except.ok.injEq] at h
    subst h
    refine ⟨.event ⟨hr', All.append (deferredOps_range hq _ _ hc.deferred ?_) (All.one ⟨hp, hq⟩)⟩, hc.board, hc.store, hc.reason, hc.left, All.nil, by simp⟩
    have := hc.count
    omega
  split at h
  · simp only [bind_eq_ok, pure_eq_ok, Except.ok.injEq, EncodeContext.getXyzLeft] at h
    obtain ⟨src, hs, rfl⟩ := h
    have hsrc : PlaceHolds src := by
      cases hl : c.left { prev with oseq := OSEQ_INVALID } with
      | none => rw [hl] at hs; simp [orUb, ub] at hs
      | some q => rw [hl] at hs; simp [orUb] at hs; exact hs ▸ hc.left _ _ hl
    exact ⟨.event ⟨hr', All.one ⟨⟨hsrc.con, hsrc.loc, hsrc.seq, hp.oseq⟩, hq⟩⟩, hc'⟩
  · have key : ∀ c', ServerHolds (n + 1) c' → Both (n + 1) (.event (.card reason (.move [⟨prev, curr⟩])), c') :=
      fun c' h => ⟨.event ⟨hr', All.one ⟨hp, hq⟩⟩, h⟩
    split at h
    · simp only [bind_eq_ok, pure_eq_ok, Except.ok.injEq] at h
      obtain ⟨b, _, c', rfl, rfl⟩ := h
      refine key _ ?_
      split
      · exact xyzLeft hp
      · exact hc'
    · simp only [bind_eq_ok, pure_eq_ok, Except.ok.injEq] at h
      obtain ⟨c', rfl, rfl⟩ := h
      exact key _ hc'

theorem Post.graveLoop {con : Int} (hc : I32 con) (pos : Nat) : ∀ n i seq size sent, i + n < 2 ^ 32 → size ≤ i →
    Post (graveLoop con pos n i seq size sent) (All SpliceHolds) := by
  have op : ∀ seq size sent, size < 2 ^ 32 → SpliceHolds (graveLoop.op con pos seq size sent) := fun seq size sent hs =>
    ⟨⟨hc, by simp [U32, graveLoop.op], wrap32_range ((seq : Int) - sent), oseq_range⟩, hs,
      ⟨hc, by simp [U32, graveLoop.op], wrap32_range ((pos : Int) + sent), oseq_range⟩⟩
  intro n
  induction n with
  | zero =>
    intro i seq size sent hi hs
    unfold Ygo.graveLoop
    refine Post.pure' ?_
    split
    · exact All.one (op _ _ _ (by omega))
    · exact All.nil
  | succ n ih =>
    intro i seq size sent hi hs
    unfold Ygo.graveLoop
    refine Post.after fun b => ?_
    split
    · exact ih _ _ _ _ (by omega) (by omega)
    · split
      · exact Post.bind' (ih _ _ _ _ (by omega) (by omega)) fun rest hr => Post.pure' (All.cons (op _ _ _ (by omega)) hr)
      · exact ih _ _ _ _ (by omega) (by omega)

theorem Post.swapGraveDeck (c : BasicContext) : Post (swapGraveDeckEvent c) OutcomeHolds := by
  unfold swapGraveDeckEvent
  refine Post.bind' Post.con fun con hc => Post.after fun pos => Post.after fun bs => Post.after fun gy => Post.after fun deck => ?_
  by_cases hg : gy < 2 ^ 32
  · refine Post.bind' (Post.graveLoop hc pos gy 0 0 0 0 (by omega) (by omega)) fun toExtra he => ?_
    simp only [if_neg (Nat.not_le.2 hg)]
    refine Post.after fun _ => Post.pure' (.event ⟨by simp [U64], All.append (All.append ?_ ?_) he⟩)
    · split
      · exact All.one ⟨⟨hc, by simp [U32], by simp [U32], oseq_range⟩, wrap32_range gy, ⟨hc, by simp [U32], by simp [U32], oseq_range⟩⟩
      · exact All.nil
    · split
      · exact All.one ⟨⟨hc, by simp [U32], wrap32_range gy, oseq_range⟩, wrap32_range deck, ⟨hc, by simp [U32], by simp [U32], oseq_range⟩⟩
      · exact All.nil
  · refine Post.after fun toExtra => ?_
    rw [if_pos (by omega)]
    exact Post.bind' (Q := fun _ => False) (Post.lift (by simp)) fun _ h => h.elim

theorem Post.contextCase {n : Nat} (hn : n ≤ 2 ^ 31) {c : BasicContext} (hc : ServerHolds n c) {k : Kind} {p : P (Outcome × BasicContext)}
    (h : contextCase c k = some p) : Post p (Both (n + 1)) := by
  have hc' := hc.mono (Nat.le_succ n)
  cases k <;> simp only [Ygo.contextCase, Option.some.injEq, reduceCtorEq] at h <;> subst h
  case win =>
    refine Post.bind' (Q := OutcomeHolds) ?_ fun _ h => Post.pure' ⟨h, hc'⟩
    refine Post.bind' (Post.read 1) fun w hw => Post.bind' Post.u8 fun r hr => Post.bind' (Q := U32) (Post.lift ?_) fun m hm => Post.pure' (.event ⟨hr, hm, ?_⟩)
    · intro a ha
      cases hr : c.matchWinReason with
      | none => simp [EncodeContext.getMatchWinReason, hr, orUb, ub] at ha
      | some r => simp [EncodeContext.getMatchWinReason, hr, orUb] at ha; exact ha ▸ hc.reason r hr
    · intro x hx
      split at hx
      · simp only [FinishResult.winner.injEq] at hx
        subst hx
        simp only [I32]; omega
      · simp at hx
  case deckTop =>
    refine Post.bind' (Q := OutcomeHolds) ?_ fun _ h => Post.pure' ⟨h, hc'⟩
    exact Post.bind' Post.con fun _ hcon => Post.after fun _ => Post.after fun _ => Post.after fun _ => Post.after fun _ =>
      Post.pure' (.event ⟨by simp [U64], All.one ⟨hcon, by simp [U32], wrap32_range _, oseq_range⟩⟩)
  case move =>
    exact Post.after fun _ => Post.bind' Post.locInfo fun _ hp => Post.bind' Post.locInfo fun _ hq => Post.bind' Post.u32 fun _ hr =>
      Post.lift fun _ h => move_range hn hc hp hq hr h
  case swapGraveDeck => exact Post.bind' (Post.swapGraveDeck c) fun _ h => Post.pure' ⟨h, hc'⟩
  case draw =>
    refine Post.bind' (Q := OutcomeHolds) ?_ fun _ h => Post.pure' ⟨h, hc'⟩
    exact Post.bind' Post.con fun _ hcon => Post.bind' Post.u32 fun _ hn => Post.after fun _ => Post.after fun _ => Post.after fun x =>
      Post.pure' (.event ⟨by unfold U64; decide, All.one ⟨⟨hcon, by simp [U32], wrap32_range _, oseq_range⟩, hn,
        ⟨hcon, by simp [U32], wrap32_range x, oseq_range⟩⟩⟩)
  case reverseDeck =>
    refine Post.bind' (Q := OutcomeHolds) ?_ fun _ h => Post.pure' ⟨h, hc'⟩
    have op : ∀ (con : Int) (x : Nat), I32 con → SpliceHolds ⟨⟨con, Loc.mainDeck, 0, OSEQ_INVALID⟩, wrap32 x, ⟨con, Loc.mainDeck, 0, OSEQ_INVALID⟩, true⟩ :=
      fun con x h => ⟨⟨h, by simp [U32], by simp [U32], oseq_range⟩, wrap32_range x, ⟨h, by simp [U32], by simp [U32], oseq_range⟩⟩
    exact Post.after fun _ => Post.after fun _ => Post.pure' (.event ⟨by unfold U64; decide, All.cons (op 0 _ i32_zero) (All.one (op 1 _ i32_one))⟩)
  case matchKill =>
    exact Post.bind' Post.u32 fun r hr => Post.pure' ⟨.swallowed, hc.board, hc.store, fun r' h => by
      simp only [EncodeContext.matchWinReason, Option.some.injEq] at h; exact h ▸ hr, hc.left, hc.deferred, hc'.count⟩

theorem Post.encodeBody {n : Nat} (hn : n ≤ 2 ^ 31) {c : BasicContext} (hc : ServerHolds n c) : Post (encodeBody c) (Both (n + 1)) := by
  have hc' := hc.mono (Nat.le_succ n)
  unfold Ygo.encodeBody
  refine Post.after fun b => ?_
  cases Kind.ofByte b with
  | none => exact Post.pure' ⟨.none, hc'⟩
  | some k =>
    simp only
    unfold encodeCase
    cases h1 : Ygo.eventCase k with
    | some p => exact Post.bind' (Post.eventCase h1) fun _ h => Post.pure' ⟨h, hc'⟩
    | none =>
      cases h2 : Ygo.queryCase k with
      | some p => exact Post.bind' (Post.queryCase h2) fun _ h => Post.pure' ⟨h, hc'⟩
      | none =>
        cases h3 : Ygo.requestCase k with
        | some f => exact Post.bind' Post.con fun w hw => Post.bind' (Post.requestCase h3 w) fun _ hr => Post.pure' ⟨.request hw hr, hc'⟩
        | none =>
          cases swallowedCase k with
          | some p => exact Post.after fun _ => Post.pure' ⟨.swallowed, hc'⟩
          | none =>
            cases h5 : Ygo.contextCase c k with
            | some p => exact Post.contextCase hn hc h5
            | none => exact Post.pure' ⟨.none, hc'⟩

theorem encodeOne_range {n : Nat} (hn : n ≤ 2 ^ 31) {c c' : BasicContext} (hc : ServerHolds n c) {d : List UInt8} {r : Encoded}
    (h : encodeOne c d = .ok (r, c')) : (∀ m, r.msg = some m → MsgHolds m) ∧ ServerHolds (n + 1) c' := by
  unfold encodeOne at h
  split at h
  · rename_i o c'' rest hb
    simp only [Except.ok.injEq, Prod.mk.injEq] at h
    obtain ⟨rfl, rfl⟩ := h
    exact Post.encodeBody hn hc _ _ _ hb
  · simp at h

/-! ## Applying messages -/

theorem onFrame_range {b b' : PlainBoard} {ops : List FrameOp} (h : DuelBoard.onFrame b ops = .ok b') (hb : BoardHolds b) : BoardHolds b' := by
  simp only [DuelBoard.onFrame, bind_eq_ok, pure_eq_ok, Except.ok.injEq] at h
  obtain ⟨f, _, rfl⟩ := h
  exact ⟨hb.chain, hb.turn, hb.turnController, hb.lp, hb.phase, hb.blocked⟩

theorem setLp_range {b : PlainBoard} (hb : BoardHolds b) (i : Fin 2) {v : Nat} (hv : U32 v) : BoardHolds (b.setLp i ⟨v⟩) :=
  ⟨hb.chain, hb.turn, hb.turnController, fun j => by
    simp only [DuelBoard.setLp]
    split
    · exact hv
    · exact hb.lp j, hb.phase, hb.blocked⟩

theorem event_range {b b' : PlainBoard} {e : Event} (h : b.parseEvent e = .ok b') (hb : BoardHolds b) (he : EventHolds e) : BoardHolds b' := by
  cases e with
  | unset | finish _ | metaInfo _ | result _ => simp only [DuelBoard.parseEvent, Except.ok.injEq] at h; exact h ▸ hb
  | card r e => exact onFrame_range h hb
  | pile r e => exact onFrame_range h hb
  | nextPhase p => simp only [DuelBoard.parseEvent, Except.ok.injEq] at h; subst h; exact ⟨hb.chain, hb.turn, hb.turnController, hb.lp, he, hb.blocked⟩
  | zoneBlock zs => simp only [DuelBoard.parseEvent, Except.ok.injEq] at h; subst h; exact ⟨hb.chain, hb.turn, hb.turnController, hb.lp, hb.phase, he⟩
  | nextTurn con =>
    simp only [DuelBoard.parseEvent, bind_eq_ok, pure_eq_ok, Except.ok.injEq] at h
    obtain ⟨t, _, rfl⟩ := h
    exact ⟨hb.chain, Nat.mod_lt _ (by decide), he, hb.lp, hb.phase, hb.blocked⟩
  | chainStack e =>
    cases e with
    | unset => simp only [DuelBoard.parseEvent, Except.ok.injEq] at h; exact h ▸ hb
    | push c =>
      simp only [DuelBoard.parseEvent, bind_eq_ok, pure_eq_ok, Except.ok.injEq, Cell.push] at h
      obtain ⟨t, rfl, rfl⟩ := h
      exact ⟨All.append hb.chain (All.one he), hb.turn, hb.turnController, hb.lp, hb.phase, hb.blocked⟩
    | pop _ =>
      simp only [DuelBoard.parseEvent, bind_eq_ok, pure_eq_ok, Except.ok.injEq, Cell.pop] at h
      obtain ⟨t, ⟨_, _, rfl⟩, rfl⟩ := h
      exact ⟨fun c hc => hb.chain c (List.dropLast_subset _ hc), hb.turn, hb.turnController, hb.lp, hb.phase, hb.blocked⟩
  | lp con c =>
    simp only [DuelBoard.parseEvent, bind_eq_ok, pure_eq_ok, Except.ok.injEq, Cell.get, Cell.set] at h
    obtain ⟨i, _, l, rfl, rfl⟩ := h
    refine setLp_range hb i ?_
    have hl := hb.lp i
    have hx := he.2
    simp only [U32] at hl
    cases c <;> simp only [DuelBoard.lpAfter, U32] at hx ⊢ <;> (try split) <;> omega
  | board e =>
    cases e with
    | unset => simp only [DuelBoard.parseEvent, Except.ok.injEq] at h; exact h ▸ hb
    | exchange e => exact onFrame_range h hb
    | state s =>
      simp only [DuelBoard.parseEvent, DuelBoard.parseState, bind_eq_ok] at h
      obtain ⟨l0, h0, l1, h1, h⟩ := h
      have mem : ∀ (i : Nat) (l : Nat), orUb s.lps[i]? = .ok l → U32 l := by
        intro i l hl
        cases hi : s.lps[i]? with
        | none => rw [hi] at hl; simp [orUb, ub] at hl
        | some x => rw [hi] at hl; simp [orUb] at hl; subst hl; exact he.2.1 _ (List.mem_of_getElem? hi)
      have hb0 : BoardHolds (if 0 ≤ s.turnCounter then { b with turn := Cell.set b.turn s.turnCounter.toNat } else b) := by
        split
        · refine ⟨hb.chain, ?_, hb.turnController, hb.lp, hb.phase, hb.blocked⟩
          have := he.1.2
          simp only [U32, Cell.set]; omega
        · exact hb
      have hb1 := setLp_range (setLp_range hb0 0 (mem 0 _ h0)) 1 (mem 1 _ h1)
      exact onFrame_range h ⟨he.2.2.1, hb1.turn, hb1.turnController, hb1.lp, hb1.phase, hb1.blocked⟩

theorem card_set_range {c : Card Plain} (hc : CardHolds c) {f : QField} {v : f.Val} (hv : FieldHolds f v) : CardHolds (c.setSingle f ⟨v⟩) :=
  ⟨fun g => by
    simp only [Card.setSingle]
    split
    · rename_i e; subst e; exact hv
    · exact hc.single g, hc.targets, hc.counters⟩

theorem singles_range {cache : Bool} {d : QueryData} (hd : DataHolds d) : ∀ (fs : List QField) (hits : Nat) (c : Card Plain) (x : Nat × Card Plain),
    Card.parseSingles cache d fs hits c = .ok x → CardHolds c → CardHolds x.2
  | [], hits, c, x, h, hc => by simp only [Card.parseSingles, Except.ok.injEq] at h; exact h ▸ hc
  | f :: fs, hits, c, x, h, hc => by
    simp only [Card.parseSingles, bind_eq_ok] at h
    obtain ⟨⟨h', c'⟩, h1, h2⟩ := h
    refine singles_range hd fs _ _ _ h2 ?_
    unfold Card.parseSingle at h1
    split at h1
    · simp only [Except.ok.injEq, Prod.mk.injEq] at h1; exact h1.2 ▸ hc
    · rename_i qv hq
      have hv := hd.single f qv hq
      split at h1
      · simp only [bind_eq_ok] at h1
        obtain ⟨cur, _, h1⟩ := h1
        split at h1
        · simp only [pure_eq_ok, Except.ok.injEq, Prod.mk.injEq] at h1; exact h1.2 ▸ hc
        · simp only [pure_eq_ok, Except.ok.injEq, Prod.mk.injEq] at h1; exact h1.2 ▸ card_set_range hc hv
      · simp only [Except.ok.injEq, Prod.mk.injEq] at h1; exact h1.2 ▸ card_set_range hc hv

theorem query_range {cache : Bool} {l : Layout} {st : CardId → Card Plain} {q : Query} {x : Nat × (CardId → Card Plain)}
    (h : parseQuery cache l st q = .ok x) (hq : QueryHolds q) (hs : ∀ i, CardHolds (st i)) : ∀ i, CardHolds (x.2 i) := by
  simp only [parseQuery, bind_eq_ok] at h
  obtain ⟨_, _, _, _, c, _, ⟨hits, card⟩, hd, h⟩ := h
  simp only [pure_eq_ok, Except.ok.injEq] at h
  subst h
  intro i
  simp only
  split
  · simp only [Card.parseData, bind_eq_ok] at hd
    obtain ⟨⟨h', c'⟩, h1, h2⟩ := hd
    have h0 := singles_range hq.2 _ _ _ _ h1 (hs c)
    simp only [pure_eq_ok, Except.ok.injEq, Prod.mk.injEq] at h2
    obtain ⟨rfl, rfl⟩ := h2
    refine ⟨?_, ?_, ?_⟩
    · cases hq.2 with
      | _ => cases q.data.counters <;> cases q.data.targets <;> exact h0.single
    · cases hct : q.data.counters <;> cases hts : q.data.targets <;> simp only <;> first | exact h0.targets | exact hq.2.targets _ hts
    · cases hct : q.data.counters <;> cases hts : q.data.targets <;> simp only <;> first | exact h0.counters | exact hq.2.counters _ hct
  · exact hs i

theorem answer_range {cache : Bool} {l : Layout} : ∀ (qs : List Query) (st st' : CardId → Card Plain), Client.answer cache l qs st = .ok st' →
    All QueryHolds qs → (∀ i, CardHolds (st i)) → ∀ i, CardHolds (st' i)
  | [], st, st', h, _, hs => by simp only [Client.answer, Except.ok.injEq] at h; exact h ▸ hs
  | q :: qs, st, st', h, hq, hs => by
    simp only [Client.answer, bind_eq_ok] at h
    obtain ⟨⟨_, s1⟩, h1, h2⟩ := h
    exact answer_range qs s1 st' h2 (fun x hx => hq x (by simp [hx])) (query_range h1 (hq q (by simp)) hs)

theorem parseQueries_range {l : Layout} : ∀ (qs : List Query) (st st' : CardId → Card Plain), BasicContext.parseQueries l qs st = .ok st' →
    All QueryHolds qs → (∀ i, CardHolds (st i)) → ∀ i, CardHolds (st' i)
  | [], st, st', h, _, hs => by simp only [BasicContext.parseQueries, Except.ok.injEq] at h; exact h ▸ hs
  | q :: qs, st, st', h, hq, hs => by
    simp only [BasicContext.parseQueries, bind_eq_ok] at h
    obtain ⟨⟨_, s1⟩, h1, h2⟩ := h
    exact parseQueries_range qs s1 st' h2 (fun x hx => hq x (by simp [hx])) (query_range h1 (hq q (by simp)) hs)

theorem parse_range {n : Nat} {c c' : BasicContext} {m : Msg} (h : c.parse m = .ok c') (hm : MsgHolds m) (hc : ServerHolds n c) : ServerHolds n c' := by
  have key : ∀ b st, BoardHolds b → (∀ i, CardHolds (st i)) → ServerHolds n { c with board := b, store := st } :=
    fun b st hb hs => ⟨hb, hs, hc.reason, hc.left, hc.deferred, hc.count⟩
  unfold BasicContext.parse at h
  split at h
  · rename_i e he
    simp only [bind_eq_ok, pure_eq_ok, Except.ok.injEq] at h
    obtain ⟨b, hb, st, hs, rfl⟩ := h
    exact key b st (event_range hb hc.board (hm.event e he)) (parseQueries_range _ _ _ hs hm.queries hc.store)
  · simp only [bind_eq_ok, pure_eq_ok, Except.ok.injEq] at h
    obtain ⟨b, rfl, st, hs, rfl⟩ := h
    exact key _ st hc.board (parseQueries_range _ _ _ hs hm.queries hc.store)

theorem newCard_range : CardHolds BasicContext.newCard := by
  refine ⟨fun f => ?_, All.nil, All.nil⟩
  cases f <;> first
    | (simp [BasicContext.newCard, QField.zero, FieldHolds, U32, U64, I32]; done)
    | exact place_zero_range

theorem init_range : BoardHolds PlainBoard.init :=
  ⟨All.nil, by simp [U32, PlainBoard.init], by simp [I32, PlainBoard.init], fun _ => by simp [U32, PlainBoard.init], by simp [U32, PlainBoard.init], All.nil⟩

theorem feed_range : ∀ (ds : List (List UInt8)) (n : Nat) (c c' : BasicContext) (rs : List Encoded), n + ds.length ≤ 2 ^ 31 + 1 →
    ServerHolds n c → feed c ds = .ok (rs, c') → All MsgHolds (messages rs) ∧ ServerHolds (n + ds.length) c'
  | [], n, c, c', rs, _, hc, h => by
    simp only [feed, Except.ok.injEq, Prod.mk.injEq] at h
    obtain ⟨rfl, rfl⟩ := h
    exact ⟨All.nil, hc⟩
  | d :: ds, n, c, c', rs, hn, hc, h => by
    simp only [List.length_cons] at hn
    unfold feed at h
    rw [bind_eq_ok] at h
    obtain ⟨⟨r, c1⟩, h1, h⟩ := h
    obtain ⟨hm, hc1⟩ := encodeOne_range (by omega) hc h1
    obtain ⟨c2, rs', hc2, h3, rfl⟩ : ∃ c2 rs', ServerHolds (n + 1) c2 ∧ feed c2 ds = .ok (rs', c') ∧ rs = r :: rs' := by
      cases he : r.msg with
      | some m =>
        simp only [he, bind_eq_ok, pure_eq_ok, Except.ok.injEq, Prod.mk.injEq] at h
        obtain ⟨c2, h2, ⟨rs', c3⟩, h3, rfl, rfl⟩ := h
        exact ⟨c2, rs', parse_range h2 (hm m he) hc1, h3, rfl⟩
      | none =>
        simp only [he, bind_eq_ok, pure_eq_ok, Except.ok.injEq, Prod.mk.injEq] at h
        obtain ⟨c2, rfl, ⟨rs', c3⟩, h3, rfl, rfl⟩ := h
        exact ⟨_, rs', hc1, h3, rfl⟩
    obtain ⟨hr, hc3⟩ := feed_range ds (n + 1) c2 c' rs' (by omega) hc2 h3
    refine ⟨?_, by rw [List.length_cons]; exact hc3.mono (by omega)⟩
    intro m hm'
    simp only [messages, List.filterMap_cons] at hm'
    split at hm'
    · exact hr m hm'
    · rename_i m' he
      rcases List.mem_cons.1 hm' with rfl | hm'
      · exact hm _ he
      · exact hr m hm'

/-- **C87.** Whatever bytes the server is fed with (in up to 2^31 buffers), every number of every message it sends is one the protobuf field
can hold, and so is every number it tracks. -/
theorem C87_server (ds : List (List UInt8)) (hn : ds.length ≤ 2 ^ 31) (rs : List Encoded) (c : BasicContext)
    (h : feed BasicContext.init ds = .ok (rs, c)) :
    (∀ m ∈ messages rs, MsgHolds m) ∧ BoardHolds c.board ∧ ∀ x, CardHolds (c.store x) := by
  have h0 : ServerHolds 0 BasicContext.init :=
    ⟨init_range, fun _ => newCard_range, by simp [BasicContext.init], by simp [BasicContext.init], All.nil, by simp [BasicContext.init]⟩
  obtain ⟨hm, hc⟩ := feed_range ds 0 _ _ _ (by omega) h0 h
  exact ⟨hm, hc.board, hc.store⟩

theorem follow_range (cache : Bool) : ∀ (ms : List Msg) (s s' : Client), Client.follow cache s ms = .ok s' → All MsgHolds ms → BoardHolds s.board →
    (∀ x, CardHolds (s.store x)) → BoardHolds s'.board ∧ ∀ x, CardHolds (s'.store x)
  | [], s, s', h, _, hb, hs => by simp only [Client.follow, Except.ok.injEq] at h; exact h ▸ ⟨hb, hs⟩
  | m :: ms, s, s', h, hm, hb, hs => by
    have hm0 := hm m (by simp)
    have rest : ∀ {b st}, BoardHolds b → Client.answer cache b.frame.layout m.queries s.store = .ok st → Client.follow cache ⟨b, st⟩ ms = .ok s' →
        BoardHolds s'.board ∧ ∀ x, CardHolds (s'.store x) := fun hb h2 h3 =>
      follow_range cache ms _ _ h3 (fun x hx => hm x (by simp [hx])) hb (answer_range _ _ _ h2 hm0.queries hs)
    unfold Client.follow at h
    cases he : m.body with
    | event e =>
      simp only [Msg.event?, he, bind_eq_ok] at h
      obtain ⟨b, h1, st, h2, h3⟩ := h
      exact rest (event_range h1 hb (hm0.event e he)) h2 h3
    | _ =>
      simp only [Msg.event?, he, bind_eq_ok, pure_eq_ok, Except.ok.injEq] at h
      obtain ⟨b, rfl, st, h2, h3⟩ := h
      exact rest hb h2 h3

/-- **C87.** A client that is sent messages whose numbers their fields can hold, in any order and from anyone, only ever has numbers that
their types can hold. -/
theorem C87_client (cache : Bool) (ms : List Msg) (hm : ∀ m ∈ ms, MsgHolds m) (s : Client) (h : Client.follow cache .init ms = .ok s) :
    BoardHolds s.board ∧ ∀ x, CardHolds (s.store x) :=
  follow_range cache ms _ _ h hm init_range fun _ => newCard_range

/-- **C87.** In particular a client that follows the server, from any point on. -/
theorem C87_followed (cache : Bool) (ds : List (List UInt8)) (hn : ds.length ≤ 2 ^ 31) (rs : List Encoded) (c : BasicContext)
    (h : feed BasicContext.init ds = .ok (rs, c)) (i : Nat) (s : Client) (hs : Client.follow cache .init ((messages rs).drop i) = .ok s) :
    BoardHolds s.board ∧ ∀ x, CardHolds (s.store x) :=
  C87_client cache _ (fun m hm => (C87_server ds hn rs c h).1 m (List.mem_of_mem_drop hm)) s hs

/-- Drawing two cards off an empty deck: the position would be -2, what is sent wraps around. -/
example : (encodeOne BasicContext.init ([90, 0, 2, 0, 0, 0] ++ List.replicate 16 0)).toOption.map (fun x =>
    match x.1.msg.map (·.body) with
    | some (.event (.pile _ (.splice ops))) => ops.map fun o => (o.src.seq, o.count, o.dst.seq)
    | _ => []) = some [(4294967294, 2, 0)] := by decide +kernel

/-- Positions that no field can hold are told apart. -/
example : PlaceHolds ⟨0, Loc.mainDeck, 4294967294, -1⟩ ∧ ¬ PlaceHolds ⟨0, Loc.mainDeck, 4294967296, -1⟩ :=
  ⟨⟨by simp [I32], by simp [U32], by simp [U32], by simp [I32]⟩, fun h => by have := h.seq; simp [U32] at this⟩

example : ∃ rs c, someBuffers.length ≤ 2 ^ 31 ∧ feed BasicContext.init someBuffers = .ok (rs, c) ∧ (messages rs).length = 6 := by
  have h : (feed BasicContext.init someBuffers).toOption.map (fun x => (messages x.1).length) = some 6 := by decide +kernel
  cases hf : feed BasicContext.init someBuffers with
  | error e => rw [hf] at h; simp [Except.toOption] at h
  | ok x => rw [hf] at h; exact ⟨x.1, x.2, by decide, rfl, by simpa [Except.toOption] using h⟩

end Ygo.Props
