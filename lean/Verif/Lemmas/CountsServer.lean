import Verif.Lemmas.Counts
import Verif.Lemmas.Wire
import Verif.Lemmas.Query
import Verif.Props.System
import Verif.Props.ReleaseServer

/-!
# Servers only count
-/

set_option linter.unusedSimpArgs false

namespace Ygo
open Ygo.Spec P EncodeContext Ygo.Props

/-- The same notes with another board. -/
def BasicContext.on (b : PlainBoard) (st : CardId → Card Plain) (c : BasicContext) : BasicContext := { c with board := b, store := st }

/-- The same reader, with something done to its result. -/
def Follows {α β : Type} (f : α → β) (p : P α) (q : P β) : Prop := ∀ s, q s = (p s).map fun x => (f x.1, x.2)

namespace Follows
variable {α β γ : Type}

theorem pure (f : α → β) (a : α) : Follows f (Pure.pure a) (Pure.pure (f a)) := fun _ => rfl
theorem bind {f : β → γ} {p : P α} {g : α → P β} {h : α → P γ} (hg : ∀ a, Follows f (g a) (h a)) : Follows f (p >>= g) (p >>= h) := by
  intro s
  rw [bind_run, bind_run]
  cases p s with
  | error e => rfl
  | ok x => exact hg x.1 x.2
theorem lift {f : α → β} {x : Res α} {y : Res β} (h : y = x.map f) : Follows f (P.lift x) (P.lift y) := by
  intro s; subst h; cases x <;> rfl
theorem of_eq {f : α → β} {p : P α} {q q' : P β} (h : q' = q) (hp : Follows f p q) : Follows f p q' := h ▸ hp

end Follows

section
variable {c : BasicContext} {b : PlainBoard} {st : CardId → Card Plain}
variable (hp : ∀ con loc, pileSize (c.on b st) con loc = pileSize c con loc) (hx : ∀ p, hasXyzMat (c.on b st) p = hasXyzMat c p)

/-- The context next to an outcome. -/
def BasicContext.outcomeOn (b : PlainBoard) (st : CardId → Card Plain) (x : Outcome × BasicContext) : Outcome × BasicContext := (x.1, x.2.on b st)

include hx in
theorem moveOutcome_on (p q : Place) (r : Nat) : moveOutcome (c.on b st) p q r = (moveOutcome c p q r).map (BasicContext.outcomeOn b st) := by
  unfold moveOutcome
  simp only [hx]
  split
  · rfl
  split
  · rfl
  split
  · split
    · rfl
    · cases hasXyzMat c p with
      | error e => rfl
      | ok v => cases v <;> rfl
  split
  · rfl
  split
  · rfl
  split
  · show (orUb (c.left _) >>= _) = _
    show _ = Except.map _ (orUb (c.left _) >>= _)
    cases c.left { p with oseq := OSEQ_INVALID } <;> rfl
  · split
    · cases hasXyzMat c p with
      | error e => rfl
      | ok v => cases v <;> rfl
    · rfl

include hp hx in
theorem encodeCase_on (k : Kind) : Follows (BasicContext.outcomeOn b st) (encodeCase c k) (encodeCase (c.on b st) k) := by
  have keep : ∀ {p : P Outcome}, Follows (BasicContext.outcomeOn b st) (p >>= fun o => Pure.pure (o, c)) (p >>= fun o => Pure.pure (o, c.on b st)) :=
    Follows.bind fun o => Follows.pure _ (o, c)
  unfold encodeCase
  cases h1 : eventCase k with
  | some p => exact keep
  | none =>
  cases h2 : queryCase k with
  | some p => exact keep
  | none =>
  cases h3 : requestCase k with
  | some p => exact Follows.bind fun o => Follows.bind fun r => Follows.pure (BasicContext.outcomeOn b st) (_, c)
  | none =>
  cases h4 : swallowedCase k with
  | some p => exact Follows.bind fun o => Follows.pure (BasicContext.outcomeOn b st) (_, c)
  | none =>
  cases k <;> simp only [contextCase]
  case win => exact keep
  case deckTop => exact Follows.of_eq (by simp only [deckTopEvent, hp]) keep
  case move => exact Follows.bind fun _ => Follows.bind fun _ => Follows.bind fun _ => Follows.bind fun _ => Follows.lift (moveOutcome_on hx _ _ _)
  case swapGraveDeck => exact Follows.of_eq (by simp only [swapGraveDeckEvent, hp]) keep
  case draw => exact Follows.of_eq (by simp only [drawEvent, hp]) keep
  case reverseDeck => exact Follows.of_eq (by simp only [reverseDeckEvent, hp]) keep
  case matchKill => exact Follows.bind fun r => Follows.pure (BasicContext.outcomeOn b st) (.swallowed, EncodeContext.matchWinReason c r)
  all_goals exact Follows.pure (BasicContext.outcomeOn b st) (_, c)

include hp hx in
theorem encodeOne_on (d : List UInt8) : encodeOne (c.on b st) d = (encodeOne c d).map fun x => (x.1, x.2.on b st) := by
  have hb : Follows (BasicContext.outcomeOn b st) (encodeBody c) (encodeBody (c.on b st)) := by
    unfold encodeBody
    refine Follows.bind fun x => ?_
    cases Kind.ofByte x with
    | none => exact Follows.pure (BasicContext.outcomeOn b st) (_, c)
    | some k => exact encodeCase_on hp hx k
  unfold encodeOne
  rw [hb d]
  cases encodeBody c d <;> rfl

end

/-! ## Together -/

namespace Spec.Together
variable {α β γ δ : Type} {R : α → β → Prop} {S : γ → δ → Prop}

theorem bind {x : Res α} {y : Res β} {f : α → Res γ} {g : β → Res δ} (h : Together R x y)
    (hf : ∀ a b, x = .ok a → y = .ok b → R a b → Together S (f a) (g b)) : Together S (x >>= f) (y >>= g) := by
  cases x <;> cases y <;> first | exact h | exact absurd h id | exact hf _ _ rfl rfl h

theorem mono {R' : α → β → Prop} {x : Res α} {y : Res β} (h : Together R x y) (hr : ∀ a b, x = .ok a → y = .ok b → R a b → R' a b) : Together R' x y := by
  cases x <;> cases y <;> first | exact h | exact absurd h id | exact hr _ _ rfl rfl h

theorem of_map {f : α → γ} {g : β → γ} {x : Res α} {y : Res β} (h : x.map f = y.map g) : Together (fun a b => f a = g b) x y := by
  cases x <;> cases y <;> simp_all [Except.map, Together]

end Spec.Together

/-! ## Boards -/

namespace DuelBoard
variable {F : Type} {V : Type → Type} [FrameLike F] [Cell V]

/-- Without knowing who has the turn and which zones are blocked. -/
def forget (t : V Int) (z : V (List Place)) (b : DuelBoard F V) : DuelBoard F V := { b with turnController := t, blockedZones := z }

theorem parseEvent_forget (t : V Int) (z : V (List Place)) (b : DuelBoard F V) (e : Event) :
    ((b.forget t z).parseEvent e).map (forget t z) = (b.parseEvent e).map (forget t z) := by
  have on : ∀ (b : DuelBoard F V) ops, ((b.forget t z).onFrame ops).map (forget t z) = (b.onFrame ops).map (forget t z) := by
    intro b ops
    simp only [onFrame, forget, bind_map', pure_eq_ok, map_ok']
  cases e with
  | board x =>
    cases x with
    | unset => rfl
    | exchange x => exact on _ _
    | state s =>
      simp only [parseEvent, parseState]
      match hl : s.lps with
      | [] => rfl
      | [x] => rfl
      | x :: y :: r =>
        simp only [List.getElem?_cons_zero, List.getElem?_cons_succ, orUb, bind_ok]
        refine Eq.trans ?_ (on _ _)
        by_cases ht : 0 ≤ s.turnCounter <;> simp only [ht, if_true, if_false] <;> rfl
  | card r x => exact on _ _
  | chainStack x =>
    cases x with
    | unset => rfl
    | push c =>
      simp only [parseEvent, bind_map', pure_eq_ok, map_ok']
      rfl
    | pop n =>
      simp only [parseEvent, bind_map', pure_eq_ok, map_ok']
      rfl
  | nextTurn con =>
    simp only [parseEvent, bind_map', pure_eq_ok, map_ok']
    rfl
  | lp con c =>
    simp only [parseEvent, bind_map', pure_eq_ok, map_ok']
    rfl
  | nextPhase p => rfl
  | pile r x => exact on _ _
  | zoneBlock zs => rfl
  | finish f => rfl
  | metaInfo x => rfl
  | result x => rfl
  | unset => rfl

end DuelBoard

/-- What is left of a board when one only counts. -/
def PlainBoard.counted (b : PlainBoard) : DuelBoard CountFrame Plain := (b.withFrame Frame.counted).forget ⟨0⟩ ⟨[]⟩

theorem counted_iff {b b' : PlainBoard} : b.counted = b'.counted ↔ CountsAlike b b' := by
  obtain ⟨⟨l, _, _⟩, _, _, _, _, _, _⟩ := b
  obtain ⟨⟨l', _, _⟩, _, _, _, _, _, _⟩ := b'
  constructor
  · intro h
    simp only [PlainBoard.counted, DuelBoard.withFrame, DuelBoard.forget, Frame.counted, DuelBoard.mk.injEq, CountFrame.mk.injEq] at h
    exact ⟨blank_iff.mp h.1, h.2.1, h.2.2.1, h.2.2.2.2.1, h.2.2.2.2.2.1⟩
  · rintro ⟨h1, h2, h3, h4, h5⟩
    simp only [PlainBoard.counted, DuelBoard.withFrame, DuelBoard.forget, Frame.counted, DuelBoard.mk.injEq, CountFrame.mk.injEq]
    exact ⟨blank_iff.mpr h1, h2, h3, trivial, h4, h5, trivial⟩

theorem parseEvent_counted {b : PlainBoard} (hi : Inv b.frame) (e : Event) :
    (b.counted.parseEvent e).map (DuelBoard.forget ⟨0⟩ ⟨[]⟩) = (b.parseEvent e).map PlainBoard.counted := by
  rw [PlainBoard.counted, DuelBoard.parseEvent_forget, DuelBoard.parseEvent_with fun _ => runOps_counted hi, map_map']
  rfl

theorem parseEvent_together {b b' : PlainBoard} (hi : Inv b.frame) (hi' : Inv b'.frame) (h : CountsAlike b b') (e : Event) :
    Together CountsAlike (b.parseEvent e) (b'.parseEvent e) := by
  have := parseEvent_counted hi e
  rw [counted_iff.mpr h, parseEvent_counted hi' e] at this
  exact (Together.of_map this.symm).mono fun _ _ _ _ => counted_iff.mp

/-! ## Queries -/

theorem _root_.Ygo.Spec.SameCounts.hasCard {l l' : Layout} (h : SameCounts l l') (p : Place) : l.hasCard p = l'.hasCard p := by
  have e : ∀ l : Layout, l.blank.hasCard p = l.hasCard p := fun l => Rename.hasCard_map ..
  rw [← e l, blank_iff.mpr h, e l']

theorem _root_.Ygo.Spec.SameCounts.card {l l' : Layout} (h : SameCounts l l') (p : Place) : Together (fun _ _ => True) (l.card p) (l'.card p) := by
  have e : ∀ l : Layout, l.blank.card p = (l.card p).map fun _ => 0 := fun l => by rw [← mapRes_eq]; exact Rename.layout_card ..
  have := e l
  rw [blank_iff.mpr h, e l'] at this
  exact (Together.of_map this.symm).mono fun _ _ _ _ _ => trivial

theorem parseQuery_together {l l' : Layout} (h : SameCounts l l') (cache cache' : Bool) (st st' : CardId → Card Plain) (q : Query) :
    Together (fun _ _ => True) (parseQuery cache l st q) (parseQuery cache' l' st' q) := by
  simp only [parseQuery, h.hasCard]
  refine Together.bind (R := fun a b => a = b) ?_ ?_
  · cases l'.hasCard q.place <;> rfl
  rintro a b ha hb rfl
  refine Together.bind (R := fun _ _ => True) ?_ ?_
  · cases massert (a = true) <;> first | rfl | trivial
  rintro _ _ _ _ _
  refine (h.card q.place).bind fun x y _ _ _ => ?_
  obtain ⟨z, hz⟩ := Card.parseData_returns (useCache := cache) (d := q.data) (c := st x) fun f => ⟨_, rfl⟩
  obtain ⟨z', hz'⟩ := Card.parseData_returns (useCache := cache') (d := q.data) (c := st' y) fun f => ⟨_, rfl⟩
  rw [hz, hz']
  trivial

theorem answer_together {l l' : Layout} (h : SameCounts l l') (cache cache' : Bool) (qs : List Query) (st st' : CardId → Card Plain) :
    Together (fun _ _ => True) (Client.answer cache l qs st) (Client.answer cache' l' qs st') := by
  induction qs generalizing st st' with
  | nil => trivial
  | cons q qs ih => exact (parseQuery_together h cache cache' st st' q).bind fun _ _ _ _ _ => ih _ _

theorem parseQueries_together {l l' : Layout} (h : SameCounts l l') (qs : List Query) (st st' : CardId → Card Plain) :
    Together (fun _ _ => True) (BasicContext.parseQueries l qs st) (BasicContext.parseQueries l' qs st') := by
  induction qs generalizing st st' with
  | nil => trivial
  | cons q qs ih => exact (parseQuery_together h false false st st' q).bind fun _ _ _ _ _ => ih _ _

/-! ## Servers -/

theorem _root_.Ygo.Spec.ServersAlike.on {c c' : BasicContext} (h : ServersAlike c c') : c' = c.on c'.board c'.store := by
  obtain ⟨_, h1, h2, h3⟩ := h
  obtain ⟨_, _, _, _, _⟩ := c
  obtain ⟨_, _, _, _, _⟩ := c'
  cases h1; cases h2; cases h3
  rfl

theorem _root_.Ygo.Spec.SameCounts.pile {l l' : Layout} (h : SameCounts l l') (k : PileKey) : (l.pile k).length = (l'.pile k).length := h (.pile k)
theorem _root_.Ygo.Spec.SameCounts.mats {l l' : Layout} (h : SameCounts l l') (k : ZoneKey) : (l.zone k).materials.isEmpty = (l'.zone k).materials.isEmpty := by
  have := h (.mats k)
  simp only [view] at this
  rw [Bool.eq_iff_iff, List.isEmpty_iff_length_eq_zero, List.isEmpty_iff_length_eq_zero, this]

theorem encodeOne_together {c c' : BasicContext} (h : ServersAlike c c') (d : List UInt8) :
    Together (fun x y => x.1 = y.1 ∧ ServersAlike x.2 y.2 ∧ x.2.board = c.board ∧ y.2.board = c'.board) (encodeOne c d) (encodeOne c' d) := by
  have hp : ∀ con loc, pileSize (c.on c'.board c'.store) con loc = pileSize c con loc := by
    intro con loc
    simp only [pileSize, BasicContext.on]
    refine bind_congr' fun k => ?_
    rw [h.board.table.pile]
  have hx : ∀ p, hasXyzMat (c.on c'.board c'.store) p = hasXyzMat c p := by
    intro p
    simp only [hasXyzMat, BasicContext.on]
    refine bind_congr' fun k => ?_
    rw [h.board.table.mats]
  have := encodeOne_on hp hx d
  rw [← h.on] at this
  rw [this]
  cases he : encodeOne c d with
  | error e => rfl
  | ok x =>
    have hb := (encodeOne_same he).board
    exact ⟨rfl, ⟨hb ▸ h.board, rfl, rfl, rfl⟩, hb, rfl⟩

theorem parse_together {c c' : BasicContext} (hi : Inv c.board.frame) (hi' : Inv c'.board.frame) (h : ServersAlike c c') (m : Msg) :
    Together ServersAlike (c.parse m) (c'.parse m) := by
  have hq : ∀ b b', CountsAlike b b' → Together ServersAlike
      (BasicContext.parseQueries b.frame.layout m.queries c.store >>= fun st => Except.ok { c with board := b, store := st })
      (BasicContext.parseQueries b'.frame.layout m.queries c'.store >>= fun st => Except.ok { c' with board := b', store := st }) :=
    fun b b' hb => (parseQueries_together hb.table _ _ _).bind fun st st' _ _ _ => ⟨hb, h.reason, h.left, h.deferred⟩
  obtain ⟨body, qs⟩ := m
  cases body with
  | event e => exact (parseEvent_together hi hi' h.board e).bind fun b b' _ _ hb => hq b b' hb
  | unset => exact hq _ _ h.board
  | request p r => exact hq _ _ h.board

end Ygo
