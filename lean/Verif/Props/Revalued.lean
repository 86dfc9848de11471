import Verif.Spec.Revalued
import Verif.Props.RecodedDesk

/-! C139: what values stand for is nobody's business. -/

set_option linter.unusedSimpArgs false

namespace Ygo.Props
open Ygo Ygo.Spec P EncodeContext

variable (φ : Revaluing)

section
variable {V : Type → Type} [Cell V] [Inside V] [InsideLaws V]

theorem revalued_setSingle (c : Card V) (g : QField) (v : V g.Val) :
    (c.revalued φ).setSingle g (Inside.map (φ.single g) v) = (c.setSingle g v).revalued φ := by
  simp only [Card.setSingle, Card.revalued, Card.mk.injEq, and_true]
  funext x
  by_cases h : x = g
  · subst h; simp
  · simp [h]

/-- Where nothing is looked up, or no two values become one. -/
theorem parseSingle_revalued {uc : Bool} (h : uc = false ∨ φ.Faithful) (d : QueryData) (g : QField) (hits : Nat) (c : Card V) :
    (c.revalued φ).parseSingle uc (d.revalued φ) g hits = (c.parseSingle uc d g hits).map fun x => (x.1, x.2.revalued φ) := by
  unfold Card.parseSingle
  rw [show (d.revalued φ).single g = (d.single g).map (φ.single g) from rfl]
  cases d.single g with
  | none => rfl
  | some v =>
    rcases h with rfl | h
    · simp only [Option.map_some, show (c.revalued φ).single g = Inside.map (φ.single g) (c.single g) from rfl, InsideLaws.set,
        revalued_setSingle, map_ok', Bool.false_eq_true, if_false]
    · have same : ∀ x y : g.Val, g.same (φ.single g x) (φ.single g y) = g.same x y := by
        intro x y
        rw [Bool.eq_iff_iff, QField.same_iff, QField.same_iff]
        exact ⟨h g x y, congrArg _⟩
      simp only [Option.map_some, show (c.revalued φ).single g = Inside.map (φ.single g) (c.single g) from rfl, InsideLaws.get, InsideLaws.set,
        revalued_setSingle, map_bind', bind_map', map_ite', same, pure_eq_ok, map_ok']

theorem parseSingles_revalued {uc : Bool} (h : uc = false ∨ φ.Faithful) (d : QueryData) (gs : List QField) (hits : Nat) (c : Card V) :
    Card.parseSingles uc (d.revalued φ) gs hits (c.revalued φ) = (Card.parseSingles uc d gs hits c).map fun x => (x.1, x.2.revalued φ) := by
  induction gs generalizing hits c with
  | nil => rfl
  | cons g gs ih => simp only [Card.parseSingles, parseSingle_revalued φ h, map_bind', bind_map', ih]

theorem parseData_revalued {uc : Bool} (h : uc = false ∨ φ.Faithful) (d : QueryData) (c : Card V) :
    Card.parseData uc (d.revalued φ) (c.revalued φ) = (Card.parseData uc d c).map fun x => (x.1, x.2.revalued φ) := by
  unfold Card.parseData
  simp only [parseSingles_revalued φ h, map_bind', bind_map', pure_eq_ok, map_ok', show (d.revalued φ).counters = d.counters.map φ.counters from rfl,
    show (d.revalued φ).targets = d.targets.map φ.targets from rfl]
  refine bind_congr' fun x => ?_
  cases d.counters <;> cases d.targets <;> simp only [Option.map_none, Option.map_some, Card.revalued, InsideLaws.set]

/-- **C139.** A query that tells other values makes a card show the other values, and reports the same values as unchanged, wherever the cards
are and however they hold their values, if no two values become one or nothing is looked up. -/
theorem C139_queries {uc : Bool} (h : uc = false ∨ φ.Faithful) (l : Layout) (st : CardId → Card V) (q : Query) :
    parseQuery uc l (fun x => (st x).revalued φ) (q.revalued φ) = (parseQuery uc l st q).map fun x => (x.1, fun y => (x.2 y).revalued φ) := by
  unfold parseQuery
  simp only [show (q.revalued φ).place = q.place from rfl, show (q.revalued φ).data = q.data.revalued φ from rfl, parseData_revalued φ h, map_bind',
    bind_map', pure_eq_ok, map_ok']
  refine bind_congr' fun _ => bind_congr' fun _ => bind_congr' fun c => bind_congr' fun x => ?_
  simp only [Except.ok.injEq, Prod.mk.injEq, true_and]
  funext y
  split <;> rfl

end

/-! ## Clients that do not go back -/

theorem setSingle_own (c : Card Plain) (g : QField) : c.setSingle g ⟨(c.single g).val⟩ = c := by
  obtain ⟨single, ts, cs⟩ := c
  simp only [Card.setSingle, Card.mk.injEq, and_true]
  funext x
  by_cases h : x = g
  · subst h; simp
  · simp [h]

/-- Only the reports depend on the cache. -/
theorem parseSingle_uncached (uc : Bool) (d : QueryData) (g : QField) (n k : Nat) (c : Card Plain) :
    (c.parseSingle uc d g n).map (·.2) = (c.parseSingle false d g k).map (·.2) := by
  unfold Card.parseSingle
  cases d.single g with
  | none => rfl
  | some v =>
    cases uc with
    | false => rfl
    | true =>
      show ((if g.same (c.single g).val v = true then (Except.ok (n ||| g.flag, c) : Res _) else
        Except.ok (n, c.setSingle g ⟨v⟩)).map (·.2)) = Except.ok (c.setSingle g ⟨v⟩)
      split
      · next h =>
        rw [QField.same_iff] at h
        subst h
        rw [setSingle_own]; rfl
      · rfl

theorem parseSingles_uncached (uc : Bool) (d : QueryData) (gs : List QField) (n k : Nat) (c : Card Plain) :
    (Card.parseSingles uc d gs n c).map (·.2) = (Card.parseSingles false d gs k c).map (·.2) := by
  induction gs generalizing n k c with
  | nil => rfl
  | cons g gs ih =>
    have h := parseSingle_uncached uc d g n k c
    simp only [Card.parseSingles]
    cases h1 : c.parseSingle uc d g n with
    | error e =>
      cases h2 : c.parseSingle false d g k with
      | error e' => rw [h1, h2] at h; cases h; rfl
      | ok x => rw [h1, h2] at h; cases h
    | ok x =>
      cases h2 : c.parseSingle false d g k with
      | error e' => rw [h1, h2] at h; cases h
      | ok y =>
        rw [h1, h2] at h
        obtain ⟨n', c1⟩ := x
        obtain ⟨k', c2⟩ := y
        simp only [map_ok', Except.ok.injEq] at h
        subst h
        exact ih n' k' c1

theorem parseData_uncached (uc : Bool) (d : QueryData) (c : Card Plain) :
    (c.parseData uc d).map (·.2) = (c.parseData false d).map (·.2) := by
  have h := parseSingles_uncached uc d QField.all 0 0 c
  unfold Card.parseData
  cases h1 : Card.parseSingles uc d QField.all 0 c with
  | error e =>
    cases h2 : Card.parseSingles false d QField.all 0 c with
    | error e' => rw [h1, h2] at h; cases h; rfl
    | ok x => rw [h1, h2] at h; cases h
  | ok x =>
    cases h2 : Card.parseSingles false d QField.all 0 c with
    | error e' => rw [h1, h2] at h; cases h
    | ok y =>
      rw [h1, h2] at h
      obtain ⟨n', c1⟩ := x
      obtain ⟨k', c2⟩ := y
      simp only [map_ok', Except.ok.injEq] at h
      subst h
      rfl

theorem parseQuery_uncached (uc : Bool) (l : Layout) (st : CardId → Card Plain) (q : Query) :
    (parseQuery uc l st q).map (·.2) = (parseQuery false l st q).map (·.2) := by
  unfold parseQuery
  simp only [bind_map', pure_eq_ok, map_ok']
  refine bind_congr' fun _ => bind_congr' fun _ => bind_congr' fun c => ?_
  have h := parseData_uncached uc q.data (st c)
  have e : ∀ x : Res (Nat × Card Plain), (x >>= fun a => Except.ok (fun y => if y = c then a.2 else st y)) =
      (x.map (·.2) >>= fun a => Except.ok (fun y => if y = c then a else st y)) := fun x => by rw [map_bind']
  rw [e, e, h]

theorem answer_uncached (uc : Bool) (l : Layout) (qs : List Query) (st : CardId → Card Plain) :
    Client.answer uc l qs st = Client.answer false l qs st := by
  induction qs generalizing st with
  | nil => rfl
  | cons q qs ih =>
    have e : ∀ x : Res (Nat × (CardId → Card Plain)), (x >>= fun a => Client.answer false l qs a.2) =
        (x.map (·.2) >>= fun a => Client.answer false l qs a) := fun x => by rw [map_bind']
    simp only [Client.answer, ih]
    rw [e, e, parseQuery_uncached]

theorem answer_revalued (uc : Bool) (l : Layout) (qs : List Query) (st : CardId → Card Plain) :
    Client.answer uc l (qs.map (Query.revalued φ)) (fun x => (st x).revalued φ) =
      (Client.answer uc l qs st).map fun st x => (st x).revalued φ := by
  rw [answer_uncached, answer_uncached uc]
  induction qs generalizing st with
  | nil => rfl
  | cons q qs ih => simp only [List.map_cons, Client.answer, C139_queries φ (.inl rfl), map_bind', bind_map', ih]

theorem event?_revalued (m : Msg) : Msg.event? (m.revalued φ) = Msg.event? m := rfl

/-- **C139.** A client that is told other values, whichever they are, gets on as before and shows the other values, whether or not it looks
values up first, and even if different values become one. -/
theorem C139_clients (cache : Bool) (ms : List Msg) (s : Client) :
    Client.follow cache (s.revalued φ) (ms.map (Msg.revalued φ)) = (Client.follow cache s ms).map (Client.revalued φ) := by
  induction ms generalizing s with
  | nil => rfl
  | cons m ms ih =>
    have hr : ∀ b : PlainBoard,
        (Client.answer cache b.frame.layout (m.queries.map (Query.revalued φ)) (fun x => (s.store x).revalued φ) >>= fun st =>
          Client.follow cache ⟨b, st⟩ (ms.map (Msg.revalued φ))) =
        (Client.answer cache b.frame.layout m.queries s.store >>= fun st => Client.follow cache ⟨b, st⟩ ms).map (Client.revalued φ) := by
      intro b
      rw [answer_revalued, map_bind', bind_map']
      exact bind_congr' fun st => ih ⟨b, st⟩
    simp only [List.map_cons, Client.follow, event?_revalued]
    cases Msg.event? m with
    | none => exact hr s.board
    | some e =>
      show (s.board.parseEvent e >>= _) = (s.board.parseEvent e >>= _).map _
      rw [bind_map']
      exact bind_congr' fun b => hr b

theorem newCard_revalued (h : φ.KeepsNew) : BasicContext.newCard.revalued φ = BasicContext.newCard := by
  simp only [BasicContext.newCard, Card.revalued, Inside.map, Card.mk.injEq, h.single, h.targets, h.counters, and_self]

/-- **C139.** A client that begins with the duel and is told other values shows the other values, wherever the cards are; the values of new
cards must stay. -/
theorem C139_screens (h : φ.KeepsNew) (cache : Bool) (ms : List Msg) (s : Client) (hs : Client.follow cache Client.init ms = .ok s) :
    ∃ s', Client.follow cache Client.init (ms.map (Msg.revalued φ)) = .ok s' ∧ s'.board = s.board ∧
      ∀ C, s'.screen C = (s.screen C).map (Card.revalued φ) := by
  have e := C139_clients φ cache ms Client.init
  have e0 : Client.init.revalued φ = Client.init := by
    simp only [Client.revalued, Client.init, newCard_revalued φ h]
  rw [e0, hs] at e
  refine ⟨s.revalued φ, e, rfl, fun C => ?_⟩
  rw [Client.screen, Client.screen, List.map_map]
  rfl

/-! ## Servers -/

theorem parseQueries_revalued (l : Layout) (qs : List Query) (st : CardId → Card Plain) :
    BasicContext.parseQueries l (qs.map (Query.revalued φ)) (fun x => (st x).revalued φ) =
      (BasicContext.parseQueries l qs st).map fun st y => (st y).revalued φ := by
  induction qs generalizing st with
  | nil => rfl
  | cons q qs ih => simp only [List.map_cons, BasicContext.parseQueries, C139_queries φ (.inl rfl), map_bind', bind_map', ih]

theorem move_storeless (c : BasicContext) (a b : Place) (r : Nat) :
    moveOutcome (c.revalued φ) a b r = (moveOutcome c a b r).map fun x => (x.1, x.2.revalued φ) := by
  have hx : ∀ p, EncodeContext.hasXyzMat (c.revalued φ) p = EncodeContext.hasXyzMat c p := fun p => rfl
  have hl : ∀ p, EncodeContext.getXyzLeft (c.revalued φ) p = EncodeContext.getXyzLeft c p := fun p => rfl
  unfold moveOutcome
  rw [hx, hl]
  split
  · rfl
  split
  · rfl
  split
  · split
    · rfl
    · cases EncodeContext.hasXyzMat c a with
      | error e => rfl
      | ok h => cases h <;> rfl
  split
  · rfl
  split
  · rfl
  split
  · cases EncodeContext.getXyzLeft c { a with oseq := OSEQ_INVALID } <;> rfl
  · split
    · cases EncodeContext.hasXyzMat c a with
      | error e => rfl
      | ok h => cases h <;> rfl
    · rfl

theorem case_storeless (c : BasicContext) (k : Kind) (s : List UInt8) :
    encodeCase (c.revalued φ) k s = (encodeCase c k s).map fun x => ((x.1.1, x.1.2.revalued φ), x.2) := by
  have hk : ∀ (p : P Outcome) (q : P Outcome), p = q → (p >>= fun o => (pure (o, c.revalued φ) : P (Outcome × BasicContext))) s =
      ((q >>= fun o => (pure (o, c) : P (Outcome × BasicContext))) s).map fun x => ((x.1.1, x.1.2.revalued φ), x.2) := by
    rintro p _ rfl
    rw [bind_run, bind_run]
    cases p s <;> rfl
  unfold encodeCase
  cases eventCase k with
  | some p => exact hk p p rfl
  | none =>
    cases queryCase k with
    | some p => exact hk p p rfl
    | none =>
      cases requestCase k with
      | some f =>
        simp only [bind_run]
        cases readCon s with
        | error e => rfl
        | ok x => cases hx : f x.1 x.2 <;> simp only [hx] <;> rfl
      | none =>
        cases swallowedCase k with
        | some p => simp only [bind_run]; cases p s <;> rfl
        | none =>
          cases k <;> first | rfl | skip
          case win => exact hk (winEvent (c.revalued φ)) (winEvent c) rfl
          case deckTop => exact hk (deckTopEvent (c.revalued φ)) (deckTopEvent c) rfl
          case draw => exact hk (drawEvent (c.revalued φ)) (drawEvent c) rfl
          case swapGraveDeck => exact hk (swapGraveDeckEvent (c.revalued φ)) (swapGraveDeckEvent c) rfl
          case matchKill =>
            show (P.read 4 >>= fun r => (pure _ : P _)) s = Except.map _ ((P.read 4 >>= fun r => (pure _ : P _)) s)
            rw [bind_run, bind_run]
            cases P.read 4 s <;> rfl
          case move =>
            show (P.skip 4 >>= fun _ => _) s = Except.map _ ((P.skip 4 >>= fun _ => _) s)
            simp only [bind_run]
            cases P.skip 4 s with
            | error e => rfl
            | ok x =>
              simp only
              cases readLocInfo x.2 with
              | error e => rfl
              | ok y =>
                simp only
                cases readLocInfo y.2 with
                | error e => rfl
                | ok z =>
                  simp only
                  cases P.read 4 z.2 with
                  | error e => rfl
                  | ok w =>
                    simp only [P.lift, move_storeless]
                    cases moveOutcome c y.1 z.1 w.1 <;> rfl

theorem encode_storeless (c : BasicContext) (d : List UInt8) :
    encodeOne (c.revalued φ) d = (encodeOne c d).map fun x => (x.1, x.2.revalued φ) := by
  have h : encodeBody (c.revalued φ) d = (encodeBody c d).map fun x => ((x.1.1, x.1.2.revalued φ), x.2) := by
    unfold encodeBody
    rw [bind_run, bind_run]
    cases P.read 1 d with
    | error e => rfl
    | ok x =>
      obtain ⟨n, s⟩ := x
      simp only
      cases Kind.ofByte n with
      | none => rfl
      | some k => exact case_storeless φ c k s
  unfold encodeOne
  rw [h]
  cases encodeBody c d <;> rfl


/-- **C139.** A server does not look at the values of cards when it translates what the core says, whatever bytes these are, and tracks other
values as it tracks these. -/
theorem C139_server (c : BasicContext) :
    (∀ d, encodeOne (c.revalued φ) d = (encodeOne c d).map fun x => (x.1, x.2.revalued φ)) ∧
    ∀ m, (c.revalued φ).parse (m.revalued φ) = (c.parse m).map (BasicContext.revalued φ) := by
  refine ⟨encode_storeless φ c, fun m => ?_⟩
  obtain ⟨body, qs⟩ := m
  have hr : ∀ b : PlainBoard,
      (BasicContext.parseQueries b.frame.layout (qs.map (Query.revalued φ)) (c.revalued φ).store >>= fun st =>
          Except.ok ({ c.revalued φ with board := b, store := st } : BasicContext)) =
        (BasicContext.parseQueries b.frame.layout qs c.store >>= fun st =>
          Except.ok ({ c with board := b, store := st } : BasicContext)).map (BasicContext.revalued φ) := by
    intro b
    show (BasicContext.parseQueries b.frame.layout (qs.map (Query.revalued φ)) (fun x => (c.store x).revalued φ) >>= _) = _
    rw [parseQueries_revalued, map_bind', bind_map']
    rfl
  cases body with
  | event e =>
    show (c.board.parseEvent e >>= _) = (c.board.parseEvent e >>= _).map _
    rw [bind_map']
    exact bind_congr' fun b => hr b
  | _ => exact hr c.board

/-! ## Clients that go back and forth -/

theorem takeSingles_revalued (report : Nat) (d : QueryData) (gs : List QField) (c : Card Undoable) :
    takeSingles report (d.revalued φ) gs (c.revalued φ) = (takeSingles report d gs c).map (Card.revalued φ) := by
  induction gs generalizing c with
  | nil => rfl
  | cons g gs ih =>
    have e : ((d.revalued φ).single g).isSome = (d.single g).isSome := by simp [QueryData.revalued]
    simp only [takeSingles, e]
    split
    · rw [show (c.revalued φ).single g = Inside.map (φ.single g) (c.single g) from rfl, Undoable.map_undo]
      cases hu : (c.single g).undo with
      | error x => rfl
      | ok v =>
        show takeSingles report (d.revalued φ) gs ((c.revalued φ).setSingle g (Inside.map (φ.single g) v)) = _
        rw [revalued_setSingle, ih]
        rfl
    · exact ih c

theorem takeList_map {α : Type} (g : α → α) (b : Bool) (u : Undoable α) :
    takeList b (Inside.map g u) = (takeList b u).map (Inside.map g) := by
  cases b
  · rfl
  · exact Undoable.map_undo g u

theorem takeData_revalued (report : Nat) (d : QueryData) (c : Card Undoable) :
    takeData report (d.revalued φ) (c.revalued φ) = (takeData report d c).map (Card.revalued φ) := by
  have e1 : (d.revalued φ).counters.isSome = d.counters.isSome := by simp [QueryData.revalued]
  have e2 : (d.revalued φ).targets.isSome = d.targets.isSome := by simp [QueryData.revalued]
  unfold takeData
  rw [takeSingles_revalued]
  simp only [e1, e2, Card.revalued, takeList_map, map_bind', bind_map', pure_eq_ok, map_ok']

theorem deskParse_revalued (h : φ.Faithful) (k : Desk) (n : Note) :
    (k.revalued φ).parse (n.revalued φ) = (k.parse n).map fun x => (x.1, x.2.revalued φ) := by
  cases n with
  | event e =>
    show (k.board.parseEvent e >>= _) = Except.map _ (k.board.parseEvent e >>= _)
    cases k.board.parseEvent e <;> rfl
  | query c q =>
    simp only [Desk.parse, Note.revalued, Desk.revalued, C139_queries φ (.inr h)]
    cases parseQuery c k.board.frame.base.layout k.store q <;> rfl

theorem deskUndo_revalued (k : Desk) (r : Nat) (n : Note) : (k.revalued φ).undo r (n.revalued φ) = (k.undo r n).map (Desk.revalued φ) := by
  cases n with
  | event e =>
    show (k.board.undoParseEvent e >>= _) = Except.map _ (k.board.undoParseEvent e >>= _)
    cases k.board.undoParseEvent e <;> rfl
  | query c q =>
    show (k.board.frame.base.layout.card q.place >>= _) = Except.map _ (k.board.frame.base.layout.card q.place >>= _)
    cases k.board.frame.base.layout.card q.place with
    | error x => rfl
    | ok y =>
      show (takeData r (q.data.revalued φ) ((k.store y).revalued φ) >>= _) = Except.map _ (takeData r q.data (k.store y) >>= _)
      rw [takeData_revalued]
      cases takeData r q.data (k.store y) with
      | error x => rfl
      | ok z =>
        show Except.ok _ = Except.ok _
        simp only [Desk.revalued, Except.ok.injEq, Desk.mk.injEq, true_and]
        funext x
        split <;> rfl

/-- **C139.** A client that goes back and forth, in any way and from any state, keeps the same reports and shows the other values at every
position, if no two values become one. -/
theorem C139_desks (h : φ.Faithful) (ns : List Note) (k : Desk) (reports : List Nat) (ms : List Move) :
    Desk.scrub (ns.map (Note.revalued φ)) (k.revalued φ) reports ms = (Desk.scrub ns k reports ms).map fun x => (x.1.revalued φ, x.2) := by
  induction ms generalizing k reports with
  | nil => rfl
  | cons m ms ih =>
    cases m with
    | forward =>
      simp only [Desk.scrub, List.getElem?_map]
      cases ns[reports.length]? with
      | none => exact ih k reports
      | some n =>
        simp only [Option.map_some, deskParse_revalued φ h]
        cases k.parse n with
        | error x => rfl
        | ok x => exact ih x.2 (x.1 :: reports)
    | backward =>
      cases reports with
      | nil => exact ih k []
      | cons r rs =>
        simp only [Desk.scrub, List.getElem?_map]
        cases ns[rs.length]? with
        | none => exact ih k (r :: rs)
        | some n =>
          simp only [Option.map_some, deskUndo_revalued]
          cases k.undo r n with
          | error x => rfl
          | ok x => exact ih x rs

/-- **C139 (exactly when).** The same values are reported as unchanged, for all cards and queries, exactly if no two values become one. -/
theorem C139_reports_exactly :
    (∀ (c : Card Plain) (d : QueryData), ((c.revalued φ).parseData true (d.revalued φ)).map (·.1) = (c.parseData true d).map (·.1)) ↔
      φ.Faithful := by
  constructor
  · intro h g x y hxy
    let c : Card Plain := BasicContext.newCard.setSingle g ⟨x⟩
    let d : QueryData := QueryData.empty.setSingle g y
    have hd : d.single g = some y := by simp [d, QueryData.setSingle]
    have hc : (c.single g) = ⟨x⟩ := by simp [c, Card.setSingle]
    obtain ⟨⟨n, c1⟩, e1⟩ := Card.parseData_returns (useCache := true) (d := d) (c := c) fun f => ⟨_, rfl⟩
    obtain ⟨⟨k, c2⟩, e2⟩ := Card.parseData_returns (useCache := true) (d := d.revalued φ) (c := c.revalued φ) fun f => ⟨_, rfl⟩
    have hn := h c d
    rw [e1, e2] at hn
    simp only [map_ok', Except.ok.injEq] at hn
    subst hn
    have a1 := (Card.parseData_spec e1).2.2.2 (flagBit g)
    have a2 := (Card.parseData_spec e2).2.2.2 (flagBit g)
    have hit : Card.Hit true (d.revalued φ) (c.revalued φ) g := by
      refine ⟨rfl, φ.single g y, by simp [QueryData.revalued, hd], ?_⟩
      simp only [Card.revalued, hc, Inside.map, Cell.get, hxy]
    obtain ⟨f, hf, hh⟩ := a1.1 (a2.2 ⟨g, rfl, hit⟩)
    cases C31_bits_differ f g hf
    obtain ⟨-, v, hv, hg⟩ := hh
    rw [hd] at hv
    cases hv
    rw [hc] at hg
    simpa [Cell.get] using hg
  · intro h c d
    rw [parseData_revalued φ (.inr h), map_map']

/-! ## Examples -/

/-- Attack values are doubled, counters forgotten. -/
def doubled : Revaluing where
  single
    | .atk, v => (2 * v : Int)
    | _, v => v
  targets ts := ts
  counters _ := []

example : doubled.KeepsNew := ⟨fun g => by cases g <;> rfl, rfl, rfl⟩

example : doubled.Faithful := by
  intro g x y h
  cases g <;> first | exact h | skip
  have key : ∀ a b : Int, 2 * a = 2 * b → a = b := fun a b e => by omega
  exact key x y h

/-- What a client shows of the hand of `tenDrawn` when it is told other values: codes and attack values. -/
def handRevalued (φ : Revaluing) : Option (List (Nat × Int)) :=
  (feed BasicContext.init ((tenDrawn.take 3).map (·.bytes))).toOption.bind fun x =>
    (Client.follow true Client.init ((messages x.1).map (Msg.revalued φ))).toOption.map fun s =>
      (s.screen (.pile ⟨0, .hand⟩)).map fun y => ((y.single .code).val, (y.single .atk).val)

example : handRevalued doubled = some [(10, 20), (20, 0)] := by decide +kernel

/-- All codes become one. -/
def blurred : Revaluing where
  single
    | .code, _ => (0 : Nat)
    | _, v => v
  targets ts := ts
  counters cs := cs

example : blurred.KeepsNew ∧ ¬ blurred.Faithful :=
  ⟨⟨fun g => by cases g <;> rfl, rfl, rfl⟩, fun h => absurd (h .code (1 : Nat) (2 : Nat) rfl) (by decide)⟩

example : handRevalued blurred = some [(0, 10), (0, 0)] := by decide +kernel

end Ygo.Props
