import Verif.Spec.Blind
import Verif.Props.Encode
import Verif.Props.System

namespace Ygo.Props
open Ygo Ygo.Spec P

set_option linter.unusedSimpArgs false

/-! ## Messages without codes -/

@[simp] theorem anonymous_length {α : Type} (cs : List (UInt32 × α)) : (anonymous cs).length = cs.length := by simp [anonymous]

theorem blinded_item {i j : QueryItem} (h : i.blinded = some j) : j.bytes.length = i.bytes.length ∧ (i.Fits → j.Fits) := by
  cases i <;> simp only [QueryItem.blinded, reduceCtorEq, Option.some.injEq] at h
  subst h
  have e : ∀ cs : List UInt32, (list32 b32 cs).length = 4 + 4 * cs.length := fun cs => by
    have : (cs.flatMap b32).length = 4 * cs.length := by
      induction cs with
      | nil => rfl
      | cons c cs ih => simp only [List.flatMap_cons, List.length_append, ih, List.length_cons]; simp [b32, le]; omega
    simp only [list32, List.length_append, this]; simp [le]
  simp [QueryItem.bytes, QueryItem.Fits, QueryItem.payload, e]

theorem blinded_items (is : List QueryItem) : ((is.filterMap QueryItem.blinded).flatMap (·.bytes)).length ≤ (is.flatMap (·.bytes)).length := by
  induction is with
  | nil => simp
  | cons i is ih =>
    rw [List.filterMap_cons]
    cases h : i.blinded with
    | none => simp only [List.flatMap_cons, List.length_append]; omega
    | some j => simp only [List.flatMap_cons, List.length_append, (blinded_item h).1]; omega

theorem blinded_slots (ss : List (Option (List QueryItem))) :
    ((ss.map fun s => s.map fun is => is.filterMap QueryItem.blinded).flatMap QueryItem.slotBytes).length ≤
      (ss.flatMap QueryItem.slotBytes).length := by
  induction ss with
  | nil => simp
  | cons s ss ih =>
    simp only [List.map_cons, List.flatMap_cons, List.length_append]
    cases s with
    | none => simp only [Option.map_none, QueryItem.slotBytes]; omega
    | some is =>
      have := blinded_items is
      simp only [Option.map_some, QueryItem.slotBytes, QueryItem.blob, List.length_append]; omega

theorem blinded_fits (m : CoreMsg) (h : m.Fits) : m.blinded.Fits := by
  cases m <;> simp only [CoreMsg.blinded, CoreMsg.Fits, anonymous_length, List.length_map] at h ⊢ <;> try exact h
  case updateData c l ss =>
    refine ⟨Nat.lt_of_le_of_lt (blinded_slots ss) h.1, fun is hi i hm => ?_⟩
    obtain ⟨s, hs, he⟩ := List.mem_map.mp hi
    cases s with
    | none => simp at he
    | some js =>
      simp only [Option.map_some, Option.some.injEq] at he
      subst he
      obtain ⟨j, hj, hij⟩ := List.mem_filterMap.mp hm
      exact (blinded_item hij).2 (h.2 js hs j hj)
  case updateCard l is =>
    intro i hm
    obtain ⟨j, hj, hij⟩ := List.mem_filterMap.mp hm
    exact (blinded_item hij).2 (h j hj)

theorem blinded_overlays (is : List QueryItem) :
    QueryItem.last QueryItem.overlays (is.filterMap QueryItem.blinded) = (QueryItem.last QueryItem.overlays is).map fun cs => cs.map fun _ => 0 := by
  unfold QueryItem.last
  rw [← List.filterMap_reverse]
  induction is.reverse with
  | nil => rfl
  | cons i is ih =>
    cases i <;> simp_all [QueryItem.blinded, QueryItem.overlays, List.filterMap_cons, List.findSome?_cons]

/-- Where the cards of queries are. -/
def blindQueries (qs : List Query) : List Query := qs.map fun q => ⟨q.place, .empty⟩

theorem blinded_queries (p : Place) (is : List QueryItem) :
    blindQueries (QueryItem.queries p (is.filterMap QueryItem.blinded)) = blindQueries (QueryItem.queries p is) := by
  simp only [blindQueries, QueryItem.queries, QueryItem.materials, blinded_overlays, List.map_cons, List.cons.injEq, true_and]
  cases QueryItem.last QueryItem.overlays is with
  | none => rfl
  | some cs =>
    apply List.ext_getElem
    · simp
    · intro i h h'; simp

/-- What a message says, without the codes. -/
def blindMeaning : CoreMsg.Meaning → CoreMsg.Meaning
  | .request p r => .request p (blindRequest r)
  | .queries qs => .queries (blindQueries qs)
  | x => x

theorem blindMeaning_msg (x : CoreMsg.Meaning) : (blindMeaning x).msg = x.msg.map blindMsg := by
  cases x <;> rfl

theorem blindMeaning_state (x : CoreMsg.Meaning) : (blindMeaning x).state = x.state := by
  cases x <;> rfl

theorem blinded_meaning (m : CoreMsg) : m.blinded.meaning.map blindMeaning = m.meaning.map blindMeaning := by
  cases m <;> simp [CoreMsg.blinded, CoreMsg.meaning, blindMeaning, anonymous, blindRequest, blindCards, Function.comp_def,
    Activable.blinded, Activable.card, Link.chain]
  case updateData c l ss =>
    simp only [blindQueries, List.map_flatten]
    congr 1
    apply List.ext_getElem
    · simp
    · intro i h h'
      simp only [List.getElem_map, List.getElem_mapIdx]
      cases ss[i]'(by simpa using h) with
      | none => rfl
      | some is => exact blinded_queries _ is
  case updateCard l is => exact blinded_queries _ is
  case selectCard p c mn mx cs =>
    cases cs with
    | nil => rfl
    | cons x xs =>
      simp only [List.head?_cons, Option.map_some, Option.any_some]
      by_cases h : x.2.loc = 0 <;> simp [h, Function.comp_def]

/-- A message that shows no cards says the same about all cards. -/
theorem blinded_same (m : CoreMsg) (h : ¬ m.ShowsCards) : m.blinded.meaning = m.meaning := by
  cases m <;> simp [CoreMsg.ShowsCards] at h <;>
    simp [CoreMsg.blinded, CoreMsg.meaning, anonymous, Function.comp_def, Activable.blinded, Activable.card, Link.chain]

theorem shows_blinded (m : CoreMsg) : m.blinded.ShowsCards ↔ m.ShowsCards := by
  cases m <;> simp [CoreMsg.blinded, CoreMsg.ShowsCards]

section
variable {C : Type} [EncodeContext C]

theorem blinded_context (c : C) (m : CoreMsg) : m.blinded.inContext c = m.inContext c := by
  cases m <;> simp [CoreMsg.blinded, CoreMsg.inContext]

theorem encode_move (c : C) (code : UInt32) (a b : LocInfo) (r : UInt32) (more : List UInt8) :
    encodeOne c ((CoreMsg.move code a b r).bytes ++ more) =
      (moveOutcome c a.place b.place r.toNat).map fun x => (⟨x.1.state, (CoreMsg.move code a b r).bytes.length, x.1.msg⟩, x.2) := by
  unfold encodeOne
  rw [body_move]
  cases moveOutcome c a.place b.place r.toNat with
  | error e => rfl
  | ok x => simp [Except.map]

/-- Results without the number of bytes. -/
def outcome (x : Encoded × C) : (EncodeState × Option Msg) × C := ((x.1.state, x.1.msg), x.2)

/-- What the server makes of a message that shows no cards is the same whatever the cards are. -/
theorem same_outcome (c : C) (m : CoreMsg) (hf : m.Fits) (h : ¬ m.ShowsCards) (more : List UInt8) :
    (encodeOne c (m.blinded.bytes ++ more)).map outcome = (encodeOne c (m.bytes ++ more)).map outcome := by
  have hf' := blinded_fits m hf
  cases hm : m.meaning with
  | some x =>
    rw [C34_translation c m hf x hm, C34_translation c m.blinded hf' x ((blinded_same m h).trans hm)]
    rfl
  | none =>
    cases hx : m.inContext c with
    | some x =>
      rw [C34_translation_in_context c m hf x hx, C34_translation_in_context c m.blinded hf' x ((blinded_context c m).trans hx)]
      cases x with
      | error e => rfl
      | ok x => rfl
    | none =>
      cases m <;> simp [CoreMsg.meaning] at hm <;> simp [CoreMsg.inContext] at hx
      case swapGraveDeck => rfl
      case move code a b r =>
        show (encodeOne c ((CoreMsg.move 0 a b r).bytes ++ more)).map outcome = _
        rw [encode_move, encode_move]
        cases moveOutcome c a.place b.place r.toNat <;> rfl

theorem blind_outcome (c : C) (m : CoreMsg) (hf : m.Fits) (more : List UInt8) :
    (encodeOne c (m.blinded.bytes ++ more)).map (fun x => (blindResult x.1, x.2)) =
      (encodeOne c (m.bytes ++ more)).map fun x => (blindResult x.1, x.2) := by
  cases hm : m.meaning with
  | some x =>
    have h := blinded_meaning m
    rw [hm, Option.map_some] at h
    cases hb : m.blinded.meaning with
    | none => rw [hb] at h; cases h
    | some y =>
      rw [hb, Option.map_some, Option.some.injEq] at h
      rw [C34_translation c m hf x hm, C34_translation c m.blinded (blinded_fits m hf) y hb]
      simp only [Except.map, blindResult, Except.ok.injEq, Prod.mk.injEq, and_true]
      rw [← blindMeaning_msg, ← blindMeaning_msg, ← blindMeaning_state x, ← blindMeaning_state y, h]
      exact ⟨rfl, rfl⟩
  | none =>
    have h : ¬ m.ShowsCards := by cases m <;> simp [CoreMsg.meaning] at hm <;> simp [CoreMsg.ShowsCards]
    have hs := same_outcome c m hf h more
    have := congrArg (fun z => z.map fun (x : (EncodeState × Option Msg) × C) => ((x.1.1, x.1.2.map blindMsg), x.2)) hs
    cases e : encodeOne c (m.blinded.bytes ++ more) <;> cases e' : encodeOne c (m.bytes ++ more) <;> rw [e, e'] at this <;>
      simpa [Except.map, outcome, blindResult] using this

end

/-! ## The duel without what is known about the cards -/

theorem move_table (c : BasicContext) (a b : Place) (r : Nat) :
    moveOutcome (onTheTable c) a b r = (moveOutcome c a b r).map fun x => (x.1, onTheTable x.2) := by
  have hx : ∀ p, EncodeContext.hasXyzMat (onTheTable c) p = EncodeContext.hasXyzMat c p := fun p => rfl
  have hl : ∀ p, EncodeContext.getXyzLeft (onTheTable c) p = EncodeContext.getXyzLeft c p := fun p => rfl
  unfold moveOutcome
  rw [hx, hl]
  split
  · rfl
  split
  · rfl
  split
  · split
    · rfl
    · cases EncodeContext.hasXyzMat c a with
      | error e => rfl
      | ok h => cases h <;> rfl
  split
  · rfl
  split
  · rfl
  split
  · cases EncodeContext.getXyzLeft c { a with oseq := OSEQ_INVALID } <;> rfl
  · split
    · cases EncodeContext.hasXyzMat c a with
      | error e => rfl
      | ok h => cases h <;> rfl
    · rfl

theorem case_table (c : BasicContext) (k : Kind) (s : List UInt8) :
    encodeCase (onTheTable c) k s = (encodeCase c k s).map fun x => ((x.1.1, onTheTable x.1.2), x.2) := by
  have hk : ∀ (p : P Outcome) (q : P Outcome), p = q → (p >>= fun o => (pure (o, onTheTable c) : P (Outcome × BasicContext))) s =
      ((q >>= fun o => (pure (o, c) : P (Outcome × BasicContext))) s).map fun x => ((x.1.1, onTheTable x.1.2), x.2) := by
    rintro p _ rfl
    rw [bind_run, bind_run]
    cases p s <;> rfl
  unfold encodeCase
  cases eventCase k with
  | some p => exact hk p p rfl
  | none =>
    cases queryCase k with
    | some p => exact hk p p rfl
    | none =>
      cases requestCase k with
      | some f =>
        simp only [bind_run]
        cases readCon s with
        | error e => rfl
        | ok x => cases hx : f x.1 x.2 <;> simp only [hx] <;> rfl
      | none =>
        cases swallowedCase k with
        | some p => simp only [bind_run]; cases p s <;> rfl
        | none =>
          cases k <;> first | rfl | skip
          case win => exact hk (winEvent (onTheTable c)) (winEvent c) rfl
          case deckTop => exact hk (deckTopEvent (onTheTable c)) (deckTopEvent c) rfl
          case draw => exact hk (drawEvent (onTheTable c)) (drawEvent c) rfl
          case swapGraveDeck => exact hk (swapGraveDeckEvent (onTheTable c)) (swapGraveDeckEvent c) rfl
          case matchKill =>
            show (P.read 4 >>= fun r => (pure _ : P _)) s = Except.map _ ((P.read 4 >>= fun r => (pure _ : P _)) s)
            rw [bind_run, bind_run]
            cases P.read 4 s <;> rfl
          case move =>
            show (P.skip 4 >>= fun _ => _) s = Except.map _ ((P.skip 4 >>= fun _ => _) s)
            simp only [bind_run]
            cases P.skip 4 s with
            | error e => rfl
            | ok x =>
              simp only
              cases readLocInfo x.2 with
              | error e => rfl
              | ok y =>
                simp only
                cases readLocInfo y.2 with
                | error e => rfl
                | ok z =>
                  simp only
                  cases P.read 4 z.2 with
                  | error e => rfl
                  | ok w =>
                    simp only [P.lift, move_table]
                    cases moveOutcome c y.1 z.1 w.1 <;> rfl

theorem encode_table (c : BasicContext) (d : List UInt8) :
    encodeOne (onTheTable c) d = (encodeOne c d).map fun x => (x.1, onTheTable x.2) := by
  have h : encodeBody (onTheTable c) d = (encodeBody c d).map fun x => ((x.1.1, onTheTable x.1.2), x.2) := by
    unfold encodeBody
    rw [bind_run, bind_run]
    cases P.read 1 d with
    | error e => rfl
    | ok x =>
      obtain ⟨n, s⟩ := x
      simp only
      cases Kind.ofByte n with
      | none => rfl
      | some k => exact case_table c k s
  unfold encodeOne
  rw [h]
  cases encodeBody c d <;> rfl

/-- Whether there is a card at each of the places. -/
def found (l : Layout) : List Place → Res Unit
  | [] => .ok ()
  | p :: ps => do
    massert ((← l.hasCard p) = true)
    let _ ← l.card p
    found l ps

theorem queries_found (l : Layout) (qs : List Query) (st : CardId → Card Plain) :
    (BasicContext.parseQueries l qs st).map (fun _ => ()) = found l (qs.map (·.place)) := by
  induction qs generalizing st with
  | nil => rfl
  | cons q qs ih =>
    simp only [BasicContext.parseQueries, parseQuery, found, List.map_cons]
    cases l.hasCard q.place with
    | error e => rfl
    | ok b =>
      simp only [bind_ok]
      cases massert (b = true) with
      | error e => rfl
      | ok u =>
        simp only [bind_ok]
        cases l.card q.place with
        | error e => rfl
        | ok x =>
          simp only [bind_ok]
          obtain ⟨⟨h, y⟩, e⟩ := Card.parseData_returns (useCache := false) (d := q.data) (c := st x) (fun f => ⟨_, rfl⟩)
          rw [e]
          exact ih _

theorem parse_table {c c' : BasicContext} (h : onTheTable c = onTheTable c') {m m' : Msg} (hm : blindMsg m = blindMsg m') :
    (c.parse m).map onTheTable = (c'.parse m').map onTheTable := by
  obtain ⟨bo, st, mw, le, de⟩ := c
  obtain ⟨bo', st', mw', le', de'⟩ := c'
  obtain ⟨body, qs⟩ := m
  obtain ⟨body', qs'⟩ := m'
  simp only [onTheTable, BasicContext.mk.injEq, true_and] at h
  obtain ⟨rfl, rfl, rfl, rfl⟩ := h
  simp only [blindMsg, Msg.mk.injEq] at hm
  have hp : qs.map (·.place) = qs'.map (·.place) := by
    have := congrArg (List.map (·.place)) hm.2
    simpa [Function.comp_def] using this
  have rest : ∀ b : PlainBoard, (BasicContext.parseQueries b.frame.layout qs st >>= fun store =>
        (pure ⟨b, store, mw, le, de⟩ : Res BasicContext)).map onTheTable =
      (BasicContext.parseQueries b.frame.layout qs' st' >>= fun store => (pure ⟨b, store, mw, le, de⟩ : Res BasicContext)).map onTheTable := by
    intro b
    have h1 := queries_found b.frame.layout qs st
    have h2 := queries_found b.frame.layout qs' st'
    rw [hp, ← h2] at h1
    cases e1 : BasicContext.parseQueries b.frame.layout qs st <;> cases e2 : BasicContext.parseQueries b.frame.layout qs' st' <;>
      rw [e1, e2] at h1 <;> simp [Except.map] at h1
    · subst h1; rfl
    · rfl
  replace hm := hm.1
  cases body <;> cases body' <;> simp only [reduceCtorEq, MsgBody.event.injEq] at hm
  case event.event e e' =>
    subst hm
    simp only [BasicContext.parse]
    cases DuelBoard.parseEvent bo e with
    | error x => rfl
    | ok b => exact rest b
  all_goals exact rest bo

/-- Two messages about different cards, from the same table, leave the same table and are the same except for the cards. -/
theorem step_blind {c c' : BasicContext} (h : onTheTable c = onTheTable c') {m m' : CoreMsg} (hf : m.Fits) (hf' : m'.Fits)
    (hm : m.blinded = m'.blinded) (more : List UInt8) :
    (encodeOne c (m.bytes ++ more)).map (fun x => (blindResult x.1, onTheTable x.2)) =
      (encodeOne c' (m'.bytes ++ more)).map fun x => (blindResult x.1, onTheTable x.2) := by
  have key : ∀ (c : BasicContext) (m : CoreMsg), m.Fits → (encodeOne c (m.bytes ++ more)).map (fun x => (blindResult x.1, onTheTable x.2)) =
      (encodeOne (onTheTable c) (m.blinded.bytes ++ more)).map fun x => (blindResult x.1, x.2) := by
    intro c m hf
    rw [blind_outcome _ m hf, encode_table]
    cases encodeOne c (m.bytes ++ more) <;> rfl
  rw [key c m hf, key c' m' hf', h, hm]

theorem feed_blind : ∀ (ms ms' : List CoreMsg) (_ : ∀ m ∈ ms, m.Fits) (_ : ∀ m ∈ ms', m.Fits)
    (_ : ms.map CoreMsg.blinded = ms'.map CoreMsg.blinded) (c c' : BasicContext) (_ : onTheTable c = onTheTable c'),
    (feed c (ms.map (·.bytes))).map blindDuel = (feed c' (ms'.map (·.bytes))).map blindDuel
  | [], [], _, _, _, c, c', h => by simp [feed, Except.map, blindDuel, h]
  | [], _ :: _, _, _, hm, _, _, _ => by simp at hm
  | _ :: _, [], _, _, hm, _, _, _ => by simp at hm
  | m :: ms, m' :: ms', hf, hf', hm, c, c', h => by
    simp only [List.map_cons, List.cons.injEq] at hm
    have h1 := step_blind h (hf m (by simp)) (hf' m' (by simp)) hm.1 []
    rw [List.append_nil, List.append_nil] at h1
    simp only [List.map_cons, feed]
    cases e1 : encodeOne c m.bytes <;> cases e2 : encodeOne c' m'.bytes <;> rw [e1, e2] at h1 <;> simp [Except.map] at h1
    · subst h1; rfl
    case ok.ok x y =>
      obtain ⟨r, c1⟩ := x
      obtain ⟨r', c1'⟩ := y
      simp only [bind_ok]
      obtain ⟨hr, hc⟩ := h1
      have rest : ∀ c2 c2', onTheTable c2 = onTheTable c2' →
          (feed c2 (ms.map (·.bytes)) >>= fun x => (pure (r :: x.1, x.2) : Res _)).map blindDuel =
            (feed c2' (ms'.map (·.bytes)) >>= fun x => (pure (r' :: x.1, x.2) : Res _)).map blindDuel := by
        intro c2 c2' h2
        have ih := feed_blind ms ms' (fun m hm => hf m (by simp [hm])) (fun m hm => hf' m (by simp [hm])) hm.2 c2 c2' h2
        cases e3 : feed c2 (ms.map (·.bytes)) <;> cases e4 : feed c2' (ms'.map (·.bytes)) <;> rw [e3, e4] at ih <;>
          simp [Except.map, blindDuel] at ih
        · subst ih; rfl
        · simp only [bind_ok, pure_eq_ok, Except.map, blindDuel, List.map_cons, ih.1, ih.2, show blindResult r = blindResult r' from hr]
      have hr2 : r.msg.map blindMsg = r'.msg.map blindMsg := congrArg Prod.snd hr
      cases q : r.msg <;> cases q' : r'.msg <;> rw [q, q'] at hr2 <;> simp at hr2
      · exact rest _ _ hc
      case some.some x y =>
        have h2 := parse_table hc hr2
        simp only at h2
        cases e3 : c1.parse x <;> cases e4 : c1'.parse y <;> rw [e3, e4] at h2 <;> simp [Except.map] at h2 <;> simp only [e3, e4]
        · subst h2; rfl
        · exact rest _ _ h2

/-! ## The property -/

/-- **C103.** What the server makes of a message that shows nobody a card is the same whatever cards it is about: the same event or
question to the same player, the same failures, and the same is tracked. -/
theorem C103_same {C : Type} [EncodeContext C] (c : C) (m m' : CoreMsg) (hf : m.Fits) (hf' : m'.Fits) (h : m.blinded = m'.blinded)
    (hs : ¬ m.ShowsCards) (more : List UInt8) :
    (encodeOne c (m.bytes ++ more)).map (fun x => (x.1.state, x.1.msg, x.2)) =
      (encodeOne c (m'.bytes ++ more)).map fun x => (x.1.state, x.1.msg, x.2) := by
  have hs' : ¬ m'.ShowsCards := fun hx => hs ((shows_blinded m).mp (by rw [h]; exact (shows_blinded m').mpr hx))
  have e := (same_outcome c m hf hs more).symm.trans ((congrArg (fun x => (encodeOne c (x.bytes ++ more)).map outcome) h).trans
    (same_outcome c m' hf' hs' more))
  cases e1 : encodeOne c (m.bytes ++ more) <;> cases e2 : encodeOne c (m'.bytes ++ more) <;> rw [e1, e2] at e <;>
    simp [Except.map, outcome] at e ⊢
  · exact e
  · exact ⟨e.1.1, e.1.2, e.2⟩

/-- **C103.** What it makes of any message is the same except for codes in questions and for what queries say: these ask the same player
the same, and are about the cards at the same places. -/
theorem C103_same_but_cards {C : Type} [EncodeContext C] (c : C) (m m' : CoreMsg) (hf : m.Fits) (hf' : m'.Fits)
    (h : m.blinded = m'.blinded) (more : List UInt8) :
    (encodeOne c (m.bytes ++ more)).map (fun x => (blindResult x.1, x.2)) =
      (encodeOne c (m'.bytes ++ more)).map fun x => (blindResult x.1, x.2) :=
  (blind_outcome c m hf more).symm.trans ((congrArg (fun x => (encodeOne c (x.bytes ++ more)).map fun x => (blindResult x.1, x.2)) h).trans
    (blind_outcome c m' hf' more))

/-- **C103.** So a whole duel is the same, whatever cards are played in it: the same events, the same questions to the same players except
for codes, news about the same places, and the same board. If the server fails, it fails in the same way. -/
theorem C103_duel (ms ms' : List CoreMsg) (hf : ∀ m ∈ ms, m.Fits) (hf' : ∀ m ∈ ms', m.Fits)
    (h : ms.map CoreMsg.blinded = ms'.map CoreMsg.blinded) :
    (feed BasicContext.init (ms.map (·.bytes))).map blindDuel = (feed BasicContext.init (ms'.map (·.bytes))).map blindDuel :=
  feed_blind ms ms' hf hf' h _ _ rfl

theorem events_blind {rs rs' : List Encoded} (h : rs.map blindResult = rs'.map blindResult) : events rs = events rs' := by
  have key : ∀ rs : List Encoded, events rs = ((rs.map blindResult).filterMap (·.2)).filterMap Msg.event? := by
    intro rs
    induction rs with
    | nil => rfl
    | cons r rs ih =>
      simp only [events, messages, List.map_cons, List.filterMap_cons, blindResult] at ih ⊢
      cases hr : r.msg with
      | none => simpa using ih
      | some m =>
        obtain ⟨body, qs⟩ := m
        cases body <;> simp [blindMsg, Msg.event?, List.filterMap_cons] <;> simpa using ih
  rw [key rs, key rs', h]

/-- **C103.** Whoever is only told the events of a duel, and whoever only sees the board, cannot tell one card from another. -/
theorem C103_events (ms ms' : List CoreMsg) (hf : ∀ m ∈ ms, m.Fits) (hf' : ∀ m ∈ ms', m.Fits)
    (h : ms.map CoreMsg.blinded = ms'.map CoreMsg.blinded) (rs : List Encoded) (c : BasicContext)
    (hd : feed BasicContext.init (ms.map (·.bytes)) = .ok (rs, c)) :
    ∃ rs' c', feed BasicContext.init (ms'.map (·.bytes)) = .ok (rs', c') ∧ events rs' = events rs ∧ c'.board = c.board := by
  have e := C103_duel ms ms' hf hf' h
  rw [hd] at e
  cases e' : feed BasicContext.init (ms'.map (·.bytes)) with
  | error x => rw [e'] at e; cases e
  | ok x =>
    obtain ⟨rs', c'⟩ := x
    rw [e'] at e
    simp only [Except.map, Except.ok.injEq, blindDuel, Prod.mk.injEq] at e
    exact ⟨rs', c', rfl, (events_blind e.1).symm, (congrArg BasicContext.board e.2).symm⟩

/-! ### The other messages do show cards -/

private def here : LocInfo := ⟨0, 4, 0, 0⟩
private def there : CardLoc := ⟨0, 4, 0⟩

/-- Every other message about card 1, and the same about card 2. -/
def shown (code : UInt32) : List CoreMsg :=
  [.updateData 0 4 [some [.code code]], .updateCard ⟨0, 4, 0⟩ [.code code], .selectEffectyn 0 code here 0,
   .selectCard 0 0 1 1 [(code, here)], .selectPosition 0 code 1, .selectTribute 0 0 1 1 [(code, there, 1)],
   .selectUnselectCard 0 0 0 1 1 [(code, here)] []]

/-- The codes in a message of the server. -/
def codesIn (m : Msg) : List Nat :=
  m.queries.filterMap (fun q => q.data.single .code) ++ match m.body with
    | .request _ (.selectCard (.limbo _ _ _ cs)) => cs
    | .request _ (.selectCard (.recursive _ _ _ _ ss ds)) => (ss ++ ds).map (·.code)
    | .request _ (.selectCard (.uniqueRange _ _ _ cs)) => cs.map (·.code)
    | .request _ (.selectCard (.uniqueTributes _ _ _ cs)) => cs.map (·.code)
    | .request _ (.selectPosition _ c _) => [c]
    | .request _ (.selectYesNo _ c _) => [c]
    | _ => []

/-- **C103.** The condition is needed: each of the other kinds of messages can show the code of a card. -/
theorem C103_shown : (∀ m ∈ shown 1, m.Fits ∧ m.ShowsCards) ∧ (shown 1).map CoreMsg.blinded = (shown 2).map CoreMsg.blinded ∧
    ∀ n ∈ [1, 2], ∀ m ∈ shown (UInt32.ofNat n), ∃ r c, encodeOne BasicContext.init m.bytes = .ok (r, c) ∧ (r.msg.map codesIn) = some [n] := by
  refine ⟨?_, rfl, ?_⟩
  · intro m hm
    simp only [shown, List.mem_cons, List.not_mem_nil, or_false] at hm
    rcases hm with rfl | rfl | rfl | rfl | rfl | rfl | rfl <;>
      simp [CoreMsg.Fits, CoreMsg.ShowsCards, QueryItem.Fits, QueryItem.slotBytes, QueryItem.blob, QueryItem.bytes, QueryItem.payload, b32, le]
  · have h : ∀ n ∈ [1, 2], ∀ m ∈ shown (UInt32.ofNat n),
        (encodeOne BasicContext.init m.bytes).toOption.bind (fun x => x.1.msg.map codesIn) = some [n] := by decide +kernel
    intro n hn m hm
    have := h n hn m hm
    cases e : encodeOne BasicContext.init m.bytes with
    | error x => rw [e] at this; cases this
    | ok x => rw [e] at this; exact ⟨x.1, x.2, rfl, this⟩

/-- Two duels with other cards: a deck of three, a hand of one card that is shown to its player, and put onto the field face down. -/
def aDuel (a b : UInt32) : List CoreMsg :=
  [.start 5 8000 8000 3 0 3 0, .draw 0 [(a, 0), (b, 0)], .updateData 0 2 [some [.code a, .attack a], some [.code b]],
   .move a ⟨0, 2, 0, 0⟩ ⟨0, 4, 2, 8⟩ 0x80, .set a ⟨0, 4, 2⟩ 8, .selectPosition 0 b 5, .hint 3 0 a.toUInt64]

/-- They meet the conditions, and the server follows them; the news differ. -/
example : (aDuel 1 2).map CoreMsg.blinded = (aDuel 30 40).map CoreMsg.blinded ∧ (∀ m ∈ aDuel 1 2, m.Fits) := by
  refine ⟨rfl, ?_⟩
  intro m hm
  simp only [aDuel, List.mem_cons, List.not_mem_nil, or_false] at hm
  rcases hm with rfl | rfl | rfl | rfl | rfl | rfl | rfl <;>
    simp [CoreMsg.Fits, QueryItem.Fits, QueryItem.slotBytes, QueryItem.blob, QueryItem.bytes, QueryItem.payload, b32, le]

example : ∀ x ∈ [((1, 2), [[], [1, 2], [], [], [2]]), ((30, 40), [[], [30, 40], [], [], [40]])],
    (feed BasicContext.init ((aDuel (UInt32.ofNat x.1.1) (UInt32.ofNat x.1.2)).map (·.bytes))).toOption.map
      (fun y => ((messages y.1).map codesIn, (events y.1).length)) = some ([] :: x.2, 4) := by decide +kernel

end Ygo.Props
