import Verif.Spec.Recoded
import Verif.Lemmas.MirrorCore

/-!
# Duels with other cards
-/

namespace Ygo.Props
open Ygo Ygo.Spec P EncodeContext

set_option linter.unusedSimpArgs false

variable (f : Recoding)

theorem Recoding.number_toNat (v : UInt32) : f.number v.toNat = (f.of v).toNat := by
  unfold Recoding.number
  rw [if_pos v.toNat_lt, UInt32.ofNat_toNat]

theorem Recoding.number_zero : f.number 0 = 0 := by
  have := Recoding.number_toNat f 0
  rw [f.zero] at this
  exact this

theorem Recoding.number_injective : Function.Injective f.number := by
  intro a b h
  unfold Recoding.number at h
  have lt : ∀ v, (f.of v).toNat < 2 ^ 32 := fun v => (f.of v).toNat_lt
  have ha := lt (UInt32.ofNat a)
  have hb := lt (UInt32.ofNat b)
  split at h <;> split at h
  · next h1 h2 =>
    have := f.injective _ _ (UInt32.toNat_inj.mp h)
    have := congrArg UInt32.toNat this
    rw [UInt32.toNat_ofNat', UInt32.toNat_ofNat', Nat.mod_eq_of_lt h1, Nat.mod_eq_of_lt h2] at this
    exact this
  · omega
  · omega
  · exact h

theorem recodedVal_injective (g : QField) : Function.Injective (recodedVal f g) := by
  intro x y h
  cases g
  all_goals first
    | exact h
    | exact Recoding.number_injective f h

/-! ## Queries -/

section
variable {V : Type → Type} [Cell V] [Inside V] [InsideLaws V]

theorem recoded_setSingle (c : Card V) (g : QField) (v : V g.Val) :
    (c.recoded f).setSingle g (Inside.map (recodedVal f g) v) = (c.setSingle g v).recoded f := by
  simp only [Card.setSingle, Card.recoded, Card.mk.injEq, and_true]
  funext x
  by_cases h : x = g
  · subst h; simp
  · simp [h]

theorem same_recoded (g : QField) (x y : g.Val) : g.same (recodedVal f g x) (recodedVal f g y) = g.same x y := by
  rw [Bool.eq_iff_iff, QField.same_iff, QField.same_iff]
  exact (recodedVal_injective f g).eq_iff

theorem parseSingle_recoded (uc : Bool) (d : QueryData) (g : QField) (hits : Nat) (c : Card V) :
    (c.recoded f).parseSingle uc (d.recoded f) g hits = (c.parseSingle uc d g hits).map fun x => (x.1, x.2.recoded f) := by
  unfold Card.parseSingle
  rw [show (d.recoded f).single g = (d.single g).map (recodedVal f g) from rfl]
  cases d.single g with
  | none => rfl
  | some v =>
    simp only [Option.map_some, show (c.recoded f).single g = Inside.map (recodedVal f g) (c.single g) from rfl, InsideLaws.get, InsideLaws.set,
      recoded_setSingle, map_bind', bind_map', map_ite', same_recoded, pure_eq_ok, map_ok']

theorem parseSingles_recoded (uc : Bool) (d : QueryData) (gs : List QField) (hits : Nat) (c : Card V) :
    Card.parseSingles uc (d.recoded f) gs hits (c.recoded f) = (Card.parseSingles uc d gs hits c).map fun x => (x.1, x.2.recoded f) := by
  induction gs generalizing hits c with
  | nil => rfl
  | cons g gs ih => simp only [Card.parseSingles, parseSingle_recoded, map_bind', bind_map', ih]

theorem parseData_recoded (uc : Bool) (d : QueryData) (c : Card V) :
    Card.parseData uc (d.recoded f) (c.recoded f) = (Card.parseData uc d c).map fun x => (x.1, x.2.recoded f) := by
  unfold Card.parseData
  simp only [parseSingles_recoded, map_bind', bind_map', pure_eq_ok, map_ok', show (d.recoded f).counters = d.counters from rfl,
    show (d.recoded f).targets = d.targets from rfl]
  refine bind_congr' fun x => ?_
  cases d.counters <;> cases d.targets <;> rfl

theorem parseQuery_recoded (uc : Bool) (l : Layout) (st : CardId → Card V) (q : Query) :
    parseQuery uc l (fun x => (st x).recoded f) (q.recoded f) = (parseQuery uc l st q).map fun x => (x.1, fun y => (x.2 y).recoded f) := by
  unfold parseQuery
  simp only [show (q.recoded f).place = q.place from rfl, show (q.recoded f).data = q.data.recoded f from rfl, parseData_recoded, map_bind',
    bind_map', pure_eq_ok, map_ok']
  refine bind_congr' fun _ => bind_congr' fun _ => bind_congr' fun c => bind_congr' fun x => ?_
  simp only [Except.ok.injEq, Prod.mk.injEq, true_and]
  funext y
  split <;> rfl

end

theorem newCard_recoded : BasicContext.newCard.recoded f = BasicContext.newCard := by
  have h : ∀ g : QField, recodedVal f g g.zero = g.zero := by
    intro g
    cases g
    all_goals first
      | rfl
      | exact Recoding.number_zero f
  simp only [BasicContext.newCard, Card.recoded, Card.mk.injEq, and_true]
  funext g
  exact congrArg Plain.mk (h g)

theorem queries_of_server_recoded (l : Layout) (qs : List Query) (st : CardId → Card Plain) :
    BasicContext.parseQueries l (qs.map (Query.recoded f)) (fun x => (st x).recoded f) =
      (BasicContext.parseQueries l qs st).map fun st y => (st y).recoded f := by
  induction qs generalizing st with
  | nil => rfl
  | cons q qs ih => simp only [List.map_cons, BasicContext.parseQueries, parseQuery_recoded, map_bind', bind_map', ih]

theorem answer_recoded (cache : Bool) (l : Layout) (qs : List Query) (st : CardId → Card Plain) :
    Client.answer cache l (qs.map (Query.recoded f)) (fun x => (st x).recoded f) = (Client.answer cache l qs st).map fun st x => (st x).recoded f := by
  induction qs generalizing st with
  | nil => rfl
  | cons q qs ih => simp only [List.map_cons, Client.answer, parseQuery_recoded, map_bind', bind_map', ih]

theorem event?_recoded (m : Msg) : Msg.event? (m.recoded f) = Msg.event? m := by
  obtain ⟨body, qs⟩ := m
  cases body <;> rfl

theorem follow_recoded (cache : Bool) (ms : List Msg) (s : Client) :
    Client.follow cache (s.recoded f) (ms.map (Msg.recoded f)) = (Client.follow cache s ms).map (Client.recoded f) := by
  induction ms generalizing s with
  | nil => rfl
  | cons m ms ih =>
    have hr : ∀ b : PlainBoard,
        (Client.answer cache b.frame.layout (m.queries.map (Query.recoded f)) (fun x => (s.store x).recoded f) >>= fun st =>
          Client.follow cache ⟨b, st⟩ (ms.map (Msg.recoded f))) =
        (Client.answer cache b.frame.layout m.queries s.store >>= fun st => Client.follow cache ⟨b, st⟩ ms).map (Client.recoded f) := by
      intro b
      rw [answer_recoded, map_bind', bind_map']
      exact bind_congr' fun st => ih ⟨b, st⟩
    simp only [List.map_cons, Client.follow, event?_recoded]
    cases Msg.event? m with
    | none => exact hr s.board
    | some e =>
      show (s.board.parseEvent e >>= _) = (s.board.parseEvent e >>= _).map _
      rw [bind_map']
      exact bind_congr' fun b => hr b

theorem parse_recoded (c : BasicContext) (m : Msg) : (c.recoded f).parse (m.recoded f) = (c.parse m).map (BasicContext.recoded f) := by
  obtain ⟨body, qs⟩ := m
  have hr : ∀ b : PlainBoard,
      (BasicContext.parseQueries b.frame.layout (qs.map (Query.recoded f)) (c.recoded f).store >>= fun st =>
          Except.ok ({ c.recoded f with board := b, store := st } : BasicContext)) =
        (BasicContext.parseQueries b.frame.layout qs c.store >>= fun st =>
          Except.ok ({ c with board := b, store := st } : BasicContext)).map (BasicContext.recoded f) := by
    intro b
    show (BasicContext.parseQueries b.frame.layout (qs.map (Query.recoded f)) (fun x => (c.store x).recoded f) >>= _) = _
    rw [queries_of_server_recoded, map_bind', bind_map']
    rfl
  cases body with
  | event e =>
    show (c.board.parseEvent e >>= _) = (c.board.parseEvent e >>= _).map _
    rw [bind_map']
    exact bind_congr' fun b => hr b
  | _ => exact hr c.board

/-! ## Messages of the core -/

theorem flatMapLength_map {α : Type} (g : α → α) (b : α → List UInt8) (h : ∀ x, (b (g x)).length = (b x).length) (xs : List α) :
    ((xs.map g).flatMap b).length = (xs.flatMap b).length := by
  induction xs with
  | nil => rfl
  | cons x xs ih => simp only [List.map_cons, List.flatMap_cons, List.length_append, ih, h]

theorem list32Length_map {α : Type} (g : α → α) (b : α → List UInt8) (h : ∀ x, (b (g x)).length = (b x).length) (xs : List α) :
    (list32 b (xs.map g)).length = (list32 b xs).length := by
  simp only [list32, List.length_append, List.length_map, flatMapLength_map g b h]

theorem payload_recoded (i : QueryItem) : (i.recoded f).payload.length = i.payload.length := by
  cases i <;> first | rfl | skip
  case overlayCard cs => exact list32Length_map _ _ (fun x => by simp [b32, le]) cs
  all_goals simp [QueryItem.recoded, QueryItem.payload, b32, le]

theorem flag_recoded (i : QueryItem) : (i.recoded f).flag = i.flag := by cases i <;> rfl

theorem itemLength_recoded (i : QueryItem) : (i.recoded f).bytes.length = i.bytes.length := by
  simp only [QueryItem.bytes, List.length_append, payload_recoded, flag_recoded]

theorem itemFits_recoded (i : QueryItem) (h : i.Fits) : (i.recoded f).Fits := by
  unfold QueryItem.Fits at h ⊢
  rw [payload_recoded]
  cases i <;> exact h

theorem blobLength_recoded (is : List QueryItem) : (QueryItem.blob (is.map (QueryItem.recoded f))).length = (QueryItem.blob is).length := by
  simp only [QueryItem.blob, List.length_append, flatMapLength_map _ QueryItem.bytes (itemLength_recoded f)]

theorem slotsLength_recoded (ss : List (Option (List QueryItem))) :
    ((ss.map (Option.map (List.map (QueryItem.recoded f)))).flatMap QueryItem.slotBytes).length = (ss.flatMap QueryItem.slotBytes).length := by
  refine flatMapLength_map _ _ (fun s => ?_) ss
  cases s with
  | none => rfl
  | some is => simp only [Option.map_some, QueryItem.slotBytes, blobLength_recoded]

theorem value_recoded (g : QField) (i : QueryItem) : (i.recoded f).value g = (i.value g).map (recodedVal f g) := by
  cases i <;> cases g <;> first | rfl | exact congrArg some (Recoding.number_toNat f _).symm

theorem data_recoded (is : List QueryItem) : QueryItem.data (is.map (QueryItem.recoded f)) = (QueryItem.data is).recoded f := by
  unfold QueryItem.data QueryData.recoded
  congr 1
  · funext g
    exact last_map _ _ _ _ (value_recoded f g) is
  · have := allOf_map QueryItem.targets QueryItem.targets (QueryItem.recoded f) id
      (fun i => by cases i <;> simp [QueryItem.recoded, QueryItem.targets]) is
    rw [this]; simp
  · have := allOf_map QueryItem.counterList QueryItem.counterList (QueryItem.recoded f) id
      (fun i => by cases i <;> simp [QueryItem.recoded, QueryItem.counterList]) is
    rw [this]; simp

theorem overlays_recoded (is : List QueryItem) :
    QueryItem.last QueryItem.overlays (is.map (QueryItem.recoded f)) = (QueryItem.last QueryItem.overlays is).map (List.map f.number) :=
  last_map _ _ _ _ (fun i => by
    cases i <;> simp [QueryItem.recoded, QueryItem.overlays, Function.comp_def, Recoding.number_toNat]) is

theorem queries_recoded (p : Place) (is : List QueryItem) :
    QueryItem.queries p (is.map (QueryItem.recoded f)) = (QueryItem.queries p is).map (Query.recoded f) := by
  unfold QueryItem.queries QueryItem.materials
  rw [data_recoded, overlays_recoded, List.map_cons]
  congr 1
  have e : ((QueryItem.last QueryItem.overlays is).map (List.map f.number)).getD [] = ((QueryItem.last QueryItem.overlays is).getD []).map f.number := by
    cases QueryItem.last QueryItem.overlays is <;> rfl
  rw [e]
  apply List.ext_getElem
  · simp
  intro i h h'
  simp only [List.getElem_map, List.getElem_mapIdx]
  simp only [Query.recoded, Query.mk.injEq, true_and]
  simp only [QueryData.recoded, QueryData.setSingle, QueryData.mk.injEq, and_true]
  funext g
  by_cases h : g = .code
  · subst h; rfl
  · simp [h]

def recodedMeaning : CoreMsg.Meaning → CoreMsg.Meaning
  | .request p r => .request p (r.recoded f)
  | .queries qs => .queries (qs.map (Query.recoded f))
  | x => x

theorem recodedMeaning_msg (x : CoreMsg.Meaning) : (recodedMeaning f x).msg = x.msg.map (Msg.recoded f) := by
  cases x <;> rfl

theorem recodedMeaning_state (x : CoreMsg.Meaning) : (recodedMeaning f x).state = x.state := by
  cases x <;> rfl

theorem fits_recoded {m : CoreMsg} (h : m.Fits) : (m.recoded f).Fits := by
  cases m <;> simp only [CoreMsg.recoded, CoreMsg.Fits, recodedCards, List.length_map] at h ⊢ <;> try exact h
  case updateData c l ss =>
    refine ⟨by rw [slotsLength_recoded]; exact h.1, fun is hi i hm => ?_⟩
    obtain ⟨s, hs, he⟩ := List.mem_map.mp hi
    cases s with
    | none => simp at he
    | some js =>
      simp only [Option.map_some, Option.some.injEq] at he
      subst he
      obtain ⟨j, hj, rfl⟩ := List.mem_map.mp hm
      exact itemFits_recoded f j (h.2 js hs j hj)
  case updateCard l is =>
    intro i hm
    obtain ⟨j, hj, rfl⟩ := List.mem_map.mp hm
    exact itemFits_recoded f j (h j hj)

theorem meaning_recoded (m : CoreMsg) : (m.recoded f).meaning = m.meaning.map (recodedMeaning f) := by
  cases m <;> first | rfl | skip
  case updateData c l ss =>
    simp only [CoreMsg.recoded, CoreMsg.meaning, Option.map_some, recodedMeaning, List.map_flatten, Option.some.injEq, CoreMsg.Meaning.queries.injEq]
    congr 1
    apply List.ext_getElem
    · simp
    · intro i h h'
      simp only [List.getElem_map, List.getElem_mapIdx]
      cases ss[i]'(by simpa using h) with
      | none => rfl
      | some is => exact queries_recoded f _ is
  case updateCard l is => exact congrArg (fun x => some (CoreMsg.Meaning.queries x)) (queries_recoded f _ is)
  case selectCard p c mn mx cs =>
    have : Option.any (fun x : UInt32 × LocInfo => decide (x.2.loc = 0)) (Option.map (fun x => (f.of x.1, x.2)) cs.head?) =
        Option.any (fun x => decide (x.2.loc = 0)) cs.head? := by cases cs.head? <;> rfl
    simp only [CoreMsg.recoded, CoreMsg.meaning, recodedCards, List.head?_map, this]
    split <;> simp [recodedMeaning, Request.recoded, SelectCard.recoded, SelectableCard.recoded, Function.comp_def, Recoding.number_toNat]
  all_goals
    simp [CoreMsg.recoded, CoreMsg.meaning, recodedMeaning, recodedCards, Request.recoded, SelectCard.recoded, SelectableCard.recoded, Function.comp_def,
      Activable.recoded, Activable.card, Link.recoded, Link.chain, Recoding.number_toNat, Recoding.number_zero]

theorem length_recoded (m : CoreMsg) : (m.recoded f).bytes.length = m.bytes.length := by
  have le32 : ∀ x, (b32 x).length = 4 := fun x => by simp [b32, le]
  cases m <;> simp only [CoreMsg.recoded, recodedCards] <;> simp only [CoreMsg.bytes, List.length_append, le32, Link.bytes, Link.recoded]
  all_goals try rfl
  case updateData c l ss => rw [slotsLength_recoded]
  case updateCard l is => rw [blobLength_recoded]
  case tagSwap =>
    rw [flatMapLength_map _ CoreMsg.pair32 (fun x => by simp [CoreMsg.pair32, le32]), flatMapLength_map _ CoreMsg.pair32 (fun x => by simp [CoreMsg.pair32, le32]),
      List.length_map, List.length_map]
  all_goals
    repeat rw [list32Length_map _ _ (fun x => by
      first
      | (simp only [le32]; done)
      | (simp only [Activable.bytes, Activable.recoded, Link.bytes, Link.recoded, CoreMsg.withCode, CoreMsg.pair32, List.length_append, le32]; done))]

section
variable {C : Type} [EncodeContext C]

theorem inContext_recoded (c : C) (m : CoreMsg) : (m.recoded f).inContext c = m.inContext c := by
  cases m <;> simp [CoreMsg.recoded, CoreMsg.inContext, recodedCards]

/-- An outcome with no codes in it. -/
def Codeless (m : Option Msg) : Prop := m.map (Msg.recoded f) = m

theorem inContext_codeless {c c' : C} {m : CoreMsg} {x : CoreMsg.Meaning} (h : m.inContext c = some (.ok (x, c'))) : Codeless f x.msg := by
  cases m <;> simp only [CoreMsg.inContext, reduceCtorEq, Option.some.injEq] at h
  case matchKill => cases h; rfl
  all_goals
    simp only [bind_eq_ok, pure_eq_ok, Except.ok.injEq, Prod.mk.injEq] at h
  case win => obtain ⟨_, _, rfl, _⟩ := h; rfl
  case deckTop => obtain ⟨_, _, rfl, _⟩ := h; rfl
  case draw => obtain ⟨_, _, _, _, rfl, _⟩ := h; rfl
  case reverseDeck => obtain ⟨_, _, _, _, rfl, _⟩ := h; rfl

theorem move_codeless {c : C} {a b : Place} {r : Nat} {x : Outcome × C} (h : moveOutcome c a b r = .ok x) : Codeless f x.1.msg := by
  unfold moveOutcome at h
  split at h
  · cases h; rfl
  split at h
  · cases h; rfl
  split at h
  · split at h
    · cases h; rfl
    · cases hx : EncodeContext.hasXyzMat c a with
      | error e => rw [hx] at h; cases h
      | ok y => rw [hx] at h; cases h; rfl
  split at h
  · cases h; rfl
  split at h
  · cases h; rfl
  split at h
  · cases hx : EncodeContext.getXyzLeft c { a with oseq := OSEQ_INVALID } with
    | error e => rw [hx] at h; cases h
    | ok y => rw [hx] at h; cases h; rfl
  · split at h
    · cases hx : EncodeContext.hasXyzMat c a with
      | error e => rw [hx] at h; cases h
      | ok y => rw [hx] at h; cases h; rfl
    · cases h; rfl

theorem swap_codeless {c : C} {s rest : List UInt8} {o : Outcome} (h : swapGraveDeckEvent c s = .ok (o, rest)) : Codeless f o.msg := by
  have key : ∀ (α : Type) (p : P α) (q : α → P Outcome), (∀ a s o rest, q a s = .ok (o, rest) → Codeless f o.msg) →
      ∀ s o rest, (p >>= q) s = .ok (o, rest) → Codeless f o.msg := by
    intro α p q hq s o rest h
    rw [bind_run] at h
    cases hp : p s with
    | error e => rw [hp] at h; cases h
    | ok y => rw [hp] at h; exact hq _ _ _ _ h
  revert h
  unfold swapGraveDeckEvent
  refine key _ _ _ (fun _ => key _ _ _ fun _ => key _ _ _ fun _ => key _ _ _ fun _ => key _ _ _ fun _ => key _ _ _ fun _ => ?_) s o rest
  refine fun s o rest => ?_
  split
  all_goals
    refine key _ _ _ (fun _ => ?_) s o rest
    first
    | (intro s o rest h; cases h; rfl)
    | (refine key _ _ _ (fun _ => ?_); intro s o rest h; cases h; rfl)

/-- What is made of a message about other cards, whatever is tracked. -/
theorem encode_recoded (c : C) (m : CoreMsg) (hf : m.Fits) (more : List UInt8) :
    encodeOne c ((m.recoded f).bytes ++ more) = (encodeOne c (m.bytes ++ more)).map fun x => (x.1.recoded f, x.2) := by
  have hf' := fits_recoded f hf
  have hmm := meaning_recoded f m
  cases hm : m.meaning with
  | some x =>
    rw [hm, Option.map_some] at hmm
    rw [C34_translation c m hf x hm, C34_translation c _ hf' _ hmm, length_recoded, recodedMeaning_msg, recodedMeaning_state]
    rfl
  | none =>
    cases hx : m.inContext c with
    | some x =>
      rw [C34_translation_in_context c m hf x hx, C34_translation_in_context c _ hf' x ((inContext_recoded f c m).trans hx), length_recoded]
      cases x with
      | error e => rfl
      | ok x =>
        obtain ⟨y, c'⟩ := x
        have h := inContext_codeless f hx
        show Except.ok _ = Except.ok (Encoded.mk y.state _ (y.msg.map (Msg.recoded f)), c')
        rw [h]
    | none =>
      cases m <;> simp [CoreMsg.meaning] at hm <;> simp [CoreMsg.inContext] at hx
      case swapGraveDeck p n mask =>
        show encodeOne c ((CoreMsg.swapGraveDeck p n mask).bytes ++ more) = _
        rw [encode_swapGraveDeck, map_map']
        cases h : swapGraveDeckEvent c (p :: (b32 n ++ list32 b8 mask ++ more)) with
        | error e => rfl
        | ok y =>
          obtain ⟨o, rest⟩ := y
          have h := swap_codeless f h
          show Except.ok (Encoded.mk _ _ o.msg, c) = Except.ok (Encoded.mk _ _ (o.msg.map (Msg.recoded f)), c)
          rw [h]
      case move code a b r =>
        have hl : (CoreMsg.move (f.of code) a b r).bytes.length = (CoreMsg.move code a b r).bytes.length := length_recoded f (.move code a b r)
        show encodeOne c ((CoreMsg.move (f.of code) a b r).bytes ++ more) = _
        rw [encode_move, encode_move, map_map', hl]
        cases h : moveOutcome c a.place b.place r.toNat with
        | error e => rfl
        | ok y =>
          have h := move_codeless f h
          show Except.ok (Encoded.mk _ _ y.1.msg, y.2) = Except.ok (Encoded.mk _ _ (y.1.msg.map (Msg.recoded f)), y.2)
          rw [h]

end

/-! ## What the server knows about cards plays no part -/

theorem move_unknowing (c : BasicContext) (a b : Place) (r : Nat) :
    moveOutcome (c.recoded f) a b r = (moveOutcome c a b r).map fun x => (x.1, x.2.recoded f) := by
  have hx : ∀ p, EncodeContext.hasXyzMat (c.recoded f) p = EncodeContext.hasXyzMat c p := fun p => rfl
  have hl : ∀ p, EncodeContext.getXyzLeft (c.recoded f) p = EncodeContext.getXyzLeft c p := fun p => rfl
  unfold moveOutcome
  rw [hx, hl]
  split
  · rfl
  split
  · rfl
  split
  · split
    · rfl
    · cases EncodeContext.hasXyzMat c a with
      | error e => rfl
      | ok h => cases h <;> rfl
  split
  · rfl
  split
  · rfl
  split
  · cases EncodeContext.getXyzLeft c { a with oseq := OSEQ_INVALID } <;> rfl
  · split
    · cases EncodeContext.hasXyzMat c a with
      | error e => rfl
      | ok h => cases h <;> rfl
    · rfl

theorem case_unknowing (c : BasicContext) (k : Kind) (s : List UInt8) :
    encodeCase (c.recoded f) k s = (encodeCase c k s).map fun x => ((x.1.1, x.1.2.recoded f), x.2) := by
  have hk : ∀ (p : P Outcome) (q : P Outcome), p = q → (p >>= fun o => (pure (o, c.recoded f) : P (Outcome × BasicContext))) s =
      ((q >>= fun o => (pure (o, c) : P (Outcome × BasicContext))) s).map fun x => ((x.1.1, x.1.2.recoded f), x.2) := by
    rintro p _ rfl
    rw [bind_run, bind_run]
    cases p s <;> rfl
  unfold encodeCase
  cases eventCase k with
  | some p => exact hk p p rfl
  | none =>
    cases queryCase k with
    | some p => exact hk p p rfl
    | none =>
      cases requestCase k with
      | some f =>
        simp only [bind_run]
        cases readCon s with
        | error e => rfl
        | ok x => cases hx : f x.1 x.2 <;> simp only [hx] <;> rfl
      | none =>
        cases swallowedCase k with
        | some p => simp only [bind_run]; cases p s <;> rfl
        | none =>
          cases k <;> first | rfl | skip
          case win => exact hk (winEvent (c.recoded f)) (winEvent c) rfl
          case deckTop => exact hk (deckTopEvent (c.recoded f)) (deckTopEvent c) rfl
          case draw => exact hk (drawEvent (c.recoded f)) (drawEvent c) rfl
          case swapGraveDeck => exact hk (swapGraveDeckEvent (c.recoded f)) (swapGraveDeckEvent c) rfl
          case matchKill =>
            show (P.read 4 >>= fun r => (pure _ : P _)) s = Except.map _ ((P.read 4 >>= fun r => (pure _ : P _)) s)
            rw [bind_run, bind_run]
            cases P.read 4 s <;> rfl
          case move =>
            show (P.skip 4 >>= fun _ => _) s = Except.map _ ((P.skip 4 >>= fun _ => _) s)
            simp only [bind_run]
            cases P.skip 4 s with
            | error e => rfl
            | ok x =>
              simp only
              cases readLocInfo x.2 with
              | error e => rfl
              | ok y =>
                simp only
                cases readLocInfo y.2 with
                | error e => rfl
                | ok z =>
                  simp only
                  cases P.read 4 z.2 with
                  | error e => rfl
                  | ok w =>
                    simp only [P.lift, move_unknowing]
                    cases moveOutcome c y.1 z.1 w.1 <;> rfl

theorem encode_unknowing (c : BasicContext) (d : List UInt8) :
    encodeOne (c.recoded f) d = (encodeOne c d).map fun x => (x.1, x.2.recoded f) := by
  have h : encodeBody (c.recoded f) d = (encodeBody c d).map fun x => ((x.1.1, x.1.2.recoded f), x.2) := by
    unfold encodeBody
    rw [bind_run, bind_run]
    cases P.read 1 d with
    | error e => rfl
    | ok x =>
      obtain ⟨n, s⟩ := x
      simp only
      cases Kind.ofByte n with
      | none => rfl
      | some k => exact case_unknowing f c k s
  unfold encodeOne
  rw [h]
  cases encodeBody c d <;> rfl

theorem feed_recoded (ms : List CoreMsg) (hf : ∀ m ∈ ms, m.Fits) (c : BasicContext) :
    feed (c.recoded f) ((ms.map (CoreMsg.recoded f)).map (·.bytes)) =
      (feed c (ms.map (·.bytes))).map fun x => (x.1.map (Encoded.recoded f), x.2.recoded f) := by
  induction ms generalizing c with
  | nil => rfl
  | cons m ms ih =>
    have ih := ih fun m hm => hf m (by simp [hm])
    have e := encode_recoded f (c.recoded f) m (hf m (by simp)) []
    rw [List.append_nil, List.append_nil, encode_unknowing f c m.bytes, map_map'] at e
    simp only [List.map_cons, feed]
    rw [e, map_bind', bind_map']
    refine bind_congr' fun x => ?_
    obtain ⟨r, c1⟩ := x
    have rest : ∀ c2 : BasicContext,
        (feed (c2.recoded f) ((ms.map (CoreMsg.recoded f)).map (·.bytes)) >>= fun x => (pure (r.recoded f :: x.1, x.2) : Res _)) =
          (feed c2 (ms.map (·.bytes)) >>= fun x => (pure (r :: x.1, x.2) : Res _)).map fun x => (x.1.map (Encoded.recoded f), x.2.recoded f) := by
      intro c2
      rw [ih, map_bind', bind_map']
      rfl
    obtain ⟨st, n, msg⟩ := r
    cases msg with
    | none => exact rest c1
    | some m =>
      show ((c1.recoded f).parse (m.recoded f) >>= _) = (c1.parse m >>= _).map _
      rw [parse_recoded, map_bind', bind_map']
      exact bind_congr' fun c2 => rest c2

theorem messages_recoded (rs : List Encoded) : messages (rs.map (Encoded.recoded f)) = (messages rs).map (Msg.recoded f) := by
  unfold messages
  rw [List.filterMap_map, List.map_filterMap]
  rfl

end Ygo.Props
