import Verif.Lemmas.Network

/-!
# Lemmas about duel messages and answers as objects
-/

namespace Ygo.Pb
open Ygo.Spec Obj

set_option linter.unusedSimpArgs false

/-! ## Getters after setters -/

@[simp] theorem toInt_int1 (z : Int) : toInt (int1 z) = z := rfl
@[simp] theorem toInt_int' (z : Int) : toInt (int z) = z := toInt_int z
@[simp] theorem toInt_nat (n : Nat) : (toInt (nat n)).toNat = n := by rw [nat, toInt_int]; rfl
@[simp] theorem toInt_nat1 (n : Nat) : (toInt (nat1 n)).toNat = n := rfl
@[simp] theorem toInt_bool (b : Bool) : (toInt (bool b) != 0) = b := by rw [bool, toInt_int]; cases b <;> rfl
@[simp] theorem toInt_bool1 (b : Bool) : (toInt (bool1 b) != 0) = b := by cases b <;> rfl
@[simp] theorem toInts_ints (zs : List Int) : toInts (ints zs) = zs := (toInts_map (fun z => z) zs).trans (List.map_id' zs)
@[simp] theorem toInts_nats (ns : List Nat) : (toInts (nats ns)).map Int.toNat = ns := get_nats (o := fun _ => nats ns) (n := 0) rfl
@[simp] theorem toInts_bools (bs : List Bool) : (toInts (bools bs)).map (· != 0) = bs := get_bools (o := fun _ => bools bs) (n := 0) rfl
@[simp] theorem toObj_obj (o : Obj) : toObj (obj o) = o := rfl
@[simp] theorem obj_isEmpty (o : Obj) : (obj o).isEmpty = false := rfl
@[simp] theorem int1_isEmpty (z : Int) : (int1 z).isEmpty = false := rfl
@[simp] theorem nat1_isEmpty (z : Nat) : (nat1 z).isEmpty = false := rfl
@[simp] theorem bool1_isEmpty (b : Bool) : (bool1 b).isEmpty = false := rfl
theorem toObjs_objs {α : Type} {set : α → Obj} {get : Obj → α} (xs : List α) (hg : ∀ x ∈ xs, get (set x) = x) :
    (toObjs (objs set xs)).map get = xs := get_subs (o := fun _ => objs set xs) (n := 0) rfl hg

/-- Computes what getters say about an object made with setters. -/
macro "getset" "[" ls:Lean.Parser.Tactic.simpLemma,* "]" : tactic =>
  `(tactic| simp [Obj.int, Obj.nat, Obj.bool, Obj.ints, Obj.nats, Obj.bools, Obj.sub, Obj.subs, Obj.has, Obj.with_, Obj.empty, $ls,*])

@[simp] theorem get_place (p : Place) : getPlace (setPlace p) = p := by getset [getPlace, setPlace]
@[simp] theorem get_effect (e : Effect) : getEffect (setEffect e) = e := by getset [getEffect, setEffect]
@[simp] theorem get_counter (c : Counter) : getCounter (setCounter c) = c := by getset [getCounter, setCounter]
@[simp] theorem get_chain (c : Chain) : getChain (setChain c) = c := by getset [getChain, setChain]
@[simp] theorem get_shape (s : FieldShape) : getShape (setShape s) = s := by getset [getShape, setShape]
@[simp] theorem toObjs_places (ps : List Place) : (toObjs (objs setPlace ps)).map getPlace = ps := toObjs_objs _ fun _ _ => get_place _
@[simp] theorem toObjs_effects (es : List Effect) : (toObjs (objs setEffect es)).map getEffect = es := toObjs_objs _ fun _ _ => get_effect _
@[simp] theorem toObjs_counters (cs : List Counter) : (toObjs (objs setCounter cs)).map getCounter = cs :=
  toObjs_objs _ fun _ _ => get_counter _
@[simp] theorem toObjs_chains (cs : List Chain) : (toObjs (objs setChain cs)).map getChain = cs := toObjs_objs _ fun _ _ => get_chain _

@[simp] theorem get_places (ps : List Place) : getPlaces (setPlaces ps) = ps := by getset [getPlaces, setPlaces]
@[simp] theorem get_pair (p : PlacePair) : getPair (setPair p) = p := by getset [getPair, setPair]
@[simp] theorem get_pairs (ps : List PlacePair) : getPairs (setPairs ps) = ps := get_subs rfl fun _ _ => get_pair _
@[simp] theorem get_resize (r : ResizeOp) : getResize (setResize r) = r := by getset [getResize, setResize]
@[simp] theorem get_resizes (rs : List ResizeOp) : getResizes (setResizes rs) = rs := get_subs rfl fun _ _ => get_resize _
@[simp] theorem get_splice (s : SpliceOp) : getSplice (setSplice s) = s := by getset [getSplice, setSplice]
@[simp] theorem toObjs_splices (ss : List SpliceOp) : (toObjs (objs setSplice ss)).map getSplice = ss := toObjs_objs _ fun _ _ => get_splice _
@[simp] theorem get_boardExchange (e : BoardExchange) : getBoardExchange (setBoardExchange e) = e := by
  getset [getBoardExchange, setBoardExchange]
@[simp] theorem get_boardState (s : BoardState) : getBoardState (setBoardState s) = s := by getset [getBoardState, setBoardState]
@[simp] theorem get_board (e : BoardEvent) : getBoard (setBoard e) = e := by cases e <;> getset [getBoard, setBoard]
@[simp] theorem get_card (r : Nat) (e : CardEvent) : getCard (setCard r e) = e := by cases e <;> getset [getCard, setCard, setShuffle]
@[simp] theorem get_card_reason (r : Nat) (e : CardEvent) : (toInt (setCard r e 1)).toNat = r := by cases e <;> getset [setCard]
@[simp] theorem get_chainStack (e : ChainEvent) : getChainStack (setChainStack e) = e := by cases e <;> getset [getChainStack, setChainStack]
@[simp] theorem get_finish (f : Finish) : getFinish (setFinish f) = f := by
  obtain ⟨a, b, r⟩ := f
  cases r <;> getset [getFinish, setFinish]
@[simp] theorem get_lp (con : Int) (c : LPChange) : getLP (setLP con c) = c := by cases c <;> getset [getLP, setLP]
@[simp] theorem get_lp_con (con : Int) (c : LPChange) : toInt (setLP con c 1) = con := by cases c <;> getset [setLP]
@[simp] theorem get_description (con : Int) (t : DescChange) : getDescription (setDescription con t) = t := by
  cases t <;> getset [getDescription, setDescription]
@[simp] theorem get_description_con (con : Int) (t : DescChange) : toInt (setDescription con t 1) = con := by
  cases t <;> getset [setDescription]

theorem get_status {s : ChainStatus} (h : ∀ n, s = .other n → I32 n ∧ (n < 0 ∨ 4 < n)) : getStatus (setStatus s) = s := by
  cases s with
  | other n =>
    have := (h n rfl).2
    show getStatus n = .other n
    unfold getStatus
    rw [if_neg (by omega), if_neg (by omega), if_neg (by omega), if_neg (by omega), if_neg (by omega)]
  | _ => rfl

theorem get_meta {m : MetaEvent} (h : EventHolds (.metaInfo m)) : getMeta (setMeta m) = m := by
  cases m with
  | chainStatus s =>
    have := get_status h
    getset [getMeta, setMeta, this]
  | _ => getset [getMeta, setMeta, setPair, setReasoned, setFlash, setSelection]

@[simp] theorem get_pile (r : Nat) (e : PileEvent) : getPile (setPile r e) = e := by cases e <;> getset [getPile, setPile]
@[simp] theorem get_pile_reason (r : Nat) (e : PileEvent) : (toInt (setPile r e 1)).toNat = r := by cases e <;> getset [setPile]
@[simp] theorem get_result (r : ResultEvent) : getResult (setResult r) = r := by cases r <;> getset [getResult, setResult]

theorem get_event {e : Event} (h : EventHolds e) : getEvent (setEvent e) = e := by
  cases e with
  | metaInfo m =>
    have := get_meta h
    getset [getEvent, setEvent, this]
  | _ => getset [getEvent, setEvent]

@[simp] theorem get_act (a : ActCard) : getAct (setAct a) = a := by getset [getAct, setAct]
@[simp] theorem get_selectable (c : SelectableCard) : getSelectable (setSelectable c) = c := by getset [getSelectable, setSelectable]
@[simp] theorem get_sum (c : SumCard) : getSum (setSum c) = c := by getset [getSum, setSum]
@[simp] theorem get_tribute (c : TributeCard) : getTribute (setTribute c) = c := by getset [getTribute, setTribute]
@[simp] theorem get_atk (c : AtkCard) : getAtk (setAtk c) = c := by getset [getAtk, setAtk]
@[simp] theorem get_counterCard (c : CounterCard) : getCounterCard (setCounterCard c) = c := by getset [getCounterCard, setCounterCard]
@[simp] theorem toObjs_acts (xs : List ActCard) : (toObjs (objs setAct xs)).map getAct = xs := toObjs_objs _ fun _ _ => get_act _
@[simp] theorem toObjs_selectables (xs : List SelectableCard) : (toObjs (objs setSelectable xs)).map getSelectable = xs :=
  toObjs_objs _ fun _ _ => get_selectable _
@[simp] theorem toObjs_sums (xs : List SumCard) : (toObjs (objs setSum xs)).map getSum = xs := toObjs_objs _ fun _ _ => get_sum _
@[simp] theorem toObjs_tributes (xs : List TributeCard) : (toObjs (objs setTribute xs)).map getTribute = xs :=
  toObjs_objs _ fun _ _ => get_tribute _
@[simp] theorem toObjs_atks (xs : List AtkCard) : (toObjs (objs setAtk xs)).map getAtk = xs := toObjs_objs _ fun _ _ => get_atk _
@[simp] theorem toObjs_counterCards (xs : List CounterCard) : (toObjs (objs setCounterCard xs)).map getCounterCard = xs :=
  toObjs_objs _ fun _ _ => get_counterCard _
@[simp] theorem get_selectCard (s : SelectCard) : getSelectCard (setSelectCard s) = s := by
  cases s <;> getset [getSelectCard, setSelectCard]
@[simp] theorem get_idle (s : SelectIdle) : getIdle (setIdle s) = s := by getset [getIdle, setIdle]
@[simp] theorem get_request (who : Int) (r : Request) : getRequest (setRequest who r) = r := by
  cases r <;> getset [getRequest, setRequest]
@[simp] theorem get_request_replier (who : Int) (r : Request) : toInt (setRequest who r 1) = who := by
  cases r <;> getset [setRequest]

@[simp] theorem get_value (f : QField) (v : f.Val) : getValue f (setValue f v) = v := by cases f <;> getset [getValue, setValue]

theorem setData_num (d : QueryData) (f : QField) : setData d (queryNum f) = setField d f := by cases f <;> rfl

theorem get_data (d : QueryData) : getData (setData d) = d := by
  obtain ⟨s, t, c⟩ := d
  simp only [getData, QueryData.mk.injEq]
  refine ⟨?_, ?_, ?_⟩
  · funext f
    simp only [Obj.has, Obj.sub, setData_num, setField]
    split
    · rename_i hv
      simp [hv]
    · rename_i hv
      simp [hv]
  · cases t <;> getset [setData, setSome]
  · cases c <;> getset [setData, setSome]

@[simp] theorem get_query (q : Query) : getQuery (setQuery q) = q := by getset [getQuery, setQuery, get_data]

theorem get_msg {m : Msg} (h : MsgHolds m) : getMsg (setMsg m) = m := by
  obtain ⟨b, qs⟩ := m
  have hq : (toObjs (objs setQuery qs)).map getQuery = qs := toObjs_objs _ fun _ _ => get_query _
  cases b with
  | event e =>
    have := get_event (h.event e rfl)
    getset [getMsg, setMsg, this, hq]
  | _ => getset [getMsg, setMsg, hq]

theorem get_action {a : IdleAction} (h : ∀ n, a = .other n → I32 n ∧ (n < 0 ∨ 8 < n)) : getAction (setAction a) = a := by
  cases a with
  | other n =>
    have := (h n rfl).2
    show getAction n = .other n
    unfold getAction
    rw [if_neg (by omega), if_neg (by omega), if_neg (by omega), if_neg (by omega), if_neg (by omega), if_neg (by omega),
      if_neg (by omega), if_neg (by omega), if_neg (by omega)]
  | _ => rfl

@[simp] theorem get_answerCard (a : AnswerCard) : getAnswerCard (setAnswerCard a) = a := by
  cases a <;> getset [getAnswerCard, setAnswerCard, setIndexes]
@[simp] theorem get_answerChain (a : AnswerChain) : getAnswerChain (setAnswerChain a) = a := by
  cases a <;> getset [getAnswerChain, setAnswerChain]
@[simp] theorem get_answerSort (a : AnswerSort) : getAnswerSort (setAnswerSort a) = a := by
  cases a <;> getset [getAnswerSort, setAnswerSort, setIndexes]
theorem get_answerIdle {a : AnswerIdle} (h : AnswerHolds (.selectIdle a)) : getAnswerIdle (setAnswerIdle a) = a := by
  cases a with
  | cardAction a i =>
    have := get_action h.1
    getset [getAnswerIdle, setAnswerIdle, this]
  | _ => getset [getAnswerIdle, setAnswerIdle]
theorem get_answer {a : Answer} (h : AnswerHolds a) : getAnswer (setAnswer a) = a := by
  cases a with
  | selectIdle a =>
    have := get_answerIdle h
    getset [getAnswer, setAnswer, this]
  | selectCounter vs =>
    have : (toObjs (objs (fun v : Nat × Nat => with_ [(1, nat v.1), (2, nat v.2)]) vs)).map
        (fun o => (o.nat 1, o.nat 2)) = vs := toObjs_objs _ fun v _ => by getset []
    simp only [Obj.nat] at this
    getset [getAnswer, setAnswer]
    exact this
  | _ => getset [getAnswer, setAnswer]

/-! ## Objects made with setters are as described -/

/-- Looks up a field of the message, or checks a value. -/
syntax "okstep" : tactic
macro_rules | `(tactic| okstep) => `(tactic| assumption)
macro_rules | `(tactic| okstep) => `(tactic| exact Made.nil)
macro_rules | `(tactic| okstep) => `(tactic| refine Made.cons rfl ?_ ?_)
macro_rules | `(tactic| okstep) => `(tactic| with_reducible first
  | exact ok_bool _ | exact ok_bool1 _ | exact ok_bools _ | refine ok_i32 ?_ | refine ok_s32 ?_ | refine ok_enum ?_ | refine ok_i32_1 ?_
  | refine ok_enum1 ?_ | refine ok_u32 ?_ | refine ok_u64 ?_ | refine ok_u32_1 ?_ | refine ok_u64_1 ?_ | refine ok_i32s ?_
  | refine ok_u32s ?_ | refine ok_u64s ?_ | refine ok_obj ?_ | refine ok_obj1 ?_)

/-- Checks an object made with setters. -/
macro "made" : tactic => `(tactic| (refine made_holds rfl ?_; repeat' okstep))

theorem place_made {p : Place} (h : PlaceHolds p) : HasType schema (.msg .place) (.msg (setPlace p)) := by
  obtain ⟨h1, h2, h3, h4⟩ := h
  unfold setPlace
  made

theorem ok_places {n : Nat} {ps : List Place} (h : All PlaceHolds ps) : FieldOk ⟨n, .rep, .msg .place⟩ (objs setPlace ps) :=
  ok_objs h fun _ => place_made
macro_rules | `(tactic| okstep) => `(tactic| with_reducible first | refine ok_places ?_ | refine place_made ?_)

theorem effect_made {e : Effect} (h : EffectHolds e) : HasType schema (.msg .effect) (.msg (setEffect e)) := by
  obtain ⟨h1, h2⟩ := h
  unfold setEffect
  made

theorem counter_made {c : Counter} (h : CounterHolds c) : HasType schema (.msg .counter) (.msg (setCounter c)) := by
  obtain ⟨h1, h2⟩ := h
  unfold setCounter
  made
macro_rules | `(tactic| okstep) => `(tactic| with_reducible first | refine effect_made ?_ | refine counter_made ?_)

theorem chain_made {c : Chain} (h : ChainHolds c) : HasType schema (.msg .chain) (.msg (setChain c)) := by
  obtain ⟨h1, h2, h3⟩ := h
  unfold setChain
  made

theorem shape_made (s : FieldShape) : HasType schema (.msg .fieldShape) (.msg (setShape s)) := by
  unfold setShape
  made

section
variable {m : MsgType}

/-- Messages whose only field is a list of places. -/
theorem places_made (ps : List Place) (h : All PlaceHolds ps) (hm : schema m = schema .evCardAdd) :
    HasType schema (.msg m) (.msg (setPlaces ps)) := by
  unfold setPlaces
  refine made_holds (by rw [hm]; rfl) (.cons (by rw [hm]; rfl) (ok_places h) .nil)

theorem pair_made {p : PlacePair} (h : PairHolds p) (hm : schema m = schema .evCardMoveOp) :
    HasType schema (.msg m) (.msg (setPair p)) := by
  unfold setPair
  exact made_holds (by rw [hm]; rfl) (.cons (by rw [hm]; rfl) (ok_obj (place_made h.1))
    (.cons (by rw [hm]; rfl) (ok_obj (place_made h.2)) .nil))

theorem resize_made {r : ResizeOp} (h : ResizeHolds r) : HasType schema (.msg .evPileResizeOp) (.msg (setResize r)) := by
  obtain ⟨h1, h2⟩ := h
  unfold setResize
  made

theorem splice_made {s : SpliceOp} (h : SpliceHolds s) : HasType schema (.msg .evPileSpliceOp) (.msg (setSplice s)) := by
  obtain ⟨h1, h2, h3⟩ := h
  unfold setSplice
  made

end

theorem resizes_made {rs : List ResizeOp} (h : All ResizeHolds rs) : HasType schema (.msg .evPileResize) (.msg (setResizes rs)) :=
  made_holds rfl (.cons rfl (ok_objs h fun _ => resize_made) .nil)
theorem moves_made {ps : List PlacePair} (h : All PairHolds ps) : HasType schema (.msg .evCardMove) (.msg (setPairs ps)) :=
  made_holds rfl (.cons rfl (ok_objs h fun _ h => pair_made h rfl) .nil)
theorem exchanges_made {ps : List PlacePair} (h : All PairHolds ps) : HasType schema (.msg .evCardExchange) (.msg (setPairs ps)) :=
  made_holds rfl (.cons rfl (ok_objs h fun _ h => pair_made h rfl) .nil)
theorem pileExchanges_made {ps : List PlacePair} (h : All PairHolds ps) : HasType schema (.msg .evPileExchange) (.msg (setPairs ps)) :=
  made_holds rfl (.cons rfl (ok_objs h fun _ h => pair_made h rfl) .nil)

macro_rules | `(tactic| okstep) => `(tactic| with_reducible first
  | refine chain_made ?_ | exact shape_made _ | refine resizes_made ?_
  | refine moves_made ?_ | refine exchanges_made ?_ | refine pileExchanges_made ?_ | exact places_made _ (by assumption) rfl
  | refine ok_objs ?_ (fun _ => chain_made) | refine ok_objs ?_ (fun _ => splice_made) | refine ok_objs ?_ (fun _ => effect_made)
  | refine ok_objs ?_ (fun _ => counter_made))

theorem board_made {e : BoardEvent} (h : EventHolds (.board e)) : HasType schema (.msg .evBoard) (.msg (setBoard e)) := by
  cases e with
  | unset => exact made_holds rfl .nil
  | exchange e =>
    obtain ⟨h1, h2, h3, h4⟩ := h
    simp only [setBoard, setBoardExchange]
    made
    made
  | state e =>
    obtain ⟨h1, h2, h3, h4, h5⟩ := h
    simp only [setBoard, setBoardState]
    made
    made

theorem card_made {r : Nat} {e : CardEvent} (h : EventHolds (.card r e)) : HasType schema (.msg .evCard) (.msg (setCard r e)) := by
  cases e with
  | unset =>
    simp only [EventHolds] at h
    simp only [setCard]
    made
  | shuffle ps qs =>
    obtain ⟨h1, h2, h3⟩ := h
    simp only [setCard, setShuffle]
    made
    made
  | _ =>
    obtain ⟨h1, h2⟩ := h
    simp only [setCard]
    made

theorem chainStack_made {e : ChainEvent} (h : EventHolds (.chainStack e)) :
    HasType schema (.msg .evChainStack) (.msg (setChainStack e)) := by
  cases e <;> simp only [EventHolds] at h <;> simp only [setChainStack] <;> made

theorem finish_made {f : Finish} (h : EventHolds (.finish f)) : HasType schema (.msg .evFinish) (.msg (setFinish f)) := by
  obtain ⟨a, b, r⟩ := f
  obtain ⟨h1, h2, h3⟩ := h
  cases r with
  | winner w =>
    have := h3 w rfl
    simp only [setFinish]
    made
  | _ =>
    simp only [setFinish]
    made

theorem lp_made {con : Int} {c : LPChange} (h : EventHolds (.lp con c)) : HasType schema (.msg .evLP) (.msg (setLP con c)) := by
  cases c <;> obtain ⟨h1, h2⟩ := h <;> simp only [setLP] <;> dsimp only at h2 <;> made

theorem status_i32 {s : ChainStatus} (h : ∀ n, s = .other n → I32 n ∧ (n < 0 ∨ 4 < n)) : I32 (setStatus s) := by
  cases s with
  | other n => exact (h n rfl).1
  | _ => simp [setStatus, I32]

theorem meta_made {e : MetaEvent} (h : EventHolds (.metaInfo e)) : HasType schema (.msg .evMeta) (.msg (setMeta e)) := by
  cases e with
  | unset => exact made_holds rfl .nil
  | attack a t => exact made_holds rfl (.cons rfl (ok_obj1 (pair_made h rfl)) .nil)
  | chainStatus s =>
    have := status_i32 h
    simp only [setMeta]
    made
  | description con t =>
    obtain ⟨h1, h2⟩ := h
    cases t <;> dsimp only at h2 <;> simp only [setMeta, setDescription] <;> made <;> made
  | missedTiming ps =>
    simp only [EventHolds] at h
    simp only [setMeta]
    made
  | shufflePile ps =>
    simp only [EventHolds] at h
    simp only [setMeta]
    made
  | selection s r ps =>
    obtain ⟨h1, h2, h3⟩ := h
    simp only [setMeta, setSelection]
    made
    made
  | _ =>
    obtain ⟨h1, h2⟩ := h
    simp only [setMeta, setReasoned, setFlash]
    made
    made

theorem pile_made {r : Nat} {e : PileEvent} (h : EventHolds (.pile r e)) : HasType schema (.msg .evPile) (.msg (setPile r e)) := by
  cases e with
  | unset =>
    simp only [EventHolds] at h
    simp only [setPile]
    made
  | splice ops =>
    obtain ⟨h1, h2⟩ := h
    simp only [setPile]
    made
    made
  | _ =>
    obtain ⟨h1, h2⟩ := h
    simp only [setPile]
    made

theorem result_made {r : ResultEvent} (h : EventHolds (.result r)) : HasType schema (.msg .evResult) (.msg (setResult r)) := by
  cases r with
  | unset => exact made_holds rfl .nil
  | dice a vs =>
    obtain ⟨h1, h2⟩ := h
    simp only [setResult]
    made
    made
  | _ =>
    simp only [EventHolds] at h
    simp only [setResult]
    made
    made

theorem event_made {e : Event} (h : EventHolds e) : HasType schema (.msg .event) (.msg (setEvent e)) := by
  cases e with
  | unset => exact made_holds rfl .nil
  | board e => exact made_holds rfl (.cons rfl (ok_obj1 (board_made h)) .nil)
  | card r e => exact made_holds rfl (.cons rfl (ok_obj1 (card_made h)) .nil)
  | chainStack e => exact made_holds rfl (.cons rfl (ok_obj1 (chainStack_made h)) .nil)
  | finish f => exact made_holds rfl (.cons rfl (ok_obj1 (finish_made h)) .nil)
  | lp con c => exact made_holds rfl (.cons rfl (ok_obj1 (lp_made h)) .nil)
  | metaInfo m => exact made_holds rfl (.cons rfl (ok_obj1 (meta_made h)) .nil)
  | pile r e => exact made_holds rfl (.cons rfl (ok_obj1 (pile_made h)) .nil)
  | result r => exact made_holds rfl (.cons rfl (ok_obj1 (result_made h)) .nil)
  | _ =>
    simp only [EventHolds] at h
    simp only [setEvent]
    made

theorem act_made {a : ActCard} (h : ActHolds a) : HasType schema (.msg .rqActCard) (.msg (setAct a)) := by
  obtain ⟨h1, h2⟩ := h
  unfold setAct
  made
theorem selectable_made {c : SelectableCard} (h : SelectableHolds c) :
    HasType schema (.msg .rqSelectSelectableCard) (.msg (setSelectable c)) := by
  obtain ⟨h1, h2⟩ := h
  unfold setSelectable
  made
theorem sum_made {c : SumCard} (h : PlaceHolds c.place ∧ U32 c.code ∧ U32 c.param1 ∧ U32 c.param2) :
    HasType schema (.msg .rqSelectUniqueSumSumCard) (.msg (setSum c)) := by
  obtain ⟨h1, h2, h3, h4⟩ := h
  unfold setSum
  made
theorem tribute_made {c : TributeCard} (h : PlaceHolds c.place ∧ U32 c.code ∧ U32 c.countAs) :
    HasType schema (.msg .rqSelectUniqueTributesTributeCard) (.msg (setTribute c)) := by
  obtain ⟨h1, h2, h3⟩ := h
  unfold setTribute
  made
theorem atk_made {c : AtkCard} (h : PlaceHolds c.place) : HasType schema (.msg .rqSelectIdleAtkCard) (.msg (setAtk c)) := by
  unfold setAtk
  made
theorem counterCard_made {c : CounterCard} (h : PlaceHolds c.place ∧ U32 c.amount) :
    HasType schema (.msg .rqSelectCounterCounterCard) (.msg (setCounterCard c)) := by
  obtain ⟨h1, h2⟩ := h
  unfold setCounterCard
  made

macro_rules | `(tactic| okstep) => `(tactic| with_reducible first
  | refine ok_objs ?_ (fun _ => act_made)
  | refine ok_objs ?_ (fun _ => selectable_made) | refine ok_objs ?_ (fun _ => sum_made) | refine ok_objs ?_ (fun _ => tribute_made)
  | refine ok_objs ?_ (fun _ => atk_made) | refine ok_objs ?_ (fun _ => counterCard_made))

theorem selectCard_made {s : SelectCard} (h : SelectCardHolds s) : HasType schema (.msg .rqSelectCard) (.msg (setSelectCard s)) := by
  cases s with
  | unset => exact made_holds rfl .nil
  | recursive =>
    obtain ⟨h1, h2, h3, h4⟩ := h
    simp only [setSelectCard]
    made
    made
  | _ =>
    obtain ⟨h1, h2, h3⟩ := h
    simp only [setSelectCard]
    made
    made

theorem idle_made {s : SelectIdle} (h : IdleHolds s) : HasType schema (.msg .rqSelectIdle) (.msg (setIdle s)) := by
  obtain ⟨h1, h2, h3, h4, h5, h6, h7, h8⟩ := h
  unfold setIdle
  made

macro_rules | `(tactic| okstep) => `(tactic| with_reducible first | refine selectCard_made ?_ | refine idle_made ?_)

theorem request_made {who : Int} {r : Request} (hw : I32 who) (h : RequestHolds r) :
    HasType schema (.msg .request) (.msg (setRequest who r)) := by
  cases r with
  | unset | selectCard | selectIdle | selectRockPaperScissors | sort | selectToChain =>
    simp only [RequestHolds] at h
    simp only [setRequest]
    made
    try made
  | selectPosition | selectYesNo =>
    obtain ⟨h1, h2, h3⟩ := h
    simp only [setRequest]
    made
    made
  | _ =>
    obtain ⟨h1, h2⟩ := h
    simp only [setRequest]
    made
    made

/-- The message of a field of `Query.Data`. -/
def queryType : QField → MsgType
  | .code => .qCode
  | .position => .qPosition
  | .«alias» => .qAlias
  | .type => .qType
  | .level => .qLevel
  | .xyzRank => .qXyzRank
  | .«attribute» => .qAttribute
  | .race => .qRace
  | .atk => .qAtk
  | .def_ => .qDef
  | .baseAtk => .qBaseAtk
  | .baseDef => .qBaseDef
  | .equippedTo => .qEquippedTo
  | .owner => .qOwner
  | .status => .qStatus
  | .isPublic => .qIsPublic
  | .pendLScale => .qPendLScale
  | .pendRScale => .qPendRScale
  | .linkRate => .qLinkRate
  | .linkArrow => .qLinkArrow
  | .isHidden => .qIsHidden
  | .cover => .qCover

theorem value_made {f : QField} {v : f.Val} (h : FieldHolds f v) : HasType schema (.msg (queryType f)) (.msg (setValue f v)) := by
  cases f <;> simp only [FieldHolds] at h <;> simp only [setValue, queryType] <;> made

theorem ok_some {α : Type} {n : Nat} {m : MsgType} {set : α → Obj} {x : Option α}
    (h : ∀ v, x = some v → HasType schema (.msg m) (.msg (set v))) : FieldOk ⟨n, .plain, .msg m⟩ (setSome set x) := by
  cases x with
  | none => exact ⟨by simp [setSome], .inl rfl⟩
  | some v => exact ok_obj (h v rfl)

theorem ok_field {n : Nat} {d : QueryData} (h : DataHolds d) (f : QField) : FieldOk ⟨n, .plain, .msg (queryType f)⟩ (setField d f) := by
  unfold setField
  split
  · rename_i v hv
    exact ok_obj (value_made (h.single f v hv))
  · exact ⟨by simp, .inl rfl⟩

theorem query_field (f : QField) :
    (schema .queryData).find? (fun f' => f'.num == queryNum f) = some ⟨queryNum f, .plain, .msg (queryType f)⟩ := by cases f <;> rfl

theorem data_oneofs : Nat.ble (oneofs (schema .queryData) [1, 2, 3, 4, 5, 6, 7, 8, 9, 10, 11, 12, 13, 14, 15, 16, 17, 18, 19, 20, 21, 22,
    23, 24]) 1 = true := by decide

theorem Made.field {d : QueryData} (h : DataHolds d) (f : QField) {l : List (Nat × List Val)} (hl : Made .queryData l) :
    Made .queryData ((queryNum f, setField d f) :: l) := .cons (query_field f) (ok_field h f) hl

theorem data_made {d : QueryData} (h : DataHolds d) : HasType schema (.msg .queryData) (.msg (setData d)) := by
  unfold setData
  refine made_holds data_oneofs ?_
  refine Made.field h .code ?_
  refine Made.field h .position ?_
  refine Made.field h .«alias» ?_
  refine Made.field h .type ?_
  refine Made.field h .level ?_
  refine Made.field h .xyzRank ?_
  refine Made.field h .«attribute» ?_
  refine Made.field h .race ?_
  refine Made.field h .atk ?_
  refine Made.field h .def_ ?_
  refine Made.field h .baseAtk ?_
  refine Made.field h .baseDef ?_
  refine Made.field h .equippedTo ?_
  refine .cons rfl (ok_some ?_) ?_
  rotate_left
  refine .cons rfl (ok_some ?_) ?_
  rotate_left
  refine Made.field h .owner ?_
  refine Made.field h .status ?_
  refine Made.field h .isPublic ?_
  refine Made.field h .pendLScale ?_
  refine Made.field h .pendRScale ?_
  refine Made.field h .linkRate ?_
  refine Made.field h .linkArrow ?_
  refine Made.field h .isHidden ?_
  refine Made.field h .cover ?_
  exact .nil
  · intro ps hp
    exact places_made _ (h.targets ps hp) rfl
  · intro cs hc
    exact made_holds rfl (.cons rfl (ok_objs (h.counters cs hc) fun _ => counter_made) .nil)

theorem query_made {q : Query} (h : QueryHolds q) : HasType schema (.msg .query) (.msg (setQuery q)) :=
  made_holds rfl (.cons rfl (ok_obj (place_made h.1)) (.cons rfl (ok_obj (data_made h.2)) .nil))

theorem msg_made {m : Msg} (h : MsgHolds m) : HasType schema (.msg .msg) (.msg (setMsg m)) := by
  obtain ⟨b, qs⟩ := m
  have hq : FieldOk ⟨3, .rep, .msg .query⟩ (objs setQuery qs) := ok_objs h.queries fun _ => query_made
  cases b with
  | unset => exact made_holds rfl (.cons rfl hq .nil)
  | event e => exact made_holds rfl (.cons rfl (ok_obj1 (event_made (h.event e rfl))) (.cons rfl hq .nil))
  | request who r =>
    have := h.request who r rfl
    exact made_holds rfl (.cons rfl (ok_obj1 (request_made this.1 this.2)) (.cons rfl hq .nil))

theorem indexes_made {vs : List Nat} (h : All U32 vs) : HasType schema (.msg .anIndexes) (.msg (setIndexes vs)) := by
  unfold setIndexes
  made

macro_rules | `(tactic| okstep) => `(tactic| with_reducible refine indexes_made ?_)

theorem action_i32 {a : IdleAction} (h : ∀ n, a = .other n → I32 n ∧ (n < 0 ∨ 8 < n)) : I32 (setAction a) := by
  cases a with
  | other n => exact (h n rfl).1
  | _ => simp [setAction, I32]

theorem answer_made {a : Answer} (h : AnswerHolds a) : HasType schema (.msg .answer) (.msg (setAnswer a)) := by
  cases a with
  | selectCard a =>
    cases a <;> simp only [AnswerHolds] at h <;> simp only [setAnswer, setAnswerCard] <;> made <;> made
  | sort a =>
    cases a <;> simp only [AnswerHolds] at h <;> simp only [setAnswer, setAnswerSort] <;> made <;> made
  | selectToChain a =>
    cases a <;> simp only [AnswerHolds] at h <;> simp only [setAnswer, setAnswerChain] <;> made <;> made
  | selectIdle a =>
    cases a with
    | cardAction a i =>
      obtain ⟨h1, h2⟩ := h
      have := action_i32 h1
      simp only [setAnswer, setAnswerIdle]
      made
      made
      made
    | _ =>
      simp only [AnswerHolds] at h
      simp only [setAnswer, setAnswerIdle]
      made
      made
  | selectCounter vs =>
    simp only [AnswerHolds] at h
    refine made_holds rfl (.cons rfl (ok_obj1 (made_holds rfl (.cons rfl (ok_objs h fun v hv => ?_) .nil))) .nil)
    obtain ⟨h1, h2⟩ := hv
    made
  | _ =>
    simp only [AnswerHolds] at h
    simp only [setAnswer]
    made

/-! ## What is received is within the types of the fields -/

theorem ite_holds {α : Type} {P : α → Prop} {b : Bool} {x y : α} (hx : P x) (hy : P y) : P (if b then x else y) := by
  split <;> assumption

theorem place_got {o : Obj} (h : HasType schema (.msg .place) (.msg o)) : PlaceHolds (getPlace o) :=
  ⟨got_i32 h rfl, got_u32 h rfl, got_u32 h rfl, got_s32 h rfl⟩
theorem effect_got {o : Obj} (h : HasType schema (.msg .effect) (.msg o)) : EffectHolds (getEffect o) := ⟨got_u32 h rfl, got_u32 h rfl⟩
theorem counter_got {o : Obj} (h : HasType schema (.msg .counter) (.msg o)) : CounterHolds (getCounter o) := ⟨got_u32 h rfl, got_u32 h rfl⟩
theorem chain_got {o : Obj} (h : HasType schema (.msg .chain) (.msg o)) : ChainHolds (getChain o) :=
  ⟨place_got (got_obj h rfl), place_got (got_obj h rfl), effect_got (got_obj h rfl)⟩

section
variable {m : MsgType} {o : Obj} (h : HasType schema (.msg m) (.msg o))
include h

theorem places_got {l : Label} {n : Nat} (hf : (schema m).find? (fun f => f.num == n) = some ⟨n, l, .msg .place⟩) :
    All PlaceHolds (o.subs n getPlace) := got_objs h hf fun _ => place_got
theorem pair_got (h1 : (schema m).find? (fun f => f.num == 1) = some ⟨1, .plain, .msg .place⟩)
    (h2 : (schema m).find? (fun f => f.num == 2) = some ⟨2, .plain, .msg .place⟩) : PairHolds (getPair o) :=
  ⟨place_got (got_obj h h1), place_got (got_obj h h2)⟩

end

theorem resize_got {o : Obj} (h : HasType schema (.msg .evPileResizeOp) (.msg o)) : ResizeHolds (getResize o) :=
  ⟨place_got (got_obj h rfl), got_u32 h rfl⟩
theorem resizes_got {o : Obj} (h : HasType schema (.msg .evPileResize) (.msg o)) : All ResizeHolds (getResizes o) :=
  got_objs h rfl fun _ => resize_got
theorem splice_got {o : Obj} (h : HasType schema (.msg .evPileSpliceOp) (.msg o)) : SpliceHolds (getSplice o) :=
  ⟨place_got (got_obj h rfl), got_u32 h rfl, place_got (got_obj h rfl)⟩

theorem board_got {o : Obj} (h : HasType schema (.msg .evBoard) (.msg o)) : EventHolds (.board (getBoard o)) := by
  unfold getBoard
  split
  · have := got_obj h (n := 1) rfl
    exact ⟨got_i32 this rfl, places_got (got_obj this rfl) rfl, places_got (got_obj this rfl) rfl, resizes_got (got_obj this rfl)⟩
  split
  · have := got_obj h (n := 2) rfl
    exact ⟨got_i32 this rfl, got_u32s this rfl, got_objs this rfl fun _ => chain_got, places_got (got_obj this rfl) rfl,
      resizes_got (got_obj this rfl)⟩
  · trivial

theorem card_got {o : Obj} (h : HasType schema (.msg .evCard) (.msg o)) : EventHolds (.card (o.nat 1) (getCard o)) := by
  have hr : U64 (o.nat 1) := got_u64 h rfl
  unfold getCard
  split
  · exact ⟨hr, places_got (got_obj h (n := 2) rfl) rfl⟩
  split
  · exact ⟨hr, got_objs (got_obj h (n := 3) rfl) rfl fun _ h => pair_got h rfl rfl⟩
  split
  · exact ⟨hr, got_objs (got_obj h (n := 4) rfl) rfl fun _ h => pair_got h rfl rfl⟩
  split
  · exact ⟨hr, places_got (got_obj h (n := 5) rfl) rfl⟩
  split
  · exact ⟨hr, places_got (got_obj h (n := 6) rfl) rfl, places_got (got_obj h (n := 6) rfl) rfl⟩
  · exact hr

theorem chainStack_got {o : Obj} (h : HasType schema (.msg .evChainStack) (.msg o)) : EventHolds (.chainStack (getChainStack o)) := by
  unfold getChainStack
  split
  · exact chain_got (got_obj h rfl)
  split
  · trivial
  · trivial

theorem finish_got {o : Obj} (h : HasType schema (.msg .evFinish) (.msg o)) : EventHolds (.finish (getFinish o)) := by
  refine ⟨got_u32 h rfl, got_u32 h rfl, ?_⟩
  intro w hw
  unfold getFinish at hw
  dsimp only at hw
  split at hw
  · cases hw
    exact got_i32 h rfl
  · split at hw <;> cases hw

theorem lp_got {o : Obj} (h : HasType schema (.msg .evLP) (.msg o)) : EventHolds (.lp (o.int 1) (getLP o)) := by
  refine ⟨got_i32 h rfl, ?_⟩
  unfold getLP
  by_cases h2 : o.has 2
  · rw [if_pos h2]; exact got_u32 h rfl
  rw [if_neg h2]
  by_cases h3 : o.has 3
  · rw [if_pos h3]; exact got_u32 h rfl
  rw [if_neg h3]
  by_cases h4 : o.has 4
  · rw [if_pos h4]; exact got_u32 h rfl
  rw [if_neg h4]
  by_cases h5 : o.has 5
  · rw [if_pos h5]; exact got_u32 h rfl
  · rw [if_neg h5]; trivial

theorem status_got {z : Int} (h : I32 z) : ∀ n, getStatus z = .other n → I32 n ∧ (n < 0 ∨ 4 < n) := by
  intro n hn
  simp only [getStatus] at hn
  repeat (split at hn; · cases hn)
  cases hn
  exact ⟨h, by omega⟩

theorem meta_got {o : Obj} (h : HasType schema (.msg .evMeta) (.msg o)) : EventHolds (.metaInfo (getMeta o)) := by
  unfold getMeta
  split
  · have := got_obj h (n := 1) rfl
    exact ⟨place_got (got_obj this rfl), place_got (got_obj this rfl)⟩
  split
  · exact status_got (got_enum h rfl)
  split
  · have := got_obj h (n := 3) rfl
    exact ⟨got_u64 this rfl, places_got this rfl⟩
  split
  · have := got_obj h (n := 4) rfl
    refine ⟨got_i32 this rfl, ?_⟩
    unfold getDescription
    by_cases h2 : (o.sub 4).has 2
    · rw [if_pos h2]; exact effect_got (got_obj this rfl)
    rw [if_neg h2]
    by_cases h3 : (o.sub 4).has 3
    · rw [if_pos h3]; exact effect_got (got_obj this rfl)
    · rw [if_neg h3]; trivial
  split
  · have := got_obj h (n := 5) rfl
    exact ⟨got_u32 this rfl, got_i32 this rfl⟩
  split
  · exact places_got (got_obj h (n := 6) rfl) rfl
  split
  · have := got_obj h (n := 7) rfl
    exact ⟨place_got (got_obj this rfl), got_u64 this rfl, places_got this rfl⟩
  split
  · exact places_got (got_obj h (n := 8) rfl) rfl
  split
  · have := got_obj h (n := 9) rfl
    exact ⟨got_u64 this rfl, places_got this rfl⟩
  · trivial

theorem pile_got {o : Obj} (h : HasType schema (.msg .evPile) (.msg o)) : EventHolds (.pile (o.nat 1) (getPile o)) := by
  have hr : U64 (o.nat 1) := got_u64 h rfl
  unfold getPile
  split
  · exact ⟨hr, got_objs (got_obj h (n := 2) rfl) rfl fun _ h => pair_got h rfl rfl⟩
  split
  · exact ⟨hr, resizes_got (got_obj h (n := 3) rfl)⟩
  split
  · exact ⟨hr, got_objs (got_obj h (n := 4) rfl) rfl fun _ => splice_got⟩
  · exact hr

theorem result_got {o : Obj} (h : HasType schema (.msg .evResult) (.msg o)) : EventHolds (.result (getResult o)) := by
  unfold getResult
  split
  · exact got_i32 (got_obj h (n := 1) rfl) rfl
  split
  · have := got_obj h (n := 2) rfl
    exact ⟨got_i32 this rfl, got_u32s this rfl⟩
  split
  · exact got_i32s (got_obj h (n := 3) rfl) rfl
  · trivial

theorem event_got {o : Obj} (h : HasType schema (.msg .event) (.msg o)) : EventHolds (getEvent o) := by
  unfold getEvent
  split
  · exact board_got (got_obj h rfl)
  split
  · exact card_got (got_obj h rfl)
  split
  · exact chainStack_got (got_obj h rfl)
  split
  · exact got_i32 h rfl
  split
  · exact finish_got (got_obj h rfl)
  split
  · exact lp_got (got_obj h rfl)
  split
  · exact meta_got (got_obj h rfl)
  split
  · exact got_u32 h rfl
  split
  · exact pile_got (got_obj h rfl)
  split
  · exact result_got (got_obj h rfl)
  split
  · exact places_got (got_obj h (n := 11) rfl) rfl
  · trivial

theorem act_got {o : Obj} (h : HasType schema (.msg .rqActCard) (.msg o)) : ActHolds (getAct o) :=
  ⟨place_got (got_obj h rfl), effect_got (got_obj h rfl)⟩
theorem selectable_got {o : Obj} (h : HasType schema (.msg .rqSelectSelectableCard) (.msg o)) : SelectableHolds (getSelectable o) :=
  ⟨place_got (got_obj h rfl), got_u32 h rfl⟩

theorem selectCard_got {o : Obj} (h : HasType schema (.msg .rqSelectCard) (.msg o)) : SelectCardHolds (getSelectCard o) := by
  unfold getSelectCard
  split
  · have := got_obj h (n := 1) rfl
    exact ⟨got_u32 this rfl, got_u32 this rfl, got_u32s this rfl⟩
  split
  · have := got_obj h (n := 2) rfl
    exact ⟨got_u32 this rfl, got_u32 this rfl, got_objs this rfl fun _ => selectable_got, got_objs this rfl fun _ => selectable_got⟩
  split
  · have := got_obj h (n := 3) rfl
    exact ⟨got_u32 this rfl, got_u32 this rfl, got_objs this rfl fun _ => selectable_got⟩
  split
  · have := got_obj h (n := 4) rfl
    exact ⟨got_u32 this rfl, got_u32 this rfl, got_objs this rfl fun _ h =>
      ⟨place_got (got_obj h rfl), got_u32 h rfl, got_u32 h rfl, got_u32 h rfl⟩⟩
  split
  · have := got_obj h (n := 5) rfl
    exact ⟨got_u32 this rfl, got_u32 this rfl, got_objs this rfl fun _ h => ⟨place_got (got_obj h rfl), got_u32 h rfl, got_u32 h rfl⟩⟩
  · trivial

theorem idle_got {o : Obj} (h : HasType schema (.msg .rqSelectIdle) (.msg o)) : IdleHolds (getIdle o) :=
  ⟨got_u32 h rfl, got_objs h rfl fun _ => act_got, places_got h rfl, places_got h rfl, places_got h rfl, places_got h rfl, places_got h rfl,
    got_objs h rfl fun _ h => place_got (got_obj h rfl)⟩

theorem request_got {o : Obj} (h : HasType schema (.msg .request) (.msg o)) : RequestHolds (getRequest o) := by
  unfold getRequest
  refine ite_holds (P := RequestHolds) ?_ ?_
  · have := got_obj h (n := 2) rfl
    exact ⟨got_u32 this rfl, got_u32 this rfl⟩
  refine ite_holds (P := RequestHolds) ?_ ?_
  · exact selectCard_got (got_obj h rfl)
  refine ite_holds (P := RequestHolds) ?_ ?_
  · have := got_obj h (n := 4) rfl
    exact ⟨got_u32 this rfl, got_u64s this rfl⟩
  refine ite_holds (P := RequestHolds) ?_ ?_
  · have := got_obj h (n := 5) rfl
    exact ⟨counter_got (got_obj this rfl), got_objs this rfl fun _ h => ⟨place_got (got_obj h rfl), got_u32 h rfl⟩⟩
  refine ite_holds (P := RequestHolds) ?_ ?_
  · have := got_obj h (n := 6) rfl
    exact ⟨got_u32 this rfl, got_objs this rfl fun _ => effect_got⟩
  refine ite_holds (P := RequestHolds) ?_ ?_
  · exact idle_got (got_obj h rfl)
  refine ite_holds (P := RequestHolds) ?_ ?_
  · have := got_obj h (n := 8) rfl
    exact ⟨got_u32 this rfl, got_u64s this rfl⟩
  refine ite_holds (P := RequestHolds) ?_ ?_
  · have := got_obj h (n := 9) rfl
    exact ⟨got_u32 this rfl, got_u32 this rfl, got_u32 this rfl⟩
  refine ite_holds (P := RequestHolds) ?_ ?_
  · have := got_obj h (n := 10) rfl
    exact ⟨got_u32 this rfl, got_u64 this rfl⟩
  refine ite_holds (P := RequestHolds) ?_ ?_
  · trivial
  refine ite_holds (P := RequestHolds) ?_ ?_
  · have := got_obj h (n := 12) rfl
    exact got_objs this rfl fun _ => act_got
  refine ite_holds (P := RequestHolds) ?_ ?_
  · have := got_obj h (n := 13) rfl
    exact ⟨place_got (got_obj this rfl), got_u32 this rfl, effect_got (got_obj this rfl)⟩
  refine ite_holds (P := RequestHolds) ?_ ?_
  · have := got_obj h (n := 14) rfl
    exact ⟨got_u32 this rfl, places_got this rfl⟩
  refine ite_holds (P := RequestHolds) ?_ ?_
  · exact places_got (got_obj h (n := 15) rfl) rfl
  · trivial

theorem value_got {f : QField} {o : Obj} (h : HasType schema (.msg (queryType f)) (.msg o)) : FieldHolds f (getValue f o) := by
  cases f
  all_goals first
    | exact trivial
    | exact got_i32 h rfl
    | exact got_u32 h rfl
    | exact got_u64 h rfl
    | exact place_got (got_obj h rfl)

theorem data_got {o : Obj} (h : HasType schema (.msg .queryData) (.msg o)) : DataHolds (getData o) := by
  refine ⟨?_, ?_, ?_⟩
  · intro f v hv
    simp only [getData] at hv
    split at hv
    · cases hv
      exact value_got (got_obj h (query_field f))
    · cases hv
  · intro ps hp
    simp only [getData] at hp
    split at hp
    · cases hp
      exact places_got (got_obj h (n := 14) rfl) rfl
    · cases hp
  · intro cs hc
    simp only [getData] at hc
    split at hc
    · cases hc
      exact got_objs (got_obj h (n := 15) rfl) rfl fun _ => counter_got
    · cases hc

theorem query_got {o : Obj} (h : HasType schema (.msg .query) (.msg o)) : QueryHolds (getQuery o) :=
  ⟨place_got (got_obj h rfl), data_got (got_obj h rfl)⟩

theorem msg_got {o : Obj} (h : HasType schema (.msg .msg) (.msg o)) : MsgHolds (getMsg o) := by
  refine ⟨?_, ?_, got_objs h rfl fun _ => query_got⟩
  · intro e he
    simp only [getMsg] at he
    split at he
    · cases he
      exact event_got (got_obj h rfl)
    · split at he <;> cases he
  · intro who r hr
    simp only [getMsg] at hr
    split at hr
    · cases hr
    · split at hr
      · cases hr
        exact ⟨got_i32 (got_obj h (n := 2) rfl) rfl, request_got (got_obj h rfl)⟩
      · cases hr

theorem action_got {z : Int} (h : I32 z) : ∀ n, getAction z = .other n → I32 n ∧ (n < 0 ∨ 8 < n) := by
  intro n hn
  simp only [getAction] at hn
  repeat (split at hn; · cases hn)
  cases hn
  exact ⟨h, by omega⟩

theorem answer_got {o : Obj} (h : HasType schema (.msg .answer) (.msg o)) : AnswerHolds (getAnswer o) := by
  unfold getAnswer
  refine ite_holds (P := AnswerHolds) ?_ ?_
  · exact got_u32 h rfl
  refine ite_holds (P := AnswerHolds) ?_ ?_
  · have := got_obj h (n := 2) rfl
    unfold getAnswerCard
    split
    · trivial
    split
    · trivial
    split
    · exact got_u32s (got_obj this (n := 3) rfl) rfl
    · trivial
  refine ite_holds (P := AnswerHolds) ?_ ?_
  · exact got_u32 h rfl
  refine ite_holds (P := AnswerHolds) ?_ ?_
  · exact got_objs (got_obj h (n := 4) rfl) rfl fun _ h => ⟨got_u32 h rfl, got_u32 h rfl⟩
  refine ite_holds (P := AnswerHolds) ?_ ?_
  · exact got_u32 h rfl
  refine ite_holds (P := AnswerHolds) ?_ ?_
  · have := got_obj h (n := 6) rfl
    unfold getAnswerIdle
    split
    · trivial
    split
    · exact got_u32 this rfl
    split
    · exact ⟨action_got (got_enum (got_obj this (n := 3) rfl) rfl), got_u32 (got_obj this (n := 3) rfl) rfl⟩
    · trivial
  refine ite_holds (P := AnswerHolds) ?_ ?_
  · exact got_u32 h rfl
  refine ite_holds (P := AnswerHolds) ?_ ?_
  · exact got_u32 h rfl
  refine ite_holds (P := AnswerHolds) ?_ ?_
  · exact got_u64 h rfl
  refine ite_holds (P := AnswerHolds) ?_ ?_
  · exact got_i32 h rfl
  refine ite_holds (P := AnswerHolds) ?_ ?_
  · have := got_obj h (n := 11) rfl
    unfold getAnswerChain
    split
    · trivial
    split
    · exact got_u32 this rfl
    · trivial
  refine ite_holds (P := AnswerHolds) ?_ ?_
  · trivial
  refine ite_holds (P := AnswerHolds) ?_ ?_
  · exact places_got (got_obj h (n := 13) rfl) rfl
  refine ite_holds (P := AnswerHolds) ?_ ?_
  · have := got_obj h (n := 14) rfl
    unfold getAnswerSort
    split
    · trivial
    split
    · exact got_u32s (got_obj this (n := 2) rfl) rfl
    · trivial
  · trivial

end Ygo.Pb
