import Verif.Lemmas.NetworkMsg

/-!
# How many bytes messages take
-/

namespace Ygo.Pb
open Obj

set_option linter.unusedSimpArgs false

theorem varint_length_le (n : Nat) : (varint n).length ≤ 10 := varintIn_length 10 n

theorem block_length_le (num : Nat) (p : List Nat) : (block num p).length ≤ 20 + p.length := by
  have h1 := varint_length_le (8 * num + 2)
  have h2 := varint_length_le p.length
  simp only [block, List.length_append]
  omega

/-- Bytes of a field. -/
def fieldSize (f : Field MsgType) (vs : List Val) : Nat := (writeField schema f vs).length

/-- Bytes of an object. -/
def size (m : MsgType) (o : Obj) : Nat := (write schema m o).length

theorem size_eq (m : MsgType) (o : Obj) : size m o = ((schema m).map fun f => fieldSize f (o f.num)).sum := by
  simp only [size, write, fieldSize, List.length_flatMap]

theorem writeVals_length (num : Nat) (t : Ty MsgType) : ∀ vs, (writeVals schema num t vs).length = (vs.map fun v => (writeVal schema num t v).length).sum
  | [] => by simp [writeVals]
  | v :: vs => by simp [writeVals, writeVals_length num t vs]

theorem writeVal_num_le (num : Nat) (s : Scalar) (z : Int) : (writeVal schema num (.num s) (.num z)).length ≤ 20 := by
  have h1 := varint_length_le (8 * num)
  have h2 := varint_length_le (s.encode z)
  simp only [writeVal, List.length_append]
  omega

theorem writeVal_msg_le (num : Nat) (m : MsgType) (o : Obj) : (writeVal schema num (.msg m) (.msg o)).length ≤ 20 + size m o := by
  have h := block_length_le num (write schema m o)
  simp only [writeVal]
  exact h

theorem packed_length_le (s : Scalar) : ∀ vs, (packed s vs).length ≤ 10 * vs.length
  | [] => by simp [packed]
  | v :: vs => by
    have ih := packed_length_le s vs
    cases v with
    | num z =>
      have := varint_length_le (s.encode z)
      simp only [packed, List.length_append, List.length_cons]; omega
    | _ => simp only [packed, List.length_cons]; omega

/-! ## Fields -/

theorem fieldSize_nil (f : Field MsgType) : fieldSize f [] = 0 := by
  obtain ⟨n, l, t⟩ := f
  cases l <;> cases t <;> simp [fieldSize, writeField, writeVals]

theorem fieldSize_packed (n : Nat) (s : Scalar) (vs : List Val) : fieldSize ⟨n, .rep, .num s⟩ vs ≤ 20 + 10 * vs.length := by
  simp only [fieldSize, writeField]
  split
  · simp
  · have h1 := block_length_le n (packed s vs)
    have h2 := packed_length_le s vs
    omega

theorem fieldSize_num {l : Label} (hl : l ≠ .rep) (n : Nat) (s : Scalar) (z : Int) : fieldSize ⟨n, l, .num s⟩ [.num z] ≤ 20 := by
  have := writeVal_num_le n s z
  cases l <;> simp_all [fieldSize, writeField, writeVals]

theorem fieldSize_int {l : Label} (hl : l ≠ .rep) (n : Nat) (s : Scalar) (z : Int) : fieldSize ⟨n, l, .num s⟩ (int z) ≤ 20 := by
  unfold int
  split
  · rw [fieldSize_nil]; omega
  · exact fieldSize_num hl n s z

theorem fieldSize_nat {l : Label} (hl : l ≠ .rep) (n : Nat) (s : Scalar) (z : Nat) : fieldSize ⟨n, l, .num s⟩ (nat z) ≤ 20 := fieldSize_int hl n s z
theorem fieldSize_bool {l : Label} (hl : l ≠ .rep) (n : Nat) (s : Scalar) (b : Bool) : fieldSize ⟨n, l, .num s⟩ (bool b) ≤ 20 :=
  fieldSize_int hl n s _

theorem fieldSize_obj (n : Nat) (l : Label) (m : MsgType) (o : Obj) {b : Nat} (h : size m o ≤ b) : fieldSize ⟨n, l, .msg m⟩ (obj o) ≤ 20 + b := by
  have := writeVal_msg_le n m o
  cases l <;> simp [fieldSize, writeField, writeVals, obj] <;> omega

theorem fieldSize_objs {α : Type} (n : Nat) (l : Label) (m : MsgType) (g : α → Obj) (xs : List α) {b : Nat} (h : ∀ x, size m (g x) ≤ b) :
    fieldSize ⟨n, l, .msg m⟩ (objs g xs) ≤ (20 + b) * xs.length := by
  have : fieldSize ⟨n, l, .msg m⟩ (objs g xs) = (writeVals schema n (.msg m) (objs g xs)).length := by
    cases l <;> rfl
  rw [this]
  induction xs with
  | nil => simp [objs, writeVals]
  | cons x xs ih =>
    have ih := ih (by cases l <;> rfl)
    have h1 := writeVal_msg_le n m (g x)
    have h2 := h x
    simp only [objs, List.map_cons, writeVals, List.length_append, List.length_cons, Nat.mul_add] at ih ⊢
    omega

theorem fieldSize_sum {α : Type} (n : Nat) (l : Label) (m : MsgType) (g : α → Obj) (w : α → Nat) (xs : List α) (h : ∀ x, 20 + size m (g x) ≤ w x) :
    fieldSize ⟨n, l, .msg m⟩ (objs g xs) ≤ (xs.map w).sum := by
  have : fieldSize ⟨n, l, .msg m⟩ (objs g xs) = (writeVals schema n (.msg m) (objs g xs)).length := by
    cases l <;> rfl
  rw [this]
  induction xs with
  | nil => simp [objs, writeVals]
  | cons x xs ih =>
    have ih := ih (by cases l <;> rfl)
    have h1 := writeVal_msg_le n m (g x)
    have h2 := h x
    simp only [objs, List.map_cons, writeVals, List.length_append, List.sum_cons] at ih ⊢
    omega

theorem fieldSize_ints (n : Nat) (s : Scalar) (zs : List Int) : fieldSize ⟨n, .rep, .num s⟩ (ints zs) ≤ 20 + 10 * zs.length := by
  simpa [ints] using fieldSize_packed n s (ints zs)
theorem fieldSize_nats (n : Nat) (s : Scalar) (zs : List Nat) : fieldSize ⟨n, .rep, .num s⟩ (nats zs) ≤ 20 + 10 * zs.length := by
  simpa [nats] using fieldSize_packed n s (nats zs)
theorem fieldSize_bools (n : Nat) (s : Scalar) (zs : List Bool) : fieldSize ⟨n, .rep, .num s⟩ (bools zs) ≤ 20 + 10 * zs.length := by
  simpa [bools] using fieldSize_packed n s (bools zs)

theorem with_at (k : Nat) (vs : List Val) (l : List (Nat × List Val)) (n : Nat) : with_ ((k, vs) :: l) n = if n = k then vs else with_ l n := rfl
theorem with_none (n : Nat) : with_ [] n = [] := rfl

/-- Adds up what the fields take. -/
macro "fields" "[" ls:Lean.Parser.Tactic.simpLemma,* "]" : tactic =>
  `(tactic| (
    rw [size_eq]
    simp only [schema, List.map_cons, List.map_nil, List.sum_cons, List.sum_nil, with_at, with_none, fieldSize_nil, Nat.reduceEqDiff, if_true,
      if_false, Nat.succ_ne_self, reduceIte, Nat.zero_add, Nat.add_zero, $ls,*]))

/-- A bound found by adding up the bounds of the parts. -/
class Le (a : Nat) (b : outParam Nat) : Prop where
  le : a ≤ b

instance : Le 0 0 := ⟨Nat.le_refl 0⟩
instance {a b x y : Nat} [h1 : Le a x] [h2 : Le b y] : Le (a + b) (x + y) := ⟨Nat.add_le_add h1.le h2.le⟩
instance {n : Nat} {s : Scalar} {z : Int} : Le (fieldSize ⟨n, .plain, .num s⟩ (int z)) 20 := ⟨fieldSize_int (by simp) _ _ _⟩
instance {n : Nat} {s : Scalar} {z : Nat} : Le (fieldSize ⟨n, .plain, .num s⟩ (nat z)) 20 := ⟨fieldSize_int (by simp) _ _ _⟩
instance {n : Nat} {s : Scalar} {b : Bool} : Le (fieldSize ⟨n, .plain, .num s⟩ (bool b)) 20 := ⟨fieldSize_int (by simp) _ _ _⟩
instance {n g : Nat} {s : Scalar} {z : Int} : Le (fieldSize ⟨n, .oneof g, .num s⟩ (int1 z)) 20 := ⟨fieldSize_num (by simp) _ _ _⟩
instance {n g : Nat} {s : Scalar} {z : Nat} : Le (fieldSize ⟨n, .oneof g, .num s⟩ (nat1 z)) 20 := ⟨fieldSize_num (by simp) _ _ _⟩
instance {n g : Nat} {s : Scalar} {b : Bool} : Le (fieldSize ⟨n, .oneof g, .num s⟩ (bool1 b)) 20 := ⟨fieldSize_num (by simp) _ _ _⟩
instance {n : Nat} {s : Scalar} {zs : List Int} : Le (fieldSize ⟨n, .rep, .num s⟩ (ints zs)) (20 + 10 * zs.length) := ⟨fieldSize_ints _ _ _⟩
instance {n : Nat} {s : Scalar} {zs : List Nat} : Le (fieldSize ⟨n, .rep, .num s⟩ (nats zs)) (20 + 10 * zs.length) := ⟨fieldSize_nats _ _ _⟩
instance {n : Nat} {s : Scalar} {zs : List Bool} : Le (fieldSize ⟨n, .rep, .num s⟩ (bools zs)) (20 + 10 * zs.length) := ⟨fieldSize_bools _ _ _⟩
instance {n : Nat} {l : Label} {m : MsgType} {o : Obj} {b : Nat} [h : Le (size m o) b] : Le (fieldSize ⟨n, l, .msg m⟩ (obj o)) (20 + b) :=
  ⟨fieldSize_obj _ _ _ _ h.le⟩
instance {α : Type} {n : Nat} {l : Label} {m : MsgType} {g : α → Obj} {xs : List α} {b : Nat} [h : ∀ x, Le (size m (g x)) b] :
    Le (fieldSize ⟨n, l, .msg m⟩ (objs g xs)) ((20 + b) * xs.length) := ⟨fieldSize_objs _ _ _ _ _ fun x => (h x).le⟩

macro "sized" "[" ls:Lean.Parser.Tactic.simpLemma,* "]" : tactic =>
  `(tactic| (
    fields [$ls,*]
    exact Nat.le_trans Le.le (by omega)))

theorem size_place (p : Place) : size .place (setPlace p) ≤ 80 := by sized [setPlace]
instance {p : Place} : Le (size .place (setPlace p)) (80) := ⟨size_place _⟩
theorem size_effect (e : Effect) : size .effect (setEffect e) ≤ 40 := by sized [setEffect]
instance {e : Effect} : Le (size .effect (setEffect e)) (40) := ⟨size_effect _⟩
theorem size_counter (c : Counter) : size .counter (setCounter c) ≤ 40 := by sized [setCounter]
instance {c : Counter} : Le (size .counter (setCounter c)) (40) := ⟨size_counter _⟩
theorem size_shape (s : FieldShape) : size .fieldShape (setShape s) ≤ 100 := by sized [setShape]

instance {s : FieldShape} : Le (size .fieldShape (setShape s)) (100) := ⟨size_shape _⟩
theorem size_chain (c : Chain) : size .chain (setChain c) ≤ 260 := by sized [setChain]

instance {c : Chain} : Le (size .chain (setChain c)) (260) := ⟨size_chain _⟩
/-! ## Events -/

theorem size_pair {T : MsgType} (hT : schema T = schema .evCardMoveOp) (p : PlacePair) : size T (setPair p) ≤ 200 := by
  rw [size_eq, hT, ← size_eq]
  sized [setPair]
instance {p : PlacePair} : Le (size .evCardMoveOp (setPair p)) 200 := ⟨size_pair rfl _⟩
instance {p : PlacePair} : Le (size .evCardExchangeOp (setPair p)) 200 := ⟨size_pair rfl _⟩
instance {p : PlacePair} : Le (size .evPileExchangeOp (setPair p)) 200 := ⟨size_pair rfl _⟩
instance {p : PlacePair} : Le (size .evMetaAttack (setPair p)) 200 := ⟨size_pair rfl _⟩
theorem size_places {T : MsgType} (hT : schema T = schema .evCardAdd) (ps : List Place) : size T (setPlaces ps) ≤ 100 * ps.length := by
  rw [size_eq, hT, ← size_eq]
  sized [setPlaces]
instance {ps : List Place} : Le (size .evCardAdd (setPlaces ps)) (100 * ps.length) := ⟨size_places rfl _⟩
instance {ps : List Place} : Le (size .evCardRemove (setPlaces ps)) (100 * ps.length) := ⟨size_places rfl _⟩
instance {ps : List Place} : Le (size .evMetaMissedTiming (setPlaces ps)) (100 * ps.length) := ⟨size_places rfl _⟩
instance {ps : List Place} : Le (size .evMetaShufflePile (setPlaces ps)) (100 * ps.length) := ⟨size_places rfl _⟩
instance {ps : List Place} : Le (size .evZoneBlock (setPlaces ps)) (100 * ps.length) := ⟨size_places rfl _⟩
instance {ps : List Place} : Le (size .rqSort (setPlaces ps)) (100 * ps.length) := ⟨size_places rfl _⟩
theorem size_resize (r : ResizeOp) : size .evPileResizeOp (setResize r) ≤ 120 := by sized [setResize]
instance {r : ResizeOp} : Le (size .evPileResizeOp (setResize r)) (120) := ⟨size_resize _⟩
theorem size_splice (s : SpliceOp) : size .evPileSpliceOp (setSplice s) ≤ 240 := by sized [setSplice]

instance {s : SpliceOp} : Le (size .evPileSpliceOp (setSplice s)) (240) := ⟨size_splice _⟩
theorem size_resizes (rs : List ResizeOp) : size .evPileResize (setResizes rs) ≤ 140 * rs.length := by sized [setResizes]
instance {rs : List ResizeOp} : Le (size .evPileResize (setResizes rs)) (140 * rs.length) := ⟨size_resizes _⟩
theorem size_splices (ss : List SpliceOp) : size .evPileSplice (with_ [(1, objs setSplice ss)]) ≤ 260 * ss.length := by sized []
instance {ss : List SpliceOp} : Le (size .evPileSplice (with_ [(1, objs setSplice ss)])) (260 * ss.length) := ⟨size_splices _⟩
theorem size_pairs {T : MsgType} (hT : schema T = schema .evCardMove ∨ schema T = schema .evCardExchange ∨ schema T = schema .evPileExchange)
    (ps : List PlacePair) : size T (setPairs ps) ≤ 220 * ps.length := by
  rcases hT with hT | hT | hT <;> rw [size_eq, hT, ← size_eq] <;> sized [setPairs]

instance {ps : List PlacePair} : Le (size .evCardMove (setPairs ps)) (220 * ps.length) := ⟨size_pairs (.inl rfl) _⟩
instance {ps : List PlacePair} : Le (size .evCardExchange (setPairs ps)) (220 * ps.length) := ⟨size_pairs (.inr (.inl rfl)) _⟩
instance {ps : List PlacePair} : Le (size .evPileExchange (setPairs ps)) (220 * ps.length) := ⟨size_pairs (.inr (.inr rfl)) _⟩
def _root_.Ygo.BoardEvent.weight : BoardEvent → Nat
  | .unset => 0
  | .exchange e => 100 * e.remove.length + 100 * e.add.length + 140 * e.resize.length
  | .state s => 10 * s.lps.length + 280 * s.chains.length + 100 * s.add.length + 140 * s.resize.length

theorem size_boardExchange (e : BoardExchange) :
    size .evBoardExchange (setBoardExchange e) ≤ 80 + 100 * e.remove.length + 100 * e.add.length + 140 * e.resize.length := by
  sized [setBoardExchange]
instance {e : BoardExchange} : Le (size .evBoardExchange (setBoardExchange e)) (80 + 100 * e.remove.length + 100 * e.add.length + 140 * e.resize.length) := ⟨size_boardExchange _⟩
theorem size_boardState (s : BoardState) :
    size .evBoardState (setBoardState s) ≤ 200 + 10 * s.lps.length + 280 * s.chains.length + 100 * s.add.length + 140 * s.resize.length := by
  sized [setBoardState]

instance {s : BoardState} : Le (size .evBoardState (setBoardState s)) (200 + 10 * s.lps.length + 280 * s.chains.length + 100 * s.add.length + 140 * s.resize.length) := ⟨size_boardState _⟩
theorem size_board (e : BoardEvent) : size .evBoard (setBoard e) ≤ 220 + e.weight := by
  cases e <;> (dsimp only [BoardEvent.weight]; sized [setBoard])

instance {e : BoardEvent} : Le (size .evBoard (setBoard e)) (220 + e.weight) := ⟨size_board _⟩
def _root_.Ygo.CardEvent.weight : CardEvent → Nat
  | .unset => 0
  | .add ps | .remove ps => 100 * ps.length
  | .exchange ops | .move ops => 220 * ops.length
  | .shuffle ps qs => 100 * ps.length + 100 * qs.length

theorem size_shuffle (ps qs : List Place) : size .evCardShuffle (setShuffle ps qs) ≤ 100 * ps.length + 100 * qs.length := by sized [setShuffle]

instance {ps qs : List Place} : Le (size .evCardShuffle (setShuffle ps qs)) (100 * ps.length + 100 * qs.length) := ⟨size_shuffle _ _⟩
theorem size_card (r : Nat) (e : CardEvent) : size .evCard (setCard r e) ≤ 40 + e.weight := by
  cases e <;> (dsimp only [CardEvent.weight]; sized [setCard])

instance {r : Nat} {e : CardEvent} : Le (size .evCard (setCard r e)) (40 + e.weight) := ⟨size_card _ _⟩
theorem size_chainStack (e : ChainEvent) : size .evChainStack (setChainStack e) ≤ 280 := by
  cases e <;> sized [setChainStack]

instance {e : ChainEvent} : Le (size .evChainStack (setChainStack e)) (280) := ⟨size_chainStack _⟩
theorem size_finish (f : Finish) : size .evFinish (setFinish f) ≤ 60 := by
  obtain ⟨a, b, r⟩ := f
  cases r <;> sized [setFinish]

instance {f : Finish} : Le (size .evFinish (setFinish f)) (60) := ⟨size_finish _⟩
theorem size_lp (con : Int) (c : LPChange) : size .evLP (setLP con c) ≤ 40 := by
  cases c <;> sized [setLP]

instance {con : Int} {c : LPChange} : Le (size .evLP (setLP con c)) (40) := ⟨size_lp _ _⟩
theorem size_description (con : Int) (c : DescChange) : size .evMetaDescription (setDescription con c) ≤ 80 := by
  cases c <;> sized [setDescription]

instance {con : Int} {c : DescChange} : Le (size .evMetaDescription (setDescription con c)) (80) := ⟨size_description _ _⟩
theorem size_flash (c : Nat) (b : Bool) (n : Int) : size .evMetaFlashCard (setFlash c b n) ≤ 60 := by sized [setFlash]

instance {c : Nat} {b : Bool} {n : Int} : Le (size .evMetaFlashCard (setFlash c b n)) (60) := ⟨size_flash _ _ _⟩
theorem size_confirm (r : Nat) (ps : List Place) : size .evMetaConfirm (setReasoned r ps) ≤ 20 + 100 * ps.length := by sized [setReasoned]
instance {r : Nat} {ps : List Place} : Le (size .evMetaConfirm (setReasoned r ps)) (20 + 100 * ps.length) := ⟨size_confirm _ _⟩
theorem size_update (r : Nat) (ps : List Place) : size .evMetaUpdate (setReasoned r ps) ≤ 20 + 100 * ps.length := by sized [setReasoned]
instance {r : Nat} {ps : List Place} : Le (size .evMetaUpdate (setReasoned r ps)) (20 + 100 * ps.length) := ⟨size_update _ _⟩
theorem size_selection (s : Place) (r : Nat) (ps : List Place) : size .evMetaSelection (setSelection s r ps) ≤ 120 + 100 * ps.length := by
  sized [setSelection]

instance {s : Place} {r : Nat} {ps : List Place} : Le (size .evMetaSelection (setSelection s r ps)) (120 + 100 * ps.length) := ⟨size_selection _ _ _⟩
def _root_.Ygo.MetaEvent.weight : MetaEvent → Nat
  | .confirm _ ps | .missedTiming ps | .selection _ _ ps | .shufflePile ps | .update _ ps => 100 * ps.length
  | _ => 0

theorem size_meta (m : MetaEvent) : size .evMeta (setMeta m) ≤ 240 + m.weight := by
  cases m <;> (dsimp only [MetaEvent.weight]; sized [setMeta])

instance {m : MetaEvent} : Le (size .evMeta (setMeta m)) (240 + m.weight) := ⟨size_meta _⟩
def _root_.Ygo.PileEvent.weight : PileEvent → Nat
  | .unset => 0
  | .exchange ops => 220 * ops.length
  | .resize ops => 140 * ops.length
  | .splice ops => 260 * ops.length

theorem size_pile (r : Nat) (e : PileEvent) : size .evPile (setPile r e) ≤ 40 + e.weight := by
  cases e <;> (dsimp only [PileEvent.weight]; sized [setPile])

instance {r : Nat} {e : PileEvent} : Le (size .evPile (setPile r e)) (40 + e.weight) := ⟨size_pile _ _⟩
def _root_.Ygo.ResultEvent.weight : ResultEvent → Nat
  | .unset => 0
  | .coin _ vs => 10 * vs.length
  | .dice _ vs => 10 * vs.length
  | .rps vs => 10 * vs.length

theorem size_coin (a : Int) (vs : List Bool) : size .evResultCoin (with_ [(1, int a), (2, bools vs)]) ≤ 40 + 10 * vs.length := by sized []
instance {a : Int} {vs : List Bool} : Le (size .evResultCoin (with_ [(1, int a), (2, bools vs)])) (40 + 10 * vs.length) := ⟨size_coin _ _⟩
theorem size_dice (a : Int) (vs : List Nat) : size .evResultDice (with_ [(1, int a), (2, nats vs)]) ≤ 40 + 10 * vs.length := by sized []
instance {a : Int} {vs : List Nat} : Le (size .evResultDice (with_ [(1, int a), (2, nats vs)])) (40 + 10 * vs.length) := ⟨size_dice _ _⟩
theorem size_rps (vs : List Int) : size .evResultRPS (with_ [(1, ints vs)]) ≤ 20 + 10 * vs.length := by sized []

instance {vs : List Int} : Le (size .evResultRPS (with_ [(1, ints vs)])) (20 + 10 * vs.length) := ⟨size_rps _⟩
theorem size_result (e : ResultEvent) : size .evResult (setResult e) ≤ 60 + e.weight := by
  cases e <;> (dsimp only [ResultEvent.weight]; sized [setResult])

instance {e : ResultEvent} : Le (size .evResult (setResult e)) (60 + e.weight) := ⟨size_result _⟩
/-- What the lists of an event take. -/
def _root_.Ygo.Event.weight : Event → Nat
  | .board e => e.weight
  | .card _ e => e.weight
  | .metaInfo m => m.weight
  | .pile _ e => e.weight
  | .result r => r.weight
  | .zoneBlock zs => 100 * zs.length
  | _ => 0

theorem size_event (e : Event) : size .event (setEvent e) ≤ 300 + e.weight := by
  cases e <;> (dsimp only [Event.weight]; sized [setEvent])

instance {e : Event} : Le (size .event (setEvent e)) (300 + e.weight) := ⟨size_event _⟩
/-! ## Requests -/

theorem size_act (a : ActCard) : size .rqActCard (setAct a) ≤ 160 := by sized [setAct]
instance {a : ActCard} : Le (size .rqActCard (setAct a)) (160) := ⟨size_act _⟩
theorem size_selectable (c : SelectableCard) : size .rqSelectSelectableCard (setSelectable c) ≤ 120 := by sized [setSelectable]
instance {c : SelectableCard} : Le (size .rqSelectSelectableCard (setSelectable c)) (120) := ⟨size_selectable _⟩
theorem size_sumCard (c : SumCard) : size .rqSelectUniqueSumSumCard (setSum c) ≤ 160 := by sized [setSum]
instance {c : SumCard} : Le (size .rqSelectUniqueSumSumCard (setSum c)) (160) := ⟨size_sumCard _⟩
theorem size_tribute (c : TributeCard) : size .rqSelectUniqueTributesTributeCard (setTribute c) ≤ 140 := by sized [setTribute]
instance {c : TributeCard} : Le (size .rqSelectUniqueTributesTributeCard (setTribute c)) (140) := ⟨size_tribute _⟩
theorem size_atk (c : AtkCard) : size .rqSelectIdleAtkCard (setAtk c) ≤ 120 := by sized [setAtk]
instance {c : AtkCard} : Le (size .rqSelectIdleAtkCard (setAtk c)) (120) := ⟨size_atk _⟩
theorem size_counterCard (c : CounterCard) : size .rqSelectCounterCounterCard (setCounterCard c) ≤ 120 := by sized [setCounterCard]

instance {c : CounterCard} : Le (size .rqSelectCounterCounterCard (setCounterCard c)) (120) := ⟨size_counterCard _⟩
def _root_.Ygo.SelectCard.weight : SelectCard → Nat
  | .unset => 0
  | .limbo _ _ _ cs => 10 * cs.length
  | .recursive _ _ _ _ ss ds => 140 * ss.length + 140 * ds.length
  | .uniqueRange _ _ _ cs => 140 * cs.length
  | .uniqueSum _ _ _ _ cs => 180 * cs.length
  | .uniqueTributes _ _ _ cs => 160 * cs.length

theorem size_limbo (cc : Bool) (mn mx : Nat) (cs : List Nat) :
    size .rqSelectLimbo (with_ [(1, bool cc), (2, nat mn), (3, nat mx), (4, nats cs)]) ≤ 80 + 10 * cs.length := by sized []
instance {cc : Bool} {mn mx : Nat} {cs : List Nat} : Le (size .rqSelectLimbo (with_ [(1, bool cc), (2, nat mn), (3, nat mx), (4, nats cs)])) (80 + 10 * cs.length) := ⟨size_limbo _ _ _ _⟩
theorem size_recursive (cf ac : Bool) (mn mx : Nat) (ss ds : List SelectableCard) :
    size .rqSelectRecursive (with_ [(1, bool cf), (2, bool ac), (3, nat mn), (4, nat mx), (5, objs setSelectable ss), (6, objs setSelectable ds)]) ≤
      80 + (140 * ss.length + 140 * ds.length) := by sized []
instance {cf ac : Bool} {mn mx : Nat} {ss ds : List SelectableCard} : Le (size .rqSelectRecursive (with_ [(1, bool cf), (2, bool ac), (3, nat mn), (4, nat mx), (5, objs setSelectable ss), (6, objs setSelectable ds)])) (80 + (140 * ss.length + 140 * ds.length)) := ⟨size_recursive _ _ _ _ _ _⟩
theorem size_range (cc : Bool) (mn mx : Nat) (cs : List SelectableCard) :
    size .rqSelectUniqueRange (with_ [(1, bool cc), (2, nat mn), (3, nat mx), (4, objs setSelectable cs)]) ≤ 60 + 140 * cs.length := by sized []
instance {cc : Bool} {mn mx : Nat} {cs : List SelectableCard} : Le (size .rqSelectUniqueRange (with_ [(1, bool cc), (2, nat mn), (3, nat mx), (4, objs setSelectable cs)])) (60 + 140 * cs.length) := ⟨size_range _ _ _ _⟩
theorem size_uniqueSum (cc ex : Bool) (mn mx : Nat) (cs : List SumCard) :
    size .rqSelectUniqueSum (with_ [(1, bool cc), (2, bool ex), (3, nat mn), (4, nat mx), (5, objs setSum cs)]) ≤ 80 + 180 * cs.length := by sized []
instance {cc ex : Bool} {mn mx : Nat} {cs : List SumCard} : Le (size .rqSelectUniqueSum (with_ [(1, bool cc), (2, bool ex), (3, nat mn), (4, nat mx), (5, objs setSum cs)])) (80 + 180 * cs.length) := ⟨size_uniqueSum _ _ _ _ _⟩
theorem size_tributes (cc : Bool) (mn mx : Nat) (cs : List TributeCard) :
    size .rqSelectUniqueTributes (with_ [(1, bool cc), (2, nat mn), (3, nat mx), (4, objs setTribute cs)]) ≤ 60 + 160 * cs.length := by sized []

instance {cc : Bool} {mn mx : Nat} {cs : List TributeCard} : Le (size .rqSelectUniqueTributes (with_ [(1, bool cc), (2, nat mn), (3, nat mx), (4, objs setTribute cs)])) (60 + 160 * cs.length) := ⟨size_tributes _ _ _ _⟩
theorem size_selectCard (s : SelectCard) : size .rqSelectCard (setSelectCard s) ≤ 100 + s.weight := by
  cases s <;> (dsimp only [SelectCard.weight]; sized [setSelectCard])

instance {s : SelectCard} : Le (size .rqSelectCard (setSelectCard s)) (100 + s.weight) := ⟨size_selectCard _⟩
def _root_.Ygo.SelectIdle.weight (s : SelectIdle) : Nat :=
  180 * s.activable.length + 100 * s.summonable.length + 100 * s.spsummonable.length + 100 * s.repositionable.length +
    100 * s.msetable.length + 100 * s.ssetable.length + 140 * s.canAttack.length

theorem size_idle (s : SelectIdle) : size .rqSelectIdle (setIdle s) ≤ 60 + s.weight := by
  dsimp only [SelectIdle.weight]
  sized [setIdle]

instance {s : SelectIdle} : Le (size .rqSelectIdle (setIdle s)) (60 + s.weight) := ⟨size_idle _⟩
theorem size_nats2 {T : MsgType} (hT : schema T = schema .rqSelectNumber) (c : Nat) (ns : List Nat) :
    size T (with_ [(1, nat c), (2, nats ns)]) ≤ 40 + 10 * ns.length := by
  rw [size_eq, hT, ← size_eq]
  sized []
instance {c : Nat} {ns : List Nat} : Le (size .rqSelectNumber (with_ [(1, nat c), (2, nats ns)])) (40 + 10 * ns.length) := ⟨size_nats2 rfl _ _⟩
instance {c : Nat} {ns : List Nat} : Le (size .rqSelectCardCode (with_ [(1, nat c), (2, nats ns)])) (40 + 10 * ns.length) := ⟨size_nats2 rfl _ _⟩
theorem size_attribute (c a : Nat) : size .rqSelectAttribute (with_ [(1, nat c), (2, nat a)]) ≤ 40 := by sized []
instance {c a : Nat} : Le (size .rqSelectAttribute (with_ [(1, nat c), (2, nat a)])) (40) := ⟨size_attribute _ _⟩
theorem size_race (c a : Nat) : size .rqSelectRace (with_ [(1, nat c), (2, nat a)]) ≤ 40 := by sized []
instance {c a : Nat} : Le (size .rqSelectRace (with_ [(1, nat c), (2, nat a)])) (40) := ⟨size_race _ _⟩
theorem size_position (c a b : Nat) : size .rqSelectPosition (with_ [(1, nat c), (2, nat a), (3, nat b)]) ≤ 60 := by sized []
instance {c a b : Nat} : Le (size .rqSelectPosition (with_ [(1, nat c), (2, nat a), (3, nat b)])) (60) := ⟨size_position _ _ _⟩
theorem size_selectCounter (c : Counter) (cs : List CounterCard) :
    size .rqSelectCounter (with_ [(1, obj (setCounter c)), (2, objs setCounterCard cs)]) ≤ 60 + 140 * cs.length := by sized []
instance {c : Counter} {cs : List CounterCard} : Le (size .rqSelectCounter (with_ [(1, obj (setCounter c)), (2, objs setCounterCard cs)])) (60 + 140 * cs.length) := ⟨size_selectCounter _ _⟩
theorem size_selectEffect (c : Nat) (es : List Effect) : size .rqSelectEffect (with_ [(1, nat c), (2, objs setEffect es)]) ≤ 20 + 60 * es.length := by
  sized []
instance {c : Nat} {es : List Effect} : Le (size .rqSelectEffect (with_ [(1, nat c), (2, objs setEffect es)])) (20 + 60 * es.length) := ⟨size_selectEffect _ _⟩
theorem size_toChain (f t : Bool) (cs : List ActCard) :
    size .rqSelectToChain (with_ [(1, bool f), (2, bool t), (5, objs setAct cs)]) ≤ 40 + 180 * cs.length := by sized []
instance {f t : Bool} {cs : List ActCard} : Le (size .rqSelectToChain (with_ [(1, bool f), (2, bool t), (5, objs setAct cs)])) (40 + 180 * cs.length) := ⟨size_toChain _ _ _⟩
theorem size_yesNo (p : Place) (c : Nat) (e : Effect) :
    size .rqSelectYesNo (with_ [(1, obj (setPlace p)), (2, nat c), (3, obj (setEffect e))]) ≤ 180 := by sized []
instance {p : Place} {c : Nat} {e : Effect} : Le (size .rqSelectYesNo (with_ [(1, obj (setPlace p)), (2, nat c), (3, obj (setEffect e))])) (180) := ⟨size_yesNo _ _ _⟩
theorem size_zone (b : Bool) (c : Nat) (ps : List Place) :
    size .rqSelectZone (with_ [(1, bool b), (2, nat c), (3, objs setPlace ps)]) ≤ 40 + 100 * ps.length := by sized []

instance {b : Bool} {c : Nat} {ps : List Place} : Le (size .rqSelectZone (with_ [(1, bool b), (2, nat c), (3, objs setPlace ps)])) (40 + 100 * ps.length) := ⟨size_zone _ _ _⟩
/-- What the lists of a request take. -/
def _root_.Ygo.Request.weight : Request → Nat
  | .selectCard s => s.weight
  | .selectCardCode _ ops => 10 * ops.length
  | .selectCounter _ cs => 140 * cs.length
  | .selectEffect _ es => 60 * es.length
  | .selectIdle s => s.weight
  | .selectNumber _ ns => 10 * ns.length
  | .selectToChain _ _ cs => 180 * cs.length
  | .selectZone _ _ ps => 100 * ps.length
  | .sort ps => 100 * ps.length
  | _ => 0

theorem size_request (who : Int) (r : Request) : size .request (setRequest who r) ≤ 220 + r.weight := by
  cases r <;> (dsimp only [Request.weight]; sized [setRequest])

instance {who : Int} {r : Request} : Le (size .request (setRequest who r)) (220 + r.weight) := ⟨size_request _ _⟩
/-! ## Queries -/

theorem fieldSize_setField (d : QueryData) (f : QField) (n : Nat) (l : Label) (m : MsgType) (h : ∀ v, size m (setValue f v) ≤ 100) :
    fieldSize ⟨n, l, .msg m⟩ (setField d f) ≤ 120 := by
  unfold setField
  split
  · exact fieldSize_obj _ _ _ _ (h _)
  · rw [fieldSize_nil]; omega

/-- What the lists of a query take. -/
def _root_.Ygo.QueryData.weight (d : QueryData) : Nat := 100 * (d.targets.getD []).length + 60 * (d.counters.getD []).length

theorem size_counters (cs : List Counter) : size .qCounters (with_ [(1, objs setCounter cs)]) ≤ 60 * cs.length := by sized []

instance {cs : List Counter} : Le (size .qCounters (with_ [(1, objs setCounter cs)])) (60 * cs.length) := ⟨size_counters _⟩
theorem fieldSize_targets (n : Nat) (l : Label) (x : Option (List Place)) : fieldSize ⟨n, l, .msg .qTargets⟩ (setSome setPlaces x) ≤ 20 + 100 * (x.getD []).length := by
  cases x with
  | none => simp only [setSome, fieldSize_nil]; omega
  | some ps => exact fieldSize_obj _ _ _ _ (size_places rfl _)
theorem fieldSize_counters (n : Nat) (l : Label) (x : Option (List Counter)) :
    fieldSize ⟨n, l, .msg .qCounters⟩ (setSome (fun cs => with_ [(1, objs setCounter cs)]) x) ≤ 20 + 60 * (x.getD []).length := by
  cases x with
  | none => simp only [setSome, fieldSize_nil]; omega
  | some ps => exact fieldSize_obj _ _ _ _ (size_counters _)

instance {n : Nat} {l : Label} {x : Option (List Place)} : Le (fieldSize ⟨n, l, .msg .qTargets⟩ (setSome setPlaces x)) (20 + 100 * (x.getD []).length) :=
  ⟨fieldSize_targets _ _ _⟩
instance {n : Nat} {l : Label} {x : Option (List Counter)} :
    Le (fieldSize ⟨n, l, .msg .qCounters⟩ (setSome (fun cs => with_ [(1, objs setCounter cs)]) x)) (20 + 60 * (x.getD []).length) :=
  ⟨fieldSize_counters _ _ _⟩
instance {d : QueryData} {n : Nat} {l : Label} : Le (fieldSize ⟨n, l, .msg .qCode⟩ (setField d .code)) 120 :=
  ⟨fieldSize_setField _ _ _ _ _ fun v => by sized [setValue]⟩
instance {d : QueryData} {n : Nat} {l : Label} : Le (fieldSize ⟨n, l, .msg .qPosition⟩ (setField d .position)) 120 :=
  ⟨fieldSize_setField _ _ _ _ _ fun v => by sized [setValue]⟩
instance {d : QueryData} {n : Nat} {l : Label} : Le (fieldSize ⟨n, l, .msg .qAlias⟩ (setField d .«alias»)) 120 :=
  ⟨fieldSize_setField _ _ _ _ _ fun v => by sized [setValue]⟩
instance {d : QueryData} {n : Nat} {l : Label} : Le (fieldSize ⟨n, l, .msg .qType⟩ (setField d .type)) 120 :=
  ⟨fieldSize_setField _ _ _ _ _ fun v => by sized [setValue]⟩
instance {d : QueryData} {n : Nat} {l : Label} : Le (fieldSize ⟨n, l, .msg .qLevel⟩ (setField d .level)) 120 :=
  ⟨fieldSize_setField _ _ _ _ _ fun v => by sized [setValue]⟩
instance {d : QueryData} {n : Nat} {l : Label} : Le (fieldSize ⟨n, l, .msg .qXyzRank⟩ (setField d .xyzRank)) 120 :=
  ⟨fieldSize_setField _ _ _ _ _ fun v => by sized [setValue]⟩
instance {d : QueryData} {n : Nat} {l : Label} : Le (fieldSize ⟨n, l, .msg .qAttribute⟩ (setField d .«attribute»)) 120 :=
  ⟨fieldSize_setField _ _ _ _ _ fun v => by sized [setValue]⟩
instance {d : QueryData} {n : Nat} {l : Label} : Le (fieldSize ⟨n, l, .msg .qRace⟩ (setField d .race)) 120 :=
  ⟨fieldSize_setField _ _ _ _ _ fun v => by sized [setValue]⟩
instance {d : QueryData} {n : Nat} {l : Label} : Le (fieldSize ⟨n, l, .msg .qAtk⟩ (setField d .atk)) 120 :=
  ⟨fieldSize_setField _ _ _ _ _ fun v => by sized [setValue]⟩
instance {d : QueryData} {n : Nat} {l : Label} : Le (fieldSize ⟨n, l, .msg .qDef⟩ (setField d .def_)) 120 :=
  ⟨fieldSize_setField _ _ _ _ _ fun v => by sized [setValue]⟩
instance {d : QueryData} {n : Nat} {l : Label} : Le (fieldSize ⟨n, l, .msg .qBaseAtk⟩ (setField d .baseAtk)) 120 :=
  ⟨fieldSize_setField _ _ _ _ _ fun v => by sized [setValue]⟩
instance {d : QueryData} {n : Nat} {l : Label} : Le (fieldSize ⟨n, l, .msg .qBaseDef⟩ (setField d .baseDef)) 120 :=
  ⟨fieldSize_setField _ _ _ _ _ fun v => by sized [setValue]⟩
instance {d : QueryData} {n : Nat} {l : Label} : Le (fieldSize ⟨n, l, .msg .qEquippedTo⟩ (setField d .equippedTo)) 120 :=
  ⟨fieldSize_setField _ _ _ _ _ fun v => by sized [setValue]⟩
instance {d : QueryData} {n : Nat} {l : Label} : Le (fieldSize ⟨n, l, .msg .qOwner⟩ (setField d .owner)) 120 :=
  ⟨fieldSize_setField _ _ _ _ _ fun v => by sized [setValue]⟩
instance {d : QueryData} {n : Nat} {l : Label} : Le (fieldSize ⟨n, l, .msg .qStatus⟩ (setField d .status)) 120 :=
  ⟨fieldSize_setField _ _ _ _ _ fun v => by sized [setValue]⟩
instance {d : QueryData} {n : Nat} {l : Label} : Le (fieldSize ⟨n, l, .msg .qIsPublic⟩ (setField d .isPublic)) 120 :=
  ⟨fieldSize_setField _ _ _ _ _ fun v => by sized [setValue]⟩
instance {d : QueryData} {n : Nat} {l : Label} : Le (fieldSize ⟨n, l, .msg .qPendLScale⟩ (setField d .pendLScale)) 120 :=
  ⟨fieldSize_setField _ _ _ _ _ fun v => by sized [setValue]⟩
instance {d : QueryData} {n : Nat} {l : Label} : Le (fieldSize ⟨n, l, .msg .qPendRScale⟩ (setField d .pendRScale)) 120 :=
  ⟨fieldSize_setField _ _ _ _ _ fun v => by sized [setValue]⟩
instance {d : QueryData} {n : Nat} {l : Label} : Le (fieldSize ⟨n, l, .msg .qLinkRate⟩ (setField d .linkRate)) 120 :=
  ⟨fieldSize_setField _ _ _ _ _ fun v => by sized [setValue]⟩
instance {d : QueryData} {n : Nat} {l : Label} : Le (fieldSize ⟨n, l, .msg .qLinkArrow⟩ (setField d .linkArrow)) 120 :=
  ⟨fieldSize_setField _ _ _ _ _ fun v => by sized [setValue]⟩
instance {d : QueryData} {n : Nat} {l : Label} : Le (fieldSize ⟨n, l, .msg .qIsHidden⟩ (setField d .isHidden)) 120 :=
  ⟨fieldSize_setField _ _ _ _ _ fun v => by sized [setValue]⟩
instance {d : QueryData} {n : Nat} {l : Label} : Le (fieldSize ⟨n, l, .msg .qCover⟩ (setField d .cover)) 120 :=
  ⟨fieldSize_setField _ _ _ _ _ fun v => by sized [setValue]⟩

theorem size_data (d : QueryData) : size .queryData (setData d) ≤ 2680 + d.weight := by
  unfold QueryData.weight
  sized [setData]

instance {d : QueryData} : Le (size .queryData (setData d)) (2680 + d.weight) := ⟨size_data _⟩
theorem size_query (q : Query) : size .query (setQuery q) ≤ 2800 + q.data.weight := by sized [setQuery]

instance {q : Query} : Le (size .query (setQuery q)) (2800 + q.data.weight) := ⟨size_query _⟩
/-- What queries take. -/
def queriesWeight (qs : List Query) : Nat := (qs.map fun q => 2820 + q.data.weight).sum

instance {n : Nat} {l : Label} {qs : List Query} : Le (fieldSize ⟨n, l, .msg .query⟩ (objs setQuery qs)) (queriesWeight qs) :=
  ⟨fieldSize_sum _ _ _ _ _ _ fun q => by have := size_query q; omega⟩

/-- What the lists of a message take. -/
def _root_.Ygo.Msg.weight (m : Msg) : Nat :=
  (match m.body with
    | .unset => 0
    | .event e => e.weight
    | .request _ r => r.weight) + queriesWeight m.queries

theorem size_msg (m : Msg) : (sendMsg m).length ≤ 320 + m.weight := by
  obtain ⟨b, qs⟩ := m
  show size .msg _ ≤ _
  cases b <;> (dsimp only [Msg.weight, setMsg]; sized [])

end Ygo.Pb

/-! ## From below -/

namespace Ygo.Pb

theorem varint_length_pos (n : Nat) : 1 ≤ (varint n).length := List.length_pos_iff.2 (varint_ne_nil n)

theorem fieldSize_obj_ge (n : Nat) (l : Label) (m : MsgType) (o : Obj) : size m o + 2 ≤ fieldSize ⟨n, l, .msg m⟩ (obj o) := by
  have h1 := varint_length_pos (8 * n + 2)
  have h2 := varint_length_pos (write schema m o).length
  have : fieldSize ⟨n, l, .msg m⟩ (obj o) = (block n (write schema m o)).length := by
    cases l <;> (show (writeVals schema n (.msg m) (obj o)).length = _; simp only [writeVals, obj, List.append_nil, writeVal]; rfl)
  rw [this]
  simp only [block, List.length_append, size]
  omega

theorem fieldSize_objs_ge {α : Type} (n : Nat) (l : Label) (m : MsgType) (g : α → Obj) (xs : List α) :
    2 * xs.length ≤ fieldSize ⟨n, l, .msg m⟩ (objs g xs) := by
  have : fieldSize ⟨n, l, .msg m⟩ (objs g xs) = (writeVals schema n (.msg m) (objs g xs)).length := by
    cases l <;> rfl
  rw [this]
  induction xs with
  | nil => simp
  | cons x xs ih =>
    have h := fieldSize_obj_ge n .plain m (g x)
    have e : fieldSize ⟨n, .plain, .msg m⟩ (obj (g x)) = (writeVal schema n (.msg m) (.msg (g x))).length := by
      show (writeVals schema n (.msg m) (obj (g x))).length = _
      simp only [writeVals, obj, List.append_nil]
    have := ih (by cases l <;> rfl)
    simp only [objs, List.map_cons, writeVals, List.length_append, List.length_cons] at this ⊢
    omega

/-- A state of the board takes at least two bytes for every place it adds. -/
theorem size_state_ge (s : BoardState) : 2 * s.add.length ≤ size .event (setEvent (.board (.state s))) := by
  have h1 : 2 * s.add.length ≤ size .evCardAdd (setPlaces s.add) := by
    fields [setPlaces]
    exact fieldSize_objs_ge _ _ _ _ _
  have h2 : 2 * s.add.length ≤ size .evBoardState (setBoardState s) := by
    fields [setBoardState]
    have := fieldSize_obj_ge 5 .plain .evCardAdd (setPlaces s.add)
    omega
  have h3 : 2 * s.add.length ≤ size .evBoard (setBoard (.state s)) := by
    fields [setBoard]
    have := fieldSize_obj_ge 2 (.oneof 0) .evBoardState (setBoardState s)
    omega
  fields [setEvent]
  have := fieldSize_obj_ge 1 (.oneof 0) .evBoard (setBoard (.state s))
  omega

theorem size_msg_event (e : Event) (qs : List Query) : size .event (setEvent e) ≤ (sendMsg ⟨.event e, qs⟩).length := by
  show _ ≤ size .msg (setMsg ⟨.event e, qs⟩)
  have := fieldSize_obj_ge 1 (.oneof 0) .event (setEvent e)
  generalize size .event (setEvent e) = b at *
  fields [setMsg]
  omega

theorem readVarint_big {k : Nat} : ∀ {j n : Nat} {rest : List Nat}, 128 ^ k ≤ n → k < j → readVarint k (varintIn j n ++ rest) = none := by
  induction k with
  | zero => intros; rfl
  | succ k ih =>
    intro j n rest hn hj
    obtain ⟨j, rfl⟩ : ∃ i, j = i + 1 := ⟨j - 1, by omega⟩
    have h1 : 1 ≤ 128 ^ k := Nat.pow_pos (by omega)
    rw [Nat.pow_succ] at hn
    unfold varintIn
    rw [if_neg (by omega)]
    simp only [List.cons_append, readVarint]
    rw [if_neg (by omega), ih (by omega) (by omega)]
    rfl

/-- Blocks of more than 2 GiB are refused. -/
theorem readBlock_big {p rest : List Nat} (h : 2 ^ 31 - 16 ≤ p.length) : readBlock (varint p.length ++ (p ++ rest)) = none := by
  unfold readBlock varint
  by_cases hb : p.length < 128 ^ 5
  · rw [readVarint_varintIn (by omega) (by omega) (by omega) (by omega)]
    simp only [Option.bind_eq_bind, Option.bind_some]
    rw [if_neg (by omega)]
  · rw [readVarint_big (by omega) (by omega)]
    rfl

/-- A message with an event of more than 2 GiB is refused. -/
theorem receiveMsg_big {e : Event} {qs : List Query} (h : 2 ^ 31 - 16 ≤ size .event (setEvent e)) : receiveMsg (sendMsg ⟨.event e, qs⟩) = none := by
  have e1 : ∃ rest, sendMsg ⟨.event e, qs⟩ = varint 10 ++ (varint (write schema .event (setEvent e)).length ++ (write schema .event (setEvent e) ++ rest)) := by
    refine ⟨writeField schema ⟨2, .oneof 0, .msg .request⟩ [] ++ (writeField schema ⟨3, .rep, .msg .query⟩ (objs setQuery qs) ++ []), ?_⟩
    have e0 : writeVal schema 1 (.msg .event) (.msg (setEvent e)) = block 1 (write schema .event (setEvent e)) := by rw [writeVal]; rfl
    show (writeVal schema 1 (.msg .event) (.msg (setEvent e)) ++ []) ++ (_ ++ (_ ++ [])) = _
    rw [e0]
    simp only [block, List.append_assoc, List.append_nil]
    rfl
  obtain ⟨rest, e1⟩ := e1
  rw [e1]
  unfold receiveMsg read
  generalize hx : varint 10 ++ _ = x
  cases x with
  | nil => simp [varint_ne_nil] at hx
  | cons b bs =>
    rw [List.length_cons, merge]
    · rw [← hx]
      unfold record
      rw [readTag_varint (by omega)]
      simp only [Option.bind_eq_bind, Option.bind_some]
      have : (schema .msg).find? (fun f => f.num == 10 / 8) = some ⟨1, .oneof 0, .msg .event⟩ := rfl
      simp only [this, readBlock_big h]
      rfl
    · simp

end Ygo.Pb
