import Verif.Spec.System

/-!
# The numbers that protobuf fields can hold

Written from the types in `include/ygopen/proto/duel_data.proto` and `duel_msg.proto`.
-/

namespace Ygo.Spec
open Ygo

/-- `uint32` -/
def U32 (n : Nat) : Prop := n < 2 ^ 32
/-- `uint64` -/
def U64 (n : Nat) : Prop := n < 2 ^ 64
/-- `int32` and `sint32` -/
def I32 (z : Int) : Prop := -2 ^ 31 ≤ z ∧ z < 2 ^ 31

/-- Every element. -/
def All {α : Type} (P : α → Prop) (xs : List α) : Prop := ∀ x ∈ xs, P x

structure PlaceHolds (p : Place) : Prop where
  con : I32 p.con
  loc : U32 p.loc
  seq : U32 p.seq
  oseq : I32 p.oseq

def EffectHolds (e : Effect) : Prop := U32 e.code ∧ U32 e.index
def CounterHolds (c : Counter) : Prop := U32 c.type ∧ U32 c.count
def ChainHolds (c : Chain) : Prop := PlaceHolds c.cardPlace ∧ PlaceHolds c.place ∧ EffectHolds c.effect
def ResizeHolds (r : ResizeOp) : Prop := PlaceHolds r.place ∧ U32 r.count
def PairHolds (p : PlacePair) : Prop := PlaceHolds p.fst ∧ PlaceHolds p.snd
def SpliceHolds (s : SpliceOp) : Prop := PlaceHolds s.src ∧ U32 s.count ∧ PlaceHolds s.dst

def EventHolds : Event → Prop
  | .board (.exchange e) => I32 e.con ∧ All PlaceHolds e.remove ∧ All PlaceHolds e.add ∧ All ResizeHolds e.resize
  | .board (.state s) => I32 s.turnCounter ∧ All U32 s.lps ∧ All ChainHolds s.chains ∧ All PlaceHolds s.add ∧ All ResizeHolds s.resize
  | .card r (.add ps) | .card r (.remove ps) => U64 r ∧ All PlaceHolds ps
  | .card r (.exchange ops) | .card r (.move ops) => U64 r ∧ All PairHolds ops
  | .card r (.shuffle ps qs) => U64 r ∧ All PlaceHolds ps ∧ All PlaceHolds qs
  | .card r .unset => U64 r
  | .chainStack (.push c) => ChainHolds c
  | .nextTurn con => I32 con
  | .finish f => U32 f.winReason ∧ U32 f.matchWinReason ∧ ∀ w, f.result = .winner w → I32 w
  | .lp con c =>
    I32 con ∧ match c with
      | .unset => True
      | .become n | .damage n | .pay n | .recover n => U32 n
  | .metaInfo m =>
    match m with
    | .unset => True
    | .chainStatus s => ∀ n, s = .other n → I32 n ∧ (n < 0 ∨ 4 < n)
    | .attack a t => PlaceHolds a ∧ PlaceHolds t
    | .confirm r ps | .update r ps => U64 r ∧ All PlaceHolds ps
    | .description con t =>
      I32 con ∧ match t with
        | .unset => True
        | .add e | .remove e => EffectHolds e
    | .flashCard c _ n => U32 c ∧ I32 n
    | .missedTiming ps | .shufflePile ps => All PlaceHolds ps
    | .selection s r ps => PlaceHolds s ∧ U64 r ∧ All PlaceHolds ps
  | .nextPhase p => U32 p
  | .pile r (.exchange ops) => U64 r ∧ All PairHolds ops
  | .pile r (.resize ops) => U64 r ∧ All ResizeHolds ops
  | .pile r (.splice ops) => U64 r ∧ All SpliceHolds ops
  | .pile r .unset => U64 r
  | .result (.coin a _) => I32 a
  | .result (.dice a vs) => I32 a ∧ All U32 vs
  | .result (.rps vs) => All I32 vs
  | .zoneBlock zs => All PlaceHolds zs
  | .unset | .board .unset | .chainStack .unset | .chainStack (.pop _) | .result .unset => True

def ActHolds (a : ActCard) : Prop := PlaceHolds a.place ∧ EffectHolds a.effect
def SelectableHolds (c : SelectableCard) : Prop := PlaceHolds c.place ∧ U32 c.code

def SelectCardHolds : SelectCard → Prop
  | .unset => True
  | .limbo _ mn mx cs => U32 mn ∧ U32 mx ∧ All U32 cs
  | .recursive _ _ mn mx ss ds => U32 mn ∧ U32 mx ∧ All SelectableHolds ss ∧ All SelectableHolds ds
  | .uniqueRange _ mn mx cs => U32 mn ∧ U32 mx ∧ All SelectableHolds cs
  | .uniqueSum _ _ mn mx cs => U32 mn ∧ U32 mx ∧ All (fun c => PlaceHolds c.place ∧ U32 c.code ∧ U32 c.param1 ∧ U32 c.param2) cs
  | .uniqueTributes _ mn mx cs => U32 mn ∧ U32 mx ∧ All (fun c => PlaceHolds c.place ∧ U32 c.code ∧ U32 c.countAs) cs

structure IdleHolds (s : SelectIdle) : Prop where
  phase : U32 s.availablePhase
  activable : All ActHolds s.activable
  summonable : All PlaceHolds s.summonable
  spsummonable : All PlaceHolds s.spsummonable
  repositionable : All PlaceHolds s.repositionable
  msetable : All PlaceHolds s.msetable
  ssetable : All PlaceHolds s.ssetable
  canAttack : All (fun c => PlaceHolds c.place) s.canAttack

def RequestHolds : Request → Prop
  | .unset | .selectRockPaperScissors _ => True
  | .selectAttribute c a => U32 c ∧ U32 a
  | .selectCard s => SelectCardHolds s
  | .selectCardCode c ops => U32 c ∧ All U64 ops
  | .selectCounter c cs => CounterHolds c ∧ All (fun c => PlaceHolds c.place ∧ U32 c.amount) cs
  | .selectEffect c es => U32 c ∧ All EffectHolds es
  | .selectIdle s => IdleHolds s
  | .selectNumber c ns => U32 c ∧ All U64 ns
  | .selectPosition c code p => U32 c ∧ U32 code ∧ U32 p
  | .selectRace c r => U32 c ∧ U64 r
  | .selectToChain _ _ cs => All ActHolds cs
  | .selectYesNo p c e => PlaceHolds p ∧ U32 c ∧ EffectHolds e
  | .selectZone _ c ps => U32 c ∧ All PlaceHolds ps
  | .sort ps => All PlaceHolds ps

/-- Values of the single-valued fields of a query; cards have the same types (default_card_traits.hpp:15-170). -/
def FieldHolds : (f : QField) → f.Val → Prop
  | .level, v | .atk, v | .def_, v | .baseAtk, v | .baseDef, v | .owner, v => I32 v
  | .equippedTo, p => PlaceHolds p
  | .isPublic, _ | .isHidden, _ => True
  | .race, v => U64 v
  | .code, v | .position, v | .«alias», v | .type, v | .xyzRank, v | .«attribute», v | .status, v | .pendLScale, v | .pendRScale, v
  | .cover, v | .linkRate, v | .linkArrow, v => U32 v

structure DataHolds (d : QueryData) : Prop where
  single : ∀ f v, d.single f = some v → FieldHolds f v
  targets : ∀ ps, d.targets = some ps → All PlaceHolds ps
  counters : ∀ cs, d.counters = some cs → All CounterHolds cs

def QueryHolds (q : Query) : Prop := PlaceHolds q.place ∧ DataHolds q.data

/-- Every number of a message is one that its field can hold. -/
structure MsgHolds (m : Msg) : Prop where
  event : ∀ e, m.body = .event e → EventHolds e
  request : ∀ who r, m.body = .request who r → I32 who ∧ RequestHolds r
  queries : All QueryHolds m.queries

/-- Every number on a board is one that its type can hold (turn and life points are `uint32_t`, the turn player `int`). -/
structure BoardHolds (b : PlainBoard) : Prop where
  chain : All ChainHolds b.chainStack.val
  turn : U32 b.turn.val
  turnController : I32 b.turnController.val
  lp : ∀ i, U32 (b.lp i).val
  phase : U32 b.phase.val
  blocked : All PlaceHolds b.blockedZones.val

/-- Every value recorded for a card is one that its type can hold. -/
structure CardHolds (c : Card Plain) : Prop where
  single : ∀ f, FieldHolds f (c.single f).val
  targets : All PlaceHolds c.targets.val
  counters : All CounterHolds c.counters.val

end Ygo.Spec
