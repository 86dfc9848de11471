import Verif.Model.Query

/-!
# Requests and whole messages (`include/ygopen/proto/duel_msg.proto`)
-/

namespace Ygo

/-- `Request._ActCard` (duel_msg.proto:306-311). -/
structure ActCard where
  place : Place
  effect : Effect
  deriving DecidableEq, Repr

/-- `SelectCard._SelectableCard` (duel_msg.proto:323-327). -/
structure SelectableCard where
  place : Place
  code : Nat
  deriving DecidableEq, Repr

/-- `UniqueSum._SumCard` (duel_msg.proto:373-385). -/
structure SumCard where
  place : Place
  code : Nat
  param1 : Nat
  param2 : Nat
  deriving DecidableEq, Repr

/-- `UniqueTributes._TributeCard` (duel_msg.proto:400-407). -/
structure TributeCard where
  place : Place
  code : Nat
  countAs : Nat
  deriving DecidableEq, Repr

/-- The `oneof` of `Request.SelectCard` (duel_msg.proto:321-427). -/
inductive SelectCard where
  | unset
  | limbo (canCancel : Bool) (min max : Nat) (codes : List Nat)
  | recursive (canFinish accept : Bool) (min max : Nat) (selectable deselectable : List SelectableCard)
  | uniqueRange (canCancel : Bool) (min max : Nat) (cards : List SelectableCard)
  | uniqueSum (canCancel sumExactly : Bool) (min max : Nat) (cards : List SumCard)
  | uniqueTributes (canCancel : Bool) (min max : Nat) (cards : List TributeCard)
  deriving DecidableEq, Repr

/-- `SelectIdle._AtkCard` (duel_msg.proto:469-473). -/
structure AtkCard where
  place : Place
  canAttackDirectly : Bool
  deriving DecidableEq, Repr

/-- `Request.SelectIdle` (duel_msg.proto:467-495). -/
structure SelectIdle where
  canShuffle : Bool := false
  availablePhase : Nat := 0
  activable : List ActCard := []
  summonable : List Place := []
  spsummonable : List Place := []
  repositionable : List Place := []
  msetable : List Place := []
  ssetable : List Place := []
  canAttack : List AtkCard := []
  isBattleCmd : Bool := false
  deriving DecidableEq, Repr

/-- `SelectCounter._CounterCard` (duel_msg.proto:446-451). -/
structure CounterCard where
  place : Place
  amount : Nat
  deriving DecidableEq, Repr

/-- The `oneof` of `Msg.Request` (duel_msg.proto:304-575). -/
inductive Request where
  | unset
  | selectAttribute (count attribute_ : Nat)
  | selectCard (s : SelectCard)
  | selectCardCode (count : Nat) (opcodes : List Nat)
  | selectCounter (counter : Counter) (cards : List CounterCard)
  | selectEffect (count : Nat) (effects : List Effect)
  | selectIdle (s : SelectIdle)
  | selectNumber (count : Nat) (numbers : List Nat)
  | selectPosition (count code position : Nat)
  | selectRace (count race : Nat)
  | selectRockPaperScissors (b : Bool)
  | selectToChain (forced triggering : Bool) (cards : List ActCard)
  | selectYesNo (place : Place) (code : Nat) (effect : Effect)
  | selectZone (blocking : Bool) (count : Nat) (places : List Place)
  | sort (places : List Place)
  deriving DecidableEq, Repr

/-- The `oneof` of `Msg` (duel_msg.proto:16-738). -/
inductive MsgBody where
  | unset
  | event (e : Event)
  | request (replier : Int) (r : Request)
  deriving DecidableEq, Repr

/-- `Msg` (duel_msg.proto:16-738). -/
structure Msg where
  body : MsgBody := .unset
  queries : List Query := []

/-- Fresh `Query.Data`: nothing present. -/
def QueryData.empty : QueryData := ⟨fun _ => none, none, none⟩

/-- `mutable_<name>()->set_value(v)`. -/
def QueryData.setSingle (d : QueryData) (f : QField) (v : f.Val) : QueryData :=
  { d with single := fun g => if h : g = f then some (h ▸ v) else d.single g }

end Ygo
