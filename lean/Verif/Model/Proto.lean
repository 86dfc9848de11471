import Verif.Model.Place

/-!
# Duel messages (`include/ygopen/proto/duel_data.proto`, `duel_msg.proto`)

Only the data is modelled.  A `oneof` is an inductive type whose first constructor is "nothing set"; an unset sub-message reads as
its default value, as in proto3.  Unsigned fields are `Nat`, signed ones `Int`.
-/

namespace Ygo

/-- `Effect` (duel_data.proto:81-85). -/
structure Effect where
  code : Nat := 0
  index : Nat := 0
  deriving DecidableEq, Repr, Inhabited

/-- `Counter` (duel_data.proto:75-79). -/
structure Counter where
  type : Nat := 0
  count : Nat := 0
  deriving DecidableEq, Repr, Inhabited

/-- The default `Place` message (duel_data.proto:87-93). -/
def Place.zero : Place := ⟨0, 0, 0, 0⟩

/-- `Chain` (duel_data.proto:68-73). -/
structure Chain where
  cardPlace : Place := Place.zero
  place : Place := Place.zero
  effect : Effect := {}
  deriving DecidableEq, Repr

/-- `FieldShape` (duel_data.proto:22-35). -/
structure FieldShape where
  threeColumns : Bool := false
  hasPzones : Bool := false
  hasSeparatePzones : Bool := false
  hasEmzones : Bool := false
  hasSkillZone : Bool := false
  deriving DecidableEq, Repr

/-- `Msg.Event.Pile.Resize._Operation` (duel_msg.proto:244-248). -/
structure ResizeOp where
  place : Place
  count : Nat
  deriving DecidableEq, Repr

/-- `Msg.Event.Board.State` (duel_msg.proto:30-39). -/
structure BoardState where
  shape : FieldShape := {}
  turnCounter : Int := 0
  lps : List Nat := []
  chains : List Chain := []
  add : List Place := []
  resize : List ResizeOp := []
  deriving DecidableEq, Repr

/-- `Msg.Event.Board.Exchange` (duel_msg.proto:22-28). -/
structure BoardExchange where
  con : Int := 0
  remove : List Place := []
  add : List Place := []
  resize : List ResizeOp := []
  deriving DecidableEq, Repr

/-- `Msg.Event.Board` (duel_msg.proto:20-46). -/
inductive BoardEvent where
  | unset
  | exchange (e : BoardExchange)
  | state (s : BoardState)
  deriving DecidableEq, Repr

/-- `_Operation` of `Card.Exchange`, `Card.Move` and `Pile.Exchange`: a pair of places, in field order
(duel_msg.proto:57-60, 68-71, 233-236). -/
structure PlacePair where
  fst : Place
  snd : Place
  deriving DecidableEq, Repr

/-- The `oneof` of `Msg.Event.Card` (duel_msg.proto:48-100). -/
inductive CardEvent where
  | unset
  | add (places : List Place)
  | exchange (ops : List PlacePair)
  | move (ops : List PlacePair)
  | remove (places : List Place)
  | shuffle (previous current : List Place)
  deriving DecidableEq, Repr

/-- `Msg.Event.ChainStack` (duel_msg.proto:102-109). -/
inductive ChainEvent where
  | unset
  | push (c : Chain)
  | pop (b : Bool)
  deriving DecidableEq, Repr

/-- The `oneof` of `Msg.Event.Finish` (duel_msg.proto:111-121). -/
inductive FinishResult where
  | unset
  | winner (con : Int)
  | draw (b : Bool)
  deriving DecidableEq, Repr

/-- `Msg.Event.Finish` (duel_msg.proto:111-121). -/
structure Finish where
  winReason : Nat := 0
  matchWinReason : Nat := 0
  result : FinishResult := .unset
  deriving DecidableEq, Repr

/-- The `oneof` of `Msg.Event.LP` (duel_msg.proto:123-133). -/
inductive LPChange where
  | unset
  | become (n : Nat)
  | damage (n : Nat)
  | pay (n : Nat)
  | recover (n : Nat)
  deriving DecidableEq, Repr

/-- The `oneof` of `Msg.Event.Meta.Description` (duel_msg.proto:150-158). -/
inductive DescChange where
  | unset
  | add (e : Effect)
  | remove (e : Effect)
  deriving DecidableEq, Repr

/-- `ChainStatus` (duel_data.proto:57-66); `other` is a value that is not one of the enumerators (proto3 enums are open). -/
inductive ChainStatus where
  | chaining | chained | solving | actNegated | effNegated
  | other (n : Int)
  deriving DecidableEq, Repr

/-- `Msg.Event.Meta` (duel_msg.proto:135-206). -/
inductive MetaEvent where
  | unset
  | attack (attacker target : Place)
  | chainStatus (s : ChainStatus)
  | confirm (reason : Nat) (places : List Place)
  | description (con : Int) (t : DescChange)
  | flashCard (code : Nat) (hasNumber : Bool) (number : Int)
  | missedTiming (places : List Place)
  | selection (selector : Place) (reason : Nat) (selected : List Place)
  | shufflePile (places : List Place)
  | update (reason : Nat) (places : List Place)
  deriving DecidableEq, Repr

/-- `Msg.Event.Pile.Splice._Operation` (duel_msg.proto:255-261). -/
structure SpliceOp where
  src : Place
  count : Nat
  dst : Place
  reverse : Bool := false
  deriving DecidableEq, Repr

/-- The `oneof` of `Msg.Event.Pile` (duel_msg.proto:208-251). -/
inductive PileEvent where
  | unset
  | exchange (ops : List PlacePair)
  | resize (ops : List ResizeOp)
  | splice (ops : List SpliceOp)
  deriving DecidableEq, Repr

/-- `Msg.Event.Result` (duel_msg.proto:253-278). -/
inductive ResultEvent where
  | unset
  | coin (actor : Int) (values : List Bool)
  | dice (actor : Int) (values : List Nat)
  | rps (values : List Int)
  deriving DecidableEq, Repr

/-- `Msg.Event` (duel_msg.proto:18-302). -/
inductive Event where
  | unset
  | board (e : BoardEvent)
  | card (reason : Nat) (e : CardEvent)
  | chainStack (e : ChainEvent)
  | nextTurn (con : Int)
  | finish (f : Finish)
  | lp (controller : Int) (c : LPChange)
  | metaInfo (m : MetaEvent)
  | nextPhase (phase : Nat)
  | pile (reason : Nat) (e : PileEvent)
  | result (r : ResultEvent)
  | zoneBlock (zones : List Place)
  deriving DecidableEq, Repr

end Ygo
