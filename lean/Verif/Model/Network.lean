import Verif.Model.Schema
import Verif.Model.Decode

/-!
# Messages as objects of the generated classes

`set…` is an object made with the setters of the generated class, `get…` is what its getters say: a field that is not set reads as
zero, empty, or a message with nothing set.  The numbers are the field numbers of the `.proto` files (`Model/Schema.lean`).
-/

namespace Ygo.Pb

/-! ## Getters and setters -/

/-- A number without explicit presence. -/
def int (z : Int) : List Val := if z = 0 then [] else [.num z]
def nat (n : Nat) : List Val := int n
def bool (b : Bool) : List Val := int (if b then 1 else 0)
/-- A number of a `oneof`. -/
def int1 (z : Int) : List Val := [.num z]
def nat1 (n : Nat) : List Val := int1 n
def bool1 (b : Bool) : List Val := int1 (if b then 1 else 0)
/-- Repeated numbers. -/
def ints (zs : List Int) : List Val := zs.map .num
def nats (ns : List Nat) : List Val := ns.map fun (n : Nat) => .num n
def bools (bs : List Bool) : List Val := bs.map fun (b : Bool) => .num (if b then 1 else 0)
/-- Messages. -/
def obj (o : Obj) : List Val := [.msg o]
def objs {α : Type} (g : α → Obj) (xs : List α) : List Val := xs.map fun x => .msg (g x)

def toInt : List Val → Int
  | .num z :: _ => z
  | _ => 0
def toObj : List Val → Obj
  | .msg o :: _ => o
  | _ => Obj.empty
def toInts : List Val → List Int
  | [] => []
  | .num z :: vs => z :: toInts vs
  | _ :: vs => toInts vs
def toObjs : List Val → List Obj
  | [] => []
  | .msg o :: vs => o :: toObjs vs
  | _ :: vs => toObjs vs

namespace Obj

/-- An object with these fields set. -/
def with_ : List (Nat × List Val) → Obj
  | [] => empty
  | (k, vs) :: l => fun n => if n = k then vs else with_ l n

def has (o : Obj) (n : Nat) : Bool := !(o n).isEmpty
def int (o : Obj) (n : Nat) : Int := toInt (o n)
def nat (o : Obj) (n : Nat) : Nat := (toInt (o n)).toNat
def bool (o : Obj) (n : Nat) : Bool := toInt (o n) != 0
def ints (o : Obj) (n : Nat) : List Int := toInts (o n)
def nats (o : Obj) (n : Nat) : List Nat := (toInts (o n)).map Int.toNat
def bools (o : Obj) (n : Nat) : List Bool := (toInts (o n)).map (· != 0)
def sub (o : Obj) (n : Nat) : Obj := toObj (o n)
def subs {α : Type} (o : Obj) (n : Nat) (g : Obj → α) : List α := (toObjs (o n)).map g

end Obj

open Obj (with_)

/-! ## duel_data.proto -/

def setPlace (p : Place) : Obj := with_ [(1, int p.con), (2, nat p.loc), (3, nat p.seq), (4, int p.oseq)]
def getPlace (o : Obj) : Place := ⟨o.int 1, o.nat 2, o.nat 3, o.int 4⟩

def setEffect (e : Effect) : Obj := with_ [(1, nat e.code), (2, nat e.index)]
def getEffect (o : Obj) : Effect := ⟨o.nat 1, o.nat 2⟩

def setCounter (c : Counter) : Obj := with_ [(1, nat c.type), (2, nat c.count)]
def getCounter (o : Obj) : Counter := ⟨o.nat 1, o.nat 2⟩

def setChain (c : Chain) : Obj := with_ [(1, obj (setPlace c.cardPlace)), (2, obj (setPlace c.place)), (3, obj (setEffect c.effect))]
def getChain (o : Obj) : Chain := ⟨getPlace (o.sub 1), getPlace (o.sub 2), getEffect (o.sub 3)⟩

def setShape (s : FieldShape) : Obj :=
  with_ [(1, bool s.threeColumns), (2, bool s.hasPzones), (3, bool s.hasSeparatePzones), (4, bool s.hasEmzones), (5, bool s.hasSkillZone)]
def getShape (o : Obj) : FieldShape := ⟨o.bool 1, o.bool 2, o.bool 3, o.bool 4, o.bool 5⟩

def setStatus : ChainStatus → Int
  | .chaining => 0
  | .chained => 1
  | .solving => 2
  | .actNegated => 3
  | .effNegated => 4
  | .other n => n
def getStatus (z : Int) : ChainStatus :=
  if z = 0 then .chaining else if z = 1 then .chained else if z = 2 then .solving else if z = 3 then .actNegated
  else if z = 4 then .effNegated else .other z

/-! ## duel_msg.proto: events -/

/-- Messages whose only field is a list of places. -/
def setPlaces (ps : List Place) : Obj := with_ [(1, objs setPlace ps)]
def getPlaces (o : Obj) : List Place := o.subs 1 getPlace

def setPair (p : PlacePair) : Obj := with_ [(1, obj (setPlace p.fst)), (2, obj (setPlace p.snd))]
def getPair (o : Obj) : PlacePair := ⟨getPlace (o.sub 1), getPlace (o.sub 2)⟩

def setPairs (ps : List PlacePair) : Obj := with_ [(1, objs setPair ps)]
def getPairs (o : Obj) : List PlacePair := o.subs 1 getPair

def setResize (r : ResizeOp) : Obj := with_ [(1, obj (setPlace r.place)), (2, nat r.count)]
def getResize (o : Obj) : ResizeOp := ⟨getPlace (o.sub 1), o.nat 2⟩

def setResizes (rs : List ResizeOp) : Obj := with_ [(1, objs setResize rs)]
def getResizes (o : Obj) : List ResizeOp := o.subs 1 getResize

def setSplice (s : SpliceOp) : Obj :=
  with_ [(1, obj (setPlace s.src)), (2, nat s.count), (3, obj (setPlace s.dst)), (4, bool s.reverse)]
def getSplice (o : Obj) : SpliceOp := ⟨getPlace (o.sub 1), o.nat 2, getPlace (o.sub 3), o.bool 4⟩

def setBoardExchange (e : BoardExchange) : Obj :=
  with_ [(1, int e.con), (2, obj (setPlaces e.remove)), (3, obj (setPlaces e.add)), (4, obj (setResizes e.resize))]
def getBoardExchange (o : Obj) : BoardExchange := ⟨o.int 1, getPlaces (o.sub 2), getPlaces (o.sub 3), getResizes (o.sub 4)⟩

def setBoardState (s : BoardState) : Obj :=
  with_ [(1, obj (setShape s.shape)), (2, int s.turnCounter), (3, nats s.lps), (4, objs setChain s.chains),
    (5, obj (setPlaces s.add)), (6, obj (setResizes s.resize))]
def getBoardState (o : Obj) : BoardState :=
  ⟨getShape (o.sub 1), o.int 2, o.nats 3, o.subs 4 getChain, getPlaces (o.sub 5), getResizes (o.sub 6)⟩

def setBoard : BoardEvent → Obj
  | .unset => with_ []
  | .exchange e => with_ [(1, obj (setBoardExchange e))]
  | .state s => with_ [(2, obj (setBoardState s))]
def getBoard (o : Obj) : BoardEvent :=
  if o.has 1 then .exchange (getBoardExchange (o.sub 1))
  else if o.has 2 then .state (getBoardState (o.sub 2))
  else .unset

def setShuffle (previous current : List Place) : Obj := with_ [(1, objs setPlace previous), (2, objs setPlace current)]

def setCard (reason : Nat) : CardEvent → Obj
  | .unset => with_ [(1, nat reason)]
  | .add ps => with_ [(1, nat reason), (2, obj (setPlaces ps))]
  | .exchange ops => with_ [(1, nat reason), (3, obj (setPairs ops))]
  | .move ops => with_ [(1, nat reason), (4, obj (setPairs ops))]
  | .remove ps => with_ [(1, nat reason), (5, obj (setPlaces ps))]
  | .shuffle ps qs => with_ [(1, nat reason), (6, obj (setShuffle ps qs))]
def getCard (o : Obj) : CardEvent :=
  if o.has 2 then .add (getPlaces (o.sub 2))
  else if o.has 3 then .exchange (getPairs (o.sub 3))
  else if o.has 4 then .move (getPairs (o.sub 4))
  else if o.has 5 then .remove (getPlaces (o.sub 5))
  else if o.has 6 then .shuffle ((o.sub 6).subs 1 getPlace) ((o.sub 6).subs 2 getPlace)
  else .unset

def setChainStack : ChainEvent → Obj
  | .unset => with_ []
  | .push c => with_ [(1, obj (setChain c))]
  | .pop b => with_ [(2, bool1 b)]
def getChainStack (o : Obj) : ChainEvent :=
  if o.has 1 then .push (getChain (o.sub 1))
  else if o.has 2 then .pop (o.bool 2)
  else .unset

def setFinish (f : Finish) : Obj :=
  match f.result with
  | .unset => with_ [(1, nat f.winReason), (2, nat f.matchWinReason)]
  | .winner w => with_ [(1, nat f.winReason), (2, nat f.matchWinReason), (3, int1 w)]
  | .draw b => with_ [(1, nat f.winReason), (2, nat f.matchWinReason), (4, bool1 b)]
def getFinish (o : Obj) : Finish :=
  ⟨o.nat 1, o.nat 2, if o.has 3 then .winner (o.int 3) else if o.has 4 then .draw (o.bool 4) else .unset⟩

def setLP (con : Int) : LPChange → Obj
  | .unset => with_ [(1, int con)]
  | .become n => with_ [(1, int con), (2, nat1 n)]
  | .damage n => with_ [(1, int con), (3, nat1 n)]
  | .pay n => with_ [(1, int con), (4, nat1 n)]
  | .recover n => with_ [(1, int con), (5, nat1 n)]
def getLP (o : Obj) : LPChange :=
  if o.has 2 then .become (o.nat 2)
  else if o.has 3 then .damage (o.nat 3)
  else if o.has 4 then .pay (o.nat 4)
  else if o.has 5 then .recover (o.nat 5)
  else .unset

/-- `Confirm` and `Update`. -/
def setReasoned (reason : Nat) (ps : List Place) : Obj := with_ [(1, nat reason), (2, objs setPlace ps)]

def setDescription (con : Int) : DescChange → Obj
  | .unset => with_ [(1, int con)]
  | .add e => with_ [(1, int con), (2, obj (setEffect e))]
  | .remove e => with_ [(1, int con), (3, obj (setEffect e))]
def getDescription (o : Obj) : DescChange :=
  if o.has 2 then .add (getEffect (o.sub 2))
  else if o.has 3 then .remove (getEffect (o.sub 3))
  else .unset

def setFlash (code : Nat) (hasNumber : Bool) (number : Int) : Obj := with_ [(1, nat code), (2, bool hasNumber), (3, int number)]

def setSelection (selector : Place) (reason : Nat) (ps : List Place) : Obj :=
  with_ [(1, obj (setPlace selector)), (2, nat reason), (3, objs setPlace ps)]

def setMeta : MetaEvent → Obj
  | .unset => with_ []
  | .attack a t => with_ [(1, obj (setPair ⟨a, t⟩))]
  | .chainStatus s => with_ [(2, int1 (setStatus s))]
  | .confirm r ps => with_ [(3, obj (setReasoned r ps))]
  | .description con t => with_ [(4, obj (setDescription con t))]
  | .flashCard c h n => with_ [(5, obj (setFlash c h n))]
  | .missedTiming ps => with_ [(6, obj (setPlaces ps))]
  | .selection s r ps => with_ [(7, obj (setSelection s r ps))]
  | .shufflePile ps => with_ [(8, obj (setPlaces ps))]
  | .update r ps => with_ [(9, obj (setReasoned r ps))]
def getMeta (o : Obj) : MetaEvent :=
  if o.has 1 then .attack (getPlace ((o.sub 1).sub 1)) (getPlace ((o.sub 1).sub 2))
  else if o.has 2 then .chainStatus (getStatus (o.int 2))
  else if o.has 3 then .confirm ((o.sub 3).nat 1) ((o.sub 3).subs 2 getPlace)
  else if o.has 4 then .description ((o.sub 4).int 1) (getDescription (o.sub 4))
  else if o.has 5 then .flashCard ((o.sub 5).nat 1) ((o.sub 5).bool 2) ((o.sub 5).int 3)
  else if o.has 6 then .missedTiming (getPlaces (o.sub 6))
  else if o.has 7 then .selection (getPlace ((o.sub 7).sub 1)) ((o.sub 7).nat 2) ((o.sub 7).subs 3 getPlace)
  else if o.has 8 then .shufflePile (getPlaces (o.sub 8))
  else if o.has 9 then .update ((o.sub 9).nat 1) ((o.sub 9).subs 2 getPlace)
  else .unset

def setPile (reason : Nat) : PileEvent → Obj
  | .unset => with_ [(1, nat reason)]
  | .exchange ops => with_ [(1, nat reason), (2, obj (setPairs ops))]
  | .resize ops => with_ [(1, nat reason), (3, obj (setResizes ops))]
  | .splice ops => with_ [(1, nat reason), (4, obj (with_ [(1, objs setSplice ops)]))]
def getPile (o : Obj) : PileEvent :=
  if o.has 2 then .exchange (getPairs (o.sub 2))
  else if o.has 3 then .resize (getResizes (o.sub 3))
  else if o.has 4 then .splice ((o.sub 4).subs 1 getSplice)
  else .unset

def setResult : ResultEvent → Obj
  | .unset => with_ []
  | .coin a vs => with_ [(1, obj (with_ [(1, int a), (2, bools vs)]))]
  | .dice a vs => with_ [(2, obj (with_ [(1, int a), (2, nats vs)]))]
  | .rps vs => with_ [(3, obj (with_ [(1, ints vs)]))]
def getResult (o : Obj) : ResultEvent :=
  if o.has 1 then .coin ((o.sub 1).int 1) ((o.sub 1).bools 2)
  else if o.has 2 then .dice ((o.sub 2).int 1) ((o.sub 2).nats 2)
  else if o.has 3 then .rps ((o.sub 3).ints 1)
  else .unset

def setEvent : Event → Obj
  | .unset => with_ []
  | .board e => with_ [(1, obj (setBoard e))]
  | .card r e => with_ [(2, obj (setCard r e))]
  | .chainStack e => with_ [(3, obj (setChainStack e))]
  | .nextTurn con => with_ [(4, int1 con)]
  | .finish f => with_ [(5, obj (setFinish f))]
  | .lp con c => with_ [(6, obj (setLP con c))]
  | .metaInfo m => with_ [(7, obj (setMeta m))]
  | .nextPhase p => with_ [(8, nat1 p)]
  | .pile r e => with_ [(9, obj (setPile r e))]
  | .result r => with_ [(10, obj (setResult r))]
  | .zoneBlock zs => with_ [(11, obj (setPlaces zs))]
def getEvent (o : Obj) : Event :=
  if o.has 1 then .board (getBoard (o.sub 1))
  else if o.has 2 then .card ((o.sub 2).nat 1) (getCard (o.sub 2))
  else if o.has 3 then .chainStack (getChainStack (o.sub 3))
  else if o.has 4 then .nextTurn (o.int 4)
  else if o.has 5 then .finish (getFinish (o.sub 5))
  else if o.has 6 then .lp ((o.sub 6).int 1) (getLP (o.sub 6))
  else if o.has 7 then .metaInfo (getMeta (o.sub 7))
  else if o.has 8 then .nextPhase (o.nat 8)
  else if o.has 9 then .pile ((o.sub 9).nat 1) (getPile (o.sub 9))
  else if o.has 10 then .result (getResult (o.sub 10))
  else if o.has 11 then .zoneBlock (getPlaces (o.sub 11))
  else .unset

/-! ## duel_msg.proto: requests -/

def setAct (a : ActCard) : Obj := with_ [(1, obj (setPlace a.place)), (2, obj (setEffect a.effect))]
def getAct (o : Obj) : ActCard := ⟨getPlace (o.sub 1), getEffect (o.sub 2)⟩

def setSelectable (c : SelectableCard) : Obj := with_ [(1, obj (setPlace c.place)), (2, nat c.code)]
def getSelectable (o : Obj) : SelectableCard := ⟨getPlace (o.sub 1), o.nat 2⟩

def setSum (c : SumCard) : Obj := with_ [(1, obj (setPlace c.place)), (2, nat c.code), (3, nat c.param1), (4, nat c.param2)]
def getSum (o : Obj) : SumCard := ⟨getPlace (o.sub 1), o.nat 2, o.nat 3, o.nat 4⟩

def setTribute (c : TributeCard) : Obj := with_ [(1, obj (setPlace c.place)), (2, nat c.code), (3, nat c.countAs)]
def getTribute (o : Obj) : TributeCard := ⟨getPlace (o.sub 1), o.nat 2, o.nat 3⟩

def setAtk (c : AtkCard) : Obj := with_ [(1, obj (setPlace c.place)), (2, bool c.canAttackDirectly)]
def getAtk (o : Obj) : AtkCard := ⟨getPlace (o.sub 1), o.bool 2⟩

def setCounterCard (c : CounterCard) : Obj := with_ [(1, obj (setPlace c.place)), (2, nat c.amount)]
def getCounterCard (o : Obj) : CounterCard := ⟨getPlace (o.sub 1), o.nat 2⟩

def setSelectCard : SelectCard → Obj
  | .unset => with_ []
  | .limbo cc mn mx cs => with_ [(1, obj (with_ [(1, bool cc), (2, nat mn), (3, nat mx), (4, nats cs)]))]
  | .recursive cf ac mn mx ss ds => with_ [(2, obj (with_ [(1, bool cf), (2, bool ac), (3, nat mn), (4, nat mx),
      (5, objs setSelectable ss), (6, objs setSelectable ds)]))]
  | .uniqueRange cc mn mx cs => with_ [(3, obj (with_ [(1, bool cc), (2, nat mn), (3, nat mx), (4, objs setSelectable cs)]))]
  | .uniqueSum cc ex mn mx cs => with_ [(4, obj (with_ [(1, bool cc), (2, bool ex), (3, nat mn), (4, nat mx), (5, objs setSum cs)]))]
  | .uniqueTributes cc mn mx cs => with_ [(5, obj (with_ [(1, bool cc), (2, nat mn), (3, nat mx), (4, objs setTribute cs)]))]
def getSelectCard (o : Obj) : SelectCard :=
  if o.has 1 then .limbo ((o.sub 1).bool 1) ((o.sub 1).nat 2) ((o.sub 1).nat 3) ((o.sub 1).nats 4)
  else if o.has 2 then .recursive ((o.sub 2).bool 1) ((o.sub 2).bool 2) ((o.sub 2).nat 3) ((o.sub 2).nat 4)
    ((o.sub 2).subs 5 getSelectable) ((o.sub 2).subs 6 getSelectable)
  else if o.has 3 then .uniqueRange ((o.sub 3).bool 1) ((o.sub 3).nat 2) ((o.sub 3).nat 3) ((o.sub 3).subs 4 getSelectable)
  else if o.has 4 then .uniqueSum ((o.sub 4).bool 1) ((o.sub 4).bool 2) ((o.sub 4).nat 3) ((o.sub 4).nat 4) ((o.sub 4).subs 5 getSum)
  else if o.has 5 then .uniqueTributes ((o.sub 5).bool 1) ((o.sub 5).nat 2) ((o.sub 5).nat 3) ((o.sub 5).subs 4 getTribute)
  else .unset

def setIdle (s : SelectIdle) : Obj :=
  with_ [(1, bool s.canShuffle), (2, nat s.availablePhase), (3, objs setAct s.activable), (4, objs setPlace s.summonable),
    (5, objs setPlace s.spsummonable), (6, objs setPlace s.repositionable), (7, objs setPlace s.msetable), (8, objs setPlace s.ssetable),
    (9, objs setAtk s.canAttack), (15, bool s.isBattleCmd)]
def getIdle (o : Obj) : SelectIdle :=
  ⟨o.bool 1, o.nat 2, o.subs 3 getAct, o.subs 4 getPlace, o.subs 5 getPlace, o.subs 6 getPlace, o.subs 7 getPlace, o.subs 8 getPlace,
    o.subs 9 getAtk, o.bool 15⟩

def setRequest (replier : Int) : Request → Obj
  | .unset => with_ [(1, int replier)]
  | .selectAttribute c a => with_ [(1, int replier), (2, obj (with_ [(1, nat c), (2, nat a)]))]
  | .selectCard s => with_ [(1, int replier), (3, obj (setSelectCard s))]
  | .selectCardCode c ops => with_ [(1, int replier), (4, obj (with_ [(1, nat c), (2, nats ops)]))]
  | .selectCounter c cs => with_ [(1, int replier), (5, obj (with_ [(1, obj (setCounter c)), (2, objs setCounterCard cs)]))]
  | .selectEffect c es => with_ [(1, int replier), (6, obj (with_ [(1, nat c), (2, objs setEffect es)]))]
  | .selectIdle s => with_ [(1, int replier), (7, obj (setIdle s))]
  | .selectNumber c ns => with_ [(1, int replier), (8, obj (with_ [(1, nat c), (2, nats ns)]))]
  | .selectPosition c code p => with_ [(1, int replier), (9, obj (with_ [(1, nat c), (2, nat code), (3, nat p)]))]
  | .selectRace c r => with_ [(1, int replier), (10, obj (with_ [(1, nat c), (2, nat r)]))]
  | .selectRockPaperScissors b => with_ [(1, int replier), (11, bool1 b)]
  | .selectToChain f t cs => with_ [(1, int replier), (12, obj (with_ [(1, bool f), (2, bool t), (5, objs setAct cs)]))]
  | .selectYesNo p c e => with_ [(1, int replier), (13, obj (with_ [(1, obj (setPlace p)), (2, nat c), (3, obj (setEffect e))]))]
  | .selectZone b c ps => with_ [(1, int replier), (14, obj (with_ [(1, bool b), (2, nat c), (3, objs setPlace ps)]))]
  | .sort ps => with_ [(1, int replier), (15, obj (setPlaces ps))]
def getRequest (o : Obj) : Request :=
  if o.has 2 then .selectAttribute ((o.sub 2).nat 1) ((o.sub 2).nat 2)
  else if o.has 3 then .selectCard (getSelectCard (o.sub 3))
  else if o.has 4 then .selectCardCode ((o.sub 4).nat 1) ((o.sub 4).nats 2)
  else if o.has 5 then .selectCounter (getCounter ((o.sub 5).sub 1)) ((o.sub 5).subs 2 getCounterCard)
  else if o.has 6 then .selectEffect ((o.sub 6).nat 1) ((o.sub 6).subs 2 getEffect)
  else if o.has 7 then .selectIdle (getIdle (o.sub 7))
  else if o.has 8 then .selectNumber ((o.sub 8).nat 1) ((o.sub 8).nats 2)
  else if o.has 9 then .selectPosition ((o.sub 9).nat 1) ((o.sub 9).nat 2) ((o.sub 9).nat 3)
  else if o.has 10 then .selectRace ((o.sub 10).nat 1) ((o.sub 10).nat 2)
  else if o.has 11 then .selectRockPaperScissors (o.bool 11)
  else if o.has 12 then .selectToChain ((o.sub 12).bool 1) ((o.sub 12).bool 2) ((o.sub 12).subs 5 getAct)
  else if o.has 13 then .selectYesNo (getPlace ((o.sub 13).sub 1)) ((o.sub 13).nat 2) (getEffect ((o.sub 13).sub 3))
  else if o.has 14 then .selectZone ((o.sub 14).bool 1) ((o.sub 14).nat 2) ((o.sub 14).subs 3 getPlace)
  else if o.has 15 then .sort (getPlaces (o.sub 15))
  else .unset

/-! ## duel_msg.proto: queries -/

/-- Field numbers of `Query.Data`. -/
def queryNum : QField → Nat
  | .code => 1
  | .position => 2
  | .«alias» => 3
  | .type => 4
  | .level => 5
  | .xyzRank => 6
  | .«attribute» => 7
  | .race => 8
  | .atk => 9
  | .def_ => 10
  | .baseAtk => 11
  | .baseDef => 12
  | .equippedTo => 13
  | .owner => 16
  | .status => 17
  | .isPublic => 18
  | .pendLScale => 19
  | .pendRScale => 20
  | .linkRate => 21
  | .linkArrow => 22
  | .isHidden => 23
  | .cover => 24

def setValue : (f : QField) → f.Val → Obj
  | .level, v | .atk, v | .def_, v | .baseAtk, v | .baseDef, v | .owner, v => with_ [(1, int v)]
  | .equippedTo, v => with_ [(1, obj (setPlace v))]
  | .isPublic, v | .isHidden, v => with_ [(1, bool v)]
  | .code, v | .position, v | .«alias», v | .type, v | .xyzRank, v | .«attribute», v | .race, v | .status, v | .pendLScale, v
  | .pendRScale, v | .cover, v | .linkRate, v | .linkArrow, v => with_ [(1, nat v)]
def getValue : (f : QField) → Obj → f.Val
  | .level, o | .atk, o | .def_, o | .baseAtk, o | .baseDef, o | .owner, o => o.int 1
  | .equippedTo, o => getPlace (o.sub 1)
  | .isPublic, o | .isHidden, o => o.bool 1
  | .code, o | .position, o | .«alias», o | .type, o | .xyzRank, o | .«attribute», o | .race, o | .status, o | .pendLScale, o
  | .pendRScale, o | .cover, o | .linkRate, o | .linkArrow, o => o.nat 1

/-- A field of `Query.Data`, if it is present. -/
def setField (d : QueryData) (f : QField) : List Val :=
  match d.single f with
  | some v => obj (setValue f v)
  | none => []
def setSome {α : Type} (g : α → Obj) : Option α → List Val
  | some v => obj (g v)
  | none => []

def setData (d : QueryData) : Obj :=
  with_ [(1, setField d .code), (2, setField d .position), (3, setField d .«alias»), (4, setField d .type), (5, setField d .level),
    (6, setField d .xyzRank), (7, setField d .«attribute»), (8, setField d .race), (9, setField d .atk), (10, setField d .def_),
    (11, setField d .baseAtk), (12, setField d .baseDef), (13, setField d .equippedTo), (14, setSome setPlaces d.targets),
    (15, setSome (fun cs => with_ [(1, objs setCounter cs)]) d.counters), (16, setField d .owner), (17, setField d .status),
    (18, setField d .isPublic), (19, setField d .pendLScale), (20, setField d .pendRScale), (21, setField d .linkRate),
    (22, setField d .linkArrow), (23, setField d .isHidden), (24, setField d .cover)]
def getData (o : Obj) : QueryData :=
  ⟨fun f => if o.has (queryNum f) then some (getValue f (o.sub (queryNum f))) else none,
    if o.has 14 then some (getPlaces (o.sub 14)) else none,
    if o.has 15 then some ((o.sub 15).subs 1 getCounter) else none⟩

def setQuery (q : Query) : Obj := with_ [(1, obj (setPlace q.place)), (2, obj (setData q.data))]
def getQuery (o : Obj) : Query := ⟨getPlace (o.sub 1), getData (o.sub 2)⟩

def setMsg (m : Msg) : Obj :=
  match m.body with
  | .unset => with_ [(3, objs setQuery m.queries)]
  | .event e => with_ [(1, obj (setEvent e)), (3, objs setQuery m.queries)]
  | .request who r => with_ [(2, obj (setRequest who r)), (3, objs setQuery m.queries)]
def getMsg (o : Obj) : Msg :=
  ⟨if o.has 1 then .event (getEvent (o.sub 1))
    else if o.has 2 then .request ((o.sub 2).int 1) (getRequest (o.sub 2))
    else .unset,
   o.subs 3 getQuery⟩

/-! ## duel_answer.proto -/

def setIndexes (vs : List Nat) : Obj := with_ [(1, nats vs)]

def setAction : IdleAction → Int
  | .activate => 0
  | .summon => 1
  | .spsummon => 2
  | .reposition => 3
  | .mset => 4
  | .sset => 5
  | .attack => 6
  | .shuffle => 7
  | .phase => 8
  | .other n => n
def getAction (z : Int) : IdleAction :=
  if z = 0 then .activate else if z = 1 then .summon else if z = 2 then .spsummon else if z = 3 then .reposition
  else if z = 4 then .mset else if z = 5 then .sset else if z = 6 then .attack else if z = 7 then .shuffle
  else if z = 8 then .phase else .other z

def setAnswerCard : AnswerCard → Obj
  | .unset => with_ []
  | .cancel b => with_ [(1, bool1 b)]
  | .finish b => with_ [(2, bool1 b)]
  | .indexes vs => with_ [(3, obj (setIndexes vs))]
def getAnswerCard (o : Obj) : AnswerCard :=
  if o.has 1 then .cancel (o.bool 1)
  else if o.has 2 then .finish (o.bool 2)
  else if o.has 3 then .indexes ((o.sub 3).nats 1)
  else .unset

def setAnswerIdle : AnswerIdle → Obj
  | .unset => with_ []
  | .shuffle b => with_ [(1, bool1 b)]
  | .phase p => with_ [(2, nat1 p)]
  | .cardAction a i => with_ [(3, obj (with_ [(1, int (setAction a)), (2, nat i)]))]
def getAnswerIdle (o : Obj) : AnswerIdle :=
  if o.has 1 then .shuffle (o.bool 1)
  else if o.has 2 then .phase (o.nat 2)
  else if o.has 3 then .cardAction (getAction ((o.sub 3).int 1)) ((o.sub 3).nat 2)
  else .unset

def setAnswerChain : AnswerChain → Obj
  | .unset => with_ []
  | .noOp b => with_ [(1, bool1 b)]
  | .index i => with_ [(2, nat1 i)]
def getAnswerChain (o : Obj) : AnswerChain :=
  if o.has 1 then .noOp (o.bool 1)
  else if o.has 2 then .index (o.nat 2)
  else .unset

def setAnswerSort : AnswerSort → Obj
  | .unset => with_ []
  | .skip b => with_ [(1, bool1 b)]
  | .indexes vs => with_ [(2, obj (setIndexes vs))]
def getAnswerSort (o : Obj) : AnswerSort :=
  if o.has 1 then .skip (o.bool 1)
  else if o.has 2 then .indexes ((o.sub 2).nats 1)
  else .unset

def setAnswer : Answer → Obj
  | .unset => with_ []
  | .selectAttribute v => with_ [(1, nat1 v)]
  | .selectCard a => with_ [(2, obj (setAnswerCard a))]
  | .selectCardCode v => with_ [(3, nat1 v)]
  | .selectCounter vs => with_ [(4, obj (with_ [(1, objs (fun v => with_ [(1, nat v.1), (2, nat v.2)]) vs)]))]
  | .selectEffect v => with_ [(5, nat1 v)]
  | .selectIdle a => with_ [(6, obj (setAnswerIdle a))]
  | .selectNumber v => with_ [(7, nat1 v)]
  | .selectPosition v => with_ [(8, nat1 v)]
  | .selectRace v => with_ [(9, nat1 v)]
  | .selectRockPaperScissors v => with_ [(10, int1 v)]
  | .selectToChain a => with_ [(11, obj (setAnswerChain a))]
  | .selectYesNo b => with_ [(12, bool1 b)]
  | .selectZone ps => with_ [(13, obj (setPlaces ps))]
  | .sort a => with_ [(14, obj (setAnswerSort a))]
def getAnswer (o : Obj) : Answer :=
  if o.has 1 then .selectAttribute (o.nat 1)
  else if o.has 2 then .selectCard (getAnswerCard (o.sub 2))
  else if o.has 3 then .selectCardCode (o.nat 3)
  else if o.has 4 then .selectCounter ((o.sub 4).subs 1 fun o => (o.nat 1, o.nat 2))
  else if o.has 5 then .selectEffect (o.nat 5)
  else if o.has 6 then .selectIdle (getAnswerIdle (o.sub 6))
  else if o.has 7 then .selectNumber (o.nat 7)
  else if o.has 8 then .selectPosition (o.nat 8)
  else if o.has 9 then .selectRace (o.nat 9)
  else if o.has 10 then .selectRockPaperScissors (o.int 10)
  else if o.has 11 then .selectToChain (getAnswerChain (o.sub 11))
  else if o.has 12 then .selectYesNo (o.bool 12)
  else if o.has 13 then .selectZone (getPlaces (o.sub 13))
  else if o.has 14 then .sort (getAnswerSort (o.sub 14))
  else .unset

/-! ## Sending and receiving -/

def sendMsg (m : Msg) : List Nat := write schema .msg (setMsg m)
def receiveMsg (bs : List Nat) : Option Msg := (read schema .msg bs).map getMsg

def sendAnswer (a : Answer) : List Nat := write schema .answer (setAnswer a)
def receiveAnswer (bs : List Nat) : Option Answer := (read schema .answer bs).map getAnswer

end Ygo.Pb
