import Verif.Model.Encode

/-!
# Model of `decode_one_answer` (`src/codec/edo9300_ocgcore_decode.cpp`)
-/

namespace Ygo

/-- The `oneof` of `Answer.SelectCard` (duel_answer.proto:24-36). -/
inductive AnswerCard where
  | unset
  | cancel (b : Bool)
  | finish (b : Bool)
  | indexes (values : List Nat)
  deriving DecidableEq, Repr

/-- `Answer.SelectIdle.Action` (duel_answer.proto:56-67); `other` is a value that is not one of the enumerators (proto3 enums are
open). -/
inductive IdleAction where
  | activate | summon | spsummon | reposition | mset | sset | attack | shuffle | phase
  | other (n : Int)
  deriving DecidableEq, Repr

/-- The `oneof` of `Answer.SelectIdle` (duel_answer.proto:54-87). -/
inductive AnswerIdle where
  | unset
  | shuffle (b : Bool)
  | phase (p : Nat)
  | cardAction (action : IdleAction) (index : Nat)
  deriving DecidableEq, Repr

/-- The `oneof` of `Answer.SelectToChain` (duel_answer.proto:89-99). -/
inductive AnswerChain where
  | unset
  | noOp (b : Bool)
  | index (i : Nat)
  deriving DecidableEq, Repr

/-- The `oneof` of `Answer.Sort` (duel_answer.proto:106-115). -/
inductive AnswerSort where
  | unset
  | skip (b : Bool)
  | indexes (values : List Nat)
  deriving DecidableEq, Repr

/-- The `oneof` of `Answer` (duel_answer.proto:15-149). -/
inductive Answer where
  | unset
  | selectAttribute (v : Nat)
  | selectCard (a : AnswerCard)
  | selectCardCode (v : Nat)
  | selectCounter (values : List (Nat × Nat))
  | selectEffect (v : Nat)
  | selectIdle (a : AnswerIdle)
  | selectNumber (v : Nat)
  | selectPosition (v : Nat)
  | selectRace (v : Nat)
  | selectRockPaperScissors (v : Int)
  | selectToChain (a : AnswerChain)
  | selectYesNo (b : Bool)
  | selectZone (places : List Place)
  | sort (a : AnswerSort)
  deriving DecidableEq, Repr

/-- `write` of the low `n` bytes of a value (decode.cpp:19-24), little endian; negative values in two's complement. -/
def writeLE : Nat → Int → List UInt8
  | 0, _ => []
  | n + 1, v => UInt8.ofNat (v % 256).toNat :: writeLE n (v / 256)

/-- `response_i` (decode.cpp:33-38): the new contents of `out`. -/
def responseI (v : Int) : List UInt8 := writeLE 4 v

/-- Core action number of a card action (decode.cpp:140-158). -/
def actionCode (battle : Bool) : IdleAction → Nat
  | .activate => if battle then 0 else 5
  | .summon => 0
  | .spsummon => 1
  | .reposition => 2
  | .mset => 3
  | .sset => 4
  | _ => 1

/-- `request.select_idle().is_battle_cmd()`. -/
def Request.isBattleCmd : Request → Bool
  | .selectIdle s => s.isBattleCmd
  | _ => false

/-- `request.t_case() == Msg::Request::kSelectIdle`. -/
def Request.isSelectIdle : Request → Bool
  | .selectIdle _ => true
  | _ => false

/-- `decode_one_answer` (decode.cpp:29-245): the new contents of `out`, whose old contents are the last argument. -/
def decodeOneAnswer (request : Request) (answer : Answer) (out : List UInt8) : Res (List UInt8) :=
  match answer with
  | .selectAttribute v => .ok (responseI v)
  | .selectCard a =>
    match a with
    | .cancel _ | .finish _ => .ok (responseI (-1))
    | .indexes is => do
      massert (0 < is.length)
      let recursive ← match request with
        | .selectCard (.recursive ..) => .ok true
        | .selectCard _ => .ok false
        | _ => .error .assert
      if recursive then return writeLE 4 1 ++ writeLE 4 (is.headD 0)
      else return writeLE 4 1 ++ writeLE 4 is.length ++ is.flatMap fun (i : Nat) => writeLE 2 i
    | .unset => .ok out
  | .selectCardCode v => .ok (responseI v)
  | .selectCounter _ => .ok out
  | .selectEffect v => .ok (responseI v)
  | .selectIdle a => do
    massert (request.isSelectIdle = true)
    match a with
    | .shuffle _ => return responseI 8
    | .phase p =>
      if request.isBattleCmd then
        let out := if (p &&& Phase.main2) ≠ 0 then responseI 2 else out
        return if (p &&& Phase.end_) ≠ 0 then responseI 3 else out
      else if (p &&& Phase.battle) ≠ 0 then return responseI 6
      else if (p &&& Phase.end_) ≠ 0 then return responseI 7
      else return out
    | .cardAction act s => do
      massert (act ≠ .shuffle)
      massert (act ≠ .phase)
      return responseI (((s &&& 0xFFFF) <<< 16 ||| (actionCode request.isBattleCmd act &&& 0xFFFF) : Nat) : Int)
    | .unset => return out
  | .selectNumber v => .ok (responseI v)
  | .selectPosition v => .ok (responseI v)
  | .selectRace v => .ok (responseI v)
  | .selectRockPaperScissors v => .ok (responseI v)
  | .selectToChain a =>
    match a with
    | .noOp _ => .ok (responseI (-1))
    | .index i => .ok (responseI i)
    | .unset => .ok out
  | .selectYesNo b => .ok (responseI (if b then 1 else 0))
  | .selectZone ps => .ok (ps.flatMap fun p => writeLE 1 p.con ++ writeLE 1 p.loc ++ writeLE 1 p.seq)
  | .sort a =>
    match a with
    | .skip _ => .ok (responseI (-1))
    | .indexes is => .ok (writeLE 1 is.length ++ is.flatMap fun (i : Nat) => writeLE 1 i)
    | .unset => .ok (writeLE 1 0)
  | .unset => .ok out

end Ygo
