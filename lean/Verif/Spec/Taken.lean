import Verif.Spec.Exact
import Verif.Spec.Dialog

/-!
# What answers are taken for

The response to the core has no tag that tells which question it answers, and its numbers have fixed widths. So each answer is taken for one
that could have been meant. This is the complete table.
-/

namespace Ygo.Spec
open Ygo

/-- The single number that an answer is, if it is one. -/
def theNumber : Answer → Option Int
  | .selectAttribute v | .selectCardCode v | .selectEffect v | .selectNumber v | .selectPosition v | .selectRace v => some v
  | .selectRockPaperScissors v => some v
  | .selectToChain (.index i) => some i
  | .selectYesNo b => some (if b then 1 else 0)
  | .selectCard (.cancel _) | .selectCard (.finish _) | .selectToChain (.noOp _) | .sort (.skip _) => some (-1)
  | _ => none

/-- The answer to a question that a number of 32 bits is taken for. All bits set refuse. -/
def numberTaken (n : Nat) : Request → Answer
  | .selectIdle s =>
    .selectIdle <| if s.isBattleCmd then
      match n % 65536 with
      | 0 => .cardAction .activate (n / 65536)
      | 1 => .cardAction .attack (n / 65536)
      | 2 => .phase 0x100
      | 3 => .phase 0x200
      | _ => .unset
    else
      match n % 65536 with
      | 0 => .cardAction .summon (n / 65536)
      | 1 => .cardAction .spsummon (n / 65536)
      | 2 => .cardAction .reposition (n / 65536)
      | 3 => .cardAction .mset (n / 65536)
      | 4 => .cardAction .sset (n / 65536)
      | 5 => .cardAction .activate (n / 65536)
      | 6 => .phase 0x80
      | 7 => .phase 0x200
      | 8 => .shuffle true
      | _ => .unset
  | .selectCard _ => if n = 2 ^ 32 - 1 then .selectCard (.cancel true) else .unset
  | .selectYesNo .. => if n = 0 then .selectYesNo false else if n = 1 then .selectYesNo true else .unset
  | .selectEffect .. => .selectEffect n
  | .selectToChain .. => .selectToChain (if n = 2 ^ 32 - 1 then .noOp true else .index n)
  | .selectPosition .. => .selectPosition n
  | .selectRace .. => .selectRace n
  | .selectAttribute .. => .selectAttribute n
  | .selectNumber .. => .selectNumber n
  | .selectRockPaperScissors .. => .selectRockPaperScissors n
  | .sort _ =>
    if n = 2 ^ 32 - 1 then .sort (.skip true)
    else if n % 256 = 3 then .sort (.indexes [n / 256 % 256, n / 65536 % 256, n / 16777216])
    else .unset
  | _ => .unset

/-- The answer that an answer to a request to act is taken for. In the battle phase, changing a position goes to the second main phase, and
setting a monster ends the turn. -/
def idleTaken : (battle : Bool) → AnswerIdle → AnswerIdle
  | false, .phase p => if p.testBit 7 then .phase 0x80 else if p.testBit 9 then .phase 0x200 else .unset
  | true, .phase p => if p.testBit 9 then .phase 0x200 else if p.testBit 8 then .phase 0x100 else .unset
  | false, .shuffle _ => .shuffle true
  | true, .shuffle _ => .unset
  | false, .cardAction .attack i | false, .cardAction (.other _) i => .cardAction .spsummon (i % 65536)
  | false, .cardAction a i => .cardAction a (i % 65536)
  | true, .cardAction .activate i | true, .cardAction .summon i => .cardAction .activate (i % 65536)
  | true, .cardAction .attack i | true, .cardAction .spsummon i | true, .cardAction (.other _) i => .cardAction .attack (i % 65536)
  | true, .cardAction .reposition _ => .phase 0x100
  | true, .cardAction .mset _ => .phase 0x200
  | true, .cardAction _ _ => .unset
  | _, .unset => .unset

/-- The zone that a zone is taken for: three bytes, and the spell row has the field zone and the pendulum zones at its end. -/
def zoneTaken (p : Place) : Place := CoreZone.place ⟨(p.con % 256).toNat, p.loc % 256, p.seq % 256⟩

/-- The answer that a response is taken for. -/
def responseTaken (r : Request) (bs : List UInt8) : Answer :=
  if bs.length = 4 then numberTaken (num bs) r
  else
    match r with
    | .selectCard (.recursive ..) =>
      match steppedCard bs with
      | some i => .selectCard (.indexes [i])
      | none => .unset
    | .selectCard _ =>
      match selectedCards bs with
      | some is => .selectCard (.indexes is)
      | none => .unset
    | .selectZone .. =>
      match selectedZones bs with
      | some zs => .selectZone (zs.map CoreZone.place)
      | none => .unset
    | .sort _ =>
      match sortedCards bs with
      | some is => .sort (.indexes is)
      | none => .unset
    | _ => .unset

/-- A number cut to a byte. -/
def byte (v : Int) : UInt8 := UInt8.ofNat (v % 256).toNat

/-- The bytes in which zones are told: three for each. -/
def zoneBytes (ps : List Place) : List UInt8 := ps.flatMap fun p => [byte p.con, byte p.loc, byte p.seq]

/-- The bytes in which an order is told: how many, and the indexes. -/
def orderBytes (is : List Nat) : List UInt8 := byte is.length :: is.map fun (i : Nat) => byte i

/-- The answer that an answer is taken for. Zones and orders given to other questions are taken for whatever their bytes happen to be. -/
def takenFor (r : Request) (a : Answer) : Answer :=
  match theNumber a with
  | some v => numberTaken (v % 2 ^ 32).toNat r
  | none =>
    match r, a with
    | .selectIdle s, .selectIdle b => .selectIdle (idleTaken s.isBattleCmd b)
    | .selectCard (.recursive ..), .selectCard (.indexes (i :: _)) => .selectCard (.indexes [i % 2 ^ 32])
    | .selectCard _, .selectCard (.indexes is) => if is.length < 2 ^ 32 then .selectCard (.indexes (is.map (· % 2 ^ 16))) else .unset
    | .selectZone .., .selectZone ps => .selectZone (ps.map zoneTaken)
    | .sort _, .sort (.indexes is) => if is.length < 2 ^ 8 then .sort (.indexes (is.map (· % 2 ^ 8))) else .unset
    | .sort _, .sort .unset => .sort (.indexes [])
    | _, .selectZone ps => responseTaken r (zoneBytes ps)
    | _, .sort (.indexes is) => responseTaken r (orderBytes is)
    | _, .sort .unset => responseTaken r (orderBytes [])
    | _, _ => .unset

/-- The decision that the core makes of an answer that it was told. Selecting one by one, it lets clients refuse even when it only said what
refusing would do. -/
def decides : Request → Answer → Option Decision
  | .selectCard (.recursive f c ..), .selectCard (.cancel _) => if f || c then some .decline else none
  | r, a => clientMeans r a

/-- The decision that the core takes on an answer. -/
def takes (r : Request) (a : Answer) : Option Decision := decides r (takenFor r a)

end Ygo.Spec
