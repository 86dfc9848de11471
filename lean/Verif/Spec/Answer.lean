import Verif.Model.Decode

/-!
# How the core reads responses

Independent readers for the formats in which the core takes responses; they say what a response means.
-/

namespace Ygo.Spec

/-- The number in little-endian bytes. -/
def num : List UInt8 → Nat
  | [] => 0
  | b :: bs => b.toNat + 256 * num bs

/-- The number in 32-bit two's complement. -/
def signed (n : Nat) : Int := if n < 2 ^ 31 then n else (n : Int) - 2 ^ 32

/-- Exactly `count` numbers of `size` bytes each. -/
def nums (size : Nat) : (count : Nat) → List UInt8 → Option (List Nat)
  | 0, bs => if bs = [] then some [] else none
  | n + 1, bs =>
    if bs.length < size then none
    else (nums size n (bs.drop size)).map (num (bs.take size) :: ·)

/-- A response that is a single 32-bit number. -/
def oneNumber (bs : List UInt8) : Option Int :=
  if bs.length = 4 then some (signed (num bs)) else none

/-- A selection of cards: the number 1 says that indexes have 16 bits, then their count, then the indexes. -/
def selectedCards (bs : List UInt8) : Option (List Nat) :=
  if 8 ≤ bs.length ∧ num (bs.take 4) = 1 then nums 2 (num ((bs.drop 4).take 4)) (bs.drop 8) else none

/-- One step of a selection made card by card: the number 1 says that one card follows, then its index. -/
def steppedCard (bs : List UInt8) : Option Nat :=
  if bs.length = 8 ∧ num (bs.take 4) = 1 then some (num (bs.drop 4)) else none

/-- An order of cards: the count in a byte, then the indexes, a byte each. -/
def sortedCards (bs : List UInt8) : Option (List Nat) :=
  match bs with
  | [] => none
  | b :: bs => nums 1 b.toNat bs

/-- What a player can do when idle. -/
inductive IdleChoice where
  | summon (i : Nat) | spsummon (i : Nat) | reposition (i : Nat) | mset (i : Nat) | sset (i : Nat) | activate (i : Nat)
  | toBattle | toEnd | shuffle
  deriving DecidableEq

/-- What a player can do in the battle phase. -/
inductive BattleChoice where
  | activate (i : Nat) | attack (i : Nat) | toMain2 | toEnd
  deriving DecidableEq

/-- The core takes the kind of action from the low and the index from the high 16 bits of a number. -/
def readIdle (bs : List UInt8) : Option IdleChoice :=
  if bs.length = 4 then
    let i := num (bs.drop 2)
    match num (bs.take 2) with
    | 0 => some (.summon i)
    | 1 => some (.spsummon i)
    | 2 => some (.reposition i)
    | 3 => some (.mset i)
    | 4 => some (.sset i)
    | 5 => some (.activate i)
    | 6 => some .toBattle
    | 7 => some .toEnd
    | 8 => some .shuffle
    | _ => none
  else none

def readBattle (bs : List UInt8) : Option BattleChoice :=
  if bs.length = 4 then
    let i := num (bs.drop 2)
    match num (bs.take 2) with
    | 0 => some (.activate i)
    | 1 => some (.attack i)
    | 2 => some .toMain2
    | 3 => some .toEnd
    | _ => none
  else none

/-- The answer with which a client makes a choice. -/
def IdleChoice.answer : IdleChoice → Answer
  | .summon i => .selectIdle (.cardAction .summon i)
  | .spsummon i => .selectIdle (.cardAction .spsummon i)
  | .reposition i => .selectIdle (.cardAction .reposition i)
  | .mset i => .selectIdle (.cardAction .mset i)
  | .sset i => .selectIdle (.cardAction .sset i)
  | .activate i => .selectIdle (.cardAction .activate i)
  | .toBattle => .selectIdle (.phase 0x80)
  | .toEnd => .selectIdle (.phase 0x200)
  | .shuffle => .selectIdle (.shuffle true)

def BattleChoice.answer : BattleChoice → Answer
  | .activate i => .selectIdle (.cardAction .activate i)
  | .attack i => .selectIdle (.cardAction .attack i)
  | .toMain2 => .selectIdle (.phase 0x100)
  | .toEnd => .selectIdle (.phase 0x200)

/-- The index in a choice, if any, is less than `n`. -/
def IdleChoice.IndexBelow (n : Nat) : IdleChoice → Prop
  | .summon i | .spsummon i | .reposition i | .mset i | .sset i | .activate i => i < n
  | _ => True

def BattleChoice.IndexBelow (n : Nat) : BattleChoice → Prop
  | .activate i | .attack i => i < n
  | _ => True

/-- A zone as the core numbers it: player, row (4 for monsters, 8 for spells) and slot; slot 5 of the spell row is the field zone,
6 and 7 are the pendulum zones. -/
structure CoreZone where
  player : Nat
  row : Nat
  slot : Nat
  deriving DecidableEq

/-- The core's name of a zone. -/
def coreZone (p : Place) : Option CoreZone :=
  if p.loc = 4 ∧ p.seq < 7 then some ⟨p.con.toNat, 4, p.seq⟩
  else if p.loc = 8 ∧ p.seq < 5 then some ⟨p.con.toNat, 8, p.seq⟩
  else if p.loc = 0x100 ∧ p.seq = 0 then some ⟨p.con.toNat, 8, 5⟩
  else if p.loc = 0x200 ∧ p.seq < 2 then some ⟨p.con.toNat, 8, 6 + p.seq⟩
  else none

/-- A selection of zones: three bytes for each. -/
def selectedZones : List UInt8 → Option (List CoreZone)
  | [] => some []
  | a :: b :: c :: bs => (selectedZones bs).map (⟨a.toNat, b.toNat, c.toNat⟩ :: ·)
  | _ => none

end Ygo.Spec
