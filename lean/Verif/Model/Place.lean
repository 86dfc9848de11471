import Verif.Core.Res

/-!
# Places and locations

Model of `include/ygopen/duel/constants/location.hpp`, `.../controller.hpp`,
`include/ygopen/proto/duel_data.proto` (message Place) and `include/ygopen/proto/duel/data.hpp`.
-/

namespace Ygo

/-- `message Place` (duel_data.proto): `int32 con`, `uint32 loc`, `uint32 seq`, `sint32 oseq`.
Signed fields are `Int`, unsigned ones `Nat`; the 32-bit range is not built in (see DESIGN.md).
The proto3 default is all zero. -/
structure Place where
  con : Int := 0
  loc : Nat := 0
  seq : Nat := 0
  oseq : Int := 0
  deriving DecidableEq, Repr, Inhabited

namespace Loc
/-! `enum Location` (location.hpp:13-28). -/
abbrev unspecified : Nat := 0x0
abbrev mainDeck : Nat := 0x1
abbrev hand : Nat := 0x2
abbrev monsterZone : Nat := 0x4
abbrev spellZone : Nat := 0x8
abbrev graveyard : Nat := 0x10
abbrev banished : Nat := 0x20
abbrev extraDeck : Nat := 0x40
abbrev fieldZone : Nat := 0x100
abbrev pendulumZone : Nat := 0x200
abbrev skillZone : Nat := 0x400
attribute [simp] unspecified mainDeck hand monsterZone spellZone graveyard banished extraDeck fieldZone
  pendulumZone skillZone
end Loc

/-- `OSEQ_INVALID` (proto/duel/data.hpp:19). -/
abbrev OSEQ_INVALID : Int := -1

/-- `is_empty(Location)` (location.hpp:31-34). -/
def locIsEmpty (loc : Nat) : Bool := loc == Loc.unspecified

/-- `is_pile(Location)` (location.hpp:37-41). -/
def locIsPile (loc : Nat) : Bool :=
  (loc &&& (Loc.mainDeck ||| Loc.hand ||| Loc.graveyard ||| Loc.banished ||| Loc.extraDeck)) != 0

/-- `is_zone(Location)` (location.hpp:44-49). -/
def locIsZone (loc : Nat) : Bool :=
  (loc &&& (Loc.monsterZone ||| Loc.spellZone ||| Loc.fieldZone ||| Loc.pendulumZone ||| Loc.skillZone)) != 0

namespace Place

/-- `is_empty(Place)` (proto/duel/data.hpp:64-67). -/
def isEmpty (p : Place) : Bool := locIsEmpty p.loc
/-- `is_pile(Place)` (proto/duel/data.hpp:70-73). -/
def isPile (p : Place) : Bool := locIsPile p.loc
/-- `is_zone(Place)` (proto/duel/data.hpp:76-79). -/
def isZone (p : Place) : Bool := locIsZone p.loc

/-- `PlaceLess::operator()` (proto/duel/data.hpp:22-45), in the order of the C++ tests. -/
def less (l r : Place) : Bool :=
  if l.con < r.con then true
  else if r.con < l.con then false
  else if l.loc < r.loc then true
  else if r.loc < l.loc then false
  else if l.seq < r.seq then true
  else if r.seq < l.seq then false
  else if l.oseq < r.oseq then true
  else false

/-- `operator==(Place, Place)` (proto/duel/data.hpp:47-51). -/
def eqv (l r : Place) : Bool := !(less l r) && !(less r l)

end Place

/-- `zone_seq_lim` (client/frame.hpp:46-61); `YGOPEN_UNREACHABLE` for any other value. -/
def zoneSeqLim (loc : Nat) : Res Nat :=
  if loc = Loc.monsterZone then .ok 7
  else if loc = Loc.spellZone then .ok 5
  else if loc = Loc.fieldZone then .ok 1
  else if loc = Loc.pendulumZone then .ok 2
  else if loc = Loc.skillZone then .ok 1
  else ub

end Ygo
