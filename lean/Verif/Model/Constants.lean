import Verif.Model.Bit

/-!
# The flag constants of duels

Model of `include/ygopen/duel/constants/{attribute,link_arrow,location,phase,position,race,reason,status,type}.hpp` and of the flags in
`include/ygopen/client/queries.inl`. Each enumeration is the list of the values it names, in the order of the header, without the
`UNSPECIFIED` value, which is 0 everywhere.
-/

namespace Ygo

/-- The enumerations of flags. -/
inductive FlagEnum
  | attribute_ | linkArrow | location | phase | position | race | reason | status | type | query
  deriving DecidableEq, Repr

namespace FlagEnum

/-- `enum Attribute` (attribute.hpp:13-23). -/
def attribute_Flags : List Nat :=
  [0x1, 0x2, 0x4, 0x8, 0x10, 0x20, 0x40]

/-- `enum LinkArrow` (link_arrow.hpp:13-24). -/
def linkArrowFlags : List Nat :=
  [0x1, 0x2, 0x4, 0x8, 0x20, 0x40, 0x80, 0x100]

/-- `enum Location` (location.hpp:13-27). -/
def locationFlags : List Nat :=
  [0x1, 0x2, 0x4, 0x8, 0x10, 0x20, 0x40, 0x100, 0x200, 0x400]

/-- `enum Phase` (phase.hpp:13-26). -/
def phaseFlags : List Nat :=
  [0x1, 0x2, 0x4, 0x8, 0x10, 0x20, 0x40, 0x80, 0x100, 0x200]

/-- `enum Position` (position.hpp:13-20). -/
def positionFlags : List Nat :=
  [0x1, 0x2, 0x4, 0x8]

/-- `enum Race` (race.hpp:13-48). -/
def raceFlags : List Nat :=
  [0x1, 0x2, 0x4, 0x8, 0x10, 0x20, 0x40, 0x80, 0x100, 0x200, 0x400,
   0x800, 0x1000, 0x2000, 0x4000, 0x8000, 0x10000, 0x20000, 0x40000, 0x80000, 0x100000, 0x200000,
   0x400000, 0x800000, 0x1000000, 0x2000000, 0x4000000, 0x8000000, 0x10000000, 0x20000000, 0x40000000, 0x80000000]

/-- `enum Reason` (reason.hpp:13-43). -/
def reasonFlags : List Nat :=
  [0x1, 0x2, 0x4, 0x8, 0x10, 0x20, 0x40, 0x80, 0x100, 0x200, 0x400,
   0x800, 0x2000, 0x4000, 0x8000, 0x10000, 0x20000, 0x40000, 0x80000, 0x100000, 0x200000, 0x1000000,
   0x2000000, 0x4000000, 0x8000000, 0x10000000]

/-- `enum Status` (status.hpp:13-47). -/
def statusFlags : List Nat :=
  [0x1, 0x2, 0x4, 0x8, 0x10, 0x20, 0x40, 0x80, 0x100, 0x200, 0x400,
   0x800, 0x1000, 0x2000, 0x4000, 0x8000, 0x10000, 0x20000, 0x40000, 0x80000, 0x100000, 0x200000,
   0x400000, 0x1000000, 0x2000000, 0x4000000, 0x8000000, 0x10000000, 0x20000000, 0x40000000]

/-- `enum Type` (type.hpp:13-42). -/
def typeFlags : List Nat :=
  [0x1, 0x2, 0x4, 0x10, 0x20, 0x40, 0x80, 0x100, 0x200, 0x400, 0x800,
   0x1000, 0x2000, 0x4000, 0x8000, 0x10000, 0x20000, 0x40000, 0x80000, 0x100000, 0x200000, 0x400000,
   0x800000, 0x1000000, 0x2000000, 0x4000000]

/-- The values of the queries (queries.inl:13-49), with every optional expansion. -/
def queryFlags : List Nat :=
  [0x1, 0x2, 0x4, 0x8, 0x10, 0x20, 0x40, 0x80, 0x100, 0x200, 0x400,
   0x800, 0x4000, 0x8000, 0x20000, 0x40000, 0x80000, 0x100000, 0x200000, 0x400000, 0x800000, 0x1000000,
   0x2000000, 0x80000000, 0x100000000, 0x200000000]

/-- The values an enumeration names. -/
def values : FlagEnum → List Nat
  | attribute_ => attribute_Flags
  | linkArrow => linkArrowFlags
  | location => locationFlags
  | phase => phaseFlags
  | position => positionFlags
  | race => raceFlags
  | reason => reasonFlags
  | status => statusFlags
  | type => typeFlags
  | query => queryFlags

/-- Number of bits of the underlying type (constants_fwd.hpp:13-23); queries are 64-bit numbers. -/
def digits : FlagEnum → Nat
  | race | reason | query => 64
  | _ => 32

end FlagEnum

end Ygo
