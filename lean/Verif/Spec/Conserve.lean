import Verif.Spec.Tracked
import Verif.Spec.Setup

/-!
# Where cards come from and where they go
-/

namespace Ygo.Spec
open Ygo

/-- Events that put no card on the table and take none away. -/
def KeepsCards : Event → Prop
  | .board (.state _) | .board (.exchange _) | .card _ (.add _) | .card _ (.remove _) => False
  | _ => True

/-- How many cards an event names that may have to be made. -/
def asked : Event → Nat
  | .board (.state s) => s.add.length + (s.resize.map (·.count)).sum
  | .board (.exchange e) => e.add.length + (e.resize.map (·.count)).sum
  | .card _ (.add ps) => ps.length
  | _ => 0

/-- Events that begin with an empty table. -/
def Anew : Event → Prop
  | .board (.state _) => True
  | _ => False

/-- How many cards are on a board. -/
def tableSize (B : Board) : Nat := (placed B).length

/-- Core messages that put no card on the table and take none away: all but the three that set up piles and the moves from or to
nowhere. -/
def KeepsTable : CoreMsg → Prop
  | .start .. | .reloadField .. | .tagSwap .. => False
  | .move _ src dst _ => (src.place.loc = 0 ↔ dst.place.loc = 0)
  | _ => True

/-- Cards on one side of a reloaded field: in its zones, under them and in its piles. -/
def FieldSide.total (s : FieldSide) : Nat :=
  ((s.monsters ++ s.spells).map fun z => z.cards + z.mats).sum + s.main.toNat + s.hand.toNat + s.grave.toNat + s.banished.toNat +
    s.extra.toNat

/-- How many cards a core message puts on the table. -/
def coming : CoreMsg → Nat
  | .start _ _ _ main0 extra0 main1 extra1 => main0.toNat + extra0.toNat + main1.toNat + extra1.toNat
  | .reloadField _ s0 s1 _ => s0.total + s1.total
  | .tagSwap _ main _ _ extra hand => main.toNat + extra.length + hand.length
  | .move _ src dst _ => if src.place.loc = 0 ∧ dst.place.loc ≠ 0 then 1 else 0
  | _ => 0

/-- How many cards a core message takes from a table: all for a new field, the three piles that a player has in hands for a change of
players. -/
def going (B : Board) : CoreMsg → Nat
  | .start .. | .reloadField .. => tableSize B
  | .tagSwap player .. =>
    let pile (l : PileLoc) : Nat := (B (.pile ⟨if player = 0 then 0 else 1, l⟩)).length
    pile .mainDeck + pile .extraDeck + pile .hand
  | .move _ src dst _ => if src.place.loc ≠ 0 ∧ dst.place.loc = 0 then 1 else 0
  | _ => 0

/-- How many cards come with messages that are read one after the other. -/
def comingAll (ms : List CoreMsg) : Nat := (ms.map coming).sum

end Ygo.Spec
