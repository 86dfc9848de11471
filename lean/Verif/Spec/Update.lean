import Verif.Spec.Tracked
import Verif.Spec.Query

/-!
# Messages that update what is known about cards
-/

namespace Ygo.Spec
open Ygo

/-- A location of one player as the core numbers it: a pile, the monster zones, or the spell row with field and pendulum zones. -/
inductive Row where
  | pile (k : PileKey)
  | monsters (c : Fin 2)
  | spells (c : Fin 2)

namespace Row

/-- The player's number in messages. -/
def con : Row → UInt8
  | pile k => UInt8.ofNat k.con.val
  | monsters c => UInt8.ofNat c.val
  | spells c => UInt8.ofNat c.val

/-- The location's number in messages. -/
def loc : Row → UInt8
  | pile ⟨_, .mainDeck⟩ => 1
  | pile ⟨_, .hand⟩ => 2
  | pile ⟨_, .graveyard⟩ => 0x10
  | pile ⟨_, .banished⟩ => 0x20
  | pile ⟨_, .extraDeck⟩ => 0x40
  | monsters _ => 4
  | spells _ => 8

/-- The zone of a slot. -/
def zone : Row → Nat → Option ZoneKey
  | pile _, _ => none
  | monsters c, i => if h : i < 7 then some ⟨c, .monster, i, h⟩ else none
  | spells c, i =>
    if h : i < 5 then some ⟨c, .spell, i, h⟩
    else if i = 5 then some ⟨c, .field, 0, by decide⟩
    else if i = 6 then some ⟨c, .pendulum, 0, by decide⟩
    else if i = 7 then some ⟨c, .pendulum, 1, by decide⟩
    else none

/-- Where the card of a slot is. -/
def card : Row → Nat → Option (Container × Nat)
  | pile k, i => some (.pile k, i)
  | r, i => (r.zone i).map fun z => (.slot z, 0)

end Row

/-- A query for nothing but the code. -/
def onlyCode (code : Nat) : QueryData := (QueryData.mk (fun _ => none) none none).setSingle .code code

/-- What the items for a slot say about which card: the card in the slot is as described, its materials have the codes listed. -/
inductive Told (B : Board) (r : Row) (i : Nat) (is : List QueryItem) : CardId → QueryData → Prop
  | card (C : Container) (j : Nat) (x : CardId) (hc : r.card i = some (C, j)) (hx : (B C)[j]? = some x) : Told B r i is x (QueryItem.data is)
  | material (z : ZoneKey) (n code : Nat) (x : CardId) (hz : r.zone i = some z) (hc : (QueryItem.materials is)[n]? = some code)
      (hx : (B (.mats z))[n]? = some x) : Told B r i is x (onlyCode code)

/-- The cards that the items for a slot describe are there. -/
def RowOnBoard (B : Board) (r : Row) (i : Nat) (is : List QueryItem) : Prop :=
  (∃ C j, r.card i = some (C, j) ∧ j < (B C).length) ∧
  (QueryItem.materials is = [] ∨ ∃ z, r.zone i = some z ∧ (QueryItem.materials is).length ≤ (B (.mats z)).length)

end Ygo.Spec
