import Verif.Spec.Core

/-!
# What the encoder takes for a message

The encoder does not look at everything the core writes. Next to the core's messages it takes the following for messages.
-/

namespace Ygo.Spec
open Ygo

/-- A query field behind any size. -/
def looseField (x : UInt16 × QueryItem) : List UInt8 := b16 x.1 ++ b32 x.2.flag ++ x.2.payload

/-- Lists are short enough for their length field; a field that is not known has a flag that is not known, and its size is right. -/
def LooseFits (x : UInt16 × QueryItem) : Prop :=
  match x.2 with
  | .targetCard ls => ls.length < 2 ^ 32
  | .overlayCard cs => cs.length < 2 ^ 32
  | .counters cs => cs.length < 2 ^ 32
  | .unknown f p => f.toNat ∉ QueryItem.flags ∧ x.1.toNat = 4 + p.length
  | _ => True

/-- Query fields and the end marker, also behind any size. -/
structure LooseQuery where
  fields : List (UInt16 × QueryItem)
  size : UInt16

namespace LooseQuery
def bytes (q : LooseQuery) : List UInt8 := q.fields.flatMap looseField ++ b16 q.size ++ le 4 0x80000000
def Fits (q : LooseQuery) : Prop := ∀ x ∈ q.fields, LooseFits x
/-- The size that comes first. -/
def first (q : LooseQuery) : UInt16 := (q.fields.head?.map (·.1)).getD q.size
end LooseQuery

/-- A slot of a whole location. -/
def looseSlot : Option LooseQuery → List UInt8
  | none => [0, 0]
  | some q => q.bytes

/-- A query in a slot does not begin like an empty slot. -/
def LooseSlotFits : Option LooseQuery → Prop
  | none => True
  | some q => q.Fits ∧ q.first ≠ 0

/-- A zone that is not empty is marked. -/
def Marked : FieldCell → Prop
  | .empty => True
  | .card mark _ _ => mark ≠ 0

/-- Any number of materials. -/
def LooseSide (s : FieldSide) : Prop :=
  s.monsters.length = 7 ∧ s.spells.length = 8 ∧ (∀ z ∈ s.monsters, Marked z) ∧ ∀ z ∈ s.spells, Marked z

/-- Byte strings that are taken for a message. -/
inductive Accepted : List UInt8 → Prop
  /-- Messages of the core. -/
  | message (m : CoreMsg) (h : m.Fits) : Accepted m.bytes
  /-- A name that ends with any byte, instead of 0. -/
  | aiName (name : List UInt8) (last : UInt8) (h : name.length < 2 ^ 16) : Accepted ([163] ++ le 2 name.length ++ name ++ [last])
  /-- A tag swap with a number of cards that has the right remainder. -/
  | tagSwap (p : UInt8) (main extra extraP hand deckTop : UInt32) (cards : List (UInt32 × UInt32))
      (h : cards.length = (extra + hand).toNat) :
      Accepted ([161] ++ b8 p ++ b32 main ++ b32 extra ++ b32 extraP ++ b32 hand ++ b32 deckTop ++ cards.flatMap CoreMsg.pair32)
  /-- A field with 2^31 or more materials in one zone. -/
  | reloadField (flags : UInt32) (s0 s1 : FieldSide) (chains : List Link) (h0 : LooseSide s0) (h1 : LooseSide s1)
      (hc : chains.length < 2 ^ 32) : Accepted (CoreMsg.reloadField flags s0 s1 chains).bytes
  /-- A query whose fields have any sizes in front of them. -/
  | updateCard (l : CardLocS) (q : LooseQuery) (h : q.Fits) : Accepted ([7] ++ l.bytes ++ q.bytes)
  /-- The same for a whole location; the last query may be longer than the total size. -/
  | updateData (con loc : UInt8) (total : UInt32) (slots : List (Option LooseQuery)) (h : ∀ q ∈ slots, LooseSlotFits q)
      (h1 : total.toNat ≤ (slots.flatMap looseSlot).length)
      (h2 : ∀ xs x, slots = xs ++ [x] → (xs.flatMap looseSlot).length < total.toNat) :
      Accepted ([6] ++ b8 con ++ b8 loc ++ b32 total ++ slots.flatMap looseSlot)

end Ygo.Spec
