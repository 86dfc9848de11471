import Verif.Model.Event

/-!
# The frame and the board in a build without asserts

With `NDEBUG` defined, `assert` does nothing and its argument is not evaluated.  What is left of `frame.hpp`, `board.hpp` and
`parse_event.hpp` then meets states that never occur otherwise: null pointers in piles, cards that are owned but lie nowhere.  So
pointers are modelled as such here.  Lines are those of `frame.hpp` unless said otherwise.
-/

namespace Ygo

/-- `CardType*`; `none` is `nullptr`. -/
abbrev Ptr := Option CardId

/-- `Side::Zone` (74-78). -/
structure RawZone where
  card : Ptr := none
  materials : List Ptr := []
  deriving DecidableEq, Repr

/-- The pile arrays and the field (602-607). -/
structure RawLayout where
  pile : PileKey → List Ptr
  zone : ZoneKey → RawZone

namespace RawLayout

def empty : RawLayout := ⟨fun _ => [], fun _ => {}⟩

def setPile (l : RawLayout) (k : PileKey) (v : List Ptr) : RawLayout :=
  { l with pile := fun k' => if k' = k then v else l.pile k' }

def setZone (l : RawLayout) (k : ZoneKey) (v : RawZone) : RawLayout :=
  { l with zone := fun k' => if k' = k then v else l.zone k' }

def setCard (l : RawLayout) (k : ZoneKey) (c : Ptr) : RawLayout := l.setZone k { l.zone k with card := c }

def setMats (l : RawLayout) (k : ZoneKey) (m : List Ptr) : RawLayout := l.setZone k { l.zone k with materials := m }

end RawLayout

/-- `BasicFrame`. -/
structure RawFrame where
  layout : RawLayout
  owned : List CardId
  next : CardId

def RawFrame.init : RawFrame := ⟨RawLayout.empty, [], 0⟩

namespace Raw

/-- `pile_` (613-631). -/
def pileKey (con : Int) (loc : Nat) : Res PileKey :=
  if loc = Loc.mainDeck then do return ⟨← conIdx con, .mainDeck⟩
  else if loc = Loc.hand then do return ⟨← conIdx con, .hand⟩
  else if loc = Loc.graveyard then do return ⟨← conIdx con, .graveyard⟩
  else if loc = Loc.banished then do return ⟨← conIdx con, .banished⟩
  else if loc = Loc.extraDeck then do return ⟨← conIdx con, .extraDeck⟩
  else ub

/-- `zone_` (646-653) with `Side::at_` (105-121). -/
def zoneKey (con : Int) (loc seq : Nat) : Res ZoneKey :=
  if loc = Loc.monsterZone then zoneAt con .monster seq
  else if loc = Loc.spellZone then zoneAt con .spell seq
  else if loc = Loc.fieldZone then zoneAt con .field seq
  else if loc = Loc.pendulumZone then zoneAt con .pendulum seq
  else if loc = Loc.skillZone then zoneAt con .skill seq
  else ub

/-- `pile(PlaceType)` (203-207). -/
def pileOf (p : Place) : Res PileKey := pileKey p.con p.loc
/-- `zone(PlaceType)` (216-220). -/
def zoneOf (p : Place) : Res ZoneKey := zoneKey p.con p.loc p.seq

/-- `take_at_` (657-665): `operator[]` and `erase` past the end are undefined. -/
def rawTake (p : List Ptr) (i : Nat) : Res (Ptr × List Ptr) := do
  let c ← orUb p[i]?
  return (c, p.eraseIdx i)

/-- `insert_at_` (667-674): `insert` past the end is undefined. -/
def rawInsert (p : List Ptr) (i : Nat) (c : Ptr) : Res (List Ptr) := do
  guardUb (i ≤ p.length)
  return p.insertIdx i c

end Raw

namespace RawLayout
open Raw

/-- `card_insert` (518-534). -/
def cardInsert (l : RawLayout) (p : Place) (c : CardId) : Res RawLayout := do
  if p.isPile then
    let k ← pileOf p
    let v ← rawInsert (l.pile k) p.seq (some c)
    return l.setPile k v
  else
    let k ← zoneOf p
    if p.oseq < 0 then return l.setCard k (some c)
    else
      let v ← rawInsert (l.zone k).materials p.oseq.toNat (some c)
      return l.setMats k v

/-- `card_erase` (536-554); `return *c` of a null pointer is undefined. -/
def cardErase (l : RawLayout) (p : Place) : Res (CardId × RawLayout) := do
  if p.isPile then
    let k ← pileOf p
    let c ← orUb (l.pile k)[p.seq]?
    let l := l.setPile k ((l.pile k).eraseIdx p.seq)
    return (← orUb c, l)
  else
    let k ← zoneOf p
    if p.oseq < 0 then
      let c := (l.zone k).card
      let l := l.setCard k none
      return (← orUb c, l)
    else
      let (c, v) ← rawTake (l.zone k).materials p.oseq.toNat
      let l := l.setMats k v
      return (← orUb c, l)

/-- `card_move` (237-308); `return *c` of a null pointer is undefined. -/
def cardMove (l : RawLayout) (src dst : Place) : Res (RawLayout × CardId) := do
  if src.isPile then
    if dst.isPile then
      let k1 ← pileOf src
      let k2 ← pileOf dst
      let (c, p1) ← rawTake (l.pile k1) src.seq
      let l := l.setPile k1 p1
      let p2 ← rawInsert (l.pile k2) dst.seq c
      return (l.setPile k2 p2, ← orUb c)
    else
      let k1 ← pileOf src
      let (c, p1) ← rawTake (l.pile k1) src.seq
      let l := l.setPile k1 p1
      let k2 ← zoneOf dst
      if dst.oseq < 0 then return (l.setCard k2 c, ← orUb c)
      else
        let m ← rawInsert (l.zone k2).materials dst.oseq.toNat c
        return (l.setMats k2 m, ← orUb c)
  else
    if dst.isPile then
      let k1 ← zoneOf src
      if src.oseq < 0 then
        let c := (l.zone k1).card
        let l := l.setCard k1 none
        let k2 ← pileOf dst
        let p ← rawInsert (l.pile k2) dst.seq c
        return (l.setPile k2 p, ← orUb c)
      else
        let (c, m) ← rawTake (l.zone k1).materials src.oseq.toNat
        let l := l.setMats k1 m
        let k2 ← pileOf dst
        let p ← rawInsert (l.pile k2) dst.seq c
        return (l.setPile k2 p, ← orUb c)
    else
      let k1 ← zoneOf src
      let k2 ← zoneOf dst
      if src.oseq < 0 then
        if dst.oseq < 0 then
          let c := (l.zone k1).card
          let l := l.setCard k1 none
          let l := l.setCard k2 c
          let m1 := (l.zone k1).materials
          let m2 := (l.zone k2).materials
          let l := l.setMats k2 m1
          let l := l.setMats k1 m2
          return (l, ← orUb c)
        else
          let c := (l.zone k1).card
          let l := l.setCard k1 none
          let m ← rawInsert (l.zone k2).materials dst.oseq.toNat c
          return (l.setMats k2 m, ← orUb c)
      else
        if dst.oseq < 0 then
          let (c, m) ← rawTake (l.zone k1).materials src.oseq.toNat
          let l := l.setMats k1 m
          return (l.setCard k2 c, ← orUb c)
        else
          let (c, m1) ← rawTake (l.zone k1).materials src.oseq.toNat
          let l := l.setMats k1 m1
          let m2 ← rawInsert (l.zone k2).materials dst.oseq.toNat c
          return (l.setMats k2 m2, ← orUb c)

/-- `std::swap` of two zones (331). -/
def swapZones (l : RawLayout) (k1 k2 : ZoneKey) : RawLayout :=
  let z1 := l.zone k1
  let z2 := l.zone k2
  (l.setZone k1 z2).setZone k2 z1

/-- First loop of `card_shuffle` (320-325). -/
def shuffleSeqs : Nat → List Place → Res (List Nat)
  | 0, _ => .ok []
  | _ + 1, [] => ub
  | n + 1, p :: ps => do return p.seq :: (← shuffleSeqs n ps)

/-- Second loop of `card_shuffle` (326-341). -/
def shuffleLoop : (n i : Nat) → List Place → List Nat → RawLayout → Res RawLayout
  | 0, _, _, _, l => .ok l
  | _ + 1, _, [], _, _ => ub
  | n + 1, i, p :: ps, seqs, l => do
    if p.isEmpty then shuffleLoop n (i + 1) ps seqs l
    else
      let si ← orUb seqs[i]?
      let k1 ← Raw.zoneKey p.con p.loc si
      let k2 ← zoneOf p
      shuffleLoop n (i + 1) ps ((Layout.replaceFirst p.seq si seqs).set i p.seq) (l.swapZones k1 k2)

/-- `card_shuffle` (310-342); `seqs` has seven entries. -/
def cardShuffle (l : RawLayout) (prev cur : List Place) (count : Nat) : Res RawLayout := do
  guardUb (count ≤ 7)
  let seqs ← shuffleSeqs count prev
  shuffleLoop count 0 cur seqs l

/-- Read through a reference; a null pointer can be read here. -/
def read (l : RawLayout) : Layout.Ref → Res Ptr
  | .pile k i => orUb (l.pile k)[i]?
  | .card k => .ok (l.zone k).card
  | .mat k i => orUb (l.zone k).materials[i]?

/-- Write through a reference. -/
def write (l : RawLayout) (c : Ptr) : Layout.Ref → RawLayout
  | .pile k i => l.setPile k ((l.pile k).set i c)
  | .card k => l.setCard k c
  | .mat k i => l.setMats k ((l.zone k).materials.set i c)

/-- `std::swap` of two pointers. -/
def swapRefs (l : RawLayout) (a b : Layout.Ref) : Res RawLayout := do
  let ca ← l.read a
  let cb ← l.read b
  return (l.write cb a).write ca b

/-- `card_swap` (344-407). -/
def cardSwap (l : RawLayout) (a b : Place) : Res RawLayout := do
  if a.isPile then
    if b.isPile then
      let ka ← pileOf a
      let kb ← pileOf b
      l.swapRefs (.pile ka a.seq) (.pile kb b.seq)
    else
      let ka ← pileOf a
      let kb ← zoneOf b
      if b.oseq < 0 then l.swapRefs (.pile ka a.seq) (.card kb)
      else l.swapRefs (.pile ka a.seq) (.mat kb b.oseq.toNat)
  else
    if b.isPile then
      let ka ← zoneOf a
      let kb ← pileOf b
      if a.oseq < 0 then l.swapRefs (.card ka) (.pile kb b.seq)
      else l.swapRefs (.mat ka a.oseq.toNat) (.pile kb b.seq)
    else
      let ka ← zoneOf a
      let kb ← zoneOf b
      if a.oseq < 0 then
        if b.oseq < 0 then
          let l ← l.swapRefs (.card ka) (.card kb)
          let ma := (l.zone ka).materials
          let mb := (l.zone kb).materials
          return (l.setMats ka mb).setMats kb ma
        else l.swapRefs (.card ka) (.mat kb b.oseq.toNat)
      else
        if b.oseq < 0 then l.swapRefs (.mat ka a.seq) (.card kb)
        else l.swapRefs (.mat ka a.seq) (.mat kb b.oseq.toNat)

/-- `pile_splice` (430-457): iterators past the end are undefined. -/
def pileSplice (l : RawLayout) (src : Place) (count : Nat) (dst : Place) (reverse : Bool) : Res RawLayout := do
  let k1 ← pileOf src
  let p1 := l.pile k1
  guardUb (src.seq + count ≤ p1.length)
  let slice := (p1.drop src.seq).take count
  let cache := if reverse then slice.reverse else slice
  let l := l.setPile k1 (p1.take src.seq ++ p1.drop (src.seq + count))
  let k2 ← pileOf dst
  let p2 := l.pile k2
  guardUb (dst.seq ≤ p2.length)
  return l.setPile k2 (p2.take dst.seq ++ cache ++ p2.drop dst.seq)

/-- `pile_swap` (459-465). -/
def pileSwap (l : RawLayout) (a b : Place) : Res RawLayout := do
  let ka ← pileOf a
  let kb ← pileOf b
  let pa := l.pile ka
  let pb := l.pile kb
  return (l.setPile ka pb).setPile kb pa

end RawLayout

namespace RawFrame
open Raw

/-- `construct_card` (556-559). -/
def construct (f : RawFrame) : CardId × RawFrame :=
  (f.next, { f with owned := f.next :: f.owned, next := f.next + 1 })

/-- `destruct_card(*c)` (561-579): a null pointer must not be dereferenced; an address that is not in the list changes nothing. -/
def destruct (f : RawFrame) (c : Ptr) : Res RawFrame := do
  let c ← orUb c
  return { f with owned := f.owned.erase c }

/-- `card_add` (224-229). -/
def cardAdd (f : RawFrame) (p : Place) : Res RawFrame := do
  let (c, f) := f.construct
  let l ← f.layout.cardInsert p c
  return { f with layout := l }

/-- `card_remove` (231-235). -/
def cardRemove (f : RawFrame) (p : Place) : Res RawFrame := do
  let (c, l) ← f.layout.cardErase p
  { f with layout := l }.destruct (some c)

/-- Growing loop of `pile_resize` (416-417). -/
def growPile (k : PileKey) : Nat → RawFrame → RawFrame
  | 0, f => f
  | n + 1, f =>
    let (c, f) := f.construct
    growPile k n { f with layout := f.layout.setPile k (f.layout.pile k ++ [some c]) }

/-- Shrinking loop of `pile_resize` (421-425). -/
def shrinkPile (k : PileKey) : Nat → RawFrame → Res RawFrame
  | 0, f => .ok f
  | n + 1, f => do
    let c ← orUb (f.layout.pile k).getLast?
    let f ← f.destruct c
    shrinkPile k n { f with layout := f.layout.setPile k (f.layout.pile k).dropLast }

/-- `pile_resize` (409-428). -/
def pileResize (f : RawFrame) (p : Place) (count : Nat) : Res RawFrame := do
  let k ← pileOf p
  let size := (f.layout.pile k).length
  if size < count then return growPile k (count - size) f
  else if size > count then shrinkPile k (size - count) f
  else return f

/-- `for(auto* c : p) destruct_card(*c);` (474-475). -/
def destructCards : List Ptr → RawFrame → Res RawFrame
  | [], f => .ok f
  | c :: cs, f => do
    let f ← f.destruct c
    destructCards cs f

/-- `destruct_pile` on each pile (472-477, 488-497). -/
def clearPiles : List PileKey → RawFrame → Res RawFrame
  | [], f => .ok f
  | k :: ks, f => do
    let f ← destructCards (f.layout.pile k) f
    clearPiles ks { f with layout := f.layout.setPile k [] }

/-- `destruct_zone_location` on each zone (478-487, 498-505): the zone's card is looked at first, its materials are not. -/
def clearZones : List ZoneKey → RawFrame → Res RawFrame
  | [], f => .ok f
  | k :: ks, f => do
    let f ← if (f.layout.zone k).card ≠ none then f.destruct (f.layout.zone k).card else pure f
    let f := { f with layout := f.layout.setCard k none }
    let f ← destructCards (f.layout.zone k).materials f
    clearZones ks { f with layout := f.layout.setMats k [] }

/-- `clear` (470-506). -/
def clear (f : RawFrame) : Res RawFrame := do
  let f ← clearPiles allPiles f
  clearZones allZones f

/-- Put a new layout in. -/
def within (f : RawFrame) (l : Res RawLayout) : Res RawFrame := do return { f with layout := ← l }

/-- Effect of one call. -/
def step (f : RawFrame) : FrameOp → Res RawFrame
  | .add p => f.cardAdd p
  | .remove p => f.cardRemove p
  | .move a b => do
    let (l, _) ← f.layout.cardMove a b
    return { f with layout := l }
  | .shuffle p c n => f.within (f.layout.cardShuffle p c n)
  | .swap a b => f.within (f.layout.cardSwap a b)
  | .resize p n => f.pileResize p n
  | .splice a n b r => f.within (f.layout.pileSplice a n b r)
  | .pswap a b => f.within (f.layout.pileSwap a b)
  | .clear => f.clear

/-- A history of calls. -/
def run (f : RawFrame) : List FrameOp → Res RawFrame
  | [] => .ok f
  | op :: ops => do
    let f ← f.step op
    f.run ops

end RawFrame

instance : FrameLike RawFrame := ⟨RawFrame.step⟩

/-- The plain board in a build without asserts. -/
abbrev RawBoard := DuelBoard RawFrame Plain

def RawBoard.init : RawBoard := ⟨RawFrame.init, ⟨[]⟩, ⟨0⟩, ⟨0⟩, fun _ => ⟨0⟩, ⟨0⟩, ⟨[]⟩⟩

/-- `parse_event` (parse_event.hpp:79-267): the only assert outside of the frame is that of `lp` (board.hpp:107-112). -/
def RawBoard.parseEvent (b : RawBoard) : Event → Res RawBoard
  | .lp con c => do
    let i ← conIdx con
    let lpv ← Cell.get (b.lp i)
    return b.setLp i (Cell.set (b.lp i) (DuelBoard.lpAfter lpv c))
  | e => DuelBoard.parseEvent b e

/-- Parsing a sequence of events. -/
def RawBoard.parseEvents (b : RawBoard) : List Event → Res RawBoard
  | [] => .ok b
  | e :: es => do
    let b ← RawBoard.parseEvent b e
    RawBoard.parseEvents b es

end Ygo
