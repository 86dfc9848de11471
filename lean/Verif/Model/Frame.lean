import Verif.Model.Place

/-!
# Model of `BasicFrame` (`include/ygopen/client/frame.hpp`)

A `CardType*` is a `CardId`.  The pile arrays and the field are functions on the in-range keys `PileKey` and
`ZoneKey`; `pileKey` and `zoneKey` are the access paths `pile_` and `zone_` with their asserts and
undefined cases.  The contents of cards are not part of the frame (see `Verif/Model/Query.lean`).
-/

namespace Ygo

/-- Identity (address) of a card. -/
macro "CardId" : term => `(Nat)

/-- The five `MultiPile` members (frame.hpp:602-606). -/
inductive PileLoc where
  | mainDeck | hand | graveyard | banished | extraDeck
  deriving DecidableEq, Repr

/-- The five `ZoneArray` members of `Side` (frame.hpp:98-102). -/
inductive ZoneLoc where
  | monster | spell | field | pendulum | skill
  deriving DecidableEq, Repr

/-- Which `Location` constant selects the pile array in `pile_` (frame.hpp:620-629). -/
def PileLoc.code : PileLoc → Nat
  | .mainDeck => Loc.mainDeck
  | .hand => Loc.hand
  | .graveyard => Loc.graveyard
  | .banished => Loc.banished
  | .extraDeck => Loc.extraDeck

/-- Which `Location` constant selects the zone array in `Side::at_` (frame.hpp:110-119). -/
def ZoneLoc.code : ZoneLoc → Nat
  | .monster => Loc.monsterZone
  | .spell => Loc.spellZone
  | .field => Loc.fieldZone
  | .pendulum => Loc.pendulumZone
  | .skill => Loc.skillZone

/-- Array sizes (frame.hpp:35-42, 98-102). -/
def ZoneLoc.limit : ZoneLoc → Nat
  | .monster => 7
  | .spell => 5
  | .field => 1
  | .pendulum => 2
  | .skill => 1

/-- One of the ten piles. -/
structure PileKey where
  con : Fin 2
  loc : PileLoc
  deriving DecidableEq, Repr

/-- One of the thirty-two zones. -/
structure ZoneKey where
  con : Fin 2
  loc : ZoneLoc
  seq : Nat
  lt : seq < loc.limit
  deriving DecidableEq, Repr

/-- `Side::Zone` (frame.hpp:74-78). -/
structure Zone where
  card : Option CardId := none
  materials : List CardId := []
  deriving DecidableEq, Repr

/-- The pile arrays and the field (frame.hpp:602-607). -/
structure Layout where
  pile : PileKey → List CardId
  zone : ZoneKey → Zone

namespace Layout

/-- Freshly constructed members: empty piles, null cards (frame.hpp:76, 602-607). -/
def empty : Layout := ⟨fun _ => [], fun _ => {}⟩

/-- Write to a pile reference. -/
def setPile (l : Layout) (k : PileKey) (v : List CardId) : Layout :=
  { l with pile := fun k' => if k' = k then v else l.pile k' }

/-- Write to a zone reference. -/
def setZone (l : Layout) (k : ZoneKey) (v : Zone) : Layout :=
  { l with zone := fun k' => if k' = k then v else l.zone k' }

/-- Write to `zone.card`. -/
def setCard (l : Layout) (k : ZoneKey) (c : Option CardId) : Layout :=
  l.setZone k { l.zone k with card := c }

/-- Write to `zone.materials`. -/
def setMats (l : Layout) (k : ZoneKey) (m : List CardId) : Layout :=
  l.setZone k { l.zone k with materials := m }

end Layout

/-- `BasicFrame`: the layout, the owning list `cards_.m` (newest first) and the next identity to be
handed out by the allocator.  `pile_splice_cache_` is scratch memory and is not kept. -/
structure Frame where
  layout : Layout
  owned : List CardId
  next : CardId

/-- Constructor (frame.hpp:126-129). -/
def Frame.init : Frame := ⟨Layout.empty, [], 0⟩

/-! ## Access paths -/

/-- Indexing an array of `CONTROLLER_ARRAY_SIZE = 2` elements with a `Controller` (frame.hpp:621-629, 652). -/
def conIdx (con : Int) : Res (Fin 2) :=
  if con = 0 then .ok 0 else if con = 1 then .ok 1 else ub

/-- `pile_` (frame.hpp:613-631).  Negative controllers pass `assert(con <= 1)` and index out of bounds; a location with a pile
bit that is not one of the constants is `YGOPEN_UNREACHABLE`. -/
def pileKey (con : Int) (loc : Nat) : Res PileKey := do
  massert (con ≤ 1)
  massert (locIsPile loc = true)
  if loc = Loc.mainDeck then return ⟨← conIdx con, .mainDeck⟩
  else if loc = Loc.hand then return ⟨← conIdx con, .hand⟩
  else if loc = Loc.graveyard then return ⟨← conIdx con, .graveyard⟩
  else if loc = Loc.banished then return ⟨← conIdx con, .banished⟩
  else if loc = Loc.extraDeck then return ⟨← conIdx con, .extraDeck⟩
  else ub

/-- Final indexing step of `zone_` once the array is selected (frame.hpp:652). -/
def zoneAt (con : Int) (loc : ZoneLoc) (seq : Nat) : Res ZoneKey := do
  let c ← conIdx con
  if h : seq < loc.limit then return ⟨c, loc, seq, h⟩ else ub

/-- `zone_` (frame.hpp:646-653) with `Side::at_` (frame.hpp:105-121). -/
def zoneKey (con : Int) (loc seq : Nat) : Res ZoneKey := do
  massert (con ≤ 1)
  let lim ← zoneSeqLim loc
  massert (seq < lim)
  massert (locIsZone loc = true)
  if loc = Loc.monsterZone then zoneAt con .monster seq
  else if loc = Loc.spellZone then zoneAt con .spell seq
  else if loc = Loc.fieldZone then zoneAt con .field seq
  else if loc = Loc.pendulumZone then zoneAt con .pendulum seq
  else if loc = Loc.skillZone then zoneAt con .skill seq
  else ub

/-- `pile(PlaceType)` (frame.hpp:165-169, 203-207). -/
def Place.pileKey (p : Place) : Res PileKey := Ygo.pileKey p.con p.loc
/-- `zone(PlaceType)` (frame.hpp:178-182, 216-220). -/
def Place.zoneKey (p : Place) : Res ZoneKey := Ygo.zoneKey p.con p.loc p.seq

namespace Layout

/-- `has_card` (frame.hpp:138-150). -/
def hasCard (l : Layout) (p : Place) : Res Bool := do
  massert (p.isEmpty = false)
  if p.isPile then
    let k ← p.pileKey
    return decide (p.seq < (l.pile k).length)
  massert (p.isZone = true)
  let lim ← zoneSeqLim p.loc
  massert (p.seq < lim)
  let k ← p.zoneKey
  if p.oseq < 0 then return (l.zone k).card.isSome
  return decide (p.oseq.toNat < (l.zone k).materials.length)

/-- `card_` (frame.hpp:633-644). -/
def card (l : Layout) (p : Place) : Res CardId := do
  massert (p.isEmpty = false)
  let h ← l.hasCard p
  massert (h = true)
  if p.isPile then
    let k ← p.pileKey
    orUb (l.pile k)[p.seq]?
  else
    let k ← p.zoneKey
    if p.oseq < 0 then orUb (l.zone k).card
    else orUb (l.zone k).materials[p.oseq.toNat]?

end Layout

/-- `take_at_` (frame.hpp:657-665).  Vector elements are never null in the model, so the second assert is vacuous. -/
def takeAt (p : List CardId) (i : Nat) : Res (CardId × List CardId) := do
  massert (i < p.length)
  let c ← orUb p[i]?
  return (c, p.eraseIdx i)

/-- `insert_at_` (frame.hpp:667-674) with a non-null card. -/
def insertAt (p : List CardId) (i : Nat) (c : CardId) : Res (List CardId) := do
  massert (i ≤ p.length)
  return p.insertIdx i c

namespace Layout

/-- `card_insert` (frame.hpp:518-534). -/
def cardInsert (l : Layout) (p : Place) (c : CardId) : Res Layout := do
  if p.isPile then
    let k ← p.pileKey
    let v ← insertAt (l.pile k) p.seq c
    return l.setPile k v
  else
    let k ← p.zoneKey
    if p.oseq < 0 then
      massert ((l.zone k).card = none)
      return l.setCard k (some c)
    else
      let v ← insertAt (l.zone k).materials p.oseq.toNat c
      return l.setMats k v

/-- `card_erase` (frame.hpp:536-554).  `return *c` of a null card is undefined. -/
def cardErase (l : Layout) (p : Place) : Res (CardId × Layout) := do
  if p.isPile then
    let k ← p.pileKey
    let c ← orUb (l.pile k)[p.seq]?
    return (c, l.setPile k ((l.pile k).eraseIdx p.seq))
  else
    let k ← p.zoneKey
    if p.oseq < 0 then
      let c ← orUb (l.zone k).card
      return (c, l.setCard k none)
    else
      let (c, v) ← takeAt (l.zone k).materials p.oseq.toNat
      return (c, l.setMats k v)

/-- `card_move` (frame.hpp:237-308); returns the moved card. -/
def cardMove (l : Layout) (src dst : Place) : Res (Layout × CardId) := do
  let h ← l.hasCard src
  massert (h = true)
  massert (src.isPile = true → src.oseq < 0)
  massert (dst.isPile = true → dst.oseq < 0)
  if src.isPile then
    if dst.isPile then
      let k1 ← src.pileKey
      let k2 ← dst.pileKey
      let (c, p1) ← takeAt (l.pile k1) src.seq
      let l := l.setPile k1 p1
      let p2 ← insertAt (l.pile k2) dst.seq c
      return (l.setPile k2 p2, c)
    else
      let k1 ← src.pileKey
      let (c, p1) ← takeAt (l.pile k1) src.seq
      let l := l.setPile k1 p1
      let k2 ← dst.zoneKey
      if dst.oseq < 0 then
        massert ((l.zone k2).card = none)
        return (l.setCard k2 (some c), c)
      else
        let m ← insertAt (l.zone k2).materials dst.oseq.toNat c
        return (l.setMats k2 m, c)
  else
    if dst.isPile then
      let k1 ← src.zoneKey
      if src.oseq < 0 then
        let o := (l.zone k1).card
        let l := l.setCard k1 none
        let k2 ← dst.pileKey
        let c ← orAssert o
        let p ← insertAt (l.pile k2) dst.seq c
        return (l.setPile k2 p, c)
      else
        let (c, m) ← takeAt (l.zone k1).materials src.oseq.toNat
        let l := l.setMats k1 m
        let k2 ← dst.pileKey
        let p ← insertAt (l.pile k2) dst.seq c
        return (l.setPile k2 p, c)
    else
      let k1 ← src.zoneKey
      let k2 ← dst.zoneKey
      if src.oseq < 0 then
        if dst.oseq < 0 then
          massert ((l.zone k2).card = none ∧ (l.zone k2).materials = [])
          let o := (l.zone k1).card
          let l := l.setCard k1 none
          let l := l.setCard k2 o
          let m1 := (l.zone k1).materials
          let m2 := (l.zone k2).materials
          let l := l.setMats k2 m1
          let l := l.setMats k1 m2
          let c ← orUb o
          return (l, c)
        else
          let o := (l.zone k1).card
          let l := l.setCard k1 none
          let c ← orAssert o
          let m ← insertAt (l.zone k2).materials dst.oseq.toNat c
          return (l.setMats k2 m, c)
      else
        if dst.oseq < 0 then
          massert ((l.zone k2).card = none)
          let (c, m) ← takeAt (l.zone k1).materials src.oseq.toNat
          let l := l.setMats k1 m
          return (l.setCard k2 (some c), c)
        else
          let (c, m1) ← takeAt (l.zone k1).materials src.oseq.toNat
          let l := l.setMats k1 m1
          let m2 ← insertAt (l.zone k2).materials dst.oseq.toNat c
          return (l.setMats k2 m2, c)

/-- `std::swap` of two zones (frame.hpp:331); harmless when both are the same zone. -/
def swapZones (l : Layout) (k1 k2 : ZoneKey) : Layout :=
  let z1 := l.zone k1
  let z2 := l.zone k2
  (l.setZone k1 z2).setZone k2 z1

/-- First loop of `card_shuffle` (frame.hpp:320-325): the previous sequences; running off the iterator is
undefined. -/
def shuffleSeqs (l : Layout) : Nat → List Place → Res (List Nat)
  | 0, _ => .ok []
  | _ + 1, [] => ub
  | n + 1, p :: ps => do
    let h ← l.hasCard p
    massert (h = true)
    let rest ← shuffleSeqs l n ps
    return p.seq :: rest

/-- Inner loop of `card_shuffle` (frame.hpp:333-339): the first entry equal to `seq` becomes `si`. -/
def replaceFirst (seq si : Nat) : List Nat → List Nat
  | [] => []
  | s :: ss => if s ≠ seq then s :: replaceFirst seq si ss else si :: ss

/-- Second loop of `card_shuffle` (frame.hpp:326-341); `i` is the loop counter, `n` the iterations left. -/
def shuffleLoop : (n i : Nat) → List Place → List Nat → Layout → Res Layout
  | 0, _, _, _, l => .ok l
  | _ + 1, _, [], _, _ => ub
  | n + 1, i, p :: ps, seqs, l => do
    if p.isEmpty then shuffleLoop n (i + 1) ps seqs l
    else
      let si ← orUb seqs[i]?
      let k1 ← Ygo.zoneKey p.con p.loc si
      let k2 ← p.zoneKey
      let l := l.swapZones k1 k2
      shuffleLoop n (i + 1) ps ((replaceFirst p.seq si seqs).set i p.seq) l

/-- `card_shuffle` (frame.hpp:310-342); `prev` and `cur` are the ranges the iterators run over. The `seqs` array has
seven entries; the loops index it up to `count - 1`. -/
def cardShuffle (l : Layout) (prev cur : List Place) (count : Nat) : Res Layout := do
  let p0 ← orUb prev.head?
  massert (p0.isPile = false)
  massert (count ≤ 7)
  guardUb (count ≤ 7)
  let seqs ← l.shuffleSeqs count prev
  shuffleLoop count 0 cur seqs l

/-- A reference to a `CardType*` inside the layout, as taken by `std::swap` in `card_swap`. -/
inductive Ref where
  | pile (k : PileKey) (i : Nat)
  | card (k : ZoneKey)
  | mat (k : ZoneKey) (i : Nat)

/-- Read through a reference. `operator[]` out of bounds is undefined; a null `zone.card` cannot occur here because
`card_swap` asserted `has_card`, and is treated as undefined. -/
def read (l : Layout) : Ref → Res CardId
  | .pile k i => orUb (l.pile k)[i]?
  | .card k => orUb (l.zone k).card
  | .mat k i => orUb (l.zone k).materials[i]?

/-- Write through a reference. -/
def write (l : Layout) (c : CardId) : Ref → Layout
  | .pile k i => l.setPile k ((l.pile k).set i c)
  | .card k => l.setCard k (some c)
  | .mat k i => l.setMats k ((l.zone k).materials.set i c)

/-- `std::swap` of two card references. -/
def swapRefs (l : Layout) (a b : Ref) : Res Layout := do
  let ca ← l.read a
  let cb ← l.read b
  return (l.write cb a).write ca b

/-- `card_swap` (frame.hpp:344-407), including the use of `a.seq()` as a material index in the last two branches
(frame.hpp:400, 404). -/
def cardSwap (l : Layout) (a b : Place) : Res Layout := do
  let ha ← l.hasCard a
  massert (ha = true)
  let hb ← l.hasCard b
  massert (hb = true)
  massert (a.isPile = true → a.oseq < 0)
  massert (b.isPile = true → b.oseq < 0)
  if a.isPile = false ∧ a.oseq < 0 then
    let k ← a.zoneKey
    massert ((l.zone k).materials = [] ∨ b.isPile = false)
  if b.isPile = false ∧ b.oseq < 0 then
    let k ← b.zoneKey
    massert ((l.zone k).materials = [] ∨ a.isPile = false)
  if a.isPile then
    if b.isPile then
      let ka ← a.pileKey
      let kb ← b.pileKey
      l.swapRefs (.pile ka a.seq) (.pile kb b.seq)
    else
      let ka ← a.pileKey
      let kb ← b.zoneKey
      if b.oseq < 0 then l.swapRefs (.pile ka a.seq) (.card kb)
      else l.swapRefs (.pile ka a.seq) (.mat kb b.oseq.toNat)
  else
    if b.isPile then
      let ka ← a.zoneKey
      let kb ← b.pileKey
      if a.oseq < 0 then l.swapRefs (.card ka) (.pile kb b.seq)
      else l.swapRefs (.mat ka a.oseq.toNat) (.pile kb b.seq)
    else
      let ka ← a.zoneKey
      let kb ← b.zoneKey
      if a.oseq < 0 then
        if b.oseq < 0 then
          let l ← l.swapRefs (.card ka) (.card kb)
          let ma := (l.zone ka).materials
          let mb := (l.zone kb).materials
          return (l.setMats ka mb).setMats kb ma
        else l.swapRefs (.card ka) (.mat kb b.oseq.toNat)
      else
        if b.oseq < 0 then l.swapRefs (.mat ka a.seq) (.card kb)
        else l.swapRefs (.mat ka a.seq) (.mat kb b.oseq.toNat)

/-- `pile_splice` (frame.hpp:430-457).  `count + from.seq()` does not wrap: `resize(count)` fails first for such
counts.  The target index is not checked by the code, so an index past the end is undefined. -/
def pileSplice (l : Layout) (src : Place) (count : Nat) (dst : Place) (reverse : Bool) : Res Layout := do
  massert (src.isPile = true)
  massert (dst.isPile = true)
  let k1 ← src.pileKey
  let p1 := l.pile k1
  massert (count + src.seq ≤ p1.length)
  let slice := (p1.drop src.seq).take count
  let cache := if reverse then slice.reverse else slice
  let l := l.setPile k1 (p1.take src.seq ++ p1.drop (src.seq + count))
  let k2 ← dst.pileKey
  let p2 := l.pile k2
  guardUb (dst.seq ≤ p2.length)
  return l.setPile k2 (p2.take dst.seq ++ cache ++ p2.drop dst.seq)

/-- `pile_swap` (frame.hpp:459-465). -/
def pileSwap (l : Layout) (a b : Place) : Res Layout := do
  massert (a.isPile = true)
  massert (b.isPile = true)
  let ka ← a.pileKey
  let kb ← b.pileKey
  let pa := l.pile ka
  let pb := l.pile kb
  return (l.setPile ka pb).setPile kb pa

end Layout

namespace Frame

/-- `construct_card` (frame.hpp:556-559). -/
def construct (f : Frame) : CardId × Frame :=
  (f.next, { f with owned := f.next :: f.owned, next := f.next + 1 })

/-- `destruct_card` (frame.hpp:561-579): erase the first list node at that address, assert one was found. -/
def destruct (f : Frame) (c : CardId) : Res Frame := do
  massert (c ∈ f.owned)
  return { f with owned := f.owned.erase c }

/-- `card_add` (frame.hpp:224-229). -/
def cardAdd (f : Frame) (p : Place) : Res (Frame × CardId) := do
  let (c, f) := f.construct
  let l ← f.layout.cardInsert p c
  return ({ f with layout := l }, c)

/-- `card_remove` (frame.hpp:231-235). -/
def cardRemove (f : Frame) (p : Place) : Res Frame := do
  let h ← f.layout.hasCard p
  massert (h = true)
  let (c, l) ← f.layout.cardErase p
  { f with layout := l }.destruct c

/-- `card_move`; the owning list is untouched. -/
def cardMove (f : Frame) (src dst : Place) : Res (Frame × CardId) := do
  let (l, c) ← f.layout.cardMove src dst
  return ({ f with layout := l }, c)

/-- `card_shuffle`; the owning list is untouched. -/
def cardShuffle (f : Frame) (prev cur : List Place) (count : Nat) : Res Frame := do
  let l ← f.layout.cardShuffle prev cur count
  return { f with layout := l }

/-- `card_swap`; the owning list is untouched. -/
def cardSwap (f : Frame) (a b : Place) : Res Frame := do
  let l ← f.layout.cardSwap a b
  return { f with layout := l }

/-- Growing loop of `pile_resize` (frame.hpp:416-417). -/
def growPile (k : PileKey) : Nat → Frame → Frame
  | 0, f => f
  | n + 1, f =>
    let (c, f) := f.construct
    growPile k n { f with layout := f.layout.setPile k (f.layout.pile k ++ [c]) }

/-- Shrinking loop of `pile_resize` (frame.hpp:421-425); `back()` of an empty vector is undefined. -/
def shrinkPile (k : PileKey) : Nat → Frame → Res Frame
  | 0, f => .ok f
  | n + 1, f => do
    let c ← orUb (f.layout.pile k).getLast?
    let f ← f.destruct c
    shrinkPile k n { f with layout := f.layout.setPile k (f.layout.pile k).dropLast }

/-- `pile_resize` (frame.hpp:409-428); `verify_pile_` is vacuous as elements are never null. -/
def pileResize (f : Frame) (p : Place) (count : Nat) : Res Frame := do
  massert (p.isPile = true)
  let k ← p.pileKey
  let size := (f.layout.pile k).length
  if size < count then return growPile k (count - size) f
  else if size > count then shrinkPile k (size - count) f
  else return f

/-- `pile_splice`; the owning list is untouched. -/
def pileSplice (f : Frame) (src : Place) (count : Nat) (dst : Place) (reverse : Bool) : Res Frame := do
  let l ← f.layout.pileSplice src count dst reverse
  return { f with layout := l }

/-- `pile_swap`; the owning list is untouched. -/
def pileSwap (f : Frame) (a b : Place) : Res Frame := do
  let l ← f.layout.pileSwap a b
  return { f with layout := l }

/-- `for(auto* c : p) destruct_card(*c);` (frame.hpp:474-475). -/
def destructCards : List CardId → Frame → Res Frame
  | [], f => .ok f
  | c :: cs, f => do
    let f ← f.destruct c
    destructCards cs f

/-- `destruct_pile` on each pile (frame.hpp:472-477, 488-497). -/
def clearPiles : List PileKey → Frame → Res Frame
  | [], f => .ok f
  | k :: ks, f => do
    let f ← destructCards (f.layout.pile k) f
    clearPiles ks { f with layout := f.layout.setPile k [] }

/-- `destruct_zone_location` on each zone (frame.hpp:478-487, 498-505). -/
def clearZones : List ZoneKey → Frame → Res Frame
  | [], f => .ok f
  | k :: ks, f => do
    let f ← destructCards (f.layout.zone k).card.toList f
    let f := { f with layout := f.layout.setCard k none }
    let f ← destructCards (f.layout.zone k).materials f
    clearZones ks { f with layout := f.layout.setMats k [] }

end Frame

/-- All pile keys in the order `clear` visits them (frame.hpp:488-497). -/
def allPiles : List PileKey :=
  [.mainDeck, .hand, .graveyard, .banished, .extraDeck].flatMap fun l => [⟨0, l⟩, ⟨1, l⟩]

/-- Zones of one row of one side. -/
def zoneRow (c : Fin 2) (l : ZoneLoc) : List ZoneKey :=
  (List.finRange l.limit).map fun i => ⟨c, l, i.val, i.isLt⟩

/-- All zone keys in the order `clear` visits them (frame.hpp:498-505). -/
def allZones : List ZoneKey :=
  [0, 1].flatMap fun c => [ZoneLoc.monster, .spell, .field, .pendulum, .skill].flatMap (zoneRow c)

/-- `clear` (frame.hpp:470-506). -/
def Frame.clear (f : Frame) : Res Frame := do
  let f ← Frame.clearPiles allPiles f
  Frame.clearZones allZones f

/-! ## Histories -/

/-- A call of one of the public mutating operations of `BasicFrame`. -/
inductive FrameOp where
  | add (p : Place)
  | remove (p : Place)
  | move (src dst : Place)
  | shuffle (prev cur : List Place) (count : Nat)
  | swap (a b : Place)
  | resize (p : Place) (count : Nat)
  | splice (src : Place) (count : Nat) (dst : Place) (reverse : Bool)
  | pswap (a b : Place)
  | clear

/-- Effect of one call. -/
def Frame.step (f : Frame) : FrameOp → Res Frame
  | .add p => do let (f, _) ← f.cardAdd p; return f
  | .remove p => f.cardRemove p
  | .move a b => do let (f, _) ← f.cardMove a b; return f
  | .shuffle p c n => f.cardShuffle p c n
  | .swap a b => f.cardSwap a b
  | .resize p n => f.pileResize p n
  | .splice a n b r => f.pileSplice a n b r
  | .pswap a b => f.pileSwap a b
  | .clear => f.clear

/-- A history of calls, stopping at the first failure. -/
def Frame.run (f : Frame) : List FrameOp → Res Frame
  | [] => .ok f
  | op :: ops => do
    let f ← f.step op
    f.run ops

end Ygo
