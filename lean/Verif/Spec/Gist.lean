import Verif.Spec.Core

/-!
# What is passed on of the core's messages

Of every message of the core that is translated on its own, the message of which nothing more is passed on: whatever gets lost is
replaced by something fixed.  Where messages of several kinds are translated alike one kind stands for all.
-/

namespace Ygo.Spec
open Ygo

/-- Of a location in a row of zones with the spell bit only that bit matters from the sixth zone on, and the overlay bit is told
otherwise. -/
def gistLoc (loc : UInt8) (seq : Nat) : Nat :=
  if loc.toNat.testBit 3 ∧ 5 ≤ seq then 8 else loc.toNat % 128

/-- The position of a card is not passed on, the index of a material is. A card that is none is the same as material -1. -/
def LocInfo.gist (i : LocInfo) : LocInfo :=
  ⟨i.con, UInt8.ofNat (gistLoc i.loc i.seq.toNat + 128), i.seq, if i.loc.toNat.testBit 7 then i.pos else 0xffffffff⟩

def CardLoc.gist (i : CardLoc) : CardLoc := ⟨i.con, UInt8.ofNat (gistLoc i.loc i.seq.toNat), i.seq⟩

def CardLocS.gist (i : CardLocS) : CardLocS := ⟨i.con, UInt8.ofNat (gistLoc i.loc i.seq.toNat), i.seq⟩

/-- The same with a longer sequence. -/
def CardLocS.gistLong (i : CardLocS) : CardLoc := ⟨i.con, UInt8.ofNat (gistLoc i.loc i.seq.toNat), UInt32.ofNat i.seq.toNat⟩

/-- With four bytes the field and pendulum zones have locations of their own. -/
def CardLocL.gist (i : CardLocL) : CardLocL :=
  ⟨i.con, UInt32.ofNat (slot i.base i.seq.toNat).1, UInt32.ofNat (slot i.base i.seq.toNat).2⟩

/-- The twelve highest bits of a description get lost. -/
def gistEffect (d : UInt64) : UInt64 := UInt64.ofNat (d.toNat % 2 ^ 52)

/-- What is true is 1. -/
def gistBool (b : UInt8) : UInt8 := if b = 0 then 0 else 1

/-- Bits 7 and 23 do not belong to a zone. -/
def gistMask (m : UInt32) : UInt32 := m ||| 0x800080

/-- A bit in its place. -/
def keepBit (f : UInt32) (i : Nat) : UInt32 := if f.toNat.testBit i then UInt32.ofNat (2 ^ i) else 0

/-- Neither the code nor whether the effect is reset is passed on. -/
def Activable.gist {L : Type} (g : L → L) (a : Activable L) : Activable L := ⟨0, g a.loc, gistEffect a.effect, 0⟩

def Link.gist (l : Link) : Link := ⟨0, l.card.gist, l.trigger.gist, gistEffect l.effect⟩

/-- The position gets lost. -/
def FieldCell.gist : FieldCell → FieldCell
  | .empty => .empty
  | .card _ _ mats => .card 1 0 mats

/-- How many cards of the extra deck are face up gets lost. -/
def FieldSide.gist (s : FieldSide) : FieldSide :=
  { s with monsters := s.monsters.map FieldCell.gist, spells := s.spells.map FieldCell.gist, extraP := 0 }

/-- Cards without their codes. -/
def gistCards {α β : Type} (g : α → β) (cs : List (UInt32 × α)) : List (UInt32 × β) := cs.map fun c => (0, g c.2)
/-- Cards with their codes. -/
def gistCoded {α β : Type} (g : α → β) (cs : List (UInt32 × α)) : List (UInt32 × β) := cs.map fun c => (c.1, g c.2)

/-- The first material of the card at the very first place: how it is written that there is no card. -/
def LocInfo.IsNone (i : LocInfo) : Prop := i.con = 0 ∧ i.base = 0 ∧ i.seq = 0 ∧ i.loc.toNat.testBit 7 = true ∧ i.pos = 0

instance (i : LocInfo) : Decidable i.IsNone := inferInstanceAs (Decidable (_ ∧ _))

namespace QueryItem

/-- What is passed on of a field of a query. -/
def gist : QueryItem → QueryItem
  | equipCard l => equipCard l.gist
  | isPublic v => isPublic (gistBool v)
  | isHidden v => isHidden (gistBool v)
  | i => i

/-- Flags of the fields that have one value. -/
def oneValue : List UInt32 :=
  [0x1, 0x2, 0x4, 0x8, 0x10, 0x20, 0x40, 0x80, 0x100, 0x200, 0x400, 0x800, 0x4000, 0x40000, 0x80000, 0x100000, 0x200000, 0x400000,
   0x800000, 0x1000000, 0x2000000]

/-- The last field with a flag. -/
def lastOf (k : UInt32) (is : List QueryItem) : List QueryItem :=
  (last (fun i => if i.flag = k then some i.gist else none) is).toList

/-- The cards listed as targets. -/
def targetInfos : QueryItem → Option (List LocInfo)
  | targetCard ls => some ls
  | _ => none

/-- The counters listed. -/
def counterPairs : QueryItem → Option (List (UInt16 × UInt16))
  | counters cs => some cs
  | _ => none

/-- The codes listed of materials. -/
def overlayCodes : QueryItem → Option (List UInt32)
  | overlayCard cs => some cs
  | _ => none

/-- A list of materials that is not empty. -/
def overlaysOf : List UInt32 → List QueryItem
  | [] => []
  | c :: cs => [overlayCard (c :: cs)]

/-- What is passed on of a query: in a fixed order the last of the fields that have one value, all targets and counters that are listed
anywhere, and the last list of materials if it is not empty. Other fields are dropped. -/
def gists (is : List QueryItem) : List QueryItem :=
  oneValue.flatMap (lastOf · is)
  ++ ((allOf targetInfos is).map fun ls => targetCard (ls.map LocInfo.gist)).toList
  ++ ((allOf counterPairs is).map counters).toList
  ++ overlaysOf ((last overlayCodes is).getD [])

end QueryItem

namespace CoreMsg

/-- The places of the cards that a message with queries is about, and what it says about them. -/
def asked : CoreMsg → List (Place × List QueryItem)
  | updateCard l is => [(l.place, is)]
  | updateData c l ss => (ss.mapIdx fun i o => o.toList.map fun is => (⟨c.toNat, (slot l.toNat i).1, (slot l.toNat i).2, -1⟩, is)).flatten
  | _ => []

/-- What is passed on of a message with queries: the places with what is told about them. Where nothing is told and which zones come after
the last card gets lost. -/
def told (m : CoreMsg) : List (Place × List QueryItem) := m.asked.map fun x => (x.1, QueryItem.gists x.2)

/-- What is passed on of a message. -/
def gist : CoreMsg → CoreMsg
  -- of these nothing
  | retry | hint .. | summoned | spsummoned | flipsummoned | chainEnd | equip .. | battle .. | attackDisabled | damageStepStart
  | damageStepEnd | missedEffect .. | cardHint .. | aiName _ => retry
  | start _ l0 l1 m0 e0 m1 e1 => start 0 l0 l1 m0 e0 m1 e1
  | selectBattlecmd p acts atks m e => selectBattlecmd p (acts.map (Activable.gist CardLoc.gist))
      (atks.map fun a => (0, a.2.1.gist, gistBool a.2.2)) (gistBool m) (gistBool e)
  | selectIdlecmd p s sp r ms ss acts b e sh => selectIdlecmd p (gistCards CardLoc.gist s) (gistCards CardLoc.gist sp)
      (gistCards CardLocS.gist r) (gistCards CardLoc.gist ms) (gistCards CardLoc.gist ss)
      (acts.map (Activable.gist CardLoc.gist)) (gistBool b) (gistBool e) (gistBool sh)
  -- without a card it is the question of the next kind
  | selectEffectyn p c l e => if l.IsNone ∧ c = 0 then selectYesno p (gistEffect e) else selectEffectyn p c l.gist (gistEffect e)
  | selectYesno p e => selectYesno p (gistEffect e)
  | selectOption p os => selectOption p (os.map gistEffect)
  -- if the first card has no location those of the others get lost
  | selectCard p c mn mx cs => selectCard p (gistBool c) mn mx
      (if cs.head?.any (fun x => x.2.loc = 0) then cs.map fun x => (x.1, ⟨0, 0, 0, 0⟩) else gistCoded LocInfo.gist cs)
  | selectChain p s f _ acts =>
    selectChain p (if s.toNat % 128 = 0 then 0 else 1) (gistBool f) 0 (acts.map (Activable.gist LocInfo.gist))
  | selectPlace p n m => selectPlace p n (gistMask m)
  | selectDisfield p n m => selectDisfield p n (gistMask m)
  | selectTribute p c mn mx cs => selectTribute p (gistBool c) mn mx (gistCoded (fun x => (x.1.gist, x.2)) cs)
  | sortChain p cs | sortCard p cs => sortCard p (gistCards CardLocL.gist cs)
  | selectUnselectCard p f c mn mx ss us =>
    selectUnselectCard p (gistBool f) (gistBool c) mn mx (gistCoded LocInfo.gist ss) (gistCoded LocInfo.gist us)
  -- neither to whom they are shown nor where from
  | confirmDecktop _ cs | confirmCards _ cs | confirmExtratop _ cs => confirmCards 0 (gistCards CardLoc.gist cs)
  | shuffleHand p _ => shuffleHand p []
  | shuffleExtra p _ => shuffleExtra p []
  | shuffleSetCard _ cs => shuffleSetCard 0 (cs.map fun c => (c.1.gist, c.2.gist))
  -- a change of position and counters: only that there was a change
  | posChange _ l _ _ | addCounter _ l _ | removeCounter _ l _ => set 0 l.gistLong 0
  | set _ l _ => set 0 l.gist 0
  | swap _ a _ b => swap 0 a.gist 0 b.gist
  | fieldDisabled m => fieldDisabled (gistMask m)
  | summoning _ l => summoning 0 l.gist
  | spsummoning _ l => spsummoning 0 l.gist
  | flipsummoning _ l => flipsummoning 0 l.gist
  | chaining l _ => chaining l.gist 0
  -- not which link of the chain
  | chained _ => chained 0
  | chainSolving _ => chainSolving 0
  | chainSolved _ => chainSolved 0
  | chainNegated _ => chainNegated 0
  | chainDisabled _ => chainDisabled 0
  -- not who chose
  | cardSelected cs | randomSelected _ cs | becomeTarget cs => cardSelected (cs.map LocInfo.gist)
  -- not whether the target was set or is no longer one
  | cardTarget a b | cancelTarget a b => if a.IsNone then cardSelected [b.gist] else cardTarget a.gist b.gist
  | attack a b => attack a.gist (if b.base = 0 then ⟨0, 0, 0, 0⟩ else b.gist)
  | tossCoin p rs => tossCoin p (rs.map gistBool)
  | handRes h => handRes (UInt8.ofNat (h.toNat % 16))
  -- how many cards, but nothing about them
  | tagSwap p m _ _ ex ha => tagSwap p m 0 0 (ex.map fun _ => (0, 0)) (ha.map fun _ => (0, 0))
  | reloadField f s0 s1 cs => reloadField (keepBit f 22 + keepBit f 11 + keepBit f 12 + keepBit f 13) s0.gist s1.gist (cs.map Link.gist)
  | playerHint p t e => playerHint p (if t = 1 then 1 else 0) (gistEffect e)
  -- of these, which are translated with what is tracked, no codes
  | draw p cs => draw p (cs.map fun _ => (0, 0))
  | deckTop p n _ _ => deckTop p n 0 0
  -- of these everything
  | m => m

/-- Messages about which the tracked board only tells the sizes of decks and hands, or whether the match is won. -/
def AsksSizes : CoreMsg → Prop
  | win .. | deckTop .. | draw .. | reverseDeck => True
  | _ => False

end CoreMsg
end Ygo.Spec
