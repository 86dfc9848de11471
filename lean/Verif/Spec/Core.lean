import Verif.Model.Encode

/-!
# The core's messages

What the core sends, written without reference to the reading code: the fields of every message, how they are laid out in bytes
(little endian, in this order, lists preceded by their length), and what the message says.  Messages whose translation depends
on the tracked board or on earlier messages have no `meaning` here.
-/

namespace Ygo.Spec
open Ygo

/-- The `n` low bytes of a number, lowest first. -/
def le : Nat → Nat → List UInt8
  | 0, _ => []
  | n + 1, v => UInt8.ofNat (v % 256) :: le n (v / 256)

def b8 (v : UInt8) : List UInt8 := [v]
def b16 (v : UInt16) : List UInt8 := le 2 v.toNat
def b32 (v : UInt32) : List UInt8 := le 4 v.toNat
def b64 (v : UInt64) : List UInt8 := le 8 v.toNat

/-- A list with its length in one byte. -/
def list8 {α : Type} (f : α → List UInt8) (xs : List α) : List UInt8 := le 1 xs.length ++ xs.flatMap f
/-- A list with its length in four bytes. -/
def list32 {α : Type} (f : α → List UInt8) (xs : List α) : List UInt8 := le 4 xs.length ++ xs.flatMap f

/-- Zone slots as the core numbers them: behind the spell row's five zones come the field zone (5) and the two pendulum zones
(6 and 7). -/
def slot (loc seq : Nat) : Nat × Nat :=
  if loc.testBit 3 then
    if seq < 5 then (loc, seq) else if seq = 5 then (0x100, 0) else (0x200, seq - 6)
  else (loc, seq)

/-- Two's complement reading of a 32-bit value: the number between -2^31 and 2^31 - 1 with the same remainder. -/
def signed32 (v : UInt32) : Int := (v.toNat : Int).bmod (2 ^ 32)

/-- The core's `loc_info`: with the overlay bit (bit 7) set in `loc`, `pos` is the index of a material. -/
structure LocInfo where
  con : UInt8
  loc : UInt8
  seq : UInt32
  pos : UInt32

namespace LocInfo
/-- Location without the overlay bit. -/
def base (i : LocInfo) : Nat := i.loc.toNat % 128
def bytes (i : LocInfo) : List UInt8 := b8 i.con ++ b8 i.loc ++ b32 i.seq ++ b32 i.pos
/-- The place meant. -/
def place (i : LocInfo) : Place :=
  ⟨i.con.toNat, (slot i.base i.seq.toNat).1, (slot i.base i.seq.toNat).2,
   if i.loc.toNat.testBit 7 then signed32 i.pos else -1⟩
end LocInfo

/-- Location of a card that is not a material: controller, location, sequence. -/
structure CardLoc where
  con : UInt8
  loc : UInt8
  seq : UInt32

namespace CardLoc
def bytes (i : CardLoc) : List UInt8 := b8 i.con ++ b8 i.loc ++ b32 i.seq
def place (i : CardLoc) : Place :=
  ⟨i.con.toNat, (slot (i.loc.toNat % 128) i.seq.toNat).1, (slot (i.loc.toNat % 128) i.seq.toNat).2, -1⟩
end CardLoc

/-- The same with a one-byte sequence. -/
structure CardLocS where
  con : UInt8
  loc : UInt8
  seq : UInt8

namespace CardLocS
def bytes (i : CardLocS) : List UInt8 := b8 i.con ++ b8 i.loc ++ b8 i.seq
def place (i : CardLocS) : Place :=
  ⟨i.con.toNat, (slot (i.loc.toNat % 128) i.seq.toNat).1, (slot (i.loc.toNat % 128) i.seq.toNat).2, -1⟩
end CardLocS

/-- The same with a four-byte location. -/
structure CardLocL where
  con : UInt8
  loc : UInt32
  seq : UInt32

namespace CardLocL
def bytes (i : CardLocL) : List UInt8 := b8 i.con ++ b32 i.loc ++ b32 i.seq
/-- The location without bit 7. -/
def base (i : CardLocL) : Nat := i.loc.toNat / 256 * 256 + i.loc.toNat % 128
def place (i : CardLocL) : Place := ⟨i.con.toNat, (slot i.base i.seq.toNat).1, (slot i.base i.seq.toNat).2, -1⟩
end CardLocL

/-- A description: 44 bits of code above 20 bits of index; the code is reported in 32 bits. -/
def effectOf (d : UInt64) : Effect := ⟨d.toNat / 2 ^ 20 % 2 ^ 32, d.toNat % 2 ^ 20⟩

/-- The clear bits of the field mask, in the order monster zones, spell zones, field zone, pendulum zones, for one player; bit 7 is
not used. -/
def clearZones (con : Int) (bit : Nat → Bool) : List Place :=
  ([(0, 4, 0), (1, 4, 1), (2, 4, 2), (3, 4, 3), (4, 4, 4), (5, 4, 5), (6, 4, 6), (8, 8, 0), (9, 8, 1), (10, 8, 2), (11, 8, 3), (12, 8, 4),
    (13, 0x100, 0), (14, 0x200, 0), (15, 0x200, 1)] : List (Nat × Nat × Nat)).filterMap fun (i, loc, seq) =>
      if bit i then none else some ⟨con, loc, seq, -1⟩

/-- Both players' clear bits; the low half belongs to `con`. -/
def clearBits (mask : UInt32) (con : UInt8) : List Place :=
  clearZones con.toNat (fun i => mask.toNat.testBit i) ++ clearZones (1 - con).toNat (fun i => mask.toNat.testBit (16 + i))

/-- A card that can activate an effect. -/
structure Activable (L : Type) where
  code : UInt32
  loc : L
  effect : UInt64
  resolveReset : UInt8

namespace Activable
def bytes {L : Type} (f : L → List UInt8) (a : Activable L) : List UInt8 := b32 a.code ++ f a.loc ++ b64 a.effect ++ b8 a.resolveReset
def card {L : Type} (f : L → Place) (a : Activable L) : ActCard := ⟨f a.loc, effectOf a.effect⟩
end Activable

/-- A chain link. -/
structure Link where
  code : UInt32
  card : LocInfo
  trigger : CardLoc
  effect : UInt64

namespace Link
def bytes (l : Link) : List UInt8 := b32 l.code ++ l.card.bytes ++ l.trigger.bytes ++ b64 l.effect
def chain (l : Link) : Chain := ⟨l.card.place, l.trigger.place, effectOf l.effect⟩
end Link

/-- One zone of a reloaded field: empty, or a card in a position with a number of materials. The byte in front is 0 iff the zone is
empty. -/
inductive FieldCell where
  | empty
  | card (mark : UInt8) (pos : UInt8) (mats : UInt32)

namespace FieldCell
def bytes : FieldCell → List UInt8
  | .empty => [0]
  | .card mark pos mats => b8 mark ++ b8 pos ++ b32 mats
def Fits : FieldCell → Prop
  | .empty => True
  | .card mark _ mats => mark ≠ 0 ∧ mats.toNat < 2 ^ 31
/-- Places of the card and of its materials. -/
def places (con : Int) (loc seq : Nat) : FieldCell → List Place
  | .empty => []
  | .card _ _ mats =>
    ⟨con, (slot loc seq).1, (slot loc seq).2, -1⟩ :: (List.range mats.toNat).map fun (o : Nat) => ⟨con, loc, seq, o⟩
end FieldCell

/-- One player's side of a reloaded field. -/
structure FieldSide where
  lp : UInt32
  monsters : List FieldCell
  spells : List FieldCell
  main : UInt32
  hand : UInt32
  grave : UInt32
  banished : UInt32
  extra : UInt32
  extraP : UInt32

namespace FieldSide
def bytes (s : FieldSide) : List UInt8 :=
  b32 s.lp ++ s.monsters.flatMap (·.bytes) ++ s.spells.flatMap (·.bytes) ++ b32 s.main ++ b32 s.hand ++ b32 s.grave ++
    b32 s.banished ++ b32 s.extra ++ b32 s.extraP
def Fits (s : FieldSide) : Prop :=
  s.monsters.length = 7 ∧ s.spells.length = 8 ∧ (∀ z ∈ s.monsters, z.Fits) ∧ (∀ z ∈ s.spells, z.Fits)
def places (con : Int) (s : FieldSide) : List Place :=
  (s.monsters.mapIdx fun i z => z.places con 4 i).flatten ++ (s.spells.mapIdx fun i z => z.places con 8 i).flatten
def piles (con : Int) (s : FieldSide) : List ResizeOp :=
  [⟨⟨con, 1, 0, -1⟩, s.main.toNat⟩, ⟨⟨con, 2, 0, -1⟩, s.hand.toNat⟩, ⟨⟨con, 0x10, 0, -1⟩, s.grave.toNat⟩,
   ⟨⟨con, 0x20, 0, -1⟩, s.banished.toNat⟩, ⟨⟨con, 0x40, 0, -1⟩, s.extra.toNat⟩]
end FieldSide

/-- One field of a query, as the core writes it. -/
inductive QueryItem where
  | code (v : UInt32)
  | position (v : UInt32)
  | alias_ (v : UInt32)
  | type (v : UInt32)
  | level (v : UInt32)
  | rank (v : UInt32)
  | attribute_ (v : UInt32)
  | race (v : UInt64)
  | attack (v : UInt32)
  | defense (v : UInt32)
  | baseAttack (v : UInt32)
  | baseDefense (v : UInt32)
  | equipCard (l : LocInfo)
  | targetCard (ls : List LocInfo)
  | overlayCard (codes : List UInt32)
  | counters (cs : List (UInt16 × UInt16))
  | owner (v : UInt8)
  | status (v : UInt32)
  | isPublic (v : UInt8)
  | lscale (v : UInt32)
  | rscale (v : UInt32)
  | link (rate arrow : UInt32)
  | isHidden (v : UInt8)
  | cover (v : UInt32)
  /-- A field the encoder has no use for. -/
  | unknown (flag : UInt32) (payload : List UInt8)

namespace QueryItem

/-- Flags in use. -/
def flags : List Nat :=
  [0x1, 0x2, 0x4, 0x8, 0x10, 0x20, 0x40, 0x80, 0x100, 0x200, 0x400, 0x800, 0x4000, 0x8000, 0x10000, 0x20000, 0x40000, 0x80000, 0x100000,
   0x200000, 0x400000, 0x800000, 0x1000000, 0x2000000, 0x80000000]

def flag : QueryItem → UInt32
  | code _ => 0x1
  | position _ => 0x2
  | alias_ _ => 0x4
  | type _ => 0x8
  | level _ => 0x10
  | rank _ => 0x20
  | attribute_ _ => 0x40
  | race _ => 0x80
  | attack _ => 0x100
  | defense _ => 0x200
  | baseAttack _ => 0x400
  | baseDefense _ => 0x800
  | equipCard _ => 0x4000
  | targetCard _ => 0x8000
  | overlayCard _ => 0x10000
  | counters _ => 0x20000
  | owner _ => 0x40000
  | status _ => 0x80000
  | isPublic _ => 0x100000
  | lscale _ => 0x200000
  | rscale _ => 0x400000
  | link _ _ => 0x800000
  | isHidden _ => 0x1000000
  | cover _ => 0x2000000
  | unknown f _ => f

def payload : QueryItem → List UInt8
  | code v | position v | alias_ v | type v | level v | rank v | attribute_ v | attack v | defense v | baseAttack v | baseDefense v
  | status v | lscale v | rscale v | cover v => b32 v
  | race v => b64 v
  | equipCard l => l.bytes
  | targetCard ls => list32 LocInfo.bytes ls
  | overlayCard cs => list32 b32 cs
  | counters cs => list32 (fun c => b16 c.1 ++ b16 c.2) cs
  | owner v | isPublic v | isHidden v => b8 v
  | link r a => b32 r ++ b32 a
  | unknown _ p => p

/-- Size of what follows, flag, value. -/
def bytes (i : QueryItem) : List UInt8 := le 2 (4 + i.payload.length) ++ b32 i.flag ++ i.payload

/-- The size can be written; an unknown field does not use a known flag. -/
def Fits (i : QueryItem) : Prop :=
  4 + i.payload.length < 2 ^ 16 ∧ match i with
    | unknown f _ => f.toNat ∉ flags
    | _ => True

/-- The value an item gives to a single-valued field, if any. -/
def value : (f : QField) → QueryItem → Option f.Val
  | .code, code v | .position, position v | .«alias», alias_ v | .type, type v | .xyzRank, rank v | .«attribute», attribute_ v
  | .status, status v | .pendLScale, lscale v | .pendRScale, rscale v | .cover, cover v => some v.toNat
  | .race, race v => some v.toNat
  | .level, level v | .atk, attack v | .def_, defense v | .baseAtk, baseAttack v | .baseDef, baseDefense v => some (signed32 v)
  | .equippedTo, equipCard l => some l.place
  | .owner, owner v => some ((v.toNat : Nat) : Int)
  | .isPublic, isPublic v | .isHidden, isHidden v => some (decide (v ≠ 0))
  | .linkRate, link r _ => some r.toNat
  | .linkArrow, link _ a => some a.toNat
  | _, _ => none

/-- Targets listed by an item. -/
def targets : QueryItem → Option (List Place)
  | targetCard ls => some (ls.map (·.place))
  | _ => none

/-- Counters listed by an item. -/
def counterList : QueryItem → Option (List Counter)
  | counters cs => some (cs.map fun c => ⟨c.1.toNat, c.2.toNat⟩)
  | _ => none

/-- Material codes listed by an item. -/
def overlays : QueryItem → Option (List Nat)
  | overlayCard cs => some (cs.map (·.toNat))
  | _ => none

/-- The last of several values. -/
def last {α β : Type} (f : α → Option β) (xs : List α) : Option β := xs.reverse.findSome? f

/-- All listed values together; nothing if there was no list at all. -/
def allOf {α β : Type} (f : α → Option (List β)) (xs : List α) : Option (List β) :=
  if xs.any (fun x => (f x).isSome) then some ((xs.filterMap f).flatten) else none

/-- A query for one card: fields and the end marker. -/
def blob (is : List QueryItem) : List UInt8 := is.flatMap (·.bytes) ++ le 2 4 ++ le 4 0x80000000

/-- What a query says about the card. -/
def data (is : List QueryItem) : QueryData := ⟨fun f => last (value f) is, allOf targets is, allOf counterList is⟩

/-- Codes of the card's materials. -/
def materials (is : List QueryItem) : List Nat := (last overlays is).getD []

/-- The query for a card at a place together with queries for the codes of its materials. -/
def queries (place : Place) (is : List QueryItem) : List Query :=
  ⟨place, data is⟩ ::
    (materials is).mapIdx fun i code =>
      ⟨{ place with oseq := (i : Int) }, (QueryData.mk (fun _ => none) none none).setSingle .code code⟩

/-- Bytes for one slot of a whole location: a query, or a zero size for an empty slot. -/
def slotBytes : Option (List QueryItem) → List UInt8
  | none => le 2 0
  | some is => blob is

end QueryItem

/-- Everything the core sends that the encoder knows how to read. -/
inductive CoreMsg where
  | retry
  | hint (type player : UInt8) (data : UInt64)
  | start (rule : UInt8) (lp0 lp1 : UInt32) (main0 extra0 main1 extra1 : UInt16)
  | win (winner reason : UInt8)
  | updateData (con loc : UInt8) (slots : List (Option (List QueryItem)))
  | updateCard (loc : CardLocS) (items : List QueryItem)
  | selectBattlecmd (player : UInt8) (acts : List (Activable CardLoc)) (attacks : List (UInt32 × CardLocS × UInt8)) (toM2 toEp : UInt8)
  | selectIdlecmd (player : UInt8) (summon spsummon : List (UInt32 × CardLoc)) (repos : List (UInt32 × CardLocS))
      (mset sset : List (UInt32 × CardLoc)) (acts : List (Activable CardLoc)) (toBp toEp canShuffle : UInt8)
  | selectEffectyn (player : UInt8) (code : UInt32) (loc : LocInfo) (effect : UInt64)
  | selectYesno (player : UInt8) (effect : UInt64)
  | selectOption (player : UInt8) (options : List UInt64)
  | selectCard (player cancelable : UInt8) (min max : UInt32) (cards : List (UInt32 × LocInfo))
  | selectChain (player speCount forced : UInt8) (timing : UInt64) (acts : List (Activable LocInfo))
  | selectPlace (player count : UInt8) (mask : UInt32)
  | selectPosition (player : UInt8) (code : UInt32) (positions : UInt8)
  | selectTribute (player cancelable : UInt8) (min max : UInt32) (cards : List (UInt32 × CardLoc × UInt8))
  | sortChain (player : UInt8) (cards : List (UInt32 × CardLocL))
  | selectDisfield (player count : UInt8) (mask : UInt32)
  | sortCard (player : UInt8) (cards : List (UInt32 × CardLocL))
  | selectUnselectCard (player finishable cancelable : UInt8) (min max : UInt32) (select unselect : List (UInt32 × LocInfo))
  | confirmDecktop (player : UInt8) (cards : List (UInt32 × CardLoc))
  | confirmCards (player : UInt8) (cards : List (UInt32 × CardLoc))
  | shuffleDeck (player : UInt8)
  | shuffleHand (player : UInt8) (codes : List UInt32)
  | swapGraveDeck (player : UInt8) (extraP : UInt32) (mask : List UInt8)
  | shuffleSetCard (loc : UInt8) (cards : List (LocInfo × LocInfo))
  | reverseDeck
  | deckTop (player : UInt8) (seq code pos : UInt32)
  | shuffleExtra (player : UInt8) (codes : List UInt32)
  | newTurn (player : UInt8)
  | newPhase (phase : UInt16)
  | confirmExtratop (player : UInt8) (cards : List (UInt32 × CardLoc))
  | move (code : UInt32) (prev curr : LocInfo) (reason : UInt32)
  | posChange (code : UInt32) (loc : CardLocS) (prev curr : UInt8)
  | set (code : UInt32) (loc : CardLoc) (pos : UInt32)
  | swap (codeA : UInt32) (a : LocInfo) (codeB : UInt32) (b : LocInfo)
  | fieldDisabled (mask : UInt32)
  | summoning (code : UInt32) (loc : LocInfo)
  | summoned
  | spsummoning (code : UInt32) (loc : LocInfo)
  | spsummoned
  | flipsummoning (code : UInt32) (loc : LocInfo)
  | flipsummoned
  | chaining (link : Link) (num : UInt32)
  | chained (num : UInt8)
  | chainSolving (num : UInt8)
  | chainSolved (num : UInt8)
  | chainEnd
  | chainNegated (num : UInt8)
  | chainDisabled (num : UInt8)
  | cardSelected (cards : List LocInfo)
  | randomSelected (player : UInt8) (cards : List LocInfo)
  | becomeTarget (cards : List LocInfo)
  | draw (player : UInt8) (cards : List (UInt32 × UInt32))
  | damage (player : UInt8) (amount : UInt32)
  | recover (player : UInt8) (amount : UInt32)
  | equip (card target : LocInfo)
  | lpupdate (player : UInt8) (lp : UInt32)
  | cardTarget (card target : LocInfo)
  | cancelTarget (card target : LocInfo)
  | payLpcost (player : UInt8) (amount : UInt32)
  | addCounter (type : UInt16) (loc : CardLocS) (count : UInt16)
  | removeCounter (type : UInt16) (loc : CardLocS) (count : UInt16)
  | attack (attacker target : LocInfo)
  | battle (attacker : LocInfo) (atk def_ : UInt32) (destroyed : UInt8) (target : LocInfo) (tatk tdef : UInt32) (tdestroyed : UInt8)
  | attackDisabled
  | damageStepStart
  | damageStepEnd
  | missedEffect (card : LocInfo) (code : UInt32)
  | tossCoin (player : UInt8) (results : List UInt8)
  | tossDice (player : UInt8) (results : List UInt8)
  | rockPaperScissors (player : UInt8)
  | handRes (hands : UInt8)
  | announceRace (player count : UInt8) (race : UInt64)
  | announceAttrib (player count : UInt8) (attrib : UInt32)
  | announceNumber (player : UInt8) (numbers : List UInt64)
  | cardHint (card : LocInfo) (type : UInt8) (value : UInt64)
  | tagSwap (player : UInt8) (main extraP deckTop : UInt32) (extra hand : List (UInt32 × UInt32))
  | reloadField (flags : UInt32) (side0 side1 : FieldSide) (chains : List Link)
  | aiName (name : List UInt8)
  | playerHint (player type : UInt8) (effect : UInt64)
  | matchKill (reason : UInt32)

namespace CoreMsg

/-- A code in front of something. -/
def withCode {α : Type} (f : α → List UInt8) (x : UInt32 × α) : List UInt8 := b32 x.1 ++ f x.2
/-- A pair of 32-bit values. -/
def pair32 (x : UInt32 × UInt32) : List UInt8 := b32 x.1 ++ b32 x.2

/-- Message number, then the fields. -/
def bytes : CoreMsg → List UInt8
  | retry => [1]
  | hint t p d => [2] ++ b8 t ++ b8 p ++ b64 d
  | start r l0 l1 m0 e0 m1 e1 => [4] ++ b8 r ++ b32 l0 ++ b32 l1 ++ b16 m0 ++ b16 e0 ++ b16 m1 ++ b16 e1
  | win w r => [5] ++ b8 w ++ b8 r
  | updateData c l ss =>
    [6] ++ b8 c ++ b8 l ++ le 4 (ss.flatMap QueryItem.slotBytes).length ++ ss.flatMap QueryItem.slotBytes
  | updateCard l is => [7] ++ l.bytes ++ QueryItem.blob is
  | selectBattlecmd p acts atks m e =>
    [10] ++ b8 p ++ list32 (Activable.bytes CardLoc.bytes) acts ++ list32 (fun a => b32 a.1 ++ a.2.1.bytes ++ b8 a.2.2) atks ++
      b8 m ++ b8 e
  | selectIdlecmd p s sp r ms ss acts b e sh =>
    [11] ++ b8 p ++ list32 (withCode CardLoc.bytes) s ++ list32 (withCode CardLoc.bytes) sp ++ list32 (withCode CardLocS.bytes) r ++
      list32 (withCode CardLoc.bytes) ms ++ list32 (withCode CardLoc.bytes) ss ++ list32 (Activable.bytes CardLoc.bytes) acts ++
      b8 b ++ b8 e ++ b8 sh
  | selectEffectyn p c l e => [12] ++ b8 p ++ b32 c ++ l.bytes ++ b64 e
  | selectYesno p e => [13] ++ b8 p ++ b64 e
  | selectOption p os => [14] ++ b8 p ++ list8 b64 os
  | selectCard p c mn mx cs => [15] ++ b8 p ++ b8 c ++ b32 mn ++ b32 mx ++ list32 (withCode LocInfo.bytes) cs
  | selectChain p s f t acts => [16] ++ b8 p ++ b8 s ++ b8 f ++ b64 t ++ list32 (Activable.bytes LocInfo.bytes) acts
  | selectPlace p n m => [18] ++ b8 p ++ b8 n ++ b32 m
  | selectPosition p c m => [19] ++ b8 p ++ b32 c ++ b8 m
  | selectTribute p c mn mx cs =>
    [20] ++ b8 p ++ b8 c ++ b32 mn ++ b32 mx ++ list32 (fun x => b32 x.1 ++ x.2.1.bytes ++ b8 x.2.2) cs
  | sortChain p cs => [21] ++ b8 p ++ list32 (withCode CardLocL.bytes) cs
  | selectDisfield p n m => [24] ++ b8 p ++ b8 n ++ b32 m
  | sortCard p cs => [25] ++ b8 p ++ list32 (withCode CardLocL.bytes) cs
  | selectUnselectCard p f c mn mx ss us =>
    [26] ++ b8 p ++ b8 f ++ b8 c ++ b32 mn ++ b32 mx ++ list32 (withCode LocInfo.bytes) ss ++ list32 (withCode LocInfo.bytes) us
  | confirmDecktop p cs => [30] ++ b8 p ++ list32 (withCode CardLoc.bytes) cs
  | confirmCards p cs => [31] ++ b8 p ++ list32 (withCode CardLoc.bytes) cs
  | shuffleDeck p => [32] ++ b8 p
  | shuffleHand p cs => [33] ++ b8 p ++ list32 b32 cs
  | swapGraveDeck p n mask => [35] ++ b8 p ++ b32 n ++ list32 b8 mask
  | shuffleSetCard l cs => [36] ++ b8 l ++ le 1 cs.length ++ cs.flatMap (fun c => c.1.bytes) ++ cs.flatMap (fun c => c.2.bytes)
  | reverseDeck => [37]
  | deckTop p s c pos => [38] ++ b8 p ++ b32 s ++ b32 c ++ b32 pos
  | shuffleExtra p cs => [39] ++ b8 p ++ list32 b32 cs
  | newTurn p => [40] ++ b8 p
  | newPhase p => [41] ++ b16 p
  | confirmExtratop p cs => [42] ++ b8 p ++ list32 (withCode CardLoc.bytes) cs
  | move c a b r => [50] ++ b32 c ++ a.bytes ++ b.bytes ++ b32 r
  | posChange c l a b => [53] ++ b32 c ++ l.bytes ++ b8 a ++ b8 b
  | set c l p => [54] ++ b32 c ++ l.bytes ++ b32 p
  | swap ca a cb b => [55] ++ b32 ca ++ a.bytes ++ b32 cb ++ b.bytes
  | fieldDisabled m => [56] ++ b32 m
  | summoning c l => [60] ++ b32 c ++ l.bytes
  | summoned => [61]
  | spsummoning c l => [62] ++ b32 c ++ l.bytes
  | spsummoned => [63]
  | flipsummoning c l => [64] ++ b32 c ++ l.bytes
  | flipsummoned => [65]
  | chaining l n => [70] ++ l.bytes ++ b32 n
  | chained n => [71] ++ b8 n
  | chainSolving n => [72] ++ b8 n
  | chainSolved n => [73] ++ b8 n
  | chainEnd => [74]
  | chainNegated n => [75] ++ b8 n
  | chainDisabled n => [76] ++ b8 n
  | cardSelected cs => [80] ++ list32 LocInfo.bytes cs
  | randomSelected p cs => [81] ++ b8 p ++ list32 LocInfo.bytes cs
  | becomeTarget cs => [83] ++ list32 LocInfo.bytes cs
  | draw p cs => [90] ++ b8 p ++ list32 pair32 cs
  | damage p n => [91] ++ b8 p ++ b32 n
  | recover p n => [92] ++ b8 p ++ b32 n
  | equip a b => [93] ++ a.bytes ++ b.bytes
  | lpupdate p n => [94] ++ b8 p ++ b32 n
  | cardTarget a b => [96] ++ a.bytes ++ b.bytes
  | cancelTarget a b => [97] ++ a.bytes ++ b.bytes
  | payLpcost p n => [100] ++ b8 p ++ b32 n
  | addCounter t l n => [101] ++ b16 t ++ l.bytes ++ b16 n
  | removeCounter t l n => [102] ++ b16 t ++ l.bytes ++ b16 n
  | attack a b => [110] ++ a.bytes ++ b.bytes
  | battle a x y d b u v e => [111] ++ a.bytes ++ b32 x ++ b32 y ++ b8 d ++ b.bytes ++ b32 u ++ b32 v ++ b8 e
  | attackDisabled => [112]
  | damageStepStart => [113]
  | damageStepEnd => [114]
  | missedEffect l c => [120] ++ l.bytes ++ b32 c
  | tossCoin p rs => [130] ++ b8 p ++ list8 b8 rs
  | tossDice p rs => [131] ++ b8 p ++ list8 b8 rs
  | rockPaperScissors p => [132] ++ b8 p
  | handRes h => [133] ++ b8 h
  | announceRace p n r => [140] ++ b8 p ++ b8 n ++ b64 r
  | announceAttrib p n a => [141] ++ b8 p ++ b8 n ++ b32 a
  | announceNumber p ns => [143] ++ b8 p ++ list8 b64 ns
  | cardHint l t v => [160] ++ l.bytes ++ b8 t ++ b64 v
  | tagSwap p m ep dt ex ha =>
    [161] ++ b8 p ++ b32 m ++ le 4 ex.length ++ b32 ep ++ le 4 ha.length ++ b32 dt ++ ex.flatMap pair32 ++ ha.flatMap pair32
  | reloadField f s0 s1 cs => [162] ++ b32 f ++ s0.bytes ++ s1.bytes ++ list32 Link.bytes cs
  | aiName n => [163] ++ le 2 n.length ++ n ++ [0]
  | playerHint p t e => [165] ++ b8 p ++ b8 t ++ b64 e
  | matchKill r => [170] ++ b32 r

/-- Lists are short enough for their length field; a card selection offers a card. -/
def Fits : CoreMsg → Prop
  | updateData _ _ ss => (ss.flatMap QueryItem.slotBytes).length < 2 ^ 32 ∧ ∀ is, some is ∈ ss → ∀ i ∈ is, i.Fits
  | updateCard _ is => ∀ i ∈ is, i.Fits
  | selectBattlecmd _ acts atks _ _ => acts.length < 2 ^ 32 ∧ atks.length < 2 ^ 32
  | selectIdlecmd _ s sp r ms ss acts _ _ _ =>
    s.length < 2 ^ 32 ∧ sp.length < 2 ^ 32 ∧ r.length < 2 ^ 32 ∧ ms.length < 2 ^ 32 ∧ ss.length < 2 ^ 32 ∧ acts.length < 2 ^ 32
  | selectOption _ os => os.length < 2 ^ 8
  | selectCard _ _ _ _ cs => 0 < cs.length ∧ cs.length < 2 ^ 32
  | selectChain _ _ _ _ acts => acts.length < 2 ^ 32
  | selectTribute _ _ _ _ cs => cs.length < 2 ^ 32
  | sortChain _ cs | sortCard _ cs => cs.length < 2 ^ 32
  | selectUnselectCard _ _ _ _ _ ss us => ss.length < 2 ^ 32 ∧ us.length < 2 ^ 32
  | confirmDecktop _ cs | confirmCards _ cs | confirmExtratop _ cs => cs.length < 2 ^ 32
  | shuffleHand _ cs | shuffleExtra _ cs => cs.length < 2 ^ 32
  | swapGraveDeck _ _ mask => mask.length < 2 ^ 32
  | shuffleSetCard _ cs => cs.length < 2 ^ 8
  | cardSelected cs | randomSelected _ cs | becomeTarget cs => cs.length < 2 ^ 32
  | draw _ cs => cs.length < 2 ^ 32
  | tossCoin _ rs | tossDice _ rs => rs.length < 2 ^ 8
  | announceNumber _ ns => ns.length < 2 ^ 8
  | tagSwap _ _ _ _ ex ha => ex.length + ha.length < 2 ^ 32
  | reloadField _ s0 s1 cs => s0.Fits ∧ s1.Fits ∧ cs.length < 2 ^ 32
  | aiName n => n.length < 2 ^ 16
  | _ => True

/-- A yes/no byte. -/
def yes (b : UInt8) : Bool := b ≠ 0

/-- A size for a player's pile. -/
def pileSize (con : Int) (loc n : Nat) : ResizeOp := ⟨⟨con, loc, 0, -1⟩, n⟩

/-- What a message says, when that does not depend on anything else: an event, a request to a player, news
about cards, or nothing to tell. -/
inductive Meaning where
  | event (e : Event)
  | request (replier : Int) (r : Request)
  | queries (qs : List Query)
  | nothing

/-- Whether there is something to pass on. -/
def Meaning.state : Meaning → EncodeState
  | nothing => .swallowed
  | _ => .ok

/-- The message to pass on. -/
def Meaning.msg : Meaning → Option Msg
  | event e => some ⟨.event e, []⟩
  | request replier r => some ⟨.request replier r, []⟩
  | queries qs => some ⟨.unset, qs⟩
  | nothing => none

open Meaning in
/-- What the message says. -/
def meaning : CoreMsg → Option Meaning
  | retry | hint .. | summoned | spsummoned | flipsummoned | chainEnd | equip .. | battle .. | attackDisabled | damageStepStart
  | damageStepEnd | missedEffect .. | cardHint .. | aiName _ => some nothing
  | start _ l0 l1 m0 e0 m1 e1 => some <| event <| .board <| .state
      { turnCounter := 0, lps := [l0.toNat, l1.toNat],
        resize := [pileSize 0 1 m0.toNat, pileSize 0 0x40 e0.toNat, pileSize 1 1 m1.toNat, pileSize 1 0x40 e1.toNat] }
  | updateData c l ss => some <| queries <| (ss.mapIdx fun i o => match o with
      | none => []
      | some is => QueryItem.queries ⟨c.toNat, (slot l.toNat i).1, (slot l.toNat i).2, -1⟩ is).flatten
  | updateCard l is => some <| queries <| QueryItem.queries l.place is
  | selectBattlecmd p acts atks m e => some <| request p.toNat <| .selectIdle
      { isBattleCmd := true, activable := acts.map (Activable.card CardLoc.place),
        canAttack := atks.map fun a => ⟨a.2.1.place, yes a.2.2⟩,
        availablePhase := (if yes m then 0x100 else 0) + (if yes e then 0x200 else 0) }
  | selectIdlecmd p s sp r ms ss acts b e sh => some <| request p.toNat <| .selectIdle
      { isBattleCmd := false, summonable := s.map (·.2.place), spsummonable := sp.map (·.2.place),
        repositionable := r.map (·.2.place), msetable := ms.map (·.2.place), ssetable := ss.map (·.2.place),
        activable := acts.map (Activable.card CardLoc.place),
        availablePhase := (if yes b then 0x80 else 0) + (if yes e then 0x200 else 0), canShuffle := yes sh }
  | selectEffectyn p c l e => some <| request p.toNat <| .selectYesNo l.place c.toNat (effectOf e)
  | selectYesno p e => some <| request p.toNat <| .selectYesNo {} 0 (effectOf e)
  | selectOption p os => some <| request p.toNat <| .selectEffect 1 (os.map effectOf)
  | selectCard p c mn mx cs => some <| request p.toNat <| .selectCard <|
      -- a first card without location announces that only the codes matter
      if cs.head?.any (fun x => x.2.loc = 0) then .limbo (yes c) mn.toNat mx.toNat (cs.map (·.1.toNat))
      else .uniqueRange (yes c) mn.toNat mx.toNat (cs.map fun x => ⟨x.2.place, x.1.toNat⟩)
  | selectChain p s f _ acts => some <| request p.toNat <|
      .selectToChain (yes f) (s.toNat % 128 ≠ 0) (acts.map (Activable.card LocInfo.place))
  | selectPlace p n m => some <| request p.toNat <| .selectZone false n.toNat (clearBits m p)
  | selectDisfield p n m => some <| request p.toNat <| .selectZone true n.toNat (clearBits m p)
  | selectPosition p c m => some <| request p.toNat <| .selectPosition 1 c.toNat m.toNat
  | selectTribute p c mn mx cs => some <| request p.toNat <| .selectCard <|
      .uniqueTributes (yes c) mn.toNat mx.toNat (cs.map fun x => ⟨x.2.1.place, x.1.toNat, x.2.2.toNat⟩)
  | sortChain p cs | sortCard p cs => some <| request p.toNat <| .sort (cs.map (·.2.place))
  | selectUnselectCard p f c mn mx ss us => some <| request p.toNat <| .selectCard <|
      .recursive (yes f) (yes c) mn.toNat mx.toNat (ss.map fun x => ⟨x.2.place, x.1.toNat⟩) (us.map fun x => ⟨x.2.place, x.1.toNat⟩)
  | confirmDecktop _ cs | confirmCards _ cs | confirmExtratop _ cs => some <| event <| .metaInfo <| .confirm 0 (cs.map (·.2.place))
  | shuffleDeck p => some <| event <| .metaInfo <| .shufflePile [⟨p.toNat, 1, 0, 0⟩]
  | shuffleHand p _ => some <| event <| .metaInfo <| .shufflePile [⟨p.toNat, 2, 0, 0⟩]
  | shuffleExtra p _ => some <| event <| .metaInfo <| .shufflePile [⟨p.toNat, 0x40, 0, 0⟩]
  | shuffleSetCard _ cs => some <| event <| .card 0 <| .shuffle (cs.map (·.1.place)) (cs.map (·.2.place))
  | newTurn p => some <| event <| .nextTurn p.toNat
  | newPhase p => some <| event <| .nextPhase p.toNat
  | posChange _ l _ _ => some <| event <| .metaInfo <| .update 0 [l.place]
  | set _ l _ => some <| event <| .metaInfo <| .update 0 [l.place]
  | swap _ a _ b => some <| event <| .card 0 <| .exchange [⟨a.place, b.place⟩]
  | fieldDisabled m => some <| event <| .zoneBlock (clearBits m 0)
  | summoning _ l => some <| event <| .metaInfo <| .update 0x10 [l.place]
  | spsummoning _ l => some <| event <| .metaInfo <| .update 0x800 [l.place]
  | flipsummoning _ l => some <| event <| .metaInfo <| .update 0x2000 [l.place]
  | chaining l _ => some <| event <| .chainStack <| .push l.chain
  | chained _ => some <| event <| .metaInfo <| .chainStatus .chained
  | chainSolving _ => some <| event <| .metaInfo <| .chainStatus .solving
  | chainSolved _ => some <| event <| .chainStack <| .pop true
  | chainNegated _ => some <| event <| .metaInfo <| .chainStatus .actNegated
  | chainDisabled _ => some <| event <| .metaInfo <| .chainStatus .effNegated
  | cardSelected cs | randomSelected _ cs | becomeTarget cs => some <| event <| .metaInfo <| .selection {} 0 (cs.map (·.place))
  | damage p n => some <| event <| .lp p.toNat (.damage n.toNat)
  | recover p n => some <| event <| .lp p.toNat (.recover n.toNat)
  | lpupdate p n => some <| event <| .lp p.toNat (.become n.toNat)
  | payLpcost p n => some <| event <| .lp p.toNat (.pay n.toNat)
  | cardTarget a b | cancelTarget a b => some <| event <| .metaInfo <| .selection a.place 0 [b.place]
  | addCounter _ l _ | removeCounter _ l _ => some <| event <| .metaInfo <| .update 0 [l.place]
  -- a target without location is a direct attack
  | attack a b => some <| event <| .metaInfo <| .attack a.place (if b.base = 0 then {} else b.place)
  | tossCoin p rs => some <| event <| .result <| .coin p.toNat (rs.map yes)
  | tossDice p rs => some <| event <| .result <| .dice p.toNat (rs.map (·.toNat))
  | rockPaperScissors p => some <| request p.toNat <| .selectRockPaperScissors true
  | handRes h => some <| event <| .result <| .rps [((h.toNat % 4 : Nat) : Int), ((h.toNat / 4 % 4 : Nat) : Int)]
  | announceRace p n r => some <| request p.toNat <| .selectRace n.toNat r.toNat
  | announceAttrib p n a => some <| request p.toNat <| .selectAttribute n.toNat a.toNat
  | announceNumber p ns => some <| request p.toNat <| .selectNumber 1 (ns.map (·.toNat))
  | tagSwap p m _ _ ex ha => some <| event <| .board <| .exchange
      { con := p.toNat, resize := [pileSize p.toNat 1 m.toNat, pileSize p.toNat 0x40 ex.length, pileSize p.toNat 2 ha.length] }
  | reloadField f s0 s1 cs => some <| event <| .board <| .state
      { shape :=
          { threeColumns := f.toNat.testBit 22, hasPzones := f.toNat.testBit 11, hasSeparatePzones := f.toNat.testBit 12,
            hasEmzones := f.toNat.testBit 13 },
        turnCounter := -1, lps := [s0.lp.toNat, s1.lp.toNat], chains := cs.map (·.chain), add := s0.places 0 ++ s1.places 1,
        resize := s0.piles 0 ++ s1.piles 1 }
  | playerHint p t e => some <| event <| .metaInfo <| .description p.toNat <| if t = 1 then .add (effectOf e) else .remove (effectOf e)
  | win .. | swapGraveDeck .. | reverseDeck | deckTop .. | move .. | draw .. | matchKill _ => none

end CoreMsg
end Ygo.Spec
