import Verif.Model.Wire

/-!
# Model of `encode_one` (`src/codec/edo9300_ocgcore_encode.cpp:490-1731`)

Generic in the encode context, as the code is.
-/

namespace Ygo

open P

/-- Conversion to `uint32_t`. -/
def wrap32 (z : Int) : Nat := (z % 2 ^ 32).toNat

/-- `IEncodeContext` (codec/encode_common.hpp:69-107). -/
class EncodeContext (C : Type) where
  pileSize : C → (con : Int) → (loc : Nat) → Res Nat
  getMatchWinReason : C → Res Nat
  hasXyzMat : C → Place → Res Bool
  getXyzLeft : C → Place → Res Place
  matchWinReason : C → Nat → C
  xyzMatDefer : C → Place → C
  takeDeferredXyzMat : C → List Place × C
  xyzLeft : C → (left src : Place) → C

/-- `OCGCoreMsgValue` (src/codec/ocgcore_messages.inl). -/
inductive Kind where
  | retry | hint | start | win | updateData | updateCard | selectBattlecmd | selectIdlecmd | selectEffectyn | selectYesno
  | selectOption | selectCard | selectChain | selectPlace | selectPosition | selectTribute | sortChain | selectCounter | selectSum
  | selectDisfield | sortCard | selectUnselectCard | confirmDecktop | confirmCards | shuffleDeck | shuffleHand | swapGraveDeck
  | shuffleSetCard | reverseDeck | deckTop | shuffleExtra | newTurn | newPhase | confirmExtratop | move | posChange | set | swap
  | fieldDisabled | summoning | summoned | spsummoning | spsummoned | flipsummoning | flipsummoned | chaining | chained
  | chainSolving | chainSolved | chainEnd | chainNegated | chainDisabled | cardSelected | randomSelected | becomeTarget | draw
  | damage | recover | equip | lpupdate | cardTarget | cancelTarget | payLpcost | addCounter | removeCounter | attack | battle
  | attackDisabled | damageStepStart | damageStepEnd | missedEffect | tossCoin | tossDice | rockPaperScissors | handRes
  | announceRace | announceAttrib | announceCard | announceNumber | announceCardFilter | cardHint | tagSwap | reloadField | aiName
  | playerHint | matchKill
  deriving DecidableEq, Repr

/-- Message values (src/codec/ocgcore_messages.inl:1-93). -/
def Kind.table : List (Nat × Kind) :=
  [(1, .retry), (2, .hint), (4, .start), (5, .win), (6, .updateData), (7, .updateCard), (10, .selectBattlecmd),
   (11, .selectIdlecmd), (12, .selectEffectyn), (13, .selectYesno), (14, .selectOption), (15, .selectCard), (16, .selectChain),
   (18, .selectPlace), (19, .selectPosition), (20, .selectTribute), (21, .sortChain), (22, .selectCounter), (23, .selectSum),
   (24, .selectDisfield), (25, .sortCard), (26, .selectUnselectCard), (30, .confirmDecktop), (31, .confirmCards),
   (32, .shuffleDeck), (33, .shuffleHand), (35, .swapGraveDeck), (36, .shuffleSetCard), (37, .reverseDeck), (38, .deckTop),
   (39, .shuffleExtra), (40, .newTurn), (41, .newPhase), (42, .confirmExtratop), (50, .move), (53, .posChange), (54, .set),
   (55, .swap), (56, .fieldDisabled), (60, .summoning), (61, .summoned), (62, .spsummoning), (63, .spsummoned),
   (64, .flipsummoning), (65, .flipsummoned), (70, .chaining), (71, .chained), (72, .chainSolving), (73, .chainSolved),
   (74, .chainEnd), (75, .chainNegated), (76, .chainDisabled), (80, .cardSelected), (81, .randomSelected), (83, .becomeTarget),
   (90, .draw), (91, .damage), (92, .recover), (93, .equip), (94, .lpupdate), (96, .cardTarget), (97, .cancelTarget),
   (100, .payLpcost), (101, .addCounter), (102, .removeCounter), (110, .attack), (111, .battle), (112, .attackDisabled),
   (113, .damageStepStart), (114, .damageStepEnd), (120, .missedEffect), (130, .tossCoin), (131, .tossDice),
   (132, .rockPaperScissors), (133, .handRes), (140, .announceRace), (141, .announceAttrib), (142, .announceCard),
   (143, .announceNumber), (144, .announceCardFilter), (160, .cardHint), (161, .tagSwap), (162, .reloadField), (163, .aiName),
   (165, .playerHint), (170, .matchKill)]

/-- The `case` selected by a message byte, `none` for `default`. -/
def Kind.ofByte (b : Nat) : Option Kind := (table.find? fun e => e.1 = b).map (·.2)

/-- `EncodeOneResult::State` (codec/encode_common.hpp:45-62). -/
inductive EncodeState where
  | unknown | ok | swallowed
  deriving DecidableEq, Repr

/-- What a `case` sets in the result: the state and the message. -/
structure Outcome where
  state : EncodeState := .unknown
  msg : Option Msg := none

/-- `EncodeOneResult` (codec/encode_common.hpp:43-65). -/
structure Encoded where
  state : EncodeState
  bytesRead : Nat
  msg : Option Msg

/-- After `create_event()`. -/
def Outcome.event (e : Event) : Outcome := ⟨.ok, some { body := .event e }⟩
/-- After `create_request()`, which has read the replier. -/
def Outcome.request (replier : Int) (r : Request) : Outcome := ⟨.ok, some { body := .request replier r }⟩
/-- After `create_queries()`. -/
def Outcome.queries (qs : List Query) : Outcome := ⟨.ok, some { queries := qs }⟩
/-- After `set_state_swallowed()`. -/
def Outcome.swallowed : Outcome := ⟨.swallowed, none⟩

namespace Reason
/-! `enum Reason` (duel/constants/reason.hpp:13-43). -/
abbrev summon : Nat := 0x10
abbrev effect : Nat := 0x40
abbrev spsummon : Nat := 0x800
abbrev flip : Nat := 0x2000
abbrev draw : Nat := 0x2000000
end Reason

namespace Phase
/-! `enum Phase` (duel/constants/phase.hpp:13-26). -/
abbrev battle : Nat := 0x80
abbrev main2 : Nat := 0x100
abbrev end_ : Nat := 0x200
end Phase

/-- `add_summoning` (encode.cpp:524-530). -/
def summoningEvent (reason : Nat) : P Outcome := do
  skip 4
  let p ← readLocInfo
  return .event (.metaInfo (.update reason [p]))

/-- `add_selected` (encode.cpp:532-538). -/
def selectedEvent : P Outcome := do
  let ps ← listOf readLocInfo
  return .event (.metaInfo (.selection Place.zero 0 ps))

/-- Reads the chain link of `MSG_CHAINING` (encode.cpp:668-671) and of `MSG_RELOAD_FIELD` (932-936). -/
def readChain : P Chain := do
  skip 4
  let cardPlace ← readLocInfo
  let place ← readLocSeq
  let effect ← readEffect
  return ⟨cardPlace, place, effect⟩

/-- Macro `LP` (encode.cpp:700-706). -/
def lpEvent (t : Nat → LPChange) : P Outcome := do
  let con ← readCon
  let n ← read 4
  return .event (.lp con (t n))

/-- A pile of the given size, as built by the `add_pile` lambdas (encode.cpp:809-818, 833-842, 903-912). -/
def pileOp (con : Int) (loc count : Nat) : ResizeOp := ⟨⟨con, loc, 0, OSEQ_INVALID⟩, count⟩

/-- `MSG_START` (encode.cpp:801-825). -/
def startEvent : P Outcome := do
  skip 1
  let lp0 ← read 4
  let lp1 ← read 4
  let md0 ← read 2
  let ed0 ← read 2
  let md1 ← read 2
  let ed1 ← read 2
  return .event (.board (.state
    { turnCounter := 0, lps := [lp0, lp1],
      resize := [pileOp 0 Loc.mainDeck md0, pileOp 0 Loc.extraDeck ed0, pileOp 1 Loc.mainDeck md1, pileOp 1 Loc.extraDeck ed1] }))

/-- `MSG_TAG_SWAP` (encode.cpp:826-856); `extra_size + hand_size` is computed in 32 bits. -/
def tagSwapEvent : P Outcome := do
  let con ← readCon
  let main ← read 4
  let extra ← read 4
  skip 4
  let hand ← read 4
  skip 4
  skipMany (do skip 4; skip 4) ((extra + hand) % 2 ^ 32)
  return .event (.board (.exchange
    { con, resize := [pileOp con Loc.mainDeck main, pileOp con Loc.extraDeck extra, pileOp con Loc.hand hand] }))

/-- One zone of `parse_card_zone_array` (encode.cpp:889-908): the places added. Materials get the location and sequence that were
not passed through `fix_spell_loc_seq`. -/
def reloadZone (con : Int) (loc seq : Nat) : P (List Place) := do
  if (← read 1) = 0 then return []
  skip 1
  let ls := if loc = Loc.spellZone then fixSpell loc seq else (loc, seq)
  let mats ← read 4
  return ⟨con, ls.1, ls.2, OSEQ_INVALID⟩ :: (List.range mats).map fun o => ⟨con, loc, seq, toInt32 o⟩

/-- `read_controller_state` (encode.cpp:875-926): life points, places added and piles. -/
def reloadController (con : Int) : P (Nat × List Place × List ResizeOp) := do
  let lp ← read 4
  let monsters ← forEach (reloadZone con Loc.monsterZone) (List.range 7)
  let spells ← forEach (reloadZone con Loc.spellZone) (List.range 8)
  let main ← read 4
  let hand ← read 4
  let grave ← read 4
  let banished ← read 4
  let extra ← read 4
  skip 4
  return (lp, monsters ++ spells,
    [pileOp con Loc.mainDeck main, pileOp con Loc.hand hand, pileOp con Loc.graveyard grave, pileOp con Loc.banished banished,
     pileOp con Loc.extraDeck extra])

/-- `MSG_RELOAD_FIELD` (encode.cpp:857-939). -/
def reloadEvent : P Outcome := do
  let flags ← read 4
  let (lp0, add0, resize0) ← reloadController 0
  let (lp1, add1, resize1) ← reloadController 1
  let chains ← listOf readChain
  return .event (.board (.state
    { shape :=
        { threeColumns := (flags &&& 0x400000) != 0, hasPzones := (flags &&& 0x800) != 0,
          hasSeparatePzones := (flags &&& 0x1000) != 0, hasEmzones := (flags &&& 0x2000) != 0, hasSkillZone := false },
      turnCounter := -1, lps := [lp0, lp1], chains, add := add0 ++ add1, resize := resize0 ++ resize1 }))

/-- A card with its code (encode.cpp:1061-1065, 1088-1092). -/
def readSelectable : P SelectableCard := do
  let code ← read 4
  let place ← readLocInfo
  return ⟨place, code⟩

/-- `MSG_SELECT_CARD` (encode.cpp:1037-1077) after the replier. -/
def selectCardRequest : P SelectCard := do
  let canCancel ← readBool
  let min ← read 4
  let max ← read 4
  let count ← read 4
  lift (massert (count > 0))
  let isNotLimbo ← peek (do skip 5; return (← read 1) != 0)
  if isNotLimbo then
    return .uniqueRange canCancel min max (← many readSelectable count)
  else
    return .limbo canCancel min max (← many (do let c ← read 4; skip 10; return c) count)

/-- A card that can activate an effect; `p` reads its place. -/
def readActCard (p : P Place) : P ActCard := do
  skip 4
  let place ← p
  let effect ← readEffect
  skip 1
  return ⟨place, effect⟩

/-- `MSG_SELECT_BATTLECMD` (encode.cpp:1139-1172) after the replier. -/
def battleRequest : P SelectIdle := do
  let activable ← listOf (readActCard readLocSeq)
  let canAttack ← listOf (do
    skip 4
    let place ← readLocSSeq
    return (⟨place, ← readBool⟩ : AtkCard))
  let toM2 ← readBool
  let toEp ← readBool
  return {
      isBattleCmd := true, activable, canAttack, canShuffle := false,
      availablePhase := (if toM2 then Phase.main2 else 0) ||| (if toEp then Phase.end_ else 0) }

/-- `MSG_SELECT_IDLECMD` (encode.cpp:1173-1241) after the replier. -/
def idleRequest : P SelectIdle := do
  let summonable ← listOf (coded readLocSeq)
  let spsummonable ← listOf (coded readLocSeq)
  let repositionable ← listOf (coded readLocSSeq)
  let msetable ← listOf (coded readLocSeq)
  let ssetable ← listOf (coded readLocSeq)
  let activable ← listOf (readActCard readLocSeq)
  let toBp ← readBool
  let toEp ← readBool
  let canShuffle ← readBool
  return {
      isBattleCmd := false, summonable, spsummonable, repositionable, msetable, ssetable, activable, canShuffle,
      availablePhase := (if toBp then Phase.battle else 0) ||| (if toEp then Phase.end_ else 0) }

section context
variable {C : Type} [EncodeContext C]
open EncodeContext

/-- Operations for the deferred attachments (encode.cpp:1428-1442); `i` is the next material index. -/
def deferredOps (curr : Place) : (i : Nat) → List Place → List PlacePair
  | _, [] => []
  | i, d :: ds =>
    if d.con = curr.con ∧ d.loc = curr.loc ∧ d.seq = curr.seq ∧ d.oseq = i then deferredOps curr (i + 1) ds
    else ⟨d, { curr with oseq := i }⟩ :: deferredOps curr (i + 1) ds

/-- `MSG_MOVE` (encode.cpp:1387-1479) once the two places and the reason are read. -/
def moveOutcome (c : C) (prev curr : Place) (reason : Nat) : Res (Outcome × C) :=
  if prev.loc = 0 ∧ curr.loc = 0 then .ok (.swallowed, c)
  else if prev.loc = 0 then .ok (.event (.card reason (.add [curr])), c)
  else if curr.loc = 0 then do
    let c ← if prev.isPile then pure c
      else do
        let h ← hasXyzMat c prev
        pure (if h then xyzLeft c prev Place.zero else c)
    return (.event (.card reason (.remove [prev])), c)
  else if ¬ curr.oseq < 0 ∧ curr.isPile = true then .ok (.swallowed, xyzMatDefer c prev)
  else if curr.oseq < 0 ∧ curr.isPile = false then
    let (defs, c) := takeDeferredXyzMat c
    .ok (.event (.card reason (.move (deferredOps curr 0 defs ++ [⟨prev, curr⟩]))), c)
  else if ¬ prev.oseq < 0 ∧ prev.isPile = true then do
    let src ← getXyzLeft c { prev with oseq := OSEQ_INVALID }
    return (.event (.card reason (.move [⟨{ src with oseq := prev.oseq }, curr⟩])), c)
  else do
    let c ← if prev.isPile = false ∧ curr.isPile = true then do
        let h ← hasXyzMat c prev
        pure (if h then xyzLeft c curr prev else c)
      else pure c
    return (.event (.card reason (.move [⟨prev, curr⟩])), c)

/-- Loop of `MSG_SWAP_GRAVE_DECK` over the bits (encode.cpp:1541-1562) for the cards `i, i+1, ...` with `n` of them left; `seq`,
`size` and `sent` are `splice_seq`, `splice_size` and `sent_to_extra`. -/
def graveLoop (con : Int) (pos : Nat) : (n i seq size sent : Nat) → P (List SpliceOp)
  | 0, _, seq, size, sent =>
    pure (if size > 0 then [op seq size sent] else [])
  | n + 1, i, seq, size, sent => do
    let b ← byteAt (i / 8)
    if b.testBit (i % 8) then
      graveLoop con pos n (i + 1) (if size = 0 then i else seq) (size + 1) sent
    else if size > 0 then
      let rest ← graveLoop con pos n (i + 1) seq 0 (sent + size)
      return op seq size sent :: rest
    else graveLoop con pos n (i + 1) seq 0 sent
where
  /-- `add_op` (encode.cpp:1525-1540). -/
  op (seq size sent : Nat) : SpliceOp :=
    ⟨⟨con, Loc.mainDeck, wrap32 ((seq : Int) - sent), OSEQ_INVALID⟩, size, ⟨con, Loc.extraDeck, wrap32 ((pos : Int) + sent), OSEQ_INVALID⟩,
     false⟩

/-- `MSG_SWAP_GRAVE_DECK` (encode.cpp:1481-1566). The 32-bit loop counter never reaches a graveyard size of 2^32 or more. -/
def swapGraveDeckEvent (c : C) : P Outcome := do
  let con ← readCon
  let pos ← read 4
  let bufferSize ← read 4
  let gy ← lift (pileSize c con Loc.graveyard)
  let deck ← lift (pileSize c con Loc.mainDeck)
  let toDeck : List SpliceOp :=
    if gy > 0 then
      [⟨⟨con, Loc.graveyard, 0, OSEQ_INVALID⟩, wrap32 gy, ⟨con, Loc.mainDeck, 0, OSEQ_INVALID⟩, false⟩]
    else []
  let toGrave : List SpliceOp :=
    if deck > 0 then
      [⟨⟨con, Loc.mainDeck, wrap32 gy, OSEQ_INVALID⟩, wrap32 deck, ⟨con, Loc.graveyard, 0, OSEQ_INVALID⟩, false⟩]
    else []
  let toExtra ← graveLoop con pos gy 0 0 0 0
  if gy ≥ 2 ^ 32 then lift (.error .hang)
  skip bufferSize
  return .event (.pile 0 (.splice (toDeck ++ toGrave ++ toExtra)))

/-- `MSG_DRAW` (encode.cpp:1567-1598). -/
def drawEvent (c : C) : P Outcome := do
  let con ← readCon
  let count ← read 4
  skipMany (do skip 4; skip 4) count
  let deck ← lift (pileSize c con Loc.mainDeck)
  let hand ← lift (pileSize c con Loc.hand)
  return .event (.pile Reason.draw (.splice
    [⟨⟨con, Loc.mainDeck, wrap32 ((deck : Int) - count), OSEQ_INVALID⟩, count, ⟨con, Loc.hand, wrap32 hand, OSEQ_INVALID⟩, true⟩]))

/-- `MSG_REVERSE_DECK` (encode.cpp:1599-1629). -/
def reverseDeckEvent (c : C) : P Outcome := do
  let op (con : Int) (n : Nat) : SpliceOp :=
    ⟨⟨con, Loc.mainDeck, 0, OSEQ_INVALID⟩, wrap32 n, ⟨con, Loc.mainDeck, 0, OSEQ_INVALID⟩, true⟩
  let n0 ← lift (pileSize c 0 Loc.mainDeck)
  let n1 ← lift (pileSize c 1 Loc.mainDeck)
  return .event (.pile Reason.effect (.splice [op 0 n0, op 1 n1]))

/-- `MSG_DECK_TOP` (encode.cpp:1357-1371). -/
def deckTopEvent (c : C) : P Outcome := do
  let con ← readCon
  let size ← lift (pileSize c con Loc.mainDeck)
  let seq ← read 4
  skip 4
  skip 4
  return .event (.metaInfo (.update 0 [⟨con, Loc.mainDeck, wrap32 ((size : Int) - 1 - seq), OSEQ_INVALID⟩]))

/-- `MSG_WIN` (encode.cpp:1330-1343). -/
def winEvent (c : C) : P Outcome := do
  let winner ← read 1
  let winReason ← read 1
  let matchWinReason ← lift (getMatchWinReason c)
  return .event (.finish
    { winReason, matchWinReason, result := if winner ≠ 2 then .winner (winner : Nat) else .draw true })

/-- Cases that produce an event without using the context (encode.cpp:543-956). -/
def eventCase : Kind → Option (P Outcome)
  | .confirmDecktop | .confirmExtratop | .confirmCards => some do
    skip 1
    let ps ← listOf (coded readLocSeq)
    return .event (.metaInfo (.confirm 0 ps))
  | .shuffleDeck => some do
    let con ← readCon
    return .event (.metaInfo (.shufflePile [⟨con, Loc.mainDeck, 0, 0⟩]))
  | .shuffleHand => some do
    let con ← readCon
    skipMany (skip 4) (← read 4)
    return .event (.metaInfo (.shufflePile [⟨con, Loc.hand, 0, 0⟩]))
  | .shuffleExtra => some do
    let con ← readCon
    skipMany (skip 4) (← read 4)
    return .event (.metaInfo (.shufflePile [⟨con, Loc.extraDeck, 0, 0⟩]))
  | .shuffleSetCard => some do
    skip 1
    let count ← read 1
    let previous ← many readLocInfo count
    let current ← many readLocInfo count
    return .event (.card 0 (.shuffle previous current))
  | .newTurn => some do
    let con ← readCon
    return .event (.nextTurn con)
  | .newPhase => some do
    let phase ← read 2
    return .event (.nextPhase phase)
  | .posChange => some do
    skip 4
    let p ← readLocSSeq
    skip 1
    skip 1
    return .event (.metaInfo (.update 0 [p]))
  | .set => some do
    skip 4
    let p ← readLocSeq
    skip 4
    return .event (.metaInfo (.update 0 [p]))
  | .swap => some do
    skip 4
    let a ← readLocInfo
    skip 4
    let b ← readLocInfo
    return .event (.card 0 (.exchange [⟨a, b⟩]))
  | .fieldDisabled => some do
    let zones ← read 4
    return .event (.zoneBlock (unpackZones zones 0))
  | .summoning => some (summoningEvent Reason.summon)
  | .spsummoning => some (summoningEvent Reason.spsummon)
  | .flipsummoning => some (summoningEvent Reason.flip)
  | .chaining => some do
    let chain ← readChain
    skip 4
    return .event (.chainStack (.push chain))
  | .chained => some do
    skip 1
    return .event (.metaInfo (.chainStatus .chained))
  | .chainSolving => some do
    skip 1
    return .event (.metaInfo (.chainStatus .solving))
  | .chainNegated => some do
    skip 1
    return .event (.metaInfo (.chainStatus .actNegated))
  | .chainDisabled => some do
    skip 1
    return .event (.metaInfo (.chainStatus .effNegated))
  | .chainSolved => some do
    skip 1
    return .event (.chainStack (.pop true))
  | .damage => some (lpEvent .damage)
  | .recover => some (lpEvent .recover)
  | .lpupdate => some (lpEvent .become)
  | .payLpcost => some (lpEvent .pay)
  | .randomSelected => some do
    skip 1
    selectedEvent
  | .cardSelected | .becomeTarget => some selectedEvent
  | .cardTarget | .cancelTarget => some do
    let selector ← readLocInfo
    let p ← readLocInfo
    return .event (.metaInfo (.selection selector 0 [p]))
  | .addCounter | .removeCounter => some do
    skip 2
    let p ← readLocSSeq
    skip 2
    return .event (.metaInfo (.update 0 [p]))
  | .attack => some do
    let attacker ← readLocInfo
    let target ← readLocInfo
    return .event (.metaInfo (.attack attacker (if target.loc = 0 then Place.zero else target)))
  | .tossCoin => some do
    let con ← readCon
    let values ← slistOf readBool
    return .event (.result (.coin con values))
  | .tossDice => some do
    let con ← readCon
    let values ← slistOf (read 1)
    return .event (.result (.dice con values))
  | .handRes => some do
    let h ← read 1
    return .event (.result (.rps [((h &&& 3 : Nat) : Int), (((h >>> 2) &&& 3 : Nat) : Int)]))
  | .start => some startEvent
  | .tagSwap => some tagSwapEvent
  | .reloadField => some reloadEvent
  | .playerHint => some do
    let con ← readCon
    let type ← read 1
    let effect ← readEffect
    return .event (.metaInfo (.description con (if type = 1 then .add effect else .remove effect)))
  | _ => none

/-- Cases that produce queries (encode.cpp:957-1021). -/
def queryCase : Kind → Option (P Outcome)
  | .updateData => some do
    let con ← readCon
    let loc ← read 1
    let total ← read 4
    let qs ← updateAll con loc total
    return .queries qs
  | .updateCard => some do
    let place ← readLocSSeq
    let v ← encodeOneQuery
    return .queries (withOverlays place v)
  | _ => none

/-- Cases that produce a request, after the replier is read (encode.cpp:1022-1326). -/
def requestCase : Kind → Option (Int → P Request)
  | .announceAttrib => some fun _ => do
    let count ← read 1
    let attr ← read 4
    return .selectAttribute count attr
  | .selectCard => some fun _ => do
    return .selectCard (← selectCardRequest)
  | .selectUnselectCard => some fun _ => do
    let canFinish ← readBool
    let accept ← readBool
    let min ← read 4
    let max ← read 4
    let selectable ← listOf readSelectable
    let deselectable ← listOf readSelectable
    return .selectCard (.recursive canFinish accept min max selectable deselectable)
  | .selectTribute => some fun _ => do
    let canCancel ← readBool
    let min ← read 4
    let max ← read 4
    let cards ← listOf (do
      let code ← read 4
      let place ← readLocSeq
      return (⟨place, code, ← read 1⟩ : TributeCard))
    return .selectCard (.uniqueTributes canCancel min max cards)
  | .selectOption => some fun _ => do
    let effects ← slistOf readEffect
    return .selectEffect 1 effects
  | .selectBattlecmd => some fun _ => do
    return .selectIdle (← battleRequest)
  | .selectIdlecmd => some fun _ => do
    return .selectIdle (← idleRequest)
  | .announceNumber => some fun _ => do
    let numbers ← slistOf (read 8)
    return .selectNumber 1 numbers
  | .selectPosition => some fun _ => do
    let code ← read 4
    let position ← read 1
    return .selectPosition 1 code position
  | .announceRace => some fun _ => do
    let count ← read 1
    let race ← read 8
    return .selectRace count race
  | .rockPaperScissors => some fun _ => return .selectRockPaperScissors true
  | .selectChain => some fun _ => do
    let speCount ← read 1
    let forced ← readBool
    skip 8
    let cards ← listOf (readActCard readLocInfo)
    return .selectToChain forced (decide ((speCount &&& 0x7F) > 0)) cards
  | .selectEffectyn => some fun _ => do
    let code ← read 4
    let place ← readLocInfo
    let effect ← readEffect
    return .selectYesNo place code effect
  | .selectYesno => some fun _ => do
    let effect ← readEffect
    return .selectYesNo Place.zero 0 effect
  | .selectPlace => some fun replier => do
    let count ← read 1
    let zones ← read 4
    return .selectZone false count (unpackZones zones (replier.toNat % 256))
  | .selectDisfield => some fun replier => do
    let count ← read 1
    let zones ← read 4
    return .selectZone true count (unpackZones zones (replier.toNat % 256))
  | .sortChain | .sortCard => some fun _ => do
    let ps ← listOf (coded (readLoc 4 4 none))
    return .sort ps
  | _ => none

/-- Cases that produce nothing and only move the cursor (encode.cpp:1344-1356, 1637-1722). -/
def swallowedCase : Kind → Option (P Unit)
  | .hint => some do
    skip 1
    skip 1
    skip 8
  | .cardHint => some do
    skip 10
    skip 1
    skip 8
  | .retry | .summoned | .spsummoned | .flipsummoned | .chainEnd | .attackDisabled | .damageStepStart | .damageStepEnd => some (pure ())
  | .battle => some do
    skip 10
    skip 9
    skip 10
    skip 9
  | .equip => some do
    skip 10
    skip 10
  | .missedEffect => some do
    skip 10
    skip 4
  | .aiName => some do
    skip ((← read 2) + 1)
  | _ => none

/-- Cases that use the context (encode.cpp:1330-1636 without `MSG_HINT`). -/
def contextCase (c : C) : Kind → Option (P (Outcome × C))
  | .win => some do return (← winEvent c, c)
  | .deckTop => some do return (← deckTopEvent c, c)
  | .move => some do
    skip 4
    let prev ← readLocInfo
    let curr ← readLocInfo
    let reason ← read 4
    lift (moveOutcome c prev curr reason)
  | .swapGraveDeck => some do return (← swapGraveDeckEvent c, c)
  | .draw => some do return (← drawEvent c, c)
  | .reverseDeck => some do return (← reverseDeckEvent c, c)
  | .matchKill => some do
    let reason ← read 4
    return (.swallowed, EncodeContext.matchWinReason c reason)
  | _ => none

/-- The `switch` of `encode_one`. The cases that only contain a `TODO` (`MSG_SELECT_COUNTER`, `MSG_SELECT_SUM`, `MSG_ANNOUNCE_CARD`,
`MSG_ANNOUNCE_CARD_FILTER`) leave the value-initialised result, whose state is `UNKNOWN`, like `default`. -/
def encodeCase (c : C) (k : Kind) : P (Outcome × C) :=
  match eventCase k, queryCase k, requestCase k, swallowedCase k, contextCase c k with
  | some p, _, _, _, _ => do return (← p, c)
  | _, some p, _, _, _ => do return (← p, c)
  | _, _, some f, _, _ => do
    let replier ← readCon
    let r ← f replier
    return (.request replier r, c)
  | _, _, _, some p, _ => do
    p
    return (.swallowed, c)
  | _, _, _, _, some p => p
  | none, none, none, none, none => pure ({}, c)

/-- `encode_one` up to the computation of `bytes_read`. -/
def encodeBody (c : C) : P (Outcome × C) := do
  let coreMsg ← read 1
  match Kind.ofByte coreMsg with
  | some k => encodeCase c k
  | none => pure ({}, c)

/-- `encode_one` (encode.cpp:490-1731) on a buffer. -/
def encodeOne (c : C) (data : List UInt8) : Res (Encoded × C) :=
  match encodeBody c data with
  | .ok ((o, c), rest) => .ok (⟨o.state, data.length - rest.length, o.msg⟩, c)
  | .error e => .error e

end context

/-! ## `BasicEncodeContext` (server/basic_encode_context.hpp) -/

/-- Members (basic_encode_context.hpp:96-103) and the contents of the cards in the frame. `match_win_reason_` has no initialiser:
`none` is an indeterminate value. -/
structure BasicContext where
  board : PlainBoard
  store : CardId → Card Plain
  matchWinReason : Option Nat
  left : Place → Option Place
  deferred : List Place

namespace BasicContext

/-- A card as constructed (card.hpp:28-49). -/
def newCard : Card Plain := ⟨fun f => ⟨f.zero⟩, ⟨[]⟩, ⟨[]⟩⟩

/-- A default-initialised context. -/
def init : BasicContext := ⟨PlainBoard.init, fun _ => newCard, none, fun _ => none, []⟩

instance : EncodeContext BasicContext where
  pileSize c con loc := do
    let k ← pileKey con loc
    return (c.board.frame.layout.pile k).length
  getMatchWinReason c := orUb c.matchWinReason
  hasXyzMat c p := do
    let k ← p.zoneKey
    return !(c.board.frame.layout.zone k).materials.isEmpty
  getXyzLeft c p := orUb (c.left p)
  matchWinReason c r := { c with matchWinReason := some r }
  xyzMatDefer c p := { c with deferred := c.deferred ++ [p] }
  takeDeferredXyzMat c := (c.deferred, { c with deferred := [] })
  xyzLeft c left src := { c with left := fun p => if p = left then some src else c.left p }

/-- Queries in order (basic_encode_context.hpp:78-80). -/
def parseQueries (l : Layout) : List Query → (CardId → Card Plain) → Res (CardId → Card Plain)
  | [], st => .ok st
  | q :: qs, st => do
    let (_, st) ← parseQuery false l st q
    parseQueries l qs st

/-- `parse` (basic_encode_context.hpp:74-81). -/
def parse (c : BasicContext) (m : Msg) : Res BasicContext := do
  let board ← match m.body with
    | .event e => c.board.parseEvent e
    | _ => pure c.board
  let store ← parseQueries board.frame.layout m.queries c.store
  return { c with board, store }

end BasicContext
end Ygo
