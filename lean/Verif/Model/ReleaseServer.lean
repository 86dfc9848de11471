import Verif.Model.Release
import Verif.Model.Decode

/-!
# The server and the codec in a build without asserts

As `Model/Release.lean`: with `NDEBUG` defined, the asserts of `encode.cpp`, `decode.cpp`, `parse_query.hpp` and of the frame that
`BasicEncodeContext` asks are gone.
-/

namespace Ygo
open P

/-- `card_` (frame.hpp:633-644): a reference to a null pointer is undefined, as is `operator[]` past the end. -/
def RawLayout.card (l : RawLayout) (p : Place) : Res CardId := do
  if p.isPile then
    let k ← Raw.pileOf p
    let c ← orUb (l.pile k)[p.seq]?
    orUb c
  else
    let k ← Raw.zoneOf p
    if p.oseq < 0 then orUb (l.zone k).card
    else
      let c ← orUb (l.zone k).materials[p.oseq.toNat]?
      orUb c

/-- `parse_query` (parse_query.hpp:77-126). -/
def rawParseQuery {V : Type → Type} [Cell V] (useCache : Bool) (l : RawLayout) (store : CardId → Card V) (q : Query) :
    Res (Nat × (CardId → Card V)) := do
  let c ← l.card q.place
  let (hits, card) ← (store c).parseData useCache q.data
  return (hits, fun x => if x = c then card else store x)

/-- `BasicEncodeContext` (basic_encode_context.hpp:96-103). -/
structure RawContext where
  board : RawBoard
  store : CardId → Card Plain
  matchWinReason : Option Nat
  left : Place → Option Place
  deferred : List Place

namespace RawContext

def init : RawContext := ⟨RawBoard.init, fun _ => BasicContext.newCard, none, fun _ => none, []⟩

/-- basic_encode_context.hpp:32-72. -/
instance : EncodeContext RawContext where
  pileSize c con loc := do
    let k ← Raw.pileKey con loc
    return (c.board.frame.layout.pile k).length
  getMatchWinReason c := orUb c.matchWinReason
  hasXyzMat c p := do
    let k ← Raw.zoneOf p
    return !(c.board.frame.layout.zone k).materials.isEmpty
  getXyzLeft c p := orUb (c.left p)
  matchWinReason c r := { c with matchWinReason := some r }
  xyzMatDefer c p := { c with deferred := c.deferred ++ [p] }
  takeDeferredXyzMat c := (c.deferred, { c with deferred := [] })
  xyzLeft c left src := { c with left := fun p => if p = left then some src else c.left p }

/-- Queries in order (basic_encode_context.hpp:78-80). -/
def parseQueries (l : RawLayout) : List Query → (CardId → Card Plain) → Res (CardId → Card Plain)
  | [], st => .ok st
  | q :: qs, st => do
    let (_, st) ← rawParseQuery false l st q
    parseQueries l qs st

/-- `parse` (basic_encode_context.hpp:74-81). -/
def parse (c : RawContext) (m : Msg) : Res RawContext := do
  let board ← match m.body with
    | .event e => RawBoard.parseEvent c.board e
    | _ => pure c.board
  let store ← parseQueries board.frame.layout m.queries c.store
  return { c with board, store }

end RawContext

section
variable {C : Type} [EncodeContext C]

/-- `MSG_SELECT_CARD` (encode.cpp:1037-1077) after the replier. -/
def rawSelectCard : P SelectCard := do
  let canCancel ← readBool
  let min ← read 4
  let max ← read 4
  let count ← read 4
  let isNotLimbo ← peek (do skip 5; return (← read 1) != 0)
  if isNotLimbo then
    return .uniqueRange canCancel min max (← many readSelectable count)
  else
    return .limbo canCancel min max (← many (do let c ← read 4; skip 10; return c) count)

/-- The `switch` of `encode_one`; the only assert is that of `MSG_SELECT_CARD` (encode.cpp:1046). -/
def rawEncodeCase (c : C) (k : Kind) : P (Outcome × C) :=
  if k = .selectCard then do
    let replier ← readCon
    let r ← rawSelectCard
    return (.request replier (.selectCard r), c)
  else encodeCase c k

/-- `encode_one` up to the computation of `bytes_read`. -/
def rawEncodeBody (c : C) : P (Outcome × C) := do
  let coreMsg ← read 1
  match Kind.ofByte coreMsg with
  | some k => rawEncodeCase c k
  | none => pure ({}, c)

/-- `encode_one` (encode.cpp:490-1731) on a buffer. -/
def rawEncodeOne (c : C) (data : List UInt8) : Res (Encoded × C) :=
  match rawEncodeBody c data with
  | .ok ((o, c), rest) => .ok (⟨o.state, data.length - rest.length, o.msg⟩, c)
  | .error e => .error e

end

/-- `request.select_card().t_case() == kRecursive`: a request of another kind gives the default instance, where it is not set. -/
def Request.isRecursive : Request → Bool
  | .selectCard (.recursive ..) => true
  | _ => false

/-- `decode_one_answer` (decode.cpp:29-245). The first of no indexes is undefined. -/
def rawDecodeOneAnswer (request : Request) (answer : Answer) (out : List UInt8) : Res (List UInt8) :=
  match answer with
  | .selectCard (.indexes is) =>
    if request.isRecursive then do
      let i ← orUb is.head?
      return writeLE 4 1 ++ writeLE 4 (i : Nat)
    else .ok (writeLE 4 1 ++ writeLE 4 is.length ++ is.flatMap fun (i : Nat) => writeLE 2 i)
  | .selectIdle (.shuffle _) => .ok (responseI 8)
  | .selectIdle (.phase p) =>
    if request.isBattleCmd then
      let out := if (p &&& Phase.main2) ≠ 0 then responseI 2 else out
      .ok (if (p &&& Phase.end_) ≠ 0 then responseI 3 else out)
    else if (p &&& Phase.battle) ≠ 0 then .ok (responseI 6)
    else if (p &&& Phase.end_) ≠ 0 then .ok (responseI 7)
    else .ok out
  | .selectIdle (.cardAction act s) =>
    .ok (responseI (((s &&& 0xFFFF) <<< 16 ||| (actionCode request.isBattleCmd act &&& 0xFFFF) : Nat) : Int))
  | .selectIdle .unset => .ok out
  | _ => decodeOneAnswer request answer out

end Ygo
