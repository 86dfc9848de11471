import Verif.Model.Request
import Verif.Model.Event

/-!
# The kinds of messages the protocol has

One name for each path through the `oneof`s of `Msg` (duel_msg.proto:16-738), the ones nobody set included.
-/

namespace Ygo.Spec

/-- What a message is about. -/
inductive Variant where
  | bodyUnset | requestUnset | eventUnset
  | boardUnset | boardExchange | boardState
  | cardUnset | cardAdd | cardExchange | cardMove | cardRemove | cardShuffle
  | chainUnset | chainPush | chainPop
  | nextTurn | nextPhase | zoneBlock
  | finishUnset | finishWinner | finishDraw
  | lpUnset | lpBecome | lpDamage | lpPay | lpRecover
  | metaUnset | metaAttack | metaChainStatus | metaConfirm | metaDescriptionUnset | metaDescriptionAdd | metaDescriptionRemove
  | metaFlashCard | metaMissedTiming | metaSelection | metaShufflePile | metaUpdate
  | pileUnset | pileExchange | pileResize | pileSplice
  | resultUnset | resultCoin | resultDice | resultRps
  | selectAttribute | selectCardUnset | selectCardLimbo | selectCardRecursive | selectCardUniqueRange | selectCardUniqueSum
  | selectCardUniqueTributes | selectCardCode | selectCounter | selectEffect | selectIdle | selectNumber | selectPosition
  | selectRace | selectRockPaperScissors | selectToChain | selectYesNo | selectZone | sort
  deriving DecidableEq, Repr

namespace Variant

/-- The kind of an event. -/
def ofEvent : Event → Variant
  | .unset => eventUnset
  | .board .unset => boardUnset
  | .board (.exchange _) => boardExchange
  | .board (.state _) => boardState
  | .card _ .unset => cardUnset
  | .card _ (.add _) => cardAdd
  | .card _ (.exchange _) => cardExchange
  | .card _ (.move _) => cardMove
  | .card _ (.remove _) => cardRemove
  | .card _ (.shuffle _ _) => cardShuffle
  | .chainStack .unset => chainUnset
  | .chainStack (.push _) => chainPush
  | .chainStack (.pop _) => chainPop
  | .nextTurn _ => nextTurn
  | .nextPhase _ => nextPhase
  | .zoneBlock _ => zoneBlock
  | .finish f => match f.result with
    | .unset => finishUnset
    | .winner _ => finishWinner
    | .draw _ => finishDraw
  | .lp _ .unset => lpUnset
  | .lp _ (.become _) => lpBecome
  | .lp _ (.damage _) => lpDamage
  | .lp _ (.pay _) => lpPay
  | .lp _ (.recover _) => lpRecover
  | .metaInfo .unset => metaUnset
  | .metaInfo (.attack _ _) => metaAttack
  | .metaInfo (.chainStatus _) => metaChainStatus
  | .metaInfo (.confirm _ _) => metaConfirm
  | .metaInfo (.description _ .unset) => metaDescriptionUnset
  | .metaInfo (.description _ (.add _)) => metaDescriptionAdd
  | .metaInfo (.description _ (.remove _)) => metaDescriptionRemove
  | .metaInfo (.flashCard _ _ _) => metaFlashCard
  | .metaInfo (.missedTiming _) => metaMissedTiming
  | .metaInfo (.selection _ _ _) => metaSelection
  | .metaInfo (.shufflePile _) => metaShufflePile
  | .metaInfo (.update _ _) => metaUpdate
  | .pile _ .unset => pileUnset
  | .pile _ (.exchange _) => pileExchange
  | .pile _ (.resize _) => pileResize
  | .pile _ (.splice _) => pileSplice
  | .result .unset => resultUnset
  | .result (.coin _ _) => resultCoin
  | .result (.dice _ _) => resultDice
  | .result (.rps _) => resultRps

/-- The kind of a question. -/
def ofRequest : Request → Variant
  | .unset => requestUnset
  | .selectAttribute _ _ => selectAttribute
  | .selectCard .unset => selectCardUnset
  | .selectCard (.limbo _ _ _ _) => selectCardLimbo
  | .selectCard (.recursive _ _ _ _ _ _) => selectCardRecursive
  | .selectCard (.uniqueRange _ _ _ _) => selectCardUniqueRange
  | .selectCard (.uniqueSum _ _ _ _ _) => selectCardUniqueSum
  | .selectCard (.uniqueTributes _ _ _ _) => selectCardUniqueTributes
  | .selectCardCode _ _ => selectCardCode
  | .selectCounter _ _ => selectCounter
  | .selectEffect _ _ => selectEffect
  | .selectIdle _ => selectIdle
  | .selectNumber _ _ => selectNumber
  | .selectPosition _ _ _ => selectPosition
  | .selectRace _ _ => selectRace
  | .selectRockPaperScissors _ => selectRockPaperScissors
  | .selectToChain _ _ _ => selectToChain
  | .selectYesNo _ _ _ => selectYesNo
  | .selectZone _ _ _ => selectZone
  | .sort _ => sort

/-- The kind of a message; one that only says what cards look like has no body. -/
def of (m : Msg) : Variant :=
  match m.body with
  | .unset => bodyUnset
  | .event e => ofEvent e
  | .request _ r => ofRequest r

/-- The kinds no server sends: those where somewhere nobody set anything, except for messages that only say what cards look like;
piles that trade places or change their sizes on their own; cards that are flashed and timings that are missed; and asking for a
sum of levels, for the name of a card or for counters. -/
def neverSent : List Variant :=
  [requestUnset, eventUnset, boardUnset, cardUnset, chainUnset, finishUnset, lpUnset, metaUnset, metaDescriptionUnset, pileUnset,
   resultUnset, selectCardUnset,
   pileExchange, pileResize, metaFlashCard, metaMissedTiming,
   selectCardUniqueSum, selectCardCode, selectCounter]

/-- What happens on a board. -/
def onBoard : List Variant :=
  [boardExchange, boardState, cardAdd, cardExchange, cardMove, cardRemove, cardShuffle, chainPush, chainPop, nextTurn, nextPhase,
   zoneBlock, lpBecome, lpDamage, lpPay, lpRecover, pileExchange, pileResize, pileSplice]

end Variant

/-- A message says what happened, asks something, or says what cards look like, and never two of these. If it says how everything is,
it says the life points of exactly two players, and if it says how cards are shuffled, as many places before as after. -/
def WellMade (m : Msg) : Prop :=
  match m.body with
  | .event (.board (.state s)) => s.lps.length = 2 ∧ m.queries = []
  | .event (.card _ (.shuffle ps qs)) => ps.length = qs.length ∧ m.queries = []
  | .unset => True
  | _ => m.queries = []

end Ygo.Spec
