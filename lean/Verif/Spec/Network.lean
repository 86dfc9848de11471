import Verif.Spec.Protobuf
import Verif.Model.Decode
import Verif.Model.Room

/-!
# What the fields of answers and of the messages of rooms can hold

Written from `duel_answer.proto`, `room.proto`, `deck.proto` and `user.proto`.
-/

namespace Ygo.Spec
open Ygo Ygo.Pb

def AnswerHolds : Answer → Prop
  | .unset | .selectYesNo _ => True
  | .selectAttribute v | .selectCardCode v | .selectEffect v | .selectNumber v | .selectPosition v => U32 v
  | .selectRace v => U64 v
  | .selectRockPaperScissors v => I32 v
  | .selectCard (.indexes vs) | .sort (.indexes vs) => All U32 vs
  | .selectCard _ | .sort _ => True
  | .selectCounter vs => All (fun v => U32 v.1 ∧ U32 v.2) vs
  | .selectIdle (.phase p) => U32 p
  | .selectIdle (.cardAction a i) => (∀ n, a = .other n → I32 n ∧ (n < 0 ∨ 8 < n)) ∧ U32 i
  | .selectIdle _ => True
  | .selectToChain (.index i) => U32 i
  | .selectToChain _ => True
  | .selectZone ps => All PlaceHolds ps

/-! ## Rooms -/

def UserHolds (u : Room.User) : Prop := All (· < 256) u.id
def DeckHolds (d : Room.Deck) : Prop := All U32 d.main ∧ All U32 d.extra ∧ All U32 d.side ∧ All U32 d.useful
def DeckErrorHolds (e : Room.DeckError) : Prop :=
  (∀ rs, e.banlisted = some rs → All (fun r => I32 r.1 ∧ U32 r.2) rs) ∧ (∀ cs, e.excessiveCopies = some cs → All U32 cs) ∧
  (∀ cs, e.invalidCards = some cs → All U32 cs) ∧ (∀ cs, e.mixedCards = some cs → All U32 cs.1 ∧ All U32 cs.2) ∧
  (∀ x, e.outOfLimit = some x → (I32 x.1.1 ∧ I32 x.1.2) ∧ U32 x.2.1 ∧ U32 x.2.2)
def LimitHolds (l : Room.DeckLimit) : Prop := U32 l.min ∧ I32 l.max
def LimitsHold (l : Room.DeckLimits) : Prop :=
  (∀ x, l.main = some x → LimitHolds x) ∧ (∀ x, l.extra = some x → LimitHolds x) ∧ (∀ x, l.side = some x → LimitHolds x)
def BanlistHolds (b : Room.Banlist) : Prop := All U32 b.forbidden ∧ All U32 b.limited ∧ All U32 b.semilimited ∧ All U32 b.whitelist
/-- What the options of a room say about decks and the first turn. -/
def RulesHold (o : Room.Options) : Prop :=
  I32 o.ftdm ∧ (∀ l, o.deckLimits = some l → LimitsHold l) ∧ (∀ b, o.banlist = .custom b → BanlistHolds b)
def OptionsHold (o : Room.Options) : Prop := All U32 o.maxDuelists ∧ RulesHold o
def DuelistHolds (d : Room.Duelist) : Prop := U32 d.team ∧ U32 d.pos ∧ UserHolds d.user

def RoomEventHolds : Room.Event → Prop
  | .entering o ds n => OptionsHold o ∧ All DuelistHolds ds ∧ U32 n
  | .duelistEnters d | .updateDuelist d => DuelistHolds d
  | .deckStatus (some e) => DeckErrorHolds e
  | .deckStatus none | .decidingEntering | .decideFirstTurn _ => True
  | .result n t => U32 n ∧ match t with
    | .unset => True
    | .dice rs => All (fun r => U32 r.1 ∧ U32 r.2) rs
    | .coin f => f < 2 ^ 31
  | .spectatorCount n => U32 n

def SignalHolds : Room.Signal → Prop
  | .configuring (.updateDeck d) => DeckHolds d
  | .deciding (.teamGoingFirst n) => U32 n
  | _ => True

end Ygo.Spec
