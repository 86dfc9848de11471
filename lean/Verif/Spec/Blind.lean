import Verif.Spec.Stream
import Verif.Spec.System
import Verif.Spec.Rewind

/-!
# What is left of messages without the cards

Messages of the core and of the server from which everything is taken that tells which cards are meant: their codes, and what
queries say about them.  Descriptions of effects stay.
-/

namespace Ygo.Spec
open Ygo

/-- Of a query there remains how many materials there are. -/
def QueryItem.blinded : QueryItem → Option QueryItem
  | .overlayCard cs => some (.overlayCard (cs.map fun _ => 0))
  | _ => none

/-- Cards with a code that is taken away. -/
def anonymous {α : Type} (cards : List (UInt32 × α)) : List (UInt32 × α) := cards.map fun c => (0, c.2)

namespace Activable
def blinded {L : Type} (a : Activable L) : Activable L := { a with code := 0 }
end Activable

namespace CoreMsg

/-- The message about other cards: every code is 0, and queries only say how many materials there are. -/
def blinded : CoreMsg → CoreMsg
  | hint t p _ => hint t p 0
  | updateData c l ss => updateData c l (ss.map fun s => s.map fun is => is.filterMap QueryItem.blinded)
  | updateCard l is => updateCard l (is.filterMap QueryItem.blinded)
  | selectBattlecmd p acts atks m e => selectBattlecmd p (acts.map Activable.blinded) (anonymous atks) m e
  | selectIdlecmd p s sp r ms ss acts b e sh =>
    selectIdlecmd p (anonymous s) (anonymous sp) (anonymous r) (anonymous ms) (anonymous ss) (acts.map Activable.blinded) b e sh
  | selectEffectyn p _ l e => selectEffectyn p 0 l e
  | selectCard p c mn mx cs => selectCard p c mn mx (anonymous cs)
  | selectChain p s f t acts => selectChain p s f t (acts.map Activable.blinded)
  | selectPosition p _ m => selectPosition p 0 m
  | selectTribute p c mn mx cs => selectTribute p c mn mx (anonymous cs)
  | sortChain p cs => sortChain p (anonymous cs)
  | sortCard p cs => sortCard p (anonymous cs)
  | selectUnselectCard p f c mn mx ss us => selectUnselectCard p f c mn mx (anonymous ss) (anonymous us)
  | confirmDecktop p cs => confirmDecktop p (anonymous cs)
  | confirmCards p cs => confirmCards p (anonymous cs)
  | confirmExtratop p cs => confirmExtratop p (anonymous cs)
  | shuffleHand p cs => shuffleHand p (cs.map fun _ => 0)
  | shuffleExtra p cs => shuffleExtra p (cs.map fun _ => 0)
  | deckTop p s _ pos => deckTop p s 0 pos
  | move _ a b r => move 0 a b r
  | posChange _ l a b => posChange 0 l a b
  | set _ l p => set 0 l p
  | swap _ a _ b => swap 0 a 0 b
  | summoning _ l => summoning 0 l
  | spsummoning _ l => spsummoning 0 l
  | flipsummoning _ l => flipsummoning 0 l
  | chaining l n => chaining { l with code := 0 } n
  | draw p cs => draw p (anonymous cs)
  | missedEffect l _ => missedEffect l 0
  | cardHint l t _ => cardHint l t 0
  | tagSwap p m ep _ ex ha => tagSwap p m ep 0 (anonymous ex) (anonymous ha)
  | reloadField f s0 s1 cs => reloadField f s0 s1 (cs.map fun l => { l with code := 0 })
  | m => m

/-- Questions that show the player cards. -/
def ShowsCards : CoreMsg → Prop
  | updateData .. | updateCard .. | selectEffectyn .. | selectCard .. | selectPosition .. | selectTribute .. | selectUnselectCard .. => True
  | _ => False

end CoreMsg

/-- A question without the codes. -/
def blindCards : SelectCard → SelectCard
  | .limbo c mn mx codes => .limbo c mn mx (codes.map fun _ => 0)
  | .recursive f a mn mx ss ds => .recursive f a mn mx (ss.map fun s => { s with code := 0 }) (ds.map fun s => { s with code := 0 })
  | .uniqueRange c mn mx cs => .uniqueRange c mn mx (cs.map fun s => { s with code := 0 })
  | .uniqueSum c e mn mx cs => .uniqueSum c e mn mx (cs.map fun s => { s with code := 0 })
  | .uniqueTributes c mn mx cs => .uniqueTributes c mn mx (cs.map fun s => { s with code := 0 })
  | .unset => .unset

/-- A question without the codes. -/
def blindRequest : Request → Request
  | .selectCard s => .selectCard (blindCards s)
  | .selectPosition n _ p => .selectPosition n 0 p
  | .selectYesNo p _ e => .selectYesNo p 0 e
  | r => r

/-- A message of the server without the codes; of queries there remains where the cards are. Events are left as they are. -/
def blindMsg (m : Msg) : Msg where
  body := match m.body with
    | .request p r => .request p (blindRequest r)
    | b => b
  queries := m.queries.map fun q => ⟨q.place, .empty⟩

/-- What there is to see of a result without the codes. -/
def blindResult (r : Encoded) : EncodeState × Option Msg := (r.state, r.msg.map blindMsg)

/-- What the server tracks, without what it knows about each card. -/
def onTheTable (c : BasicContext) : BasicContext := { c with store := fun _ => BasicContext.newCard }

/-- What there is to see of a duel without the codes: the results and what is tracked. -/
def blindDuel (x : List Encoded × BasicContext) : List (EncodeState × Option Msg) × BasicContext := (x.1.map blindResult, onTheTable x.2)

end Ygo.Spec
