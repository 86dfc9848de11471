import Verif.Spec.System
import Verif.Model.Decode

/-!
# The same duel with the players exchanged

Boards, messages of the core and messages of the server with the two players exchanged.  A place without a location is nobody's and
stays as it is.
-/

namespace Ygo.Spec
open Ygo

/-- The other player; anything that is no player stays. -/
def other (n : Int) : Int := if n = 0 then 1 else if n = 1 then 0 else n
/-- The same for a byte. -/
def otherByte (b : UInt8) : UInt8 := if b = 0 then 1 else if b = 1 then 0 else b

def _root_.Ygo.Place.mirrored (p : Place) : Place := if p.loc = 0 then p else { p with con := other p.con }

/-! ## Boards -/

def _root_.Ygo.PileKey.mirrored (k : PileKey) : PileKey := ⟨k.con.rev, k.loc⟩
def _root_.Ygo.ZoneKey.mirrored (k : ZoneKey) : ZoneKey := ⟨k.con.rev, k.loc, k.seq, k.lt⟩
def _root_.Ygo.Layout.mirrored (l : Layout) : Layout := ⟨fun k => l.pile k.mirrored, fun k => l.zone k.mirrored⟩
def _root_.Ygo.Frame.mirrored (f : Frame) : Frame := { f with layout := f.layout.mirrored }

def _root_.Ygo.LimboOp.mirrored : LimboOp → LimboOp
  | .clear saved => .clear saved.mirrored
  | o => o

def _root_.Ygo.Limbo.mirrored (f : Limbo) : Limbo := { f with base := f.base.mirrored, ops := f.ops.map LimboOp.mirrored }

def _root_.Ygo.FrameOp.mirrored : FrameOp → FrameOp
  | .add p => .add p.mirrored
  | .remove p => .remove p.mirrored
  | .move a b => .move a.mirrored b.mirrored
  | .shuffle prev cur n => .shuffle (prev.map Place.mirrored) (cur.map Place.mirrored) n
  | .swap a b => .swap a.mirrored b.mirrored
  | .resize p n => .resize p.mirrored n
  | .splice a n b r => .splice a.mirrored n b.mirrored r
  | .pswap a b => .pswap a.mirrored b.mirrored
  | .clear => .clear

/-- How a board's member is changed inside of what holds it. -/
class Inside (V : Type → Type) where
  map {α β : Type} : (α → β) → V α → V β

instance : Inside Plain := ⟨fun f c => ⟨f c.val⟩⟩
instance : Inside Undoable := ⟨fun f u => ⟨u.values.map f, u.current⟩⟩

def _root_.Ygo.Chain.mirrored (c : Chain) : Chain := { c with cardPlace := c.cardPlace.mirrored, place := c.place.mirrored }

/-- What is on the table and beside it for one player is there for the other. -/
def _root_.Ygo.DuelBoard.mirrored {F : Type} {V : Type → Type} [Inside V] (frame : F → F) (b : DuelBoard F V) : DuelBoard F V :=
  { b with
    frame := frame b.frame, chainStack := Inside.map (List.map Chain.mirrored) b.chainStack,
    turnController := Inside.map other b.turnController, lp := fun i => b.lp i.rev,
    blockedZones := Inside.map (List.map Place.mirrored) b.blockedZones }

abbrev _root_.Ygo.PlainBoard.mirrored (b : PlainBoard) : PlainBoard := DuelBoard.mirrored Frame.mirrored b
abbrev _root_.Ygo.UndoBoard.mirrored (b : UndoBoard) : UndoBoard := DuelBoard.mirrored Limbo.mirrored b

/-! ## Messages of the server -/

/-- The first two entries of a list with one for each player, exchanged. -/
def turned {α : Type} : List α → List α
  | a :: b :: r => b :: a :: r
  | l => l

def _root_.Ygo.ResizeOp.mirrored (r : ResizeOp) : ResizeOp := { r with place := r.place.mirrored }
def _root_.Ygo.PlacePair.mirrored (o : PlacePair) : PlacePair := ⟨o.fst.mirrored, o.snd.mirrored⟩
def _root_.Ygo.SpliceOp.mirrored (o : SpliceOp) : SpliceOp := { o with src := o.src.mirrored, dst := o.dst.mirrored }

def _root_.Ygo.BoardState.mirrored (s : BoardState) : BoardState :=
  { s with
    lps := turned s.lps, chains := s.chains.map Chain.mirrored, add := s.add.map Place.mirrored, resize := s.resize.map ResizeOp.mirrored }

def _root_.Ygo.BoardExchange.mirrored (e : BoardExchange) : BoardExchange :=
  ⟨other e.con, e.remove.map Place.mirrored, e.add.map Place.mirrored, e.resize.map ResizeOp.mirrored⟩

def _root_.Ygo.CardEvent.mirrored : CardEvent → CardEvent
  | .unset => .unset
  | .add ps => .add (ps.map Place.mirrored)
  | .exchange ops => .exchange (ops.map PlacePair.mirrored)
  | .move ops => .move (ops.map PlacePair.mirrored)
  | .remove ps => .remove (ps.map Place.mirrored)
  | .shuffle prev cur => .shuffle (prev.map Place.mirrored) (cur.map Place.mirrored)

def _root_.Ygo.PileEvent.mirrored : PileEvent → PileEvent
  | .unset => .unset
  | .exchange ops => .exchange (ops.map PlacePair.mirrored)
  | .resize ops => .resize (ops.map ResizeOp.mirrored)
  | .splice ops => .splice (ops.map SpliceOp.mirrored)

def _root_.Ygo.MetaEvent.mirrored : MetaEvent → MetaEvent
  | .attack a b => .attack a.mirrored b.mirrored
  | .confirm r ps => .confirm r (ps.map Place.mirrored)
  | .description con t => .description (other con) t
  | .missedTiming ps => .missedTiming (ps.map Place.mirrored)
  | .selection p r ps => .selection p.mirrored r (ps.map Place.mirrored)
  | .shufflePile ps => .shufflePile (ps.map Place.mirrored)
  | .update r ps => .update r (ps.map Place.mirrored)
  | m => m

def _root_.Ygo.Event.mirrored : Event → Event
  | .board (.exchange e) => .board (.exchange e.mirrored)
  | .board (.state s) => .board (.state s.mirrored)
  | .card r e => .card r e.mirrored
  | .chainStack (.push c) => .chainStack (.push c.mirrored)
  | .nextTurn con => .nextTurn (other con)
  | .finish ⟨w, m, .winner con⟩ => .finish ⟨w, m, .winner (other con)⟩
  | .lp con c => .lp (other con) c
  | .metaInfo m => .metaInfo m.mirrored
  | .pile r e => .pile r e.mirrored
  | .result (.coin a vs) => .result (.coin (other a) vs)
  | .result (.dice a vs) => .result (.dice (other a) vs)
  | .result (.rps vs) => .result (.rps (turned vs))
  | .zoneBlock zs => .zoneBlock (zs.map Place.mirrored)
  | e => e

def _root_.Ygo.ActCard.mirrored (a : ActCard) : ActCard := { a with place := a.place.mirrored }
def _root_.Ygo.SelectableCard.mirrored (a : SelectableCard) : SelectableCard := { a with place := a.place.mirrored }

def _root_.Ygo.SelectCard.mirrored : SelectCard → SelectCard
  | .recursive f a mn mx ss ds => .recursive f a mn mx (ss.map SelectableCard.mirrored) (ds.map SelectableCard.mirrored)
  | .uniqueRange c mn mx cs => .uniqueRange c mn mx (cs.map SelectableCard.mirrored)
  | .uniqueSum c e mn mx cs => .uniqueSum c e mn mx (cs.map fun a => { a with place := a.place.mirrored })
  | .uniqueTributes c mn mx cs => .uniqueTributes c mn mx (cs.map fun a => { a with place := a.place.mirrored })
  | s => s

def _root_.Ygo.SelectIdle.mirrored (s : SelectIdle) : SelectIdle :=
  { s with
    activable := s.activable.map ActCard.mirrored, summonable := s.summonable.map Place.mirrored,
    spsummonable := s.spsummonable.map Place.mirrored, repositionable := s.repositionable.map Place.mirrored,
    msetable := s.msetable.map Place.mirrored, ssetable := s.ssetable.map Place.mirrored,
    canAttack := s.canAttack.map fun a => { a with place := a.place.mirrored } }

def _root_.Ygo.Request.mirrored : Request → Request
  | .selectCard s => .selectCard s.mirrored
  | .selectCounter c cs => .selectCounter c (cs.map fun a => { a with place := a.place.mirrored })
  | .selectIdle s => .selectIdle s.mirrored
  | .selectToChain f t cs => .selectToChain f t (cs.map ActCard.mirrored)
  | .selectYesNo p c e => .selectYesNo p.mirrored c e
  | .selectZone b n ps => .selectZone b n (ps.map Place.mirrored)
  | .sort ps => .sort (ps.map Place.mirrored)
  | r => r

/-- A value of a card: what it is equipped to, and its owner. -/
def mirroredVal : (f : QField) → f.Val → f.Val
  | .equippedTo, p => Place.mirrored p
  | .owner, n => other n
  | _, v => v

def _root_.Ygo.QueryData.mirrored (d : QueryData) : QueryData :=
  ⟨fun f => (d.single f).map (mirroredVal f), d.targets.map (List.map Place.mirrored), d.counters⟩

def _root_.Ygo.Query.mirrored (q : Query) : Query := ⟨q.place.mirrored, q.data.mirrored⟩

def _root_.Ygo.Msg.mirrored (m : Msg) : Msg where
  body := match m.body with
    | .unset => .unset
    | .event e => .event e.mirrored
    | .request p r => .request (other p) r.mirrored
  queries := m.queries.map Query.mirrored

def _root_.Ygo.Card.mirrored {V : Type → Type} [Inside V] (c : Card V) : Card V :=
  ⟨fun f => Inside.map (mirroredVal f) (c.single f), Inside.map (List.map Place.mirrored) c.targets, c.counters⟩

/-- What the server tracks. -/
def _root_.Ygo.BasicContext.mirrored (c : BasicContext) : BasicContext :=
  { c with
    board := c.board.mirrored, store := fun x => (c.store x).mirrored, left := fun p => (c.left p.mirrored).map Place.mirrored,
    deferred := c.deferred.map Place.mirrored }

/-! ## Messages of the core -/

namespace LocInfo
def mirrored (i : LocInfo) : LocInfo := if i.base = 0 then i else { i with con := otherByte i.con }
end LocInfo

namespace CardLoc
def mirrored (i : CardLoc) : CardLoc := if i.loc.toNat % 128 = 0 then i else { i with con := otherByte i.con }
end CardLoc

namespace CardLocS
def mirrored (i : CardLocS) : CardLocS := if i.loc.toNat % 128 = 0 then i else { i with con := otherByte i.con }
end CardLocS

namespace CardLocL
def mirrored (i : CardLocL) : CardLocL := if i.base = 0 then i else { i with con := otherByte i.con }
end CardLocL

namespace Activable
def mirrored {L : Type} (f : L → L) (a : Activable L) : Activable L := { a with loc := f a.loc }
end Activable

namespace Link
def mirrored (l : Link) : Link := { l with card := l.card.mirrored, trigger := l.trigger.mirrored }
end Link

namespace QueryItem
def mirrored : QueryItem → QueryItem
  | equipCard l => equipCard l.mirrored
  | targetCard ls => targetCard (ls.map LocInfo.mirrored)
  | owner v => owner (otherByte v)
  | i => i
end QueryItem

/-- The two halves of a field mask exchanged. -/
def halvesTurned (m : UInt32) : UInt32 := UInt32.ofNat (m.toNat % 2 ^ 16 * 2 ^ 16 + m.toNat / 2 ^ 16)

/-- The hands shown, two bits each, exchanged. -/
def handsTurned (h : UInt8) : UInt8 := UInt8.ofNat (h.toNat / 16 * 16 + h.toNat % 4 * 4 + h.toNat / 4 % 4)

namespace CoreMsg

def mirrored : CoreMsg → CoreMsg
  | hint t p d => hint t (otherByte p) d
  | start r l0 l1 m0 e0 m1 e1 => start r l1 l0 m1 e1 m0 e0
  | win w r => win (otherByte w) r
  | updateData c l ss => updateData (if l = 0 then c else otherByte c) l (ss.map (Option.map (List.map QueryItem.mirrored)))
  | updateCard l is => updateCard l.mirrored (is.map QueryItem.mirrored)
  | selectBattlecmd p acts atks m e =>
    selectBattlecmd (otherByte p) (acts.map (Activable.mirrored CardLoc.mirrored)) (atks.map fun a => (a.1, a.2.1.mirrored, a.2.2)) m e
  | selectIdlecmd p s sp r ms ss acts b e sh =>
    selectIdlecmd (otherByte p) (s.map fun x => (x.1, x.2.mirrored)) (sp.map fun x => (x.1, x.2.mirrored)) (r.map fun x => (x.1, x.2.mirrored))
      (ms.map fun x => (x.1, x.2.mirrored)) (ss.map fun x => (x.1, x.2.mirrored)) (acts.map (Activable.mirrored CardLoc.mirrored)) b e sh
  | selectEffectyn p c l e => selectEffectyn (otherByte p) c l.mirrored e
  | selectYesno p e => selectYesno (otherByte p) e
  | selectOption p os => selectOption (otherByte p) os
  | selectCard p c mn mx cs => selectCard (otherByte p) c mn mx (cs.map fun x => (x.1, x.2.mirrored))
  | selectChain p s f t acts => selectChain (otherByte p) s f t (acts.map (Activable.mirrored LocInfo.mirrored))
  | selectPlace p n m => selectPlace (otherByte p) n m
  | selectPosition p c m => selectPosition (otherByte p) c m
  | selectTribute p c mn mx cs => selectTribute (otherByte p) c mn mx (cs.map fun x => (x.1, x.2.1.mirrored, x.2.2))
  | sortChain p cs => sortChain (otherByte p) (cs.map fun x => (x.1, x.2.mirrored))
  | selectDisfield p n m => selectDisfield (otherByte p) n m
  | sortCard p cs => sortCard (otherByte p) (cs.map fun x => (x.1, x.2.mirrored))
  | selectUnselectCard p f c mn mx ss us =>
    selectUnselectCard (otherByte p) f c mn mx (ss.map fun x => (x.1, x.2.mirrored)) (us.map fun x => (x.1, x.2.mirrored))
  | confirmDecktop p cs => confirmDecktop (otherByte p) (cs.map fun x => (x.1, x.2.mirrored))
  | confirmCards p cs => confirmCards (otherByte p) (cs.map fun x => (x.1, x.2.mirrored))
  | shuffleDeck p => shuffleDeck (otherByte p)
  | shuffleHand p cs => shuffleHand (otherByte p) cs
  | swapGraveDeck p n mask => swapGraveDeck (otherByte p) n mask
  | shuffleSetCard l cs => shuffleSetCard l (cs.map fun x => (x.1.mirrored, x.2.mirrored))
  | deckTop p s c pos => deckTop (otherByte p) s c pos
  | shuffleExtra p cs => shuffleExtra (otherByte p) cs
  | newTurn p => newTurn (otherByte p)
  | confirmExtratop p cs => confirmExtratop (otherByte p) (cs.map fun x => (x.1, x.2.mirrored))
  | move c a b r => move c a.mirrored b.mirrored r
  | posChange c l a b => posChange c l.mirrored a b
  | set c l p => set c l.mirrored p
  | swap ca a cb b => swap ca a.mirrored cb b.mirrored
  | fieldDisabled m => fieldDisabled (halvesTurned m)
  | summoning c l => summoning c l.mirrored
  | spsummoning c l => spsummoning c l.mirrored
  | flipsummoning c l => flipsummoning c l.mirrored
  | chaining l n => chaining l.mirrored n
  | cardSelected cs => cardSelected (cs.map LocInfo.mirrored)
  | randomSelected p cs => randomSelected (otherByte p) (cs.map LocInfo.mirrored)
  | becomeTarget cs => becomeTarget (cs.map LocInfo.mirrored)
  | draw p cs => draw (otherByte p) cs
  | damage p n => damage (otherByte p) n
  | recover p n => recover (otherByte p) n
  | equip a b => equip a.mirrored b.mirrored
  | lpupdate p n => lpupdate (otherByte p) n
  | cardTarget a b => cardTarget a.mirrored b.mirrored
  | cancelTarget a b => cancelTarget a.mirrored b.mirrored
  | payLpcost p n => payLpcost (otherByte p) n
  | addCounter t l n => addCounter t l.mirrored n
  | removeCounter t l n => removeCounter t l.mirrored n
  | attack a b => attack a.mirrored b.mirrored
  | battle a x y d b u v e => battle a.mirrored x y d b.mirrored u v e
  | missedEffect l c => missedEffect l.mirrored c
  | tossCoin p rs => tossCoin (otherByte p) rs
  | tossDice p rs => tossDice (otherByte p) rs
  | rockPaperScissors p => rockPaperScissors (otherByte p)
  | handRes h => handRes (handsTurned h)
  | announceRace p n r => announceRace (otherByte p) n r
  | announceAttrib p n a => announceAttrib (otherByte p) n a
  | announceNumber p ns => announceNumber (otherByte p) ns
  | cardHint l t v => cardHint l.mirrored t v
  | tagSwap p m ep dt ex ha => tagSwap (otherByte p) m ep dt ex ha
  | reloadField f s0 s1 cs => reloadField f s1 s0 (cs.map Link.mirrored)
  | playerHint p t e => playerHint (otherByte p) t e
  | m => m

/-- Messages about both sides of the field at once. -/
def BothSides : CoreMsg → Prop
  | start .. | reloadField .. | reverseDeck | fieldDisabled _ => True
  | _ => False

end CoreMsg

/-! ## Results and answers -/

/-- A result of the encoder with the players exchanged. -/
def _root_.Ygo.Encoded.mirrored (r : Encoded) : Encoded := { r with msg := r.msg.map Msg.mirrored }

/-- The same entries: what is listed for the first player and what is listed for the second, in the other order. -/
def SidesSwapped {α : Type} (isOf : α → Int → Prop) (xs ys : List α) : Prop :=
  ∃ a b, xs = a ++ b ∧ ys = b ++ a ∧ (∀ x ∈ a, isOf x 0) ∧ ∀ x ∈ b, isOf x 1

/-- The same event but for the order in which the changes of the two sides are listed. -/
def SidesReordered : Event → Event → Prop
  | .board (.state s), .board (.state t) =>
    s.shape = t.shape ∧ s.turnCounter = t.turnCounter ∧ s.lps = t.lps ∧ s.chains = t.chains ∧
      SidesSwapped (fun p i => p.con = i) s.add t.add ∧ SidesSwapped (fun o i => o.place.con = i) s.resize t.resize
  | .zoneBlock zs, .zoneBlock ws => SidesSwapped (fun p i => p.con = i) zs ws
  | .pile r (.splice xs), .pile r' (.splice ys) => r = r' ∧ SidesSwapped (fun o i => o.src.con = i ∧ o.dst.con = i) xs ys
  | _, _ => False

/-- The message with the players exchanged, but for the order in which the two sides are listed in a message about both. -/
def MirrorImage (m m' : Msg) : Prop :=
  m' = m.mirrored ∨ ∃ e e', m = ⟨.event e, []⟩ ∧ m' = ⟨.event e', []⟩ ∧ SidesReordered e' e.mirrored

/-- The same for results of the encoder, which took as many bytes. -/
def EncodedImage (r r' : Encoded) : Prop := r'.state = r.state ∧ r'.bytesRead = r.bytesRead ∧ Option.Rel MirrorImage r.msg r'.msg

def _root_.Ygo.Answer.mirrored : Answer → Answer
  | .selectZone ps => .selectZone (ps.map Place.mirrored)
  | a => a

/-- Zones as the core reads them, three bytes each, with the players exchanged. -/
def zonesTurned : List UInt8 → List UInt8
  | a :: b :: c :: bs => otherByte a :: b :: c :: zonesTurned bs
  | bs => bs

/-- Zones named in an answer are some player's. -/
def _root_.Ygo.Answer.Players : Answer → Prop
  | .selectZone ps => ∀ p ∈ ps, (p.con = 0 ∨ p.con = 1) ∧ p.loc ≠ 0
  | _ => True

/-- What the core gets of an answer with the players exchanged. -/
def _root_.Ygo.Answer.turned : Answer → List UInt8 → List UInt8
  | .selectZone _, bs => zonesTurned bs
  | _, bs => bs

def Client.mirrored (s : Client) : Client := ⟨s.board.mirrored, fun x => (s.store x).mirrored⟩

end Ygo.Spec
