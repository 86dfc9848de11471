import Verif.Spec.Mirror

/-!
# A duel with other cards

Every card is replaced by another one: in the core's messages, in the server's, and on the table.  Opcodes and descriptions of effects,
in which codes are hidden, stay.
-/

namespace Ygo.Spec
open Ygo

/-- For every card another one; code 0 stands for a card nobody knows. -/
structure Recoding where
  of : UInt32 → UInt32
  injective : ∀ a b, of a = of b → a = b
  zero : of 0 = 0

variable (f : Recoding)

/-- The same for the numbers in messages. -/
def Recoding.number (n : Nat) : Nat := if n < 2 ^ 32 then (f.of (UInt32.ofNat n)).toNat else n

/-! ## Messages of the core -/

namespace QueryItem
def recoded : QueryItem → QueryItem
  | code v => code (f.of v)
  | alias_ v => alias_ (f.of v)
  | cover v => cover (f.of v)
  | overlayCard cs => overlayCard (cs.map f.of)
  | i => i
end QueryItem

/-- Cards that are listed with their codes. -/
def recodedCards {α : Type} (cs : List (UInt32 × α)) : List (UInt32 × α) := cs.map fun c => (f.of c.1, c.2)

def Activable.recoded {L : Type} (a : Activable L) : Activable L := { a with code := f.of a.code }
def Link.recoded (l : Link) : Link := { l with code := f.of l.code }

namespace CoreMsg
def recoded : CoreMsg → CoreMsg
  | updateData c l ss => updateData c l (ss.map (Option.map (List.map (QueryItem.recoded f))))
  | updateCard l is => updateCard l (is.map (QueryItem.recoded f))
  | selectBattlecmd p acts atks m e => selectBattlecmd p (acts.map (Activable.recoded f)) (recodedCards f atks) m e
  | selectIdlecmd p s sp r ms ss acts b e sh =>
    selectIdlecmd p (recodedCards f s) (recodedCards f sp) (recodedCards f r) (recodedCards f ms) (recodedCards f ss)
      (acts.map (Activable.recoded f)) b e sh
  | selectEffectyn p c l e => selectEffectyn p (f.of c) l e
  | selectCard p c mn mx cs => selectCard p c mn mx (recodedCards f cs)
  | selectChain p s fo t acts => selectChain p s fo t (acts.map (Activable.recoded f))
  | selectPosition p c m => selectPosition p (f.of c) m
  | selectTribute p c mn mx cs => selectTribute p c mn mx (recodedCards f cs)
  | sortChain p cs => sortChain p (recodedCards f cs)
  | sortCard p cs => sortCard p (recodedCards f cs)
  | selectUnselectCard p fi c mn mx ss us => selectUnselectCard p fi c mn mx (recodedCards f ss) (recodedCards f us)
  | confirmDecktop p cs => confirmDecktop p (recodedCards f cs)
  | confirmCards p cs => confirmCards p (recodedCards f cs)
  | confirmExtratop p cs => confirmExtratop p (recodedCards f cs)
  | shuffleHand p cs => shuffleHand p (cs.map f.of)
  | shuffleExtra p cs => shuffleExtra p (cs.map f.of)
  | deckTop p s c pos => deckTop p s (f.of c) pos
  | move c a b r => move (f.of c) a b r
  | posChange c l a b => posChange (f.of c) l a b
  | set c l p => set (f.of c) l p
  | swap c a d b => swap (f.of c) a (f.of d) b
  | summoning c l => summoning (f.of c) l
  | spsummoning c l => spsummoning (f.of c) l
  | flipsummoning c l => flipsummoning (f.of c) l
  | chaining l n => chaining (l.recoded f) n
  | draw p cs => draw p (recodedCards f cs)
  | missedEffect l c => missedEffect l (f.of c)
  | tagSwap p m ep c ex ha => tagSwap p m ep (f.of c) (recodedCards f ex) (recodedCards f ha)
  | reloadField fl s0 s1 cs => reloadField fl s0 s1 (cs.map (Link.recoded f))
  | m => m
end CoreMsg

/-! ## Messages of the server -/

def _root_.Ygo.SelectableCard.recoded (a : SelectableCard) : SelectableCard := { a with code := f.number a.code }

def _root_.Ygo.SelectCard.recoded : SelectCard → SelectCard
  | .limbo c mn mx codes => .limbo c mn mx (codes.map f.number)
  | .recursive fi a mn mx ss ds => .recursive fi a mn mx (ss.map (SelectableCard.recoded f)) (ds.map (SelectableCard.recoded f))
  | .uniqueRange c mn mx cs => .uniqueRange c mn mx (cs.map (SelectableCard.recoded f))
  | .uniqueSum c e mn mx cs => .uniqueSum c e mn mx (cs.map fun a => { a with code := f.number a.code })
  | .uniqueTributes c mn mx cs => .uniqueTributes c mn mx (cs.map fun a => { a with code := f.number a.code })
  | .unset => .unset

def _root_.Ygo.Request.recoded : Request → Request
  | .selectCard s => .selectCard (s.recoded f)
  | .selectPosition n c p => .selectPosition n (f.number c) p
  | .selectYesNo p c e => .selectYesNo p (f.number c) e
  | r => r

/-- A value of a card: its code, the code it goes by, and that of its sleeve. -/
def recodedVal : (g : QField) → g.Val → g.Val
  | .code, v => f.number v
  | .«alias», v => f.number v
  | .cover, v => f.number v
  | _, v => v

def _root_.Ygo.QueryData.recoded (d : QueryData) : QueryData := ⟨fun g => (d.single g).map (recodedVal f g), d.targets, d.counters⟩

def _root_.Ygo.Query.recoded (q : Query) : Query := ⟨q.place, q.data.recoded f⟩

/-- Events are left as they are. -/
def _root_.Ygo.Msg.recoded (m : Msg) : Msg where
  body := match m.body with
    | .request p r => .request p (r.recoded f)
    | b => b
  queries := m.queries.map (Query.recoded f)

def _root_.Ygo.Encoded.recoded (r : Encoded) : Encoded := { r with msg := r.msg.map (Msg.recoded f) }

/-! ## What is on the table -/

def _root_.Ygo.Card.recoded {V : Type → Type} [Inside V] (c : Card V) : Card V :=
  { c with single := fun g => Inside.map (recodedVal f g) (c.single g) }

def _root_.Ygo.BasicContext.recoded (c : BasicContext) : BasicContext := { c with store := fun x => (c.store x).recoded f }

def Client.recoded (s : Client) : Client := { s with store := fun x => (s.store x).recoded f }

end Ygo.Spec
