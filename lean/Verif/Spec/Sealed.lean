import Verif.Spec.RoomNames

/-!
# What a room passes on without looking into it
-/

namespace Ygo.Spec
open Ygo Ygo.Room

/-- Other decks, users, reasons why decks are refused, limits for decks and banlists of a room's own. -/
structure Sealing where
  deck : Deck → Deck
  user : User → User
  error : DeckError → DeckError
  limits : Option DeckLimits → Option DeckLimits
  list : Banlist → Banlist
  /-- The deck of an empty seat. -/
  empty : deck {} = {}

variable (σ : Sealing)

/-- The other users have these clients, and the validator judges the other decks as this one judges the decks. -/
structure SealedEnv (env env' : Env) : Prop where
  user : ∀ c, env'.user c = σ.user (env.user c)
  check : ∀ b d, env'.check b (σ.deck d) = ((env.check b d).1, σ.error (env.check b d).2)

def _root_.Ygo.Room.BanlistChoice.sealed : BanlistChoice → BanlistChoice
  | .custom b => .custom (σ.list b)
  | b => b

def _root_.Ygo.Room.Options.sealed (o : Options) : Options := { o with deckLimits := σ.limits o.deckLimits, banlist := o.banlist.sealed σ }

def _root_.Ygo.Room.Duelist.sealed (d : Duelist) : Duelist := { d with user := σ.user d.user }

def _root_.Ygo.Room.Event.sealed : Room.Event → Room.Event
  | .entering o ds n => .entering (o.sealed σ) (ds.map (Duelist.sealed σ)) n
  | .duelistEnters d => .duelistEnters (d.sealed σ)
  | .updateDuelist d => .updateDuelist (d.sealed σ)
  | .deckStatus e => .deckStatus (e.map σ.error)
  | e => e

def sealedSent (m : Sent) : Sent := (m.1, m.2.sealed σ)

def _root_.Ygo.Room.Slot.sealed (s : Slot) : Slot := { s with deck := σ.deck s.deck }

def _root_.Ygo.Room.sealed (r : Room) : Room := { r with options := r.options.sealed σ, teams := fun t => (r.teams t).map (Slot.sealed σ) }

def sealedCall : Room.Call → Room.Call
  | .visit c (.configuring (.updateDeck d)) => .visit c (.configuring (.updateDeck (σ.deck d)))
  | c => c

end Ygo.Spec
