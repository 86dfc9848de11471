import Verif.Spec.Room

/-!
# What is said to everyone in a room

Announcements are for everyone in the room; the other events are for one client: what a newcomer is told, what became of a deck, and
the question who goes first.
-/

namespace Ygo.Spec
open Ygo.Room

/-- For everyone. -/
def forEveryone : Room.Event → Bool
  | .entering _ _ _ | .deckStatus _ | .decideFirstTurn _ => false
  | .duelistEnters _ | .updateDuelist _ | .decidingEntering | .result _ _ | .spectatorCount _ => true

/-- Everyone in the room, once for each seat and once among the spectators. -/
def audience (r : Room) : List ClientId :=
  [seat r 0 0, seat r 0 1, seat r 0 2, seat r 1 0, seat r 1 1, seat r 1 2].filterMap id ++ r.spectators

/-- Who an event that is not for everyone may be for: the newcomer, the owner of the deck, the one to decide. -/
def Meant (c : Room.Call) (r' : Room) : Sent → Prop
  | (x, .entering _ _ _) => c = .enter x
  | (x, .deckStatus _) => ∃ d, c = .visit x (.configuring (.updateDeck d))
  | (x, .decideFirstTurn _) => r'.state = .deciding (some x)
  | _ => False

/-- Two rooms that differ in the deck in one seat of this client at most. -/
def SameButDeckOf (x : ClientId) (r r' : Room) : Prop :=
  ∃ t p s deck valid, slotAt r t p = some s ∧ s.client = some x ∧ r' = r.setSlot t p { s with deck := deck, deckValid := valid }

end Ygo.Spec
