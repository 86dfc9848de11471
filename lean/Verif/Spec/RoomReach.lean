import Verif.Spec.RoomStates

/-!
# What a room can still become
-/

namespace Ygo.Spec
open Ygo Ygo.Room

/-- One room has grown out of another one: nobody left, nobody changed the seat, nothing happened to a seat that the room never finds, and decks were
only taken back if some are refused. -/
structure Grown (check : Deck → Bool) (r r' : Room) : Prop where
  options : r'.options = r.options
  host : r'.host = r.host
  rng : r'.rng = r.rng
  seats : ∀ t p x, seat r t p = some x → seat r' t p = some x
  settled : ∀ t p s, slotAt r t p = some s → Shadowed r t p → slotAt r' t p = some s
  decks : ∀ t p s s', slotAt r t p = some s → slotAt r' t p = some s' → s.deckValid = true → s'.deckValid = false → ∃ d, check d = false
  watchers : ∀ x ∈ r.spectators, x ∈ r'.spectators

end Ygo.Spec
