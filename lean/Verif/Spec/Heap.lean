import Verif.Model.Heap
import Verif.Spec.System

/-!
# What does not depend on addresses
-/

namespace Ygo.Spec
open Ygo

/-- Both end well, and how they end is related, or both end badly in the same way. -/
def SameOutcome {α β : Type} (R : α → β → Prop) : Res α → Res β → Prop
  | .ok a, .ok b => R a b
  | .error e, .error e' => e = e'
  | _, _ => False

/-- The same cards at the same places under other names: different cards have different names. -/
structure SameTable (l : Layout) (owned : List CardId) (l' : Layout) (owned' : List CardId) (ρ : CardId → CardId) : Prop where
  apart : ∀ x ∈ owned, ∀ y ∈ owned, ρ x = ρ y → x = y
  owns : owned' = owned.map ρ
  places : ∀ C, view l' C = (view l C).map ρ

/-- The same cards at the same places, about which the same is known, and everything else on the board the same. -/
structure SameClient {pick : Allocator} (s : Client) (b : HeapClient pick) (ρ : CardId → CardId) : Prop where
  table : SameTable s.board.frame.layout s.board.frame.owned b.frame.layout b.frame.owned ρ
  cards : ∀ c ∈ s.board.frame.owned, b.frame.contents (ρ c) = some (s.store c)
  chainStack : b.chainStack = s.board.chainStack
  turn : b.turn = s.board.turn
  turnController : b.turnController = s.board.turnController
  lp : b.lp = s.board.lp
  phase : b.phase = s.board.phase
  blockedZones : b.blockedZones = s.board.blockedZones

/-- What a client knows about the card at a place. -/
def Client.read (s : Client) (p : Place) : Res (Card Plain) := do
  let c ← s.board.frame.layout.card p
  return s.store c

end Ygo.Spec
