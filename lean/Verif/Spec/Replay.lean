import Verif.Spec.Duel
import Verif.Spec.Rewind

/-!
# Watching a duel again
-/

namespace Ygo.Spec
open Ygo

/-- Messages whose events can be undone on every board. -/
def CanGoBack : CoreMsg → Prop
  | .shuffleSetCard .. | .chaining .. | .chainSolved .. | .tagSwap .. => False
  | _ => True

/-- A board that can be undone shows a duel: every pile, zone and material list has the duel's cards in order, `ρ` giving the card each one
is shown as, and turn, phase, life points and chain are those of the duel. -/
structure Replayed (ρ : CardId → CardId) (d : Duel) (u : UndoBoard) : Prop where
  cards : view u.frame.base.layout = d.cards.rename ρ
  apart : ∀ x y, d.cards.Has x → d.cards.Has y → ρ x = ρ y → x = y
  turn : u.turn.get = .ok d.score.turn
  player : u.turnController.get = .ok d.score.player
  phase : u.phase.get = .ok d.score.phase
  lp : ∀ i, (u.lp i).get = .ok (d.score.lp i)
  chain : u.chainStack.get = .ok d.score.chain

/-- How many events the server sends for the first messages of the core. -/
def eventsFor (ms : List CoreMsg) (n : Nat) : Prop := ∃ rs c, feed BasicContext.init (ms.map (·.bytes)) = .ok (rs, c) ∧ (events rs).length = n

end Ygo.Spec
