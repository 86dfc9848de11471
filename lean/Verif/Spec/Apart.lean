import Verif.Spec.Table

/-!
# Events that have nothing to do with each other
-/

namespace Ygo.Spec
open Ygo

/-- The place is in the pile, or in the zone that the card or the materials belong to. -/
def Reaches (p : Place) : Container → Prop
  | .pile k => p.con = k.con.val ∧ p.loc = k.loc.code
  | .slot k | .mats k => Names p k

/-- The places a call names. -/
def placesOf : FrameOp → List Place
  | .add p | .remove p | .resize p _ => [p]
  | .move a b | .swap a b | .splice a _ b _ | .pswap a b => [a, b]
  | .shuffle prev cur _ => prev ++ cur
  | .clear => []

/-- What a call may change: the piles and zones it names; clearing changes all. -/
def Touches (op : FrameOp) (C : Container) : Prop := op = .clear ∨ ∃ p ∈ placesOf op, Reaches p C

/-- The values beside the table. -/
inductive Value where
  | chain
  | turn
  | lp (i : Fin 2)
  | phase
  | blocked
  deriving DecidableEq

/-- The values an event is about. -/
def valuesOf : Event → List Value
  | .board (.state _) => [.chain, .turn, .lp 0, .lp 1]
  | .chainStack _ => [.chain]
  | .nextTurn _ => [.turn]
  | .lp con _ => if con = 0 then [.lp 0] else [.lp 1]
  | .nextPhase _ => [.phase]
  | .zoneBlock _ => [.blocked]
  | _ => []

/-- Two events that name different piles and zones and are about different values. -/
def Apart (e e' : Event) : Prop :=
  (∀ op ∈ callsOf e, ∀ op' ∈ callsOf e', ∀ C, ¬ (Touches op C ∧ Touches op' C)) ∧ ∀ v ∈ valuesOf e, v ∉ valuesOf e'

/-- The second sequence comes from the first by exchanging neighbours that have nothing to do with each other, any number of times. -/
inductive Reordered : List Event → List Event → Prop
  | refl (es : List Event) : Reordered es es
  | swap (pre : List Event) (e e' : Event) (post : List Event) (h : Apart e e') : Reordered (pre ++ e :: e' :: post) (pre ++ e' :: e :: post)
  | trans {es es' es'' : List Event} (h : Reordered es es') (h' : Reordered es' es'') : Reordered es es''

/-- The same game with other names for the cards. -/
def Game.renamed (G : Game) (σ : CardId → CardId) : Game := { G with table := ⟨fun C => (G.table.board C).map σ, G.table.next⟩ }

/-- Other names for the cards from `n` on: names are exchanged, those below stay. -/
def Renames (n : CardId) (σ : CardId → CardId) : Prop := (∃ τ : CardId → CardId, (∀ x, τ (σ x) = x) ∧ ∀ x, σ (τ x) = x) ∧ ∀ x < n, σ x = x

end Ygo.Spec
