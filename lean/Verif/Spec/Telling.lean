import Verif.Spec.System

/-!
# What is told about cards
-/

namespace Ygo.Spec
open Ygo

/-- What is told by both, the first being the later one. -/
def QueryData.over (d e : QueryData) : QueryData :=
  ⟨fun f => (d.single f).or (e.single f), d.targets.or e.targets, d.counters.or e.counters⟩

/-- Both give the same thing a value. -/
def QueryData.Clash (d e : QueryData) : Prop :=
  (∃ f, d.single f ≠ none ∧ e.single f ≠ none) ∨ (d.targets ≠ none ∧ e.targets ≠ none) ∨ (d.counters ≠ none ∧ e.counters ≠ none)

/-- The last of some optional values that is there. -/
def lastSome {α : Type} (os : List (Option α)) : Option α := os.reverse.findSome? id

end Ygo.Spec
