import Verif.Model.Query

/-!
# What a query is to its users
-/

namespace Ygo.Spec
open Ygo

/-- Bit reported for a cache hit on a field: the position of the core's query flag. -/
def flagBit : QField → Nat
  | .code => 0
  | .position => 1
  | .alias => 2
  | .type => 3
  | .level => 4
  | .xyzRank => 5
  | .attribute => 6
  | .race => 7
  | .atk => 8
  | .def_ => 9
  | .baseAtk => 10
  | .baseDef => 11
  | .equippedTo => 14
  | .owner => 18
  | .status => 19
  | .isPublic => 20
  | .pendLScale => 21
  | .pendRScale => 22
  | .isHidden => 24
  | .cover => 25
  | .linkRate => 32
  | .linkArrow => 33

/-- A card after a query: the given fields have the given values, the others keep theirs. `get` reads a member. -/
structure Answered {V : Type → Type} (get : {α : Type} → V α → Res α) (d : QueryData) (c c' : Card V) : Prop where
  given : ∀ f v, d.single f = some v → get (c'.single f) = .ok v
  kept : ∀ f, d.single f = none → c'.single f = c.single f
  targetsGiven : ∀ v, d.targets = some v → get c'.targets = .ok v
  targetsKept : d.targets = none → c'.targets = c.targets
  countersGiven : ∀ v, d.counters = some v → get c'.counters = .ok v
  countersKept : d.counters = none → c'.counters = c.counters

end Ygo.Spec
