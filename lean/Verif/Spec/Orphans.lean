import Verif.Spec.Tracked

/-!
# Materials whose monster is in a pile
-/

namespace Ygo.Spec
open Ygo

/-- The place of a material beneath a card in a pile, as the core speaks of the materials of a monster that has left the field. -/
def Orphaned (p : Place) : Prop := InPile p.loc ∧ 0 ≤ p.oseq

/-- The message says that a card arrives in a zone. -/
def Arrives (m : CoreMsg) : Prop := ∃ code a b r, m = .move code a b r ∧ moveKind a.place b.place = .arrival

/-- The message says that a material whose monster is in a pile is attached to a card in a pile. -/
def PassesOn (m : CoreMsg) : Prop := ∃ code a b r, m = .move code a b r ∧ Orphaned a.place ∧ moveKind a.place b.place = .deferred

end Ygo.Spec
