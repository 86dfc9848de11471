import Verif.Spec.Tracked
import Verif.Spec.System

/-!
# What a server writes down about cards that leave

The core speaks of a material whose monster has left by the place in the pile where the monster is by then.
-/

namespace Ygo.Spec
open Ygo

/-- The place is in a zone, and there are materials in that zone. -/
def HasBeneath (c : BasicContext) (p : Place) : Prop :=
  ∃ k : ZoneKey, p.con = k.con.val ∧ p.loc = k.loc.code ∧ p.seq = k.seq ∧ boardOf c (.mats k) ≠ []

/-- When a server that tracks `c` gets the message, it writes down that what is at the first place came from the second: if a card leaves a
zone in which there are materials, for a pile, or for good. -/
def Notes (c : BasicContext) (m : CoreMsg) (l s : Place) : Prop :=
  match m with
  | .move _ a b _ => ¬ InPile a.place.loc ∧ HasBeneath c a.place ∧
      ((moveKind a.place b.place = .removed ∧ l = a.place ∧ s = Place.zero) ∨
       (moveKind a.place b.place = .plain ∧ InPile b.place.loc ∧ l = b.place ∧ s = a.place))
  | _ => False

/-- The server that has got the first `i` messages tracks `c`. -/
def After (ms : List CoreMsg) (i : Nat) (c : BasicContext) : Prop := ∃ rs, feed BasicContext.init ((ms.take i).map (·.bytes)) = .ok (rs, c)

/-- Message `i` made the server write down that what is at the first place came from the second, and no later one made it write anything
about the first place. -/
def LastNoted (ms : List CoreMsg) (i : Nat) (l s : Place) : Prop :=
  (∃ m c, ms[i]? = some m ∧ After ms i c ∧ Notes c m l s) ∧
  ∀ j m c s', i < j → ms[j]? = some m → After ms j c → ¬ Notes c m l s'

end Ygo.Spec
