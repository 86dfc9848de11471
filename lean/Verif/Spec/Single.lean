import Verif.Spec.Tracked

/-!
# Messages about single cards
-/

namespace Ygo.Spec
open Ygo

/-- A card leaves zone `k`, by itself or as a material, while the zone has materials. -/
def LeavesMats (B : Board) (C : Container) : Prop := ∃ k, (C = .slot k ∨ C = .mats k) ∧ B (.mats k) ≠ []

/-- Card `x` can go from position `i` of `C1` to position `j` of `C2`: it is there, the target is free or has that many other cards, and
materials do not meet others. -/
structure CanGo (B : Board) (C1 : Container) (i : Nat) (C2 : Container) (j : Nat) (x : CardId) : Prop where
  there : (B C1)[i]? = some x
  free : ∀ k, C2 = .slot k → B C2 = []
  room : j ≤ (B.take C1 i C2).length
  carry : CarryOk B C1 C2

/-- The board after the card went there, with its materials if it changed zones. -/
def gone (B : Board) (C1 : Container) (i : Nat) (C2 : Container) (j : Nat) (x : CardId) : Board := ((B.take C1 i).put C2 j x).carry C1 C2

/-- The place a card goes to in a shuffle of set cards; the core writes zeros when it does not tell. -/
def targetPlace : Option ZoneKey → Place → Prop
  | none, p => p.loc = 0
  | some k, p => p = zonePlace k

end Ygo.Spec
