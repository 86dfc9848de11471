import Verif.Spec.Notes

/-!
# How much a server may have to remember
-/

namespace Ygo.Spec
open Ygo

/-- Cards on the board that a server tracks. -/
def cardsInPlay (c : BasicContext) : Nat := (placed (boardOf c)).length

/-- Never were there more than `n` cards. -/
def AtMost (n : Nat) (ms : List CoreMsg) : Prop := ∀ i c, After ms i c → cardsInPlay c ≤ n

/-- Materials are numbered from 0. -/
def Counted (ms : List CoreMsg) : Prop := ∀ code a b r, CoreMsg.move code a b r ∈ ms → -1 ≤ a.place.oseq ∧ -1 ≤ b.place.oseq

/-- The places that there are with `n` cards: in piles, in zones and beneath zones. -/
def placesFor (n : Nat) : List Place :=
  (allPiles.flatMap fun k => (List.range n).map (pilePlace k)) ++ allZones.map zonePlace ++
    allZones.flatMap fun k => (List.range n).map fun i => { zonePlace k with oseq := (i : Int) }

end Ygo.Spec
