import Verif.Spec.Update

/-!
# What is shown of cards in piles that have materials
-/

namespace Ygo.Spec
open Ygo

/-- The same data with another code. -/
def withCode (d : QueryData) (code : Nat) : QueryData :=
  { d with single := fun f => match f with
      | .code => some code
      | f => d.single f }

/-- What the items for a card in a pile come to mean: what they say about it, but with the code of the last of its materials. -/
def saidInPile (is : List QueryItem) : QueryData :=
  match (QueryItem.materials is).getLast? with
  | none => QueryItem.data is
  | some code => withCode (QueryItem.data is) code

end Ygo.Spec
