import Verif.Model.Place

/-!
# What locations and places are

Independent of the bit tests and of the comparison code.
-/

namespace Ygo.Spec

/-- The five pile locations. -/
def pileLocs : List Nat := [0x1, 0x2, 0x10, 0x20, 0x40]
/-- The five zone locations with the number of zones each has. -/
def zoneLocs : List (Nat × Nat) := [(0x4, 7), (0x8, 5), (0x100, 1), (0x200, 2), (0x400, 1)]

/-- A place that names a slot that exists on every board: a pile of one of the two players, or a zone of one of
the two players within the row's length. -/
inductive WellFormed : Place → Prop
  | pile (c : Int) (l s : Nat) (o : Int) (hc : c = 0 ∨ c = 1) (hl : l ∈ pileLocs) : WellFormed ⟨c, l, s, o⟩
  | zone (c : Int) (l n s : Nat) (o : Int) (hc : c = 0 ∨ c = 1) (hl : (l, n) ∈ zoneLocs) (hs : s < n) :
      WellFormed ⟨c, l, s, o⟩

/-- Lexicographic order on the four fields. -/
def PlaceLt (a b : Place) : Prop :=
  a.con < b.con ∨ a.con = b.con ∧ (a.loc < b.loc ∨ a.loc = b.loc ∧ (a.seq < b.seq ∨ a.seq = b.seq ∧ a.oseq < b.oseq))

end Ygo.Spec
