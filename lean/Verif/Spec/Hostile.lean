import Verif.Spec.Table
import Verif.Spec.Place
import Verif.Spec.Stream

/-!
# Which calls are undefined, for arguments nobody has checked

Events come over the network: a place can carry any controller, location and sequence number.
-/

namespace Ygo.Spec
open Ygo

/-- One of the bits of the zone locations is set. -/
def OnField (loc : Nat) : Prop :=
  loc.testBit 2 = true ∨ loc.testBit 3 = true ∨ loc.testBit 8 = true ∨ loc.testBit 9 = true ∨ loc.testBit 10 = true

/-- The location is no row of zones: it is neither of the five constants. -/
def NoRow (loc : Nat) : Prop := ∀ n, (loc, n) ∉ zoneLocs

/-- A position that a row of zones has, for a player before the first one. -/
def BeforeFirst (p : Place) : Prop := (∃ n, (p.loc, n) ∈ zoneLocs ∧ p.seq < n) ∧ p.con < 0

/-- Asking whether a card is there is undefined: a pile of no player, or one that is none of the five, unless the player is too large
(which is checked); a location with a zone bit that is none of the five rows; a zone of a player before the first one. -/
def LookBad (p : Place) : Prop :=
  (InPile p.loc ∧ p.con ≤ 1 ∧ ¬ WellFormed p) ∨ (¬ InPile p.loc ∧ OnField p.loc ∧ (NoRow p.loc ∨ BeforeFirst p))

/-- Putting a card there is undefined: as before, but a location without a zone bit is not caught any more, and the player is
looked at first. -/
def PutBad (p : Place) : Prop :=
  p.con ≤ 1 ∧ ((InPile p.loc ∧ ¬ WellFormed p) ∨ (¬ InPile p.loc ∧ (NoRow p.loc ∨ BeforeFirst p)))

/-- There is a card at the place. -/
def Occupied (B : Board) (p : Place) : Prop := ∃ C i, At p C i ∧ i < (B C).length

/-- The calls that are undefined. -/
def Undefined (f : Frame) : FrameOp → Prop
  | .add p => PutBad p
  | .remove p => LookBad p
  | .move a b => LookBad a ∨
      (Occupied (view f.layout) a ∧ (InPile a.loc → a.oseq < 0) ∧ (InPile b.loc → b.oseq < 0) ∧ PutBad b)
  | .swap a b => LookBad a ∨ (Occupied (view f.layout) a ∧ LookBad b) ∨
      ∃ k i C j, At a (.mats k) i ∧ i < (view f.layout (.mats k)).length ∧ (view f.layout (.mats k)).length ≤ a.seq ∧
        At b C j ∧ j < (view f.layout C).length ∧ ∀ k', C ≠ .pile k'
  | .resize p _ => InPile p.loc ∧ PutBad p
  | .splice a n b _ => InPile a.loc ∧ InPile b.loc ∧ (PutBad a ∨
      ∃ k1 i, At a (.pile k1) i ∧ n + i ≤ (view f.layout (.pile k1)).length ∧
        (PutBad b ∨ ∃ k2 j, At b (.pile k2) j ∧ ((view f.layout).cut (.pile k1) i n (.pile k2)).length < j))
  | .pswap a b => InPile a.loc ∧ InPile b.loc ∧ (PutBad a ∨ (WellFormed a ∧ PutBad b))
  | .shuffle prev cur n => prev = [] ∨ (n ≤ 7 ∧ (∃ p, prev.head? = some p ∧ ¬ InPile p.loc) ∧
      -- one of the places before the shuffle is missing or cannot be looked at
      ((∃ m, m < n ∧ (∀ p ∈ prev.take m, Occupied (view f.layout) p) ∧ ∀ p, prev[m]? = some p → LookBad p) ∨
      -- the shuffle of the first ones goes well, and the next place after the shuffle is missing, is no row of zones, or is one of
      -- a player before the first one where the same row of the first player would do
      ((∀ p ∈ prev.take n, Occupied (view f.layout) p) ∧ n ≤ prev.length ∧ ∃ m, m < n ∧ (∃ g, f.step (.shuffle prev cur m) = .ok g) ∧
        ∀ q, cur[m]? = some q → q.loc ≠ 0 ∧ q.con ≤ 1 ∧
          (NoRow q.loc ∨ (q.con < 0 ∧ ∃ g, f.step (.shuffle prev (cur.take m ++ [⟨0, q.loc, 0, -1⟩]) (m + 1)) = .ok g)))))
  | .clear => False

end Ygo.Spec
