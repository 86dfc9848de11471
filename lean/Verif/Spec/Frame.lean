import Verif.Model.Frame

/-!
# What a frame is to its users

A board is a family of lists of cards, one list per container: each pile, each zone's card slot (at most one
card) and each zone's stack of materials.  A place names a position in one container.  The specification
of every frame operation is a list operation on one or two containers.
-/

namespace Ygo.Spec
open Ygo

inductive Container where
  /-- A pile of a player. -/
  | pile (k : PileKey)
  /-- The card slot of a zone. -/
  | slot (k : ZoneKey)
  /-- The materials under a zone's card. -/
  | mats (k : ZoneKey)
  deriving DecidableEq

/-- Contents of every container. -/
abbrev Board := Container → List CardId

/-- What is on a layout. -/
def view (l : Layout) : Board
  | .pile k => l.pile k
  | .slot k => (l.zone k).card.toList
  | .mats k => (l.zone k).materials

/-- Replace the contents of one container. -/
def Board.upd (B : Board) (C : Container) (v : List CardId) : Board := fun C' => if C' = C then v else B C'

/-- `At p C i`: the place `p` names position `i` of container `C`. The overlay sequence distinguishes a zone's card
(negative) from its materials. -/
inductive At : Place → Container → Nat → Prop
  | pile (k : PileKey) (s : Nat) (o : Int) : At ⟨k.con.val, k.loc.code, s, o⟩ (.pile k) s
  | slot (k : ZoneKey) (o : Int) (h : o < 0) : At ⟨k.con.val, k.loc.code, k.seq, o⟩ (.slot k) 0
  | mats (k : ZoneKey) (n : Nat) : At ⟨k.con.val, k.loc.code, k.seq, n⟩ (.mats k) n

/-- A pile place must not carry a material index. -/
def PlainPile (p : Place) (C : Container) : Prop := ∀ k, C = .pile k → p.oseq < 0

/-- A card can be put at position `i` of `C`: no gap, and a zone slot only takes a card when empty. -/
def Fits (B : Board) (C : Container) (i : Nat) : Prop :=
  i ≤ (B C).length ∧ ∀ k, C = .slot k → B C = []

/-- Put a card at a position, shifting later cards up. -/
def Board.put (B : Board) (C : Container) (i : Nat) (c : CardId) : Board := B.upd C ((B C).insertIdx i c)

/-- Take the card at a position out, shifting later cards down. -/
def Board.take (B : Board) (C : Container) (i : Nat) : Board := B.upd C ((B C).eraseIdx i)

/-- A zone card that moves to another zone takes its materials along. -/
def Board.carry (B : Board) : Container → Container → Board
  | .slot k1, .slot k2 => (B.upd (.mats k2) (B (.mats k1))).upd (.mats k1) []
  | _, _ => B

/-- Materials do not travel onto other materials. -/
def CarryOk (B : Board) : Container → Container → Prop
  | .slot _, .slot k2 => B (.mats k2) = []
  | _, _ => True

/-- Exchange the cards at two positions. -/
def Board.exchange (B : Board) (C1 : Container) (i : Nat) (C2 : Container) (j : Nat) (c1 c2 : CardId) : Board :=
  let B' := B.upd C1 ((B C1).set i c2)
  B'.upd C2 ((B' C2).set j c1)

/-- Two zone cards that change places take their materials along. -/
def Board.swapMats (B : Board) : Container → Container → Board
  | .slot k1, .slot k2 => (B.upd (.mats k1) (B (.mats k2))).upd (.mats k2) (B (.mats k1))
  | _, _ => B

/-- A zone card with materials may not be swapped into a pile. -/
def SwapOk (B : Board) : Container → Container → Prop
  | .slot k, .pile _ => B (.mats k) = []
  | .pile _, .slot k => B (.mats k) = []
  | _, _ => True

/-- Remove the `n` cards starting at position `i`. -/
def Board.cut (B : Board) (C : Container) (i n : Nat) : Board := B.upd C ((B C).take i ++ (B C).drop (i + n))

/-- Insert a block of cards at position `i`. -/
def Board.paste (B : Board) (C : Container) (i : Nat) (v : List CardId) : Board :=
  B.upd C ((B C).take i ++ v ++ (B C).drop i)

/-- The `n` cards starting at position `i`, in reverse order iff asked. -/
def Board.block (B : Board) (C : Container) (i n : Nat) (rev : Bool) : List CardId :=
  if rev then (((B C).drop i).take n).reverse else ((B C).drop i).take n

/-- Exchange the full contents of two containers. -/
def Board.swapAll (B : Board) (C1 C2 : Container) : Board := (B.upd C1 (B C2)).upd C2 (B C1)

/-- All containers of a board. -/
def containers : List Container :=
  allPiles.map .pile ++ allZones.map .slot ++ allZones.map .mats

/-- All cards on a board. -/
def placed (B : Board) : List CardId := containers.flatMap B

/-- The frame's cards are exactly the placed ones, each once. -/
structure Owns (f : Frame) : Prop where
  /-- Same cards, same multiplicities. -/
  perm : (placed (view f.layout)).Perm f.owned
  /-- No card twice. -/
  nodup : f.owned.Nodup

/-- The position whose card `card_swap` exchanges for the first place: where the other place is not in a pile, a material is looked up by
the number of its zone. -/
def swappedIndex : Container → Container → Nat → Nat
  | .mats _, .pile _, i => i
  | .mats k, _, _ => k.seq
  | _, _, i => i

end Ygo.Spec

namespace Ygo.Spec
open Ygo

/-- Frames that a user can get by calling public operations on a new frame, none of which aborted. -/
def Reachable (f : Frame) : Prop := ∃ ops, Frame.init.run ops = .ok f

/-- The place names the zone `k` (whatever its overlay sequence). -/
def Names (p : Place) (k : ZoneKey) : Prop := p.con = k.con.val ∧ p.loc = k.loc.code ∧ p.seq = k.seq

/-- The first place does not trigger the wrong index in `card_swap`: it is not a material, or the other place is in a
pile, or the material index happens to equal the zone's sequence. -/
def SwapIndexOk (a : Place) (C1 C2 : Container) (i : Nat) : Prop :=
  (∃ k, C1 = .mats k) → (∃ k, C2 = .pile k) ∨ a.seq = i

end Ygo.Spec
