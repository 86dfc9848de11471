import Verif.Spec.Stream
import Verif.Spec.Frame

/-!
# The tracked board after streams of messages
-/

namespace Ygo.Spec
open Ygo

/-- The tracked state after several messages. -/
def trackAll : BasicContext → List CoreMsg → Res BasicContext
  | c, [] => .ok c
  | c, m :: ms => do trackAll (← track c m.bytes) ms

/-- What is on the tracked board. -/
def boardOf (c : BasicContext) : Board := view c.board.frame.layout

/-- A card that has not been made yet. -/
def NotMade (c : BasicContext) (x : CardId) : Prop := c.board.frame.next ≤ x

/-- The tracked state with other positions of the cards, everything else as it is. -/
def setLayout (c : BasicContext) (l : Layout) : BasicContext :=
  { c with board := { c.board with frame := { c.board.frame with layout := l } } }

/-- The place of a zone's card. -/
def zonePlace (k : ZoneKey) : Place := ⟨k.con.val, k.loc.code, k.seq, -1⟩

/-- The place of a card in a pile. -/
def pilePlace (k : PileKey) (i : Nat) : Place := ⟨k.con.val, k.loc.code, i, -1⟩

/-- A message that a card moves. -/
structure MoveMsg where
  code : UInt32
  src : LocInfo
  dst : LocInfo
  reason : UInt32

/-- As a message of the core. -/
def MoveMsg.msg (m : MoveMsg) : CoreMsg := .move m.code m.src m.dst m.reason

/-- The board after the cards `xs` in the slots `keys` and the card `x` at position `e` of pile `p` became one monster with
materials in zone `k`. -/
def overlaid (B : Board) (keys : List ZoneKey) (xs : List CardId) (p : PileKey) (e : Nat) (x : CardId) (k : ZoneKey) : Board
  | .pile p' => if p' = p then (B (.pile p)).eraseIdx e else B (.pile p')
  | .slot k' => if k' = k then [x] else if k' ∈ keys then [] else B (.slot k')
  | .mats k' => if k' = k then xs else B (.mats k')

/-- The cards of `xs` that belong to pile `p`, where `ds` lists the piles they belong to. -/
def destined (xs : List CardId) (ds : List PileKey) (p : PileKey) : List CardId :=
  ((xs.zip ds).filter fun x => x.2 = p).map (·.1)

/-- The board after the materials of zone `k` went on top of the piles `ds`. -/
def dispersed (B : Board) (k : ZoneKey) (ds : List PileKey) : Board
  | .pile p => B (.pile p) ++ destined (B (.mats k)) ds p
  | .slot k' => B (.slot k')
  | .mats k' => if k' = k then [] else B (.mats k')

end Ygo.Spec
