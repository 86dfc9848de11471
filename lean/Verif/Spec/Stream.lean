import Verif.Spec.Core

/-!
# Messages whose translation depends on what is tracked, and streams of messages
-/

namespace Ygo.Spec
open Ygo EncodeContext

/-- A number in 32 bits. -/
def in32 (z : Int) : Nat := (z.emod (2 ^ 32)).toNat

/-- A location that is a pile: one of bits 0, 1, 4, 5, 6 is set. -/
def InPile (loc : Nat) : Prop :=
  loc.testBit 0 = true ∨ loc.testBit 1 = true ∨ loc.testBit 4 = true ∨ loc.testBit 5 = true ∨ loc.testBit 6 = true

/-- What becomes of a card that was at one place and is now at another. -/
inductive MoveKind where
  /-- It neither existed nor exists. -/
  | nothing
  /-- It was not on the board. -/
  | added
  /-- It is no longer on the board. -/
  | removed
  /-- It becomes material of a monster that is not on the field yet. -/
  | deferred
  /-- It arrives in a zone, not as a material. -/
  | arrival
  /-- It was material of a monster that has left the field. -/
  | leftBehind
  /-- Anything else. -/
  | plain
  deriving DecidableEq, Repr

open Classical in
/-- Kind of a move. -/
noncomputable def moveKind (prev curr : Place) : MoveKind :=
  if prev.loc = 0 then (if curr.loc = 0 then .nothing else .added)
  else if curr.loc = 0 then .removed
  else if InPile curr.loc then
    if 0 ≤ curr.oseq then .deferred
    else if InPile prev.loc ∧ 0 ≤ prev.oseq then .leftBehind
    else .plain
  else if curr.oseq < 0 then .arrival
  else if InPile prev.loc ∧ 0 ≤ prev.oseq then .leftBehind
  else .plain

/-- Operations that attach the deferred materials to the monster at `curr`, in order; one that is at its place already needs
none. -/
def attachments (curr : Place) (ds : List Place) : List PlacePair :=
  (ds.zipIdx.map fun (d, i) => (PlacePair.mk d { curr with oseq := (i : Int) })).filter fun x => x.fst ≠ x.snd

namespace CoreMsg
variable {C : Type} [EncodeContext C]

/-- What a message says given what is tracked, for messages that are no moves and do not swap graveyard and deck: the meaning and
what is tracked from then on. -/
def inContext (c : C) : CoreMsg → Option (Res (Meaning × C))
  | win w r => some do
    let n ← getMatchWinReason c
    return (.event (.finish ⟨r.toNat, n, if w = 2 then .draw true else .winner w.toNat⟩), c)
  | matchKill r => some (.ok (.nothing, matchWinReason c r.toNat))
  | deckTop p seq _ _ => some do
    let n ← EncodeContext.pileSize c p.toNat 1
    return (.event (.metaInfo (.update 0 [⟨p.toNat, 1, in32 (n - 1 - seq.toNat), -1⟩])), c)
  | draw p cs => some do
    let deck ← EncodeContext.pileSize c p.toNat 1
    let hand ← EncodeContext.pileSize c p.toNat 2
    return (.event (.pile 0x2000000 (.splice
      [⟨⟨p.toNat, 1, in32 (deck - cs.length), -1⟩, cs.length, ⟨p.toNat, 2, in32 hand, -1⟩, true⟩])), c)
  | reverseDeck => some do
    let n0 ← EncodeContext.pileSize c 0 1
    let n1 ← EncodeContext.pileSize c 1 1
    return (.event (.pile 0x40 (.splice [⟨⟨0, 1, 0, -1⟩, in32 n0, ⟨0, 1, 0, -1⟩, true⟩, ⟨⟨1, 1, 0, -1⟩, in32 n1, ⟨1, 1, 0, -1⟩, true⟩])), c)
  | _ => none

end CoreMsg

/-! ## Streams -/

section
variable {C : Type} [EncodeContext C]

/-- Encodes messages that are given one by one; `use` is what is done with each result before the next message. -/
def eachMessage (use : C → Encoded → Res C) : C → List CoreMsg → Res (List Encoded × C)
  | c, [] => .ok ([], c)
  | c, m :: ms => do
    let (r, c) ← encodeOne c m.bytes
    let c ← use c r
    let (rs, c) ← eachMessage use c ms
    return (r :: rs, c)

/-- Encodes a buffer: one message, then on from where it ended, until nothing is left. -/
def wholeBuffer (use : C → Encoded → Res C) : Nat → C → List UInt8 → Res (List Encoded × C)
  | 0, _, _ => .error .hang
  | n + 1, c, data =>
    if data = [] then .ok ([], c)
    else do
      let (r, c) ← encodeOne c data
      let c ← use c r
      let (rs, c) ← wholeBuffer use n c (data.drop r.bytesRead)
      return (r :: rs, c)

end

/-! ## The tracked board -/

/-- The tracked state after a message from the core: what it is translated to is applied to it. -/
def track (c : BasicContext) (data : List UInt8) : Res BasicContext := do
  let (r, c) ← encodeOne c data
  match r.msg with
  | some m => c.parse m
  | none => return c

/-- The cards of a pile of the tracked board, from the bottom to the top. -/
def pileOf (c : BasicContext) (k : PileKey) : List CardId := c.board.frame.layout.pile k

/-- Other piles, everything else as it is. -/
def withPiles (f : Frame) (g : PileKey → List CardId) : Frame := { f with layout := { f.layout with pile := g } }

/-- Other contents of one pile. -/
def Piles.set (g : PileKey → List CardId) (k : PileKey) (v : List CardId) : PileKey → List CardId :=
  fun k' => if k' = k then v else g k'

/-- The tracked state with other piles, everything else as it is. -/
def setPiles (c : BasicContext) (g : PileKey → List CardId) : BasicContext :=
  { c with board := { c.board with frame := withPiles c.board.frame g } }

/-- The byte for a player. -/
def playerByte (p : Fin 2) : UInt8 := UInt8.ofNat p.val

/-- Whether bit `i` of a mask, least significant bit of the first byte first, is set. -/
def maskBit (mask : List UInt8) (i : Nat) : Bool := ((mask.getD (i / 8) 0).toNat).testBit (i % 8)

/-- The cards whose bit in the mask is `v`, in order. -/
def marked (mask : List UInt8) (v : Bool) (cs : List CardId) : List CardId :=
  (cs.zipIdx.filter fun x => maskBit mask x.2 == v).map (·.1)

end Ygo.Spec
