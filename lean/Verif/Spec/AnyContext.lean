import Verif.Spec.Counts
import Verif.Model.Encode

/-!
# Contexts that answer alike

`encode_one` knows its context only through `IEncodeContext` (codec/encode_common.hpp:69-107).
-/

namespace Ygo.Spec
open Ygo

/-- Contexts in the given relation answer the questions that are asked alike, and stay in it when told the same. Asked are the sizes of
decks, hands and graveyards, whether something in a zone has materials, and where what used to be in a pile's place came from. -/
structure AnswerAlike {C D : Type} [EncodeContext C] [EncodeContext D] (R : C → D → Prop) : Prop where
  pileSize : ∀ c d, R c d → ∀ con loc, loc = Loc.mainDeck ∨ loc = Loc.hand ∨ loc = Loc.graveyard →
    EncodeContext.pileSize c con loc = EncodeContext.pileSize d con loc
  getMatchWinReason : ∀ c d, R c d → EncodeContext.getMatchWinReason c = EncodeContext.getMatchWinReason d
  hasXyzMat : ∀ c d, R c d → ∀ p, p.isPile = false → EncodeContext.hasXyzMat c p = EncodeContext.hasXyzMat d p
  getXyzLeft : ∀ c d, R c d → ∀ p, p.isPile = true → p.oseq = OSEQ_INVALID → EncodeContext.getXyzLeft c p = EncodeContext.getXyzLeft d p
  matchWinReason : ∀ c d, R c d → ∀ n, R (EncodeContext.matchWinReason c n) (EncodeContext.matchWinReason d n)
  xyzMatDefer : ∀ c d, R c d → ∀ p, R (EncodeContext.xyzMatDefer c p) (EncodeContext.xyzMatDefer d p)
  deferred : ∀ c d, R c d → (EncodeContext.takeDeferredXyzMat c).1 = (EncodeContext.takeDeferredXyzMat d).1
  takeDeferred : ∀ c d, R c d → R (EncodeContext.takeDeferredXyzMat c).2 (EncodeContext.takeDeferredXyzMat d).2
  xyzLeft : ∀ c d, R c d → ∀ p q, R (EncodeContext.xyzLeft c p q) (EncodeContext.xyzLeft d p q)

/-- The results for buffers with arbitrary contents, when every message is given to the context. -/
def feedWith {C : Type} [EncodeContext C] (parse : C → Msg → Res C) : C → List (List UInt8) → Res (List Encoded × C)
  | c, [] => .ok ([], c)
  | c, d :: ds => do
    let (r, c) ← encodeOne c d
    let c ← match r.msg with
      | some m => parse c m
      | none => pure c
    let (rs, c) ← feedWith parse c ds
    return (r :: rs, c)

/-- Kinds of messages for which the context is asked or told something: the end of the duel, the top of the deck, a card that moves,
the graveyard exchanged with the deck, cards drawn, decks turned over, and a match that is won. -/
def consulting : List Nat := [5, 35, 37, 38, 50, 90, 170]

/-- As many answers and notes as a context can need, without a board: how many cards each pile has, and which zones have materials. -/
structure Tally where
  piles : Int → Nat → Res Nat
  mats : Place → Res Bool
  reason : Option Nat
  left : Place → Option Place
  deferred : List Place

instance : EncodeContext Tally where
  pileSize c con loc := c.piles con loc
  getMatchWinReason c := orUb c.reason
  hasXyzMat c p := c.mats p
  getXyzLeft c p := orUb (c.left p)
  matchWinReason c n := { c with reason := some n }
  xyzMatDefer c p := { c with deferred := c.deferred ++ [p] }
  takeDeferredXyzMat c := (c.deferred, { c with deferred := [] })
  xyzLeft c l s := { c with left := fun p => if p = l then some s else c.left p }

end Ygo.Spec
