import Verif.Spec.Inert
import Verif.Spec.Single

/-!
# Monsters that take other cards as materials
-/

namespace Ygo.Spec
open Ygo

/-- The place of a material. -/
def matPlace (k : ZoneKey) (i : Nat) : Place := { zonePlace k with oseq := (i : Int) }

/-- Messages that can come at any moment and concern neither places nor values of cards. -/
def Aside (m : CoreMsg) : Prop :=
  ¬ MovesCards m ∧ ¬ TellsData m ∧
    match m with
    | .damage .. | .payLpcost .. | .recover .. | .lpupdate .. | .chainSolved _ | .win .. | .deckTop .. => False
    | _ => True

/-- `Gathered k n B ms xs B'`: by the messages `ms` the core takes the cards `xs` from the board `B`, one after the other, as materials of a monster
that is to go to zone `k`; `n` were taken before, and `B'` is what remains. Between them it can say other things. Only the first card may be
one of the materials in zone `k` itself. -/
inductive Gathered (k : ZoneKey) : Nat → Board → List CoreMsg → List CardId → Board → Prop
  | done (n : Nat) (B : Board) : Gathered k n B [] [] B
  | aside {n : Nat} {B B' : Board} {ms : List CoreMsg} {xs : List CardId} (m : CoreMsg) (ha : Aside m) (h : Gathered k n B ms xs B') :
      Gathered k n B (m :: ms) xs B'
  | card {n : Nat} {B B' : Board} {ms : List CoreMsg} {xs : List CardId} (m : MoveMsg) (C : Container) (i : Nat) (x : CardId)
      (hs : At m.src.place C i) (ps : PlainPile m.src.place C) (hd : InPile m.dst.place.loc ∧ 0 ≤ m.dst.place.oseq)
      (hx : (B C)[i]? = some x) (hC : C = .mats k → n = 0) (h : Gathered k (n + 1) (B.take C i) ms xs B') :
      Gathered k n B (m.msg :: ms) (x :: xs) B'

/-- The board after the monster at position `e` of `C` went to zone `k`, with `xs` as its first materials. -/
def summoned (B : Board) (xs : List CardId) (C : Container) (e : Nat) (x : CardId) (k : ZoneKey) : Board :=
  ((B.take C e).upd (.slot k) [x]).upd (.mats k) (xs ++ B (.mats k))

/-- For each of some cards the first of a list goes one place behind the card that follows. -/
def wheeled : List CardId → List CardId → List CardId
  | h :: P, q :: Q => wheeled (P ++ [q, h]) Q
  | P, Q => P ++ Q
termination_by _ Q => Q.length

/-- The order in which materials are shown beneath a monster that takes the place of the one they were under. -/
def inPlaceOrder (L : List CardId) : List CardId := wheeled (L.take 1) (L.drop 1)

end Ygo.Spec
