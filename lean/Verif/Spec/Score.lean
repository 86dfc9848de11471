import Verif.Spec.Tracked

/-!
# Turn, phase, life points and chain as the messages of the core tell them
-/

namespace Ygo.Spec
open Ygo

/-- What is known about a duel besides its cards. -/
structure Score where
  /-- Number of turns begun. -/
  turn : Nat
  /-- Whose turn it is. -/
  player : Int
  phase : Nat
  /-- Life points. -/
  lp : Fin 2 → Nat
  /-- Chain links not resolved yet, the first one first. -/
  chain : List Chain

/-- The score with other life points of one player. -/
def Score.setLp (s : Score) (p : UInt8) (f : Nat → Nat) : Score :=
  { s with lp := fun i => if i.val = p.toNat then f (s.lp i) else s.lp i }

/-- The score after a message: numbers have 32 bits; lost life points stop at zero. Whose turn and which phase it is stays when a duel starts,
until it is told. -/
def Score.after (s : Score) : CoreMsg → Score
  | .start _ l0 l1 .. => { s with turn := 0, lp := fun i => if i = 0 then l0.toNat else l1.toNat, chain := [] }
  | .reloadField _ a b links => { s with lp := fun i => if i = 0 then a.lp.toNat else b.lp.toNat, chain := links.map (·.chain) }
  | .newTurn p => { s with turn := (s.turn + 1) % 2 ^ 32, player := p.toNat }
  | .newPhase p => { s with phase := p.toNat }
  | .damage p n => s.setLp p (· - n.toNat)
  | .payLpcost p n => s.setLp p (· - n.toNat)
  | .recover p n => s.setLp p fun l => (l + n.toNat) % 2 ^ 32
  | .lpupdate p n => s.setLp p fun _ => n.toNat
  | .chaining l _ => { s with chain := s.chain ++ [l.chain] }
  | .chainSolved _ => { s with chain := s.chain.dropLast }
  | _ => s

/-- The tracked score. -/
def scoreOf (c : BasicContext) : Score :=
  ⟨c.board.turn.val, c.board.turnController.val, c.board.phase.val, fun i => (c.board.lp i).val, c.board.chainStack.val⟩

/-- Messages about the score that make sense: the player exists and a link that is resolved was there. -/
def Score.Allows (s : Score) : CoreMsg → Prop
  | .damage p _ | .payLpcost p _ | .recover p _ | .lpupdate p _ => p.toNat < 2
  | .chainSolved _ => s.chain ≠ []
  | .newTurn _ | .newPhase _ | .chaining .. => True
  | _ => False

end Ygo.Spec
