import Verif.Spec.Dialog

/-!
# Answers to the point

Answers of the kind that was asked for, with numbers that the response has room for. Nothing is said about whether the answer was offered.
-/

namespace Ygo.Spec
open Ygo

/-- An action with a card that there is when idle. -/
def IdleAct (a : IdleAction) : Prop := a = .activate ∨ a = .summon ∨ a = .spsummon ∨ a = .reposition ∨ a = .mset ∨ a = .sset

/-- An action with a card that there is in the battle phase. -/
def BattleAct (a : IdleAction) : Prop := a = .activate ∨ a = .attack

/-- A zone that three bytes can tell, and that the core does not take for the field zone or a pendulum zone. -/
def PlainZone (p : Place) : Prop :=
  0 ≤ p.con ∧ p.con < 2 ^ 8 ∧ p.loc < 2 ^ 8 ∧ p.seq < 2 ^ 8 ∧ p.oseq = -1 ∧ (p.loc = 8 → p.seq < 5)

/-- The answer is of the kind that was asked for and the response has room for its numbers. -/
def ToThePoint : Request → Answer → Prop
  | .selectIdle _, .selectIdle (.shuffle _) => True
  | .selectIdle s, .selectIdle (.phase p) => p = 0x200 ∨ p = if s.isBattleCmd then 0x100 else 0x80
  | .selectIdle s, .selectIdle (.cardAction a i) => i < 2 ^ 16 ∧ if s.isBattleCmd then BattleAct a else IdleAct a
  | .selectCard (.recursive f c ..), .selectCard (.cancel _) | .selectCard (.recursive f c ..), .selectCard (.finish _) => c = true → f = true
  | .selectCard (.recursive ..), .selectCard (.indexes is) => ∃ i, is = [i] ∧ i < 2 ^ 32
  | .selectCard (.recursive ..), _ => False
  | .selectCard _, .selectCard (.cancel _) => True
  | .selectCard _, .selectCard (.indexes is) => is ≠ [] ∧ is.length < 2 ^ 32 ∧ ∀ i ∈ is, i < 2 ^ 16
  | .selectYesNo .., .selectYesNo _ => True
  | .selectEffect .., .selectEffect i | .selectNumber .., .selectNumber i => i < 2 ^ 32
  | .selectToChain .., .selectToChain (.noOp _) => True
  | .selectToChain .., .selectToChain (.index i) => i < 2 ^ 32 - 1
  | .selectZone .., .selectZone ps => ∀ p ∈ ps, PlainZone p
  | .selectPosition .., .selectPosition v | .selectRace .., .selectRace v | .selectAttribute .., .selectAttribute v => v < 2 ^ 32
  | .selectRockPaperScissors .., .selectRockPaperScissors v => -2 ^ 31 ≤ v ∧ v < 2 ^ 31
  | .sort _, .sort (.skip _) => True
  | .sort _, .sort (.indexes is) => is.length < 2 ^ 8 ∧ ∀ i ∈ is, i < 2 ^ 8
  | _, _ => False

end Ygo.Spec
