import Verif.Model.Decode

/-!
# The kinds of questions that have to be told apart to translate answers
-/

namespace Ygo.Spec
open Ygo

/-- Cards one by one, other cards, what to do in the battle phase, what to do in a main phase, and everything else. -/
inductive QuestionKind where
  | oneByOne | cards | battle | idle | other
  deriving DecidableEq, Repr

def questionKind : Request → QuestionKind
  | .selectCard (.recursive ..) => .oneByOne
  | .selectCard _ => .cards
  | .selectIdle s => if s.isBattleCmd then .battle else .idle
  | _ => .other

/-- Answers by which nothing is said: nothing is set, counters, and phases that are not to be had. -/
def TellsNothing (r : Request) : Answer → Prop
  | .unset | .selectCounter _ | .selectCard .unset | .selectToChain .unset => True
  | .selectIdle .unset => ∃ s, r = .selectIdle s
  | .selectIdle (.phase p) => ∃ s, r = .selectIdle s ∧ p &&& 0x200 = 0 ∧ if s.isBattleCmd then p &&& 0x100 = 0 else p &&& 0x80 = 0
  | _ => False

end Ygo.Spec
