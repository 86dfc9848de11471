import Verif.Spec.Tracked

/-!
# Which messages can change what
-/

namespace Ygo.Spec
open Ygo

/-- Messages after which cards can be somewhere else. -/
def MovesCards : CoreMsg → Prop
  | .start .. | .reloadField .. | .tagSwap .. | .draw .. | .swapGraveDeck .. | .reverseDeck | .move .. | .swap .. | .shuffleSetCard .. => True
  | _ => False

/-- Messages that tell values of cards. -/
def TellsData : CoreMsg → Prop
  | .updateData .. | .updateCard .. => True
  | _ => False

/-- The message that tells which zones can not be used. -/
def TellsZones : CoreMsg → Prop
  | .fieldDisabled _ => True
  | _ => False

/-- Moves of single cards. -/
def IsMove : CoreMsg → Prop
  | .move .. => True
  | _ => False

end Ygo.Spec
