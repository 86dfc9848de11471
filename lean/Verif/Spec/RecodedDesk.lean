import Verif.Spec.Recoded
import Verif.Spec.UndoQuery

/-!
# Clients that go back and forth in a duel with other cards
-/

namespace Ygo.Spec
open Ygo

variable (f : Recoding)

def Note.recoded : Note → Note
  | .event e => .event e
  | .query useCache q => .query useCache (q.recoded f)

/-- All that the cards ever showed, with other cards. -/
def Desk.recoded (k : Desk) : Desk := { k with store := fun x => (k.store x).recoded f }

end Ygo.Spec
