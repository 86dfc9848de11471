import Verif.Spec.System
import Verif.Spec.Undo

/-!
# What a message makes a client do
-/

namespace Ygo.Spec
open Ygo

/-- A call counts once; a shuffle also counts the places it is given. -/
def opParts : FrameOp → Nat
  | .shuffle prev cur _ => 1 + prev.length + cur.length
  | _ => 1

/-- What an event has a client do and keep: calls to its frame, links of the chain and blocked zones. -/
def eventParts (e : Event) : Nat :=
  ((frameOps e).map opParts).sum +
    match e with
    | .chainStack (.push _) => 1
    | .board (.state s) => s.chains.length
    | .zoneBlock zs => zs.length
    | _ => 0

/-- What a query has a client do and keep: it is looked at, and places and counters are kept. -/
def queryParts (q : Query) : Nat := 1 + (q.data.targets.getD []).length + (q.data.counters.getD []).length

/-- What a message has a client do and keep. -/
def msgParts (m : Msg) : Nat := ((Msg.event? m).map eventParts).getD 0 + (m.queries.map queryParts).sum

/-- How many cards an event asks for by counts alone. -/
def byCount : Event → Nat
  | .board (.state s) => (s.resize.map (·.count)).sum
  | .board (.exchange e) => (e.resize.map (·.count)).sum
  | _ => 0

end Ygo.Spec
