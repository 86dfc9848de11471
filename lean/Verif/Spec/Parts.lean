import Verif.Model.Event

/-!
# Events taken apart
-/

namespace Ygo.Spec
open Ygo

/-- An event taken apart: one event for each card that is added, removed, moved or exchanged and for each pile that is resized, spliced or exchanged. A whole state
becomes a state without cards, and then the cards. -/
def parts : Event → List Event
  | .board (.exchange e) => (e.resize.map fun r => .board (.exchange { con := e.con, resize := [r] })) ++
      (e.remove.map fun p => .board (.exchange { con := e.con, remove := [p] })) ++ e.add.map fun p => .board (.exchange { con := e.con, add := [p] })
  | .board (.state s) => .board (.state { s with add := [], resize := [] }) :: ((s.add.map fun p => .board (.exchange { add := [p] })) ++
      s.resize.map fun r => .board (.exchange { resize := [r] }))
  | .card r (.add ps) => ps.map fun p => .card r (.add [p])
  | .card r (.remove ps) => ps.map fun p => .card r (.remove [p])
  | .card r (.move os) => os.map fun o => .card r (.move [o])
  | .card r (.exchange os) => os.map fun o => .card r (.exchange [o])
  | .pile r (.exchange os) => os.map fun o => .pile r (.exchange [o])
  | .pile r (.splice os) => os.map fun o => .pile r (.splice [o])
  | e => [e]

end Ygo.Spec
