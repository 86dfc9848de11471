import Verif.Spec.Undo

/-!
# How much a client that can go back keeps
-/

namespace Ygo.Spec
open Ygo

/-- The values on a board. -/
inductive BoardValue where
  | chainStack
  | turn
  | turnController
  | lp (i : Fin 2)
  | phase
  | blockedZones
  deriving DecidableEq, Repr

/-- How many values are kept of one of them. -/
def valuesKept (u : UndoBoard) : BoardValue → Nat
  | .chainStack => u.chainStack.values.length
  | .turn => u.turn.values.length
  | .turnController => u.turnController.values.length
  | .lp i => (u.lp i).values.length
  | .phase => u.phase.values.length
  | .blockedZones => u.blockedZones.values.length

/-- How many of them are before the one shown. -/
def valuesBefore (u : UndoBoard) : BoardValue → Nat
  | .chainStack => u.chainStack.current
  | .turn => u.turn.current
  | .turnController => u.turnController.current
  | .lp i => (u.lp i).current
  | .phase => u.phase.current
  | .blockedZones => u.blockedZones.current

/-- How often an event says a new value. -/
def tellsValue : Event → BoardValue → Nat
  | .board (.state _), .chainStack => 1
  | .board (.state _), .lp _ => 1
  | .board (.state s), .turn => if 0 ≤ s.turnCounter then 1 else 0
  | .nextTurn _, .turn => 1
  | .nextTurn _, .turnController => 1
  | .lp con _, .lp i => if con = i.val then 1 else 0
  | .nextPhase _, .phase => 1
  | .zoneBlock _, .blockedZones => 1
  | _, _ => 0

/-- How often some events do. -/
def tellValue (es : List Event) (v : BoardValue) : Nat := (es.map fun e => tellsValue e v).sum

/-- How many additions, removals, resizes and clears an event asks for. -/
def tellsLogged : Event → Nat
  | .board (.exchange e) => e.resize.length + e.remove.length + e.add.length
  | .board (.state s) => 1 + s.add.length + s.resize.length
  | .card _ (.add ps) => ps.length
  | .card _ (.remove ps) => ps.length
  | _ => 0

/-- How many some events do. -/
def tellLogged (es : List Event) : Nat := (es.map tellsLogged).sum

/-- Position and farthest position so far, after a move over `n` events. -/
def goTo (n : Nat) (at_ : Nat × Nat) : Move → Nat × Nat
  | .forward => if at_.1 < n then (at_.1 + 1, max at_.2 (at_.1 + 1)) else at_
  | .backward => (at_.1 - 1, at_.2)

/-- The farthest position on a walk over `n` events. -/
def farthest (n : Nat) (ms : List Move) : Nat := (ms.foldl (goTo n) (0, 0)).2

end Ygo.Spec
