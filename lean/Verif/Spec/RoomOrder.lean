import Verif.Spec.Room

/-!
# The order of calls in a room

Signals of different clients may arrive in any order.
-/

namespace Ygo.Spec
open Ygo Ygo.Room

/-- Whose call it is. -/
def callOf : Room.Call → ClientId
  | .enter x => x
  | .visit x _ => x

/-- The calls of a client. -/
def callsBy (x : ClientId) (cs : List Room.Call) : List Room.Call := cs.filter fun c => callOf c = x

/-- A client comes. -/
def IsEnter : Room.Call → Prop
  | .enter _ => True
  | .visit _ _ => False

instance : DecidablePred IsEnter := fun c => by cases c <;> unfold IsEnter <;> infer_instance

/-- The signal to start. -/
def IsStart : Room.Call → Prop
  | .visit _ (.configuring (.startDueling _)) => True
  | _ => False

/-- A signal other than to start: a deck, being ready or not, or anything that is not for this time. -/
def Prepares (c : Room.Call) : Prop := ¬ IsEnter c ∧ ¬ IsStart c

/-- Calls with what was sent because of each. -/
def runEach (env : Env) (fuel : Nat) : Room → List Room.Call → Res (Room × List (Room.Call × List Sent))
  | r, [] => .ok (r, [])
  | r, c :: cs => do
    let (r, out) ← r.step env fuel c
    let (r, rest) ← runEach env fuel r cs
    return (r, (c, out) :: rest)

/-- The calls of a client and what was sent because of each. -/
def answersTo (x : ClientId) (log : List (Room.Call × List Sent)) : List (Room.Call × List Sent) := log.filter fun c => callOf c.1 = x

end Ygo.Spec
