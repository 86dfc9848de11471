import Verif.Model.Room

/-!
# The room in a build without asserts

As `Model/Release.lean`: with `NDEBUG` defined, the asserts of `room.hpp` are gone.  The members are the same.  Of the asserts
(room.hpp:91-99, 191-213, 234, 247, 261, 265, 372, 378, 428) all but the last one only check what holds in every room that can be
made; the model has those that depend on the state of the room (372, 378, 428).
-/

namespace Ygo.Room
open Ygo Ygo.Room

/-- `find_empty_duelist_slot` (room.hpp:346-386): position `-1`, as an unsigned byte, is past the end of a team. -/
def rawFindEmpty (r : Room) : Res (Option (Fin 2 × Nat)) := do
  let m0 ← orUb r.options.maxDuelists[0]?
  let m1 ← orUb r.options.maxDuelists[1]?
  let (c0, f0) := scanTeam m0 (r.teams 0) 0 0 none
  let (c1, f1) := scanTeam m1 (r.teams 1) 0 0 none
  if f0.isNone ∧ f1.isNone then return none
  if (c0 ≤ c1 ∧ ¬ f0.isNone) ∨ f1.isNone then return some (0, f0.getD 255)
  else return some (1, f1.getD 255)

/-- `on_client_enter_(Configuring&, …)` (room.hpp:343-433). -/
def rawEnterConfiguring (env : Env) (r : Room) (peer : ClientId) : Res (Room × List Sent) := do
  let duelists := teamDuelists env r.host 0 0 (r.teams 0) ++ teamDuelists env r.host 1 0 (r.teams 1)
  let first : Sent := (peer, .entering r.options duelists r.spectators.length)
  match ← r.rawFindEmpty with
  | some (team, pos) =>
    let s ← orUb (r.teams team)[pos]?
    let r := r.setSlot team pos { s with client := some peer }
    return (r, first :: r.sendAll (.duelistEnters (duelist env r.host team pos peer false)))
  | none =>
    let r := { r with spectators := setInsert peer r.spectators }
    return (r, first :: r.sendAll (.spectatorCount r.spectators.length))

/-- `enter` (room.hpp:111-115, 336-341, 435-439). -/
def rawEnter (env : Env) (r : Room) (peer : ClientId) : Res (Room × List Sent) :=
  match r.state with
  | .mono => ub
  | .configuring => r.rawEnterConfiguring env peer
  | .deciding _ => .ok (r, [])

/-- Constructor (room.hpp:77-98). -/
def rawInit (env : Env) (rng : Nat → Nat) (host : ClientId) (options : Options) : Res (Room × List Sent) :=
  let r : Room := ⟨clampOptions options, host, fun _ => List.replicate 3 {}, [], .configuring, rng, 0⟩
  r.rawEnter env host

/-- Effect of one call. Signals meet no assert that depends on the room. -/
def rawStep (env : Env) (fuel : Nat) (r : Room) : Call → Res (Room × List Sent)
  | .enter c => r.rawEnter env c
  | .visit c s => r.visit env fuel c s

/-- A history of calls, with everything sent. -/
def rawRun (env : Env) (fuel : Nat) (r : Room) : List Call → Res (Room × List Sent)
  | [] => .ok (r, [])
  | c :: cs => do
    let (r, out) ← r.rawStep env fuel c
    let (r, out') ← r.rawRun env fuel cs
    return (r, out ++ out')

end Ygo.Room
