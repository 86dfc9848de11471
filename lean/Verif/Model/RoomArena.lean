import Verif.Model.Room

/-!
# The events in the arena of a room

Every event of a room is made by `event_()` (room.hpp:188-193), in the member `arena_` (room.hpp:170), and lives as long as the
room: no function resets the arena or takes an event out of it.  `Model/Room.lean` only has what is sent; here each function is
followed again, giving one `Letter` for each call of `event_()`, in order: the event in its final form and the clients to whom
it was sent.
-/

namespace Ygo.Room

/-- An object in the arena: the event and to whom it was sent, in order. -/
structure Letter where
  to : List ClientId
  event : Event
  deriving DecidableEq, Repr

end Ygo.Room

namespace Ygo
open Ygo.Room

namespace Room

/-- What was sent with some letters. -/
def delivered (ls : List Letter) : List Sent := ls.flatMap fun l => l.to.map fun c => (c, l.event)

/-- Everyone to whom `send_all_` sends (room.hpp:195-217). -/
def everyone (r : Room) : List ClientId := teamClients (r.teams 0) ++ teamClients (r.teams 1) ++ r.spectators

/-- `on_client_enter_(Configuring&, …)` (room.hpp:343-433); `event_()` in lines 385 and 413. -/
def enterConfiguringL (env : Env) (r : Room) (peer : ClientId) : Res (Room × List Letter) := do
  let duelists := teamDuelists env r.host 0 0 (r.teams 0) ++ teamDuelists env r.host 1 0 (r.teams 1)
  let e : Letter := ⟨[peer], .entering r.options duelists r.spectators.length⟩
  match ← r.findEmpty with
  | some (team, pos) =>
    let s ← orUb (r.teams team)[pos]?
    let r := r.setSlot team pos { s with client := some peer }
    return (r, [e, ⟨r.everyone, .duelistEnters (duelist env r.host team pos peer false)⟩])
  | none =>
    massert (r.host ≠ peer)
    let r := { r with spectators := setInsert peer r.spectators }
    return (r, [e, ⟨r.everyone, .spectatorCount r.spectators.length⟩])

/-- `enter` (room.hpp:111-115, 336-341, 435-439). -/
def enterL (env : Env) (r : Room) (peer : ClientId) : Res (Room × List Letter) :=
  match r.state with
  | .mono => ub
  | .configuring => r.enterConfiguringL env peer
  | .deciding _ => .ok (r, [])

/-- Constructor (room.hpp:77-98), with the event made on entering the configuring state (room.hpp:254-256), which nobody is there to get. -/
def initL (env : Env) (rng : Nat → Nat) (host : ClientId) (options : Options) : Res (Room × List Letter) := do
  let r : Room := ⟨clampOptions options, host, fun _ => List.replicate 3 {}, [], .configuring, rng, 0⟩
  let e : Letter := ⟨r.everyone, .entering {} [] 0⟩
  let (r, ls) ← r.enterL env host
  return (r, e :: ls)

/-- `kUpdateDeck` (room.hpp:470-493); `event_()` in line 476. -/
def updateDeckL (env : Env) (r : Room) (peer : ClientId) (d : Deck) : Res (Room × List Letter) := do
  match ← r.findPeer peer with
  | none => return (r, [])
  | some (team, pos, s) =>
    let (ok, err) := env.check r.options.banlistId d
    if ok then return (r.setSlot team pos { s with deck := d, deckValid := true }, [⟨[peer], .deckStatus none⟩])
    else return (r.setSlot team pos { s with deck := {}, deckValid := false }, [⟨[peer], .deckStatus (some err)⟩])

/-- `kReadyStatus` (room.hpp:494-517); `event_()` in line 508. -/
def readyStatusL (env : Env) (r : Room) (peer : ClientId) (status : Bool) : Res (Room × List Letter) := do
  match ← r.findPeer peer with
  | none => return (r, [])
  | some (team, pos, s) =>
    if status = s.ready then return (r, [])
    else if status = true ∧ s.deckValid = false then return (r, [])
    else
      let r := r.setSlot team pos { s with ready := status }
      return (r, [⟨r.everyone, .updateDuelist (duelist env r.host team pos peer status)⟩])

/-- `on_enter_state_(DecidingFirstTurn&)` (room.hpp:259-334); `event_()` in lines 274, 280, 298 and 319. -/
def enterDecidingL (fuel : Nat) (r : Room) : Res (Room × List Letter) := do
  let r := { r with state := .deciding none }
  let entering : Letter := ⟨r.everyone, .decidingEntering⟩
  let choose (c : ClientId) (r : Room) : Room × Letter := ({ r with state := .deciding (some c) }, ⟨[c], .decideFirstTurn true⟩)
  if r.options.ftdm = 0 then
    let (r, l) := choose r.host r
    return (r, [entering, l])
  else if r.options.ftdm = 1 then return (r, [entering])
  else if r.options.ftdm = 2 then
    match rollDice r.rng fuel r.used with
    | none => .error .hang
    | some (rolls, winner, used) =>
      let r := { r with used := used }
      let told : Letter := ⟨r.everyone, .result winner (.dice rolls)⟩
      let (r, l) := choose (← r.teamLeader (if winner = 0 then 0 else 1)) r
      return (r, [entering, told, l])
  else if r.options.ftdm = 3 then
    let winner := r.rng r.used % 2
    let r := { r with used := r.used + 1 }
    let told : Letter := ⟨r.everyone, .result winner (.coin winner)⟩
    let (r, l) := choose (← r.teamLeader (if winner = 0 then 0 else 1)) r
    return (r, [entering, told, l])
  else if r.options.ftdm = -2147483648 ∨ r.options.ftdm = 2147483647 then ub
  else return (r, [entering])

/-- `kStartDueling` (room.hpp:518-548). -/
def startDuelingL (fuel : Nat) (r : Room) (peer : ClientId) : Res (Room × List Letter) :=
  if peer ≠ r.host then .ok (r, [])
  else if r.canStart = false then .ok (r, [])
  else r.enterDecidingL fuel

/-- `on_client_signal_(Configuring&, …)` (room.hpp:442-552). -/
def signalConfiguringL (env : Env) (fuel : Nat) (r : Room) (peer : ClientId) : ConfSignal → Res (Room × List Letter)
  | .unset => .ok (r, [])
  | .updateDeck d => r.updateDeckL env peer d
  | .readyStatus b => r.readyStatusL env peer b
  | .startDueling _ => r.startDuelingL fuel peer

/-- `on_client_signal_(DecidingFirstTurn&, …)` (room.hpp:554-581); `event_()` in line 570. -/
def signalDecidingL (r : Room) (peer : ClientId) : DecSignal → Res (Room × List Letter)
  | .unset => .ok (r, [])
  | .teamGoingFirst n =>
    if r.options.ftdm ≠ 0 ∨ peer ≠ r.host then .ok (r, [])
    else if n > 1 then .ok (r, [])
    else .ok (r, [⟨r.everyone, .result n .unset⟩])

/-- `visit` (room.hpp:119-134). -/
def visitL (env : Env) (fuel : Nat) (r : Room) (peer : ClientId) (s : Signal) : Res (Room × List Letter) :=
  match r.state, s with
  | .configuring, .configuring s => r.signalConfiguringL env fuel peer s
  | .deciding _, .deciding s => r.signalDecidingL peer s
  | _, _ => .ok (r, [])

/-- Effect of one call, with the objects it leaves in the arena. -/
def stepL (env : Env) (fuel : Nat) (r : Room) : Call → Res (Room × List Letter)
  | .enter c => r.enterL env c
  | .visit c s => r.visitL env fuel c s

/-- A history of calls, with everything it leaves in the arena. -/
def runL (env : Env) (fuel : Nat) (r : Room) : List Call → Res (Room × List Letter)
  | [] => .ok (r, [])
  | c :: cs => do
    let (r, ls) ← r.stepL env fuel c
    let (r, ls') ← r.runL env fuel cs
    return (r, ls ++ ls')

end Room
end Ygo
