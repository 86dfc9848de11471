import Verif.Core.Res

/-!
# Model of `BasicRoom` (`include/ygopen/server/room.hpp`)

A client is a number (its address).  What a client's `fill_user` writes and what the deck validator answers are arbitrary functions,
fixed for the life of the room (both are `const` in C++).  The random generator is an arbitrary infinite stream.  Every call returns
the new room and the list of messages sent, in order.  `send` and `fill_user` are assumed not to call back into the room.
-/

namespace Ygo.Room

/-- Address of a client. -/
abbrev ClientId := Nat

/-- `User` (user.proto:13-20). -/
structure User where
  id : List Nat := []
  name : String := ""
  deriving DecidableEq, Repr

/-- `Deck` (deck.proto:21-37). -/
structure Deck where
  main : List Nat := []
  extra : List Nat := []
  side : List Nat := []
  useful : List Nat := []
  title : String := ""
  banlistId : String := ""
  notes : String := ""
  deriving DecidableEq, Repr

/-- `DeckError` (deck.proto:52-118): each part may be present or not. The numbers in front are open enums. -/
structure DeckError where
  banlisted : Option (List (Int × Nat)) := none
  excessiveCopies : Option (List Nat) := none
  invalidCards : Option (List Nat) := none
  mixedCards : Option (List Nat × List Nat) := none
  outOfLimit : Option ((Int × Int) × (Nat × Nat)) := none
  deriving DecidableEq, Repr

/-- `DeckLimits.Limit` (deck.proto:41-46). -/
structure DeckLimit where
  min : Nat
  max : Int
  deriving DecidableEq, Repr

/-- `DeckLimits` (deck.proto:39-50): each part may be present or not. -/
structure DeckLimits where
  main : Option DeckLimit := none
  extra : Option DeckLimit := none
  side : Option DeckLimit := none
  deriving DecidableEq, Repr

/-- `Banlist` (banlist.proto:14-25). -/
structure Banlist where
  id : String := ""
  forbidden : List Nat := []
  limited : List Nat := []
  semilimited : List Nat := []
  whitelist : List Nat := []
  title : String := ""
  notes : String := ""
  deriving DecidableEq, Repr

/-- The oneof of `Options` (room.proto:60-64). -/
inductive BanlistChoice where
  | unset
  | id (s : String)
  | custom (b : Banlist)
  deriving DecidableEq, Repr

/-- `Options` (room.proto:52-71). `ftdm` is an open enum, so any 32-bit value may arrive. -/
structure Options where
  maxDuelists : List Nat := []
  deckLimits : Option DeckLimits := none
  banlist : BanlistChoice := .unset
  ftdm : Int := 0
  deriving DecidableEq, Repr

/-- `options_.banlist_id()`: the getter of a part of a `oneof` that is not the one set gives the empty string. -/
def Options.banlistId (o : Options) : String :=
  match o.banlist with
  | .id s => s
  | _ => ""

/-- `Duelist` (room.proto:49-56). -/
structure Duelist where
  team : Nat
  pos : Nat
  user : User
  isHost : Bool
  isReady : Bool
  deriving DecidableEq, Repr

/-- The oneof of `DecidingFirstTurn.Result` (room.proto:151-156). -/
inductive Tool where
  | unset
  | dice (results : List (Nat × Nat))
  | coin (face : Nat)
  deriving DecidableEq, Repr

/-- `Event` (room.proto:82-185). -/
inductive Event where
  | entering (options : Options) (duelists : List Duelist) (spectators : Nat)
  | duelistEnters (d : Duelist)
  | updateDuelist (d : Duelist)
  | deckStatus (e : Option DeckError)
  | decidingEntering
  | decideFirstTurn (b : Bool)
  | result (teamGoingFirst : Nat) (tool : Tool)
  | spectatorCount (n : Nat)
  deriving DecidableEq, Repr

/-- `Signal.Configuring` (room.proto:189-197). -/
inductive ConfSignal where
  | unset
  | updateDeck (d : Deck)
  | readyStatus (b : Bool)
  | startDueling (b : Bool)
  deriving DecidableEq, Repr

/-- `Signal.DecidingFirstTurn` (room.proto:199-206). -/
inductive DecSignal where
  | unset
  | teamGoingFirst (n : Nat)
  deriving DecidableEq, Repr

/-- `Signal` (room.proto:187-213). -/
inductive Signal where
  | unset
  | configuring (s : ConfSignal)
  | deciding (s : DecSignal)
  deriving DecidableEq, Repr

/-- The collaborators of the room: `fill_user` of each client and the deck validator (room.hpp:24-46). `check` returns the
answer and the error message as left by the validator. -/
structure Env where
  user : ClientId → User
  check : String → Deck → Bool × DeckError

/-- `DuelistSlot` (room.hpp:137-147). -/
structure Slot where
  deckValid : Bool := false
  ready : Bool := false
  client : Option ClientId := none
  deck : Deck := {}
  deriving DecidableEq, Repr

/-- The variant `states_` (room.hpp:171-186). -/
inductive State where
  | mono
  | configuring
  | deciding (decider : Option ClientId)
  deriving DecidableEq, Repr

/-- A sent message. -/
abbrev Sent := ClientId × Event

end Ygo.Room

namespace Ygo
open Ygo.Room

/-- `BasicRoom` members (room.hpp:157-186). A team is an array of three slots. `spectators` is the `std::set`: sorted, no
repetitions. `rng` is the stream of numbers the generator yields, `used` how many were taken. -/
structure Room where
  options : Options
  host : ClientId
  teams : Fin 2 → List Slot
  spectators : List ClientId
  state : State
  rng : Nat → Nat
  used : Nat

namespace Room

/-- `max_duelists.Resize(2, 1)` and the clamp loop (room.hpp:219-226); `MAX_DUELISTS_PER_TEAM` is 3 (proto/room.hpp:13). -/
def clampOptions (o : Options) : Options :=
  let resized := o.maxDuelists.take 2 ++ List.replicate (2 - o.maxDuelists.length) 1
  { o with maxDuelists := resized.map fun v => if v < 1 then 1 else if 3 < v then 3 else v }

/-- Recipients of `send_team_` (room.hpp:195-202). -/
def teamClients (t : List Slot) : List ClientId := t.filterMap (·.client)

/-- `send_all_` (room.hpp:195-217). -/
def sendAll (r : Room) (e : Event) : List Sent :=
  (teamClients (r.teams 0) ++ teamClients (r.teams 1) ++ r.spectators).map fun c => (c, e)

/-- `std::set::insert`. -/
def setInsert (c : ClientId) : List ClientId → List ClientId
  | [] => [c]
  | x :: xs => if c < x then c :: x :: xs else if x < c then x :: setInsert c xs else x :: xs

/-- One team's share of the loop in `find_empty_duelist_slot` (room.hpp:353-362): number of duelists and first empty position. The
loop body runs before the break test, and the array ends after three slots. -/
def scanTeam (max : Nat) : List Slot → (pos count : Nat) → (first : Option Nat) → Nat × Option Nat
  | [], _, count, first => (count, first)
  | s :: ss, pos, count, first =>
    let r := if s.client.isSome then (count + 1, first) else (count, if first.isNone then some pos else first)
    if pos + 1 = max then r else scanTeam max ss (pos + 1) r.1 r.2

/-- `find_empty_duelist_slot` (room.hpp:346-386). -/
def findEmpty (r : Room) : Res (Option (Fin 2 × Nat)) := do
  let m0 ← orUb r.options.maxDuelists[0]?
  let m1 ← orUb r.options.maxDuelists[1]?
  let (c0, f0) := scanTeam m0 (r.teams 0) 0 0 none
  let (c1, f1) := scanTeam m1 (r.teams 1) 0 0 none
  if f0.isNone ∧ f1.isNone then return none
  if (c0 ≤ c1 ∧ ¬ f0.isNone) ∨ f1.isNone then
    let p ← orAssert f0
    return some (0, p)
  else
    let p ← orAssert f1
    return some (1, p)

/-- What is told about a slot (room.hpp:399-405, 419-423, 509-513). -/
def duelist (env : Env) (host : ClientId) (team : Fin 2) (pos : Nat) (c : ClientId) (ready : Bool) : Duelist :=
  ⟨team.val, pos, env.user c, decide (c = host), ready⟩

/-- Duelists of one team for the entering-state message (room.hpp:392-409). -/
def teamDuelists (env : Env) (host : ClientId) (team : Fin 2) : Nat → List Slot → List Duelist
  | _, [] => []
  | pos, s :: ss =>
    match s.client with
    | some c => duelist env host team pos c s.ready :: teamDuelists env host team (pos + 1) ss
    | none => teamDuelists env host team (pos + 1) ss

/-- Write to `teams_[team][pos]`. -/
def setSlot (r : Room) (team : Fin 2) (pos : Nat) (s : Slot) : Room :=
  { r with teams := fun t => if t = team then (r.teams t).set pos s else r.teams t }

/-- `on_client_enter_(Configuring&, …)` (room.hpp:343-433). -/
def enterConfiguring (env : Env) (r : Room) (peer : ClientId) : Res (Room × List Sent) := do
  let duelists := teamDuelists env r.host 0 0 (r.teams 0) ++ teamDuelists env r.host 1 0 (r.teams 1)
  let first : Sent := (peer, .entering r.options duelists r.spectators.length)
  match ← r.findEmpty with
  | some (team, pos) =>
    let s ← orUb (r.teams team)[pos]?
    let r := r.setSlot team pos { s with client := some peer }
    return (r, first :: r.sendAll (.duelistEnters (duelist env r.host team pos peer false)))
  | none =>
    massert (r.host ≠ peer)
    let r := { r with spectators := setInsert peer r.spectators }
    return (r, first :: r.sendAll (.spectatorCount r.spectators.length))

/-- `enter` (room.hpp:111-115, 336-341, 435-439). -/
def enter (env : Env) (r : Room) (peer : ClientId) : Res (Room × List Sent) :=
  match r.state with
  | .mono => ub
  | .configuring => r.enterConfiguring env peer
  | .deciding _ => .ok (r, [])

/-- Constructor (room.hpp:77-98). Entering the configuring state sends to nobody, as no slot is taken yet. -/
def init (env : Env) (rng : Nat → Nat) (host : ClientId) (options : Options) : Res (Room × List Sent) :=
  let r : Room := ⟨clampOptions options, host, fun _ => List.replicate 3 {}, [], .configuring, rng, 0⟩
  r.enter env host

/-- One team's share of the loop in `find_peer_duelist_slot` (room.hpp:450-463). -/
def findInTeam (peer : ClientId) (max : Nat) : List Slot → Nat → Option (Nat × Slot)
  | [], _ => none
  | s :: ss, pos => if s.client = some peer then some (pos, s) else if pos + 1 = max then none else findInTeam peer max ss (pos + 1)

/-- `find_peer_duelist_slot` (room.hpp:447-466). -/
def findPeer (r : Room) (peer : ClientId) : Res (Option (Fin 2 × Nat × Slot)) := do
  let m0 ← orUb r.options.maxDuelists[0]?
  match findInTeam peer m0 (r.teams 0) 0 with
  | some (p, s) => return some (0, p, s)
  | none =>
    let m1 ← orUb r.options.maxDuelists[1]?
    match findInTeam peer m1 (r.teams 1) 0 with
    | some (p, s) => return some (1, p, s)
    | none => return none

/-- `kUpdateDeck` (room.hpp:470-493). -/
def updateDeck (env : Env) (r : Room) (peer : ClientId) (d : Deck) : Res (Room × List Sent) := do
  match ← r.findPeer peer with
  | none => return (r, [])
  | some (team, pos, s) =>
    let (ok, err) := env.check r.options.banlistId d
    if ok then return (r.setSlot team pos { s with deck := d, deckValid := true }, [(peer, .deckStatus none)])
    else return (r.setSlot team pos { s with deck := {}, deckValid := false }, [(peer, .deckStatus (some err))])

/-- `kReadyStatus` (room.hpp:494-517). -/
def readyStatus (env : Env) (r : Room) (peer : ClientId) (status : Bool) : Res (Room × List Sent) := do
  match ← r.findPeer peer with
  | none => return (r, [])
  | some (team, pos, s) =>
    if status = s.ready then return (r, [])
    else if status = true ∧ s.deckValid = false then return (r, [])
    else
      let r := r.setSlot team pos { s with ready := status }
      return (r, r.sendAll (.updateDuelist (duelist env r.host team pos peer status)))

/-- One team's share of `can_start` (room.hpp:524-537). -/
def teamCanStart (t : List Slot) : Bool :=
  t.all (fun s => s.client.isNone || (s.deckValid && s.ready)) && t.any (fun s => s.client.isSome)

/-- `can_start` (room.hpp:522-540). -/
def canStart (r : Room) : Bool := teamCanStart (r.teams 0) && teamCanStart (r.teams 1)

/-- `get_team_leader` (room.hpp:263-270). -/
def teamLeader (r : Room) (team : Fin 2) : Res ClientId := orUb (teamClients (r.teams team)).head?

/-- The dice loop (room.hpp:294-313), at most `fuel` rounds. -/
def rollDice (rng : Nat → Nat) : (fuel used : Nat) → Option (List (Nat × Nat) × Nat × Nat)
  | 0, _ => none
  | fuel + 1, used =>
    let a := rng used % 6 + 1
    let b := rng (used + 1) % 6 + 1
    if a ≠ b then some ([(a, b)], (if a < b then 1 else 0), used + 2)
    else (rollDice rng fuel (used + 2)).map fun (rs, w, u) => ((a, b) :: rs, w, u)

/-- `on_enter_state_(DecidingFirstTurn&)` (room.hpp:259-334). -/
def enterDeciding (fuel : Nat) (r : Room) : Res (Room × List Sent) := do
  let r := { r with state := .deciding none }
  let entering := r.sendAll .decidingEntering
  let choose (c : ClientId) (r : Room) : Room × List Sent := ({ r with state := .deciding (some c) }, [(c, .decideFirstTurn true)])
  if r.options.ftdm = 0 then
    let (r, out) := choose r.host r
    return (r, entering ++ out)
  else if r.options.ftdm = 1 then return (r, entering)
  else if r.options.ftdm = 2 then
    match rollDice r.rng fuel r.used with
    | none => .error .hang
    | some (rolls, winner, used) =>
      let r := { r with used := used }
      let told := r.sendAll (.result winner (.dice rolls))
      let (r, out) := choose (← r.teamLeader (if winner = 0 then 0 else 1)) r
      return (r, entering ++ told ++ out)
  else if r.options.ftdm = 3 then
    let winner := r.rng r.used % 2
    let r := { r with used := r.used + 1 }
    let told := r.sendAll (.result winner (.coin winner))
    let (r, out) := choose (← r.teamLeader (if winner = 0 then 0 else 1)) r
    return (r, entering ++ told ++ out)
  else if r.options.ftdm = -2147483648 ∨ r.options.ftdm = 2147483647 then ub
  else return (r, entering)

/-- `kStartDueling` (room.hpp:518-548); the value of the signal is not looked at. -/
def startDueling (fuel : Nat) (r : Room) (peer : ClientId) : Res (Room × List Sent) :=
  if peer ≠ r.host then .ok (r, [])
  else if r.canStart = false then .ok (r, [])
  else r.enterDeciding fuel

/-- `on_client_signal_(Configuring&, …)` (room.hpp:442-552). -/
def signalConfiguring (env : Env) (fuel : Nat) (r : Room) (peer : ClientId) : ConfSignal → Res (Room × List Sent)
  | .unset => .ok (r, [])
  | .updateDeck d => r.updateDeck env peer d
  | .readyStatus b => r.readyStatus env peer b
  | .startDueling _ => r.startDueling fuel peer

/-- `on_client_signal_(DecidingFirstTurn&, …)` (room.hpp:554-581). -/
def signalDeciding (r : Room) (peer : ClientId) : DecSignal → Res (Room × List Sent)
  | .unset => .ok (r, [])
  | .teamGoingFirst n =>
    if r.options.ftdm ≠ 0 ∨ peer ≠ r.host then .ok (r, [])
    else if n > 1 then .ok (r, [])
    else .ok (r, r.sendAll (.result n .unset))

/-- `visit` (room.hpp:119-134): a signal for another state is ignored. -/
def visit (env : Env) (fuel : Nat) (r : Room) (peer : ClientId) (s : Signal) : Res (Room × List Sent) :=
  match r.state, s with
  | .configuring, .configuring s => r.signalConfiguring env fuel peer s
  | .deciding _, .deciding s => r.signalDeciding peer s
  | _, _ => .ok (r, [])

/-- A call of a public member function. -/
inductive Call where
  | enter (c : ClientId)
  | visit (c : ClientId) (s : Signal)
  deriving DecidableEq, Repr

/-- Effect of one call. -/
def step (env : Env) (fuel : Nat) (r : Room) : Call → Res (Room × List Sent)
  | .enter c => r.enter env c
  | .visit c s => r.visit env fuel c s

/-- A history of calls, with everything sent. -/
def run (env : Env) (fuel : Nat) (r : Room) : List Call → Res (Room × List Sent)
  | [] => .ok (r, [])
  | c :: cs => do
    let (r, out) ← r.step env fuel c
    let (r, out') ← r.run env fuel cs
    return (r, out ++ out')

end Room
end Ygo
