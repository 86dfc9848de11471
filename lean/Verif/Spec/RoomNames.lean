import Verif.Spec.Room

/-!
# Rooms whose clients have other addresses
-/

namespace Ygo.Spec
open Ygo Ygo.Room

/-- Everything a room does from its construction on. -/
def roomLife (env : Env) (rng : Nat → Nat) (host : ClientId) (options : Options) (fuel : Nat) (calls : List Room.Call) : Res (Room × List Sent) := do
  let (r, out) ← Room.init env rng host options
  let (r, out') ← r.run env fuel calls
  return (r, out ++ out')

/-- The call, by the client with the other address. -/
def callBy (σ : ClientId → ClientId) : Room.Call → Room.Call
  | .enter c => .enter (σ c)
  | .visit c s => .visit (σ c) s

/-- Clients introduce themselves alike, and the validator is the same. -/
structure SameEnv (σ : ClientId → ClientId) (env env' : Env) : Prop where
  users : ∀ c, env'.user (σ c) = env.user c
  checks : env'.check = env.check

/-- The same seats, with the same decks, are taken by the same clients. -/
def slotOf (σ : ClientId → ClientId) (s : Slot) : Slot := { s with client := s.client.map σ }

/-- The state, in which who decides has the other address. -/
def stateOf (σ : ClientId → ClientId) : State → State
  | .mono => .mono
  | .configuring => .configuring
  | .deciding c => .deciding (c.map σ)

/-- Addresses are in the same order. -/
def KeepsOrder (σ : ClientId → ClientId) : Prop := ∀ c d, c < d → σ c < σ d

/-- Rooms that differ only by addresses. The same clients watch; in which order they are listed depends on their addresses. -/
structure SameRoom (σ : ClientId → ClientId) (r r' : Room) : Prop where
  options : r'.options = r.options
  host : r'.host = σ r.host
  teams : ∀ t, r'.teams t = (r.teams t).map (slotOf σ)
  spectators : r'.spectators.Perm (r.spectators.map σ)
  inOrder : KeepsOrder σ → r'.spectators = r.spectators.map σ
  state : r'.state = stateOf σ r.state
  rng : r'.rng = r.rng
  used : r'.used = r.used

/-- Every client is sent the same, in the same order, and nobody else anything. -/
structure SameMail (σ : ClientId → ClientId) (out out' : List Sent) : Prop where
  inboxes : ∀ c, inbox (σ c) out' = inbox c out
  nobodyElse : ∀ m ∈ out', ∃ c, m.1 = σ c
  inOrder : KeepsOrder σ → out' = out.map fun m => (σ m.1, m.2)

/-- Two lives that end alike. -/
def SameLife (σ : ClientId → ClientId) : Res (Room × List Sent) → Res (Room × List Sent) → Prop
  | .ok (r, out), .ok (r', out') => SameRoom σ r r' ∧ SameMail σ out out'
  | .error e, .error e' => e = e'
  | _, _ => False

end Ygo.Spec
