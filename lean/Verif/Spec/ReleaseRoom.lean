import Verif.Model.ReleaseRoom
import Verif.Spec.Room

/-!
# Histories of rooms in builds without asserts
-/

namespace Ygo.Spec
open Ygo Ygo.Room

/-- Rooms with their history of calls and everything that was sent, in a build without asserts. -/
inductive RawLived (env : Env) : Room → List Room.Call → List Sent → Prop
  | start {rng : Nat → Nat} {host : ClientId} {options : Options} {r : Room} {out : List Sent} :
    Room.rawInit env rng host options = .ok (r, out) → RawLived env r [.enter host] out
  | step {r r' : Room} {calls : List Room.Call} {log out : List Sent} {fuel : Nat} {c : Room.Call} :
    RawLived env r calls log → r.rawStep env fuel c = .ok (r', out) → RawLived env r' (calls ++ [c]) (log ++ out)

/-- The host enters again and there is no seat. -/
def HostTooMany (r : Room) (c : Room.Call) : Prop :=
  r.state = .configuring ∧ c = .enter r.host ∧ ∀ t, duelists r t = capacity r t

/-- Rooms that differ at most in who watches. -/
def SameButWatchers (r r' : Room) : Prop := r' = { r with spectators := r'.spectators }

end Ygo.Spec
