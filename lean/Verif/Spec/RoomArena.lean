import Verif.Model.RoomArena
import Verif.Spec.Room

/-!
# What a room keeps in its arena
-/

namespace Ygo.Spec
open Ygo Ygo.Room

/-- Rooms with their history of calls and everything in their arena. -/
inductive Kept (env : Env) : Room → List Room.Call → List Letter → Prop
  | start {rng : Nat → Nat} {host : ClientId} {options : Options} {r : Room} {ls : List Letter} :
    Room.initL env rng host options = .ok (r, ls) → Kept env r [.enter host] ls
  | step {r r' : Room} {calls : List Room.Call} {arena ls : List Letter} {fuel : Nat} {c : Room.Call} :
    Kept env r calls arena → r.stepL env fuel c = .ok (r', ls) → Kept env r' (calls ++ [c]) (arena ++ ls)

/-- How many events a call needs if it is not ignored. -/
def Wordy (r : Room) : Room.Call → Nat
  | .enter _ => 2
  | .visit _ (.configuring (.startDueling _)) => if r.options.ftdm = 0 then 2 else if r.options.ftdm = 2 ∨ r.options.ftdm = 3 then 3 else 1
  | _ => 1

/-- A room whose clients can still make it say something. -/
def Talking (r : Room) : Prop := r.state = .configuring ∨ r.options.ftdm = 0

end Ygo.Spec
