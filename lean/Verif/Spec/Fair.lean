import Verif.Spec.Room

/-!
# Chance

A generator gives one of `vals` each time, all of them equally likely and whatever it gave before. The chance that something happens in `n`
draws is the share of the `vals.length ^ n` sequences in which it does; a value that is likelier is listed more often.
-/

namespace Ygo.Spec
open Ygo Ygo.Room

/-- Everything a generator may give in `n` draws. -/
def draws (vals : List Nat) : Nat → List (List Nat)
  | 0 => [[]]
  | n + 1 => vals.flatMap fun v => (draws vals n).map (v :: ·)

/-- The room, with a generator that is about to give this. -/
def about (r : Room) (ds : List Nat) : Room := { r with rng := fun i => ds.getD (i - r.used) 0 }

/-- The host starts the duel with a generator that is about to give this, no more. -/
def starts (env : Env) (r : Room) (ds : List Nat) : Res (Room × List Sent) :=
  (about r ds).step env (ds.length / 2) (.visit r.host (.configuring (.startDueling true)))

/-- A message that this team goes first. -/
def goesFirst (w : Nat) : Event → Bool
  | .result t _ => t == w
  | _ => false

/-- Somebody is told that this team goes first. -/
def announces (w : Nat) : Res (Room × List Sent) → Bool
  | .ok (_, out) => out.any fun m => goesFirst w m.2
  | .error _ => false

/-- Nobody is told anything: the dice are still rolling. -/
def rolling : Res (Room × List Sent) → Bool
  | .error .hang => true
  | _ => false

/-- In how many sequences of draws something happens. -/
def ways (vals : List Nat) (n : Nat) (p : List Nat → Bool) : Nat := (draws vals n).countP p

end Ygo.Spec
