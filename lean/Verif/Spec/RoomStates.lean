import Verif.Spec.Room

/-!
# Rooms that can come about
-/

namespace Ygo.Spec
open Ygo Ygo.Room

/-- The client of a seat also has another one that was taken before it and that the room finds first, so that nothing the client says ever
concerned this one. -/
def Covered (r : Room) (t : Fin 2) (p : Nat) : Prop := ∃ x t' p', SeatBefore t' p' t p ∧ p' ≤ p ∧ seat r t' p' = some x ∧ seat r t p = some x

/-- What can be written down for a seat: an accepted deck or none; ready only if there are decks that are accepted, and ready without one only
if there are also decks that are refused. -/
structure SlotFits (check : Deck → Bool) (s : Slot) : Prop where
  accepted : s.deckValid = true → check s.deck = true
  none : s.deckValid = false → s.deck = {}
  ready : s.ready = true → ∃ d, check d = true
  late : s.ready = true → s.deckValid = false → ∃ d, check d = false

/-- Seats, duelists and spectators as they can come about. -/
structure Peopled (env : Env) (r : Room) : Prop where
  /-- Two teams of one to three duelists. -/
  maxes : ∃ m0 m1, r.options.maxDuelists = [m0, m1] ∧ (1 ≤ m0 ∧ m0 ≤ 3) ∧ (1 ≤ m1 ∧ m1 ≤ 3)
  length : ∀ t, (r.teams t).length = 3
  /-- Seats are taken from the first one on. -/
  front : ∀ t p, (seat r t p).isSome = true ↔ p < duelists r t
  room : ∀ t, duelists r t ≤ capacity r t
  host : seat r 0 0 = some r.host
  /-- The first team is at most one ahead, the second one is not, unless the other one is full. -/
  even : (duelists r 0 ≤ duelists r 1 + 1 ∨ duelists r 1 = capacity r 1) ∧ (duelists r 1 ≤ duelists r 0 ∨ duelists r 0 = capacity r 0)
  free : ∀ t p s, slotAt r t p = some s → s.client = .none → s = {}
  taken : ∀ t p s, slotAt r t p = some s → s.client ≠ .none → SlotFits (fun d => (env.check r.options.banlistId d).1) s
  covered : ∀ t p s, slotAt r t p = some s → Covered r t p → s = { client := s.client }
  /-- Spectators are there only when there are no seats left; the host is not among them. -/
  full : r.spectators ≠ [] → ∀ t, duelists r t = capacity r t
  sorted : r.spectators.Pairwise (· < ·)
  notHost : r.host ∉ r.spectators

/-- Who has been asked to decide who begins, after the start, and how many random numbers were taken for that. -/
def Decided (r : Room) (d : Option ClientId) : Prop :=
  (r.options.ftdm = 0 ∧ d = some r.host ∧ r.used = 0) ∨
  (r.options.ftdm = 2 ∧ ∃ n, r.used = 2 * (n + 1) ∧ (∀ i < n, r.rng (2 * i) % 6 = r.rng (2 * i + 1) % 6) ∧
    (r.rng (2 * n + 1) % 6 < r.rng (2 * n) % 6 ∧ d = seat r 0 0 ∨ r.rng (2 * n) % 6 < r.rng (2 * n + 1) % 6 ∧ d = seat r 1 0)) ∨
  (r.options.ftdm = 3 ∧ r.used = 1 ∧ (r.rng 0 % 2 = 0 ∧ d = seat r 0 0 ∨ r.rng 0 % 2 = 1 ∧ d = seat r 1 0)) ∨
  (r.options.ftdm ≠ 0 ∧ r.options.ftdm ≠ 2 ∧ r.options.ftdm ≠ 3 ∧ r.options.ftdm ≠ -2147483648 ∧ r.options.ftdm ≠ 2147483647 ∧ d = .none ∧ r.used = 0)

/-- Before the start no random numbers are taken; after it, everybody is ready. -/
def InPhase (r : Room) : Prop :=
  match r.state with
  | .mono => False
  | .configuring => r.used = 0
  | .deciding d => Startable r ∧ Decided r d

end Ygo.Spec
