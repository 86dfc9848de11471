import Verif.Model.Room

/-!
# What a room is to its users
-/

namespace Ygo.Spec
open Ygo Ygo.Room

/-- Rooms with their history of calls and everything that was sent. -/
inductive Lived (env : Env) : Room → List Room.Call → List Sent → Prop
  | start {rng : Nat → Nat} {host : ClientId} {options : Options} {r : Room} {out : List Sent} :
    Room.init env rng host options = .ok (r, out) → Lived env r [.enter host] out
  | step {r r' : Room} {calls : List Room.Call} {log out : List Sent} {fuel : Nat} {c : Room.Call} :
    Lived env r calls log → r.step env fuel c = .ok (r', out) → Lived env r' (calls ++ [c]) (log ++ out)

/-- The slot at a seat. -/
def slotAt (r : Room) (t : Fin 2) (p : Nat) : Option Slot := (r.teams t)[p]?

/-- The client in a seat. -/
def seat (r : Room) (t : Fin 2) (p : Nat) : Option ClientId := (slotAt r t p).bind (·.client)

/-- Number of duelists of a team. -/
def duelists (r : Room) (t : Fin 2) : Nat := (r.teams t).countP fun s => s.client.isSome

/-- Capacity of a team. -/
def capacity (r : Room) (t : Fin 2) : Nat := r.options.maxDuelists.getD t.val 0

/-- A client is in the room. -/
def Present (r : Room) (c : ClientId) : Prop := (∃ t p, seat r t p = some c) ∨ c ∈ r.spectators

/-- Both teams have a duelist, and every duelist is ready and has a valid deck. -/
def Startable (r : Room) : Prop := ∀ t,
  (∃ (p : Nat) (s : Slot), slotAt r t p = some s ∧ s.client ≠ none) ∧
  ∀ (p : Nat) (s : Slot), slotAt r t p = some s → s.client ≠ none → s.ready = true ∧ s.deckValid = true

/-- What a client knows about the room. -/
structure ClientView where
  options : Option Options
  duelist : Nat → Nat → Option Duelist
  spectators : Nat

namespace ClientView

/-- Before any message. -/
def empty : ClientView := ⟨none, fun _ _ => none, 0⟩

/-- Put a duelist in the seat the message names. -/
def seatDuelist (v : ClientView) (d : Duelist) : ClientView :=
  { v with duelist := fun t p => if t = d.team ∧ p = d.pos then some d else v.duelist t p }

/-- How a client understands a message. -/
def learn (v : ClientView) : Event → ClientView
  | .entering o ds n => ⟨some o, fun t p => ds.find? fun d => d.team = t ∧ d.pos = p, n⟩
  | .duelistEnters d => v.seatDuelist d
  | .updateDuelist d => v.seatDuelist d
  | .spectatorCount n => { v with spectators := n }
  | _ => v

end ClientView

/-- Messages a client received, in order. -/
def inbox (c : ClientId) (log : List Sent) : List Event := (log.filter fun m => m.1 = c).map (·.2)

/-- What a client knows after a history. -/
def knows (c : ClientId) (log : List Sent) : ClientView := (inbox c log).foldl ClientView.learn .empty

/-- What there is to know. -/
def truth (env : Env) (r : Room) : ClientView where
  options := some r.options
  duelist t p := if h : t < 2 then (slotAt r ⟨t, h⟩ p).bind fun s => s.client.map fun c => ⟨t, p, env.user c, decide (c = r.host), s.ready⟩ else none
  spectators := r.spectators.length

/-- Seats in the order in which the room looks for a client: team 0 before team 1, low positions first. -/
def SeatBefore (t : Fin 2) (p : Nat) (t' : Fin 2) (p' : Nat) : Prop := t < t' ∨ (t = t' ∧ p < p')

/-- A seat taken by a client who also has an earlier seat. -/
def Shadowed (r : Room) (t : Fin 2) (p : Nat) : Prop := ∃ x t' p', SeatBefore t' p' t p ∧ seat r t' p' = some x ∧ seat r t p = some x

/-- What may become of a room. -/
inductive Later (env : Env) (r : Room) : Room → Prop
  | now : Later env r r
  | step {r' r'' : Room} {fuel : Nat} {c : Room.Call} {out : List Sent} : Later env r r' → r'.step env fuel c = .ok (r'', out) → Later env r r''

/-- Everything a room needs for starting some day. -/
def CanStart (env : Env) (r : Room) : Prop :=
  (∀ t p s, slotAt r t p = some s → Shadowed r t p → s.ready = true ∧ s.deckValid = true) ∧
  (∃ d, (env.check r.options.banlistId d).1 = true) ∧ (r.options.ftdm ≠ -2147483648 ∧ r.options.ftdm ≠ 2147483647) ∧
  (r.options.ftdm = 2 → ∃ n, r.rng (r.used + 2 * n) % 6 ≠ r.rng (r.used + 2 * n + 1) % 6)

/-- The clients that called to enter, in order. -/
def enters (calls : List Room.Call) : List ClientId := calls.filterMap fun c => match c with | .enter x => some x | .visit _ _ => none

/-- What a duelist did to the own seat: deck, whether it is valid, and readiness. -/
structure Record where
  deck : Deck := {}
  valid : Bool := false
  ready : Bool := false
  deriving DecidableEq, Repr

/-- How the duelist's own calls change the record. Calls of others do not. -/
def Record.next (check : Deck → Bool) (x : ClientId) (k : Record) : Room.Call → Record
  | .visit c (.configuring (.updateDeck d)) =>
    if c = x then (if check d then { k with deck := d, valid := true } else { k with deck := {}, valid := false }) else k
  | .visit c (.configuring (.readyStatus b)) => if c = x then { k with ready := b && (k.valid || k.ready) } else k
  | _ => k

/-- The record of a client: calls before entering do not count. -/
def record (check : Deck → Bool) (x : ClientId) (calls : List Room.Call) : Record :=
  (calls.dropWhile fun c => c ≠ .enter x).foldl (Record.next check x) {}

/-- Rooms that differ at most in the contents of decks. -/
def SameButDecks (r r' : Room) : Prop :=
  r.options = r'.options ∧ r.host = r'.host ∧ r.spectators = r'.spectators ∧ r.state = r'.state ∧ r.rng = r'.rng ∧ r.used = r'.used ∧
  ∀ t, (r.teams t).map (fun s => (s.deckValid, s.ready, s.client)) = (r'.teams t).map (fun s => (s.deckValid, s.ready, s.client))

/-- Calls that differ at most in the deck another client than `y` submits, judged alike. -/
inductive AlikeFor (y : ClientId) (check : Deck → Bool × DeckError) : Room.Call → Room.Call → Prop
  | same {c : Room.Call} : AlikeFor y check c c
  | deck {x : ClientId} {d d' : Deck} : x ≠ y → (check d).1 = (check d').1 →
      AlikeFor y check (.visit x (.configuring (.updateDeck d))) (.visit x (.configuring (.updateDeck d')))
  | own {x : ClientId} {d d' : Deck} : check d = check d' →
      AlikeFor y check (.visit x (.configuring (.updateDeck d))) (.visit x (.configuring (.updateDeck d')))

/-- Histories of such calls. -/
inductive AlikeCalls (y : ClientId) (check : Deck → Bool × DeckError) : List Room.Call → List Room.Call → Prop
  | nil : AlikeCalls y check [] []
  | cons {c c' : Room.Call} {cs cs' : List Room.Call} : AlikeFor y check c c' → AlikeCalls y check cs cs' → AlikeCalls y check (c :: cs) (c' :: cs')

end Ygo.Spec
