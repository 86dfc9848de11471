import Verif.Model.Query
import Verif.Spec.Query
import Verif.Spec.Undo

/-!
# Clients that go back and forth over events and queries

The code has no function that takes a query back. It reports which members were not assigned (parse_query.hpp:83, 99-100), so that a client
whose cards have undoable members can call `undo` on the others. Here is a client that does so.
-/

namespace Ygo.Spec
open Ygo

/-- What a client receives and works on. -/
inductive Note where
  | event (e : Ygo.Event)
  | query (useCache : Bool) (q : Query)

/-- The events among them. -/
def eventsOf : List Note → List Ygo.Event
  | [] => []
  | .event e :: ns => e :: eventsOf ns
  | .query .. :: ns => eventsOf ns

/-- Board and cards of a client, all undoable. -/
structure Desk where
  board : UndoBoard
  store : CardId → Card Undoable

/-- A member is undone if the query gave it and it was not reported. -/
def takeSingles (report : Nat) (d : QueryData) : List QField → Card Undoable → Res (Card Undoable)
  | [], c => .ok c
  | f :: fs, c =>
    if (d.single f).isSome = true ∧ report.testBit (flagBit f) = false then do
      let u ← (c.single f).undo
      takeSingles report d fs (c.setSingle f u)
    else takeSingles report d fs c

/-- A list is undone if the query gave it. -/
def takeList {α : Type} (given : Bool) (u : Undoable α) : Res (Undoable α) := if given then u.undo else .ok u

/-- A query is taken back from a card. -/
def takeData (report : Nat) (d : QueryData) (c : Card Undoable) : Res (Card Undoable) := do
  let c ← takeSingles report d QField.all c
  let counters ← takeList d.counters.isSome c.counters
  let targets ← takeList d.targets.isSome c.targets
  return ⟨c.single, targets, counters⟩

namespace Desk

/-- Something arrives; what is reported about it is kept. -/
def parse (k : Desk) : Note → Res (Nat × Desk)
  | .event e => do return (0, ⟨← k.board.parseEvent e, k.store⟩)
  | .query useCache q => do
    let (report, store) ← parseQuery useCache k.board.frame.base.layout k.store q
    return (report, ⟨k.board, store⟩)

/-- It is taken back. -/
def undo (k : Desk) (report : Nat) : Note → Res Desk
  | .event e => do return ⟨← k.board.undoParseEvent e, k.store⟩
  | .query _ q => do
    let c ← k.board.frame.base.layout.card q.place
    let card ← takeData report q.data (k.store c)
    return ⟨k.board, fun x => if x = c then card else k.store x⟩

/-- All that arrives, in order, and the reports. -/
def run (k : Desk) : List Note → Res (List Nat × Desk)
  | [] => .ok ([], k)
  | n :: ns => do
    let (r, k) ← k.parse n
    let (rs, k) ← k.run ns
    return (r :: rs, k)

/-- Back and forth over what arrived. The reports of all that is not taken back are kept, latest first; their number is the position. -/
def scrub (ns : List Note) (k : Desk) (reports : List Nat) : List Move → Res (Desk × List Nat)
  | [] => .ok (k, reports)
  | .forward :: ms => match ns[reports.length]? with
    | some n => do
      let (r, k) ← k.parse n
      scrub ns k (r :: reports) ms
    | none => scrub ns k reports ms
  | .backward :: ms => match reports with
    | [] => scrub ns k [] ms
    | r :: rs => match ns[rs.length]? with
      | some n => do scrub ns (← k.undo r n) rs ms
      | none => scrub ns k (r :: rs) ms

end Desk

/-- Both cards show the same values. -/
structure SameCard (a b : Card Undoable) : Prop where
  single : ∀ f, (a.single f).get = (b.single f).get
  targets : a.targets.get = b.targets.get
  counters : a.counters.get = b.counters.get

/-- Nothing about the card is undone. -/
structure LiveCard (c : Card Undoable) : Prop where
  single : ∀ f, LiveCell (c.single f)
  targets : LiveCell c.targets
  counters : LiveCell c.counters

end Ygo.Spec
