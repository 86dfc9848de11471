import Mathlib.Data.List.Forall2
import Verif.Spec.Setup
import Verif.Spec.Tracked

/-!
# What is shown of cards that are no longer there
-/

namespace Ygo.Spec
open Ygo

/-- The codes that a server shows for the cards of a pile, from the bottom to the top; 0 if it knows none. -/
def codesShown (c : BasicContext) (k : PileKey) : List Nat := (boardOf c (.pile k)).map fun x => ((c.store x).single .code).val

/-- Every code that is shown for a card of the pile is the one it has. -/
def Faithful (c : BasicContext) (k : PileKey) (truth : List Nat) : Prop := List.Forall₂ (fun shown code => shown = 0 ∨ shown = code) (codesShown c k) truth

/-- The codes that a server shows for the cards in some zones, one after the other; 0 if it knows none. -/
def codesInZones (c : BasicContext) (ks : List ZoneKey) : List Nat :=
  ks.flatMap fun k => (boardOf c (.slot k)).map fun x => ((c.store x).single .code).val

/-- Every code that is shown for a card in these zones is the one it has. -/
def FaithfulZones (c : BasicContext) (ks : List ZoneKey) (truth : List Nat) : Prop :=
  List.Forall₂ (fun shown code => shown = 0 ∨ shown = code) (codesInZones c ks) truth

/-- The message says that a deck, a hand or an extra deck was shuffled. -/
def Shuffled (m : CoreMsg) : Prop :=
  (∃ p, m = .shuffleDeck p) ∨ (∃ p cs, cs.length < 2 ^ 32 ∧ (m = .shuffleHand p cs ∨ m = .shuffleExtra p cs))

end Ygo.Spec
