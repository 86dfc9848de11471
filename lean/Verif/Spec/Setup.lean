import Verif.Spec.Core
import Verif.Spec.Frame

/-!
# Messages that set a board up: how many cards are where
-/

namespace Ygo.Spec
open Ygo

/-- Number of cards in every container. -/
def Board.sizes (B : Board) : Container → Nat := fun C => (B C).length

namespace FieldCell

/-- Cards in the zone itself. -/
def cards : FieldCell → Nat
  | .empty => 0
  | .card .. => 1

/-- Materials under the card. -/
def mats : FieldCell → Nat
  | .empty => 0
  | .card _ _ n => n.toNat

end FieldCell

namespace FieldSide

/-- What a reloaded side says about a zone. The core's spell slot 5 is the field zone, slots 6 and 7 are the pendulum zones. -/
def cell (s : FieldSide) (k : ZoneKey) : FieldCell :=
  match k.loc with
  | .monster => s.monsters.getD k.seq .empty
  | .spell => s.spells.getD k.seq .empty
  | .field => s.spells.getD 5 .empty
  | .pendulum => s.spells.getD (6 + k.seq) .empty
  | .skill => .empty

/-- What a reloaded side says about a pile. -/
def size (s : FieldSide) : PileLoc → Nat
  | .mainDeck => s.main.toNat
  | .hand => s.hand.toNat
  | .graveyard => s.grave.toNat
  | .banished => s.banished.toNat
  | .extraDeck => s.extra.toNat

end FieldSide

/-- A slot of the spell zones beyond the fifth has no materials. -/
def NoOddMaterials (s : FieldSide) : Prop := ∀ i mark pos mats, 5 ≤ i → s.spells[i]? = some (.card mark pos mats) → mats = 0

/-- Cards after a reload, `s` being the two sides. -/
def reloadSizes (s : Fin 2 → FieldSide) : Container → Nat
  | .pile k => (s k.con).size k.loc
  | .slot k => ((s k.con).cell k).cards
  | .mats k => ((s k.con).cell k).mats

/-- Cards after the start of a duel: two decks each, nothing else. -/
def startSizes (main extra : Fin 2 → Nat) : Container → Nat
  | .pile ⟨c, .mainDeck⟩ => main c
  | .pile ⟨c, .extraDeck⟩ => extra c
  | _ => 0

/-- A pile of `n` cards: the old ones as far as they fit, then new ones. -/
def Resized (New : CardId → Prop) (old : List CardId) (n : Nat) (now : List CardId) : Prop :=
  ∃ others, now = old.take n ++ others ∧ others.length = n - old.length ∧ ∀ x ∈ others, New x

end Ygo.Spec
