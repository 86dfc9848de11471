import Verif.Spec.Room

/-!
# What the options of a room ask of decks
-/

namespace Ygo.Spec
open Ygo Ygo.Room

/-- A number of cards is within a limit; a negative maximum asks for nothing here (deck.proto:44). -/
def WithinLimit (n : Nat) (l : DeckLimit) : Prop := l.min ≤ n ∧ (0 ≤ l.max → (n : Int) ≤ l.max)

/-- A deck is within the limits that are given. -/
def WithinLimits (l : DeckLimits) (d : Deck) : Prop :=
  (∀ x, l.main = some x → WithinLimit d.main.length x) ∧ (∀ x, l.extra = some x → WithinLimit d.extra.length x) ∧
  (∀ x, l.side = some x → WithinLimit d.side.length x)

/-- All cards of a deck. -/
def cards (d : Deck) : List Nat := d.main ++ d.extra ++ d.side

/-- A deck is allowed by a banlist (the reasons of `Banlisted`, deck.proto:58-69): no copies of forbidden cards, at most one of limited
ones, at most two of semilimited ones, and only cards of the whitelist, when there is one. -/
def Allowed (b : Banlist) (d : Deck) : Prop :=
  (∀ c ∈ b.forbidden, (cards d).count c = 0) ∧ (∀ c ∈ b.limited, (cards d).count c ≤ 1) ∧ (∀ c ∈ b.semilimited, (cards d).count c ≤ 2) ∧
  (b.whitelist ≠ [] → ∀ c ∈ cards d, c ∈ b.whitelist)

/-- A deck keeps all rules of the options, where `list` says which banlist a name stands for. -/
def KeepsRules (list : String → Banlist) (o : Options) (d : Deck) : Prop :=
  (∀ l, o.deckLimits = some l → WithinLimits l d) ∧ (∀ s, o.banlist = .id s → Allowed (list s) d) ∧ (∀ b, o.banlist = .custom b → Allowed b d)

/-- The name of the banlist of some options, if any. -/
def listName (o : Options) : String := match o.banlist with | .id s => s | .unset => "" | .custom _ => ""

/-- Two options that differ at most in the limits of decks and in the contents of a custom banlist. -/
def SameButRules (o o' : Options) : Prop := o.maxDuelists = o'.maxDuelists ∧ o.ftdm = o'.ftdm ∧ listName o = listName o'

/-- The same message, about other options. -/
def aboutOptions (o : Options) : Room.Event → Room.Event
  | .entering _ ds n => .entering o ds n
  | e => e

end Ygo.Spec
