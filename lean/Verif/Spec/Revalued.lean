import Verif.Spec.RecodedDesk
import Verif.Spec.Screen

/-!
# Other values for cards

Every value that messages tell about cards is replaced by another one, in each member in its own way.
-/

namespace Ygo.Spec
open Ygo

/-- For every value of every member another one, which need not be different for different values. -/
structure Revaluing where
  single : (g : QField) → g.Val → g.Val
  targets : List Place → List Place
  counters : List Counter → List Counter

/-- No two values become one. -/
def Revaluing.Faithful (φ : Revaluing) : Prop := ∀ g x y, φ.single g x = φ.single g y → x = y

/-- What a new card shows stays as it is. -/
structure Revaluing.KeepsNew (φ : Revaluing) : Prop where
  single : ∀ g : QField, φ.single g g.zero = g.zero
  targets : φ.targets [] = []
  counters : φ.counters [] = []

variable (φ : Revaluing)

def _root_.Ygo.QueryData.revalued (d : QueryData) : QueryData :=
  ⟨fun g => (d.single g).map (φ.single g), d.targets.map φ.targets, d.counters.map φ.counters⟩

def _root_.Ygo.Query.revalued (q : Query) : Query := ⟨q.place, q.data.revalued φ⟩

def _root_.Ygo.Msg.revalued (m : Msg) : Msg := { m with queries := m.queries.map (Query.revalued φ) }

/-- All that a card shows and has shown. -/
def _root_.Ygo.Card.revalued {V : Type → Type} [Inside V] (c : Card V) : Card V :=
  ⟨fun g => Inside.map (φ.single g) (c.single g), Inside.map φ.targets c.targets, Inside.map φ.counters c.counters⟩

def _root_.Ygo.BasicContext.revalued (c : BasicContext) : BasicContext := { c with store := fun x => (c.store x).revalued φ }

def Client.revalued (s : Client) : Client := { s with store := fun x => (s.store x).revalued φ }

def Note.revalued : Note → Note
  | .event e => .event e
  | .query useCache q => .query useCache (q.revalued φ)

def Desk.revalued (k : Desk) : Desk := { k with store := fun x => (k.store x).revalued φ }

end Ygo.Spec
