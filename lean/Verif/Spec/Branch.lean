import Verif.Spec.Undo
import Verif.Spec.Counts

/-!
# Going back and then another way

`History` (Spec/Undo.lean) only lets clients repeat what they undid, unless they erase it first.  Here they may do anything after going
back; all that is asked is that what is undone is what was done last.
-/

namespace Ygo.Spec
open Ygo

/-- Calls on an undoable frame: `Walk f past` says that the calls in `past`, latest first, were made and not undone. -/
inductive Walk : Limbo → List FrameOp → Prop
  | init : Walk Limbo.init []
  | step {f f' past X} : Walk f past → f.step X = .ok f' → Walk f' (X :: past)
  | undo {f f' past X} : Walk f (X :: past) → f.undo X = .ok f' → Walk f' past
  | erase {f f' past} : Walk f past → f.eraseHistory = .ok f' → Walk f' past

/-- The same with events on an undoable board. -/
inductive BoardWalk : UndoBoard → List Event → Prop
  | init : BoardWalk UndoBoard.init []
  | parse {b b' past e} : BoardWalk b past → b.parseEvent e = .ok b' → BoardWalk b' (e :: past)
  | undo {b b' past e} : BoardWalk b (e :: past) → b.undoParseEvent e = .ok b' → BoardWalk b' past

/-- Calls on an undoable frame by a client that erases what it undid before it goes another way: what is undone and not erased is
repeated. -/
inductive Careful : Limbo → List FrameOp → List FrameOp → Prop
  | init : Careful Limbo.init [] []
  | new {f f' past X} : Careful f past [] → Undoes f.base.layout X → f.step X = .ok f' → Careful f' (X :: past) []
  | undo {f f' past future X} : Careful f (X :: past) future → f.undo X = .ok f' → Careful f' past (X :: future)
  | redo {f f' past future X} : Careful f past (X :: future) → f.step X = .ok f' → Careful f' (X :: past) future
  | erase {f f' past future} : Careful f past future → f.eraseHistory = .ok f' → Careful f' past []

/-- The same cards in the same places but for their identities: `ρ` says which card of the first table is which of the second. -/
def SameButNames (l l' : Layout) : Prop :=
  ∃ ρ : CardId → CardId, (∀ C, view l' C = (view l C).map ρ) ∧ ∀ x ∈ placed (view l), ∀ y ∈ placed (view l), ρ x = ρ y → x = y

end Ygo.Spec
