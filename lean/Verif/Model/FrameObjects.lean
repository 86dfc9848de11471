import Verif.Model.Frame

/-!
# `BasicFrame` as objects in memory (`include/ygopen/client/frame.hpp`)

`Model/Frame.lean` takes one frame by itself, with cards that are only names. Here several frames live side by side: their cards are objects
in memory, owned by the `std::forward_list` of one frame (frame.hpp:593-600), and piles and zones hold pointers to them (frame.hpp:68, 74-78,
602-607). The class declares no copy or move operations and no destructor, so it has the implicit ones, which go member by member: the list
is copied or moved with its cards, vectors of pointers are copied or moved, and the pointer of a zone is copied.
-/

namespace Ygo

/-- The cards that live, the frames that live (piles and zones, and the addresses of the cards in `cards_`), and an address from which on
none was used yet. -/
structure FrameMemory (α : Type) where
  card : CardId → Option α
  obj : Nat → Option (Layout × List CardId)
  fresh : CardId

namespace FrameMemory
variable {α : Type}

/-- Nothing lives. -/
def empty : FrameMemory α := ⟨fun _ => none, fun _ => none, 0⟩

/-- Cards die. -/
def free (m : FrameMemory α) (cs : List CardId) : FrameMemory α :=
  { m with card := fun c => if c ∈ cs then none else m.card c }

/-- A frame gets new members. -/
def put (m : FrameMemory α) (o : Nat) (x : Option (Layout × List CardId)) : FrameMemory α :=
  { m with obj := fun p => if p = o then x else m.obj p }

/-- Constructor (frame.hpp:126-129). -/
def construct (m : FrameMemory α) (o : Nat) : FrameMemory α := m.put o (some (Layout.empty, []))

/-- A call of a member function; the builder makes cards with the contents `d` (frame.hpp:556-559). -/
def call (m : FrameMemory α) (o : Nat) (op : FrameOp) (d : α) : Res (FrameMemory α) := do
  let (l, ow) ← orUb (m.obj o)
  let f ← (⟨l, ow, m.fresh⟩ : Frame).step op
  return {
    card := fun c => if c ∈ f.owned then (if m.fresh ≤ c then some d else m.card c) else if c ∈ ow then none else m.card c
    obj := fun p => if p = o then some (f.layout, f.owned) else m.obj p
    fresh := f.next }

/-- Reading the card at a place (frame.hpp:152-156, 633-644): a pointer is followed, wherever its card is. -/
def read (m : FrameMemory α) (o : Nat) (p : Place) : Res α := do
  let (l, _) ← orUb (m.obj o)
  let c ← l.card p
  orUb (m.card c)

/-- Writing to the card at a place (frame.hpp:191-195). -/
def write (m : FrameMemory α) (o : Nat) (p : Place) (v : α) : Res (FrameMemory α) := do
  let (l, _) ← orUb (m.obj o)
  let c ← l.card p
  let _ ← orUb (m.card c)
  return { m with card := fun c' => if c' = c then some v else m.card c' }

/-- The implicit copy constructor: the list is copied, and so are the pointers, which still point to the old cards. -/
def copy (m : FrameMemory α) (o p : Nat) : Res (FrameMemory α) := do
  let (l, ow) ← orUb (m.obj p)
  let new := List.range' m.fresh ow.length
  return {
    card := fun c => if c < m.fresh then m.card c else ow[c - m.fresh]?.bind m.card
    obj := fun q => if q = o then some (l, new) else m.obj q
    fresh := m.fresh + ow.length }

/-- What the implicit move operations leave behind: no cards, no pointers in vectors, but the pointers of the zones. -/
def leftovers (l : Layout) : Layout := ⟨fun _ => [], fun k => { card := (l.zone k).card, materials := [] }⟩

/-- The implicit move constructor. -/
def move (m : FrameMemory α) (o p : Nat) : Res (FrameMemory α) := do
  let (l, ow) ← orUb (m.obj p)
  return (m.put o (some (l, ow))).put p (some (leftovers l, []))

/-- The implicit move assignment: the cards of the target die first. -/
def moveAssign (m : FrameMemory α) (o p : Nat) : Res (FrameMemory α) := do
  let (_, old) ← orUb (m.obj o)
  let (l, ow) ← orUb (m.obj p)
  return ((m.free old).put o (some (l, ow))).put p (some (leftovers l, []))

/-- The implicit destructor. -/
def destroy (m : FrameMemory α) (o : Nat) : Res (FrameMemory α) := do
  let (_, ow) ← orUb (m.obj o)
  return (m.free ow).put o none

end FrameMemory

/-- What a program can do with frames. -/
inductive FrameObjOp (α : Type) where
  | construct (o : Nat)
  | call (o : Nat) (op : FrameOp) (d : α)
  | write (o : Nat) (p : Place) (v : α)
  | copy (o p : Nat)
  | move (o p : Nat)
  | moveAssign (o p : Nat)
  | destroy (o : Nat)

/-- One thing done. -/
def FrameMemory.step {α : Type} (m : FrameMemory α) : FrameObjOp α → Res (FrameMemory α)
  | .construct o => .ok (m.construct o)
  | .call o op d => m.call o op d
  | .write o p v => m.write o p v
  | .copy o p => m.copy o p
  | .move o p => m.move o p
  | .moveAssign o p => m.moveAssign o p
  | .destroy o => m.destroy o

/-- A program. -/
def FrameMemory.run {α : Type} (m : FrameMemory α) : List (FrameObjOp α) → Res (FrameMemory α)
  | [] => .ok m
  | op :: ops => do (← m.step op).run ops

end Ygo
