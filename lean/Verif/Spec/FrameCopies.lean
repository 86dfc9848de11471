import Verif.Spec.FrameObjects

/-! # What copies and moved frames are like -/

namespace Ygo.Spec
open Ygo

variable {α : Type}

/-- Calls on a frame of its own, one after the other. -/
def Solo.calls (x : Solo α) : List (FrameOp × α) → Res (Solo α)
  | [] => .ok x
  | c :: cs => do (← x.call c.1 c.2).calls cs

/-- The same calls in a program, on the frame `o`. -/
def callsOn (o : Nat) (cs : List (FrameOp × α)) : List (FrameObjOp α) := cs.map fun c => .call o c.1 c.2

/-- A frame with nothing but the cards in its zones. -/
def Solo.husk (x : Solo α) : Solo α where
  frame :=
    let l : Layout := ⟨fun _ => [], fun k => { card := (x.frame.layout.zone k).card }⟩
    ⟨l, placed (view l), x.frame.next⟩
  value := x.value

/-- Every card of `x` is still on `y`. -/
def KeepsAll (x y : Solo α) : Prop := ∀ c ∈ placed (view x.frame.layout), c ∈ placed (view y.frame.layout)

end Ygo.Spec
