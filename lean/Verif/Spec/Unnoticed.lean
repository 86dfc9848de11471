import Verif.Spec.Noticed
import Verif.Spec.ReleaseServer

/-!
# Clients that have lost track, in builds without asserts
-/

namespace Ygo.Spec
open Ygo

/-- Whatever the first client gets through, the other gets through, which is without asserts: nothing it does is undefined if the first one is right. -/
def NeverUndefined (s' : Client) (s : RawClient) : Prop := ∀ cache ms, GetsThrough cache s' ms → ∃ t, RawClient.follow cache s ms = .ok t

/-- At least as many cards in each container. -/
structure NoFewer (B' : Board) (B : PtrBoard) : Prop where
  slot : ∀ k, B' (.slot k) ≠ [] → ∃ x, B (.slot k) = [some x]
  list : ∀ C, (∀ k, C ≠ .slot k) → (B' C).length ≤ (B C).length

/-- No null pointers, enough cards, and as many links in the chain or more. -/
structure RawKeepsUp (s' : Client) (s : RawClient) : Prop where
  full : Full (rawView s.board.frame.layout)
  table : NoFewer (view s'.board.frame.layout) (rawView s.board.frame.layout)
  chain : s'.board.chainStack.val.length ≤ s.board.chainStack.val.length

end Ygo.Spec
