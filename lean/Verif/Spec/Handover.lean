import Verif.Spec.CatchUp

/-!
# Handing over

A second server that is to go on where a first one is.
-/

namespace Ygo.Spec
open Ygo

/-- A server's board and cards follow messages. -/
def tracks : BasicContext → List Msg → Res BasicContext
  | c, [] => .ok c
  | c, m :: ms => do
    let c ← c.parse m
    tracks c ms

/-- What a server tracks, seen as a client would show it. -/
def clientOf (c : BasicContext) : Client := ⟨c.board, c.store⟩

/-- What a server has noted beside the board: the reason for the end of the match, where things came from and what was put off. -/
def withNotes (c c' : BasicContext) : BasicContext := { c with matchWinReason := c'.matchWinReason, left := c'.left, deferred := c'.deferred }

end Ygo.Spec
