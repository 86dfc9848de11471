import Verif.Model.ReleaseServer
import Verif.Spec.Release
import Verif.Spec.System
import Verif.Spec.Exact
import Verif.Spec.Core

/-!
# A server and its clients in builds without asserts
-/

namespace Ygo.Spec
open Ygo

/-- The server's results for buffers with arbitrary contents, and what it tracks in the end. -/
def rawFeed : RawContext → List (List UInt8) → Res (List Encoded × RawContext)
  | c, [] => .ok ([], c)
  | c, d :: ds => do
    let (r, c) ← rawEncodeOne c d
    let c ← match r.msg with
      | some m => c.parse m
      | none => pure c
    let (rs, c) ← rawFeed c ds
    return (r :: rs, c)

/-- A client. -/
structure RawClient where
  board : RawBoard
  store : CardId → Card Plain

def RawClient.init : RawClient := ⟨RawBoard.init, fun _ => BasicContext.newCard⟩

/-- Queries in order. -/
def RawClient.answer (cache : Bool) (l : RawLayout) : List Query → (CardId → Card Plain) → Res (CardId → Card Plain)
  | [], st => .ok st
  | q :: qs, st => do
    let (_, st) ← rawParseQuery cache l st q
    RawClient.answer cache l qs st

/-- A client follows messages: the event first, then what is said about cards, with or without looking values up first. -/
def RawClient.follow (cache : Bool) : RawClient → List Msg → Res RawClient
  | s, [] => .ok s
  | s, m :: ms => do
    let b ← match Msg.event? m with
      | some e => RawBoard.parseEvent s.board e
      | none => pure s.board
    let st ← RawClient.answer cache b.frame.layout m.queries s.store
    RawClient.follow cache ⟨b, st⟩ ms

/-- A server with asserts, as one without. -/
def asRawContext (c : BasicContext) : RawContext := ⟨asRawBoard c.board, c.store, c.matchWinReason, c.left, c.deferred⟩

/-- A question of the core which cards to select that offers none, and what follows it. -/
def emptySelection (who cancel : UInt8) (min max : UInt32) (rest : List UInt8) : List UInt8 :=
  [15, who, cancel] ++ b32 min ++ b32 max ++ b32 0 ++ rest

/-- What is made of it: the sixth byte after it decides which kind of request it becomes. -/
def emptyRequest (who cancel : UInt8) (min max : UInt32) (rest : List UInt8) : Encoded :=
  ⟨.ok, 15, some { body := .request who.toNat (.selectCard (if rest[5]? = some 0
    then .limbo (decide (cancel ≠ 0)) min.toNat max.toNat [] else .uniqueRange (decide (cancel ≠ 0)) min.toNat max.toNat [])) }⟩

end Ygo.Spec
