import Verif.Spec.Stream
import Verif.Spec.Undo

/-!
# A server and its clients

The server encodes buffers from the core one after the other and applies each result to its own board. Clients get the results.
-/

namespace Ygo.Spec
open Ygo

/-- The server's results for buffers with arbitrary contents, and what it tracks in the end. -/
def feed : BasicContext → List (List UInt8) → Res (List Encoded × BasicContext)
  | c, [] => .ok ([], c)
  | c, d :: ds => do
    let (r, c) ← encodeOne c d
    let c ← match r.msg with
      | some m => c.parse m
      | none => pure c
    let (rs, c) ← feed c ds
    return (r :: rs, c)

/-- The messages among the results. -/
def messages (rs : List Encoded) : List Msg := rs.filterMap (·.msg)

/-- The event in a message. -/
def Msg.event? (m : Msg) : Option Event :=
  match m.body with
  | .event e => some e
  | _ => none

/-- A client: a board and what it knows about each card. -/
structure Client where
  board : PlainBoard
  store : CardId → Card Plain

/-- A new client. -/
def Client.init : Client := ⟨PlainBoard.init, fun _ => BasicContext.newCard⟩

/-- Queries in order. -/
def Client.answer (cache : Bool) (l : Layout) : List Query → (CardId → Card Plain) → Res (CardId → Card Plain)
  | [], st => .ok st
  | q :: qs, st => do
    let (_, st) ← parseQuery cache l st q
    Client.answer cache l qs st

/-- A client follows messages: the event first, then what is said about cards, with or without looking values up first. -/
def Client.follow (cache : Bool) : Client → List Msg → Res Client
  | s, [] => .ok s
  | s, m :: ms => do
    let b ← match Msg.event? m with
      | some e => s.board.parseEvent e
      | none => pure s.board
    let st ← Client.answer cache b.frame.layout m.queries s.store
    Client.follow cache ⟨b, st⟩ ms

/-- Whenever the operations shrink a pile, they leave at most half of it. -/
def ShrinksByHalf (f : Frame) : List FrameOp → Prop
  | [] => True
  | X :: Xs => (∀ p n k i, X = .resize p n → At p (.pile k) i → (view f.layout (.pile k)).length ≤ n ∨ 2 * n ≤ (view f.layout (.pile k)).length) ∧
    ∀ f', f.step X = .ok f' → ShrinksByHalf f' Xs

/-- No chain link is added or removed on its own. -/
def NoSingleLinks : Event → Prop
  | .chainStack (.push _) => False
  | .chainStack (.pop _) => False
  | _ => True

/-- What a client whose board can be undone supports: chain links are neither added nor removed one by one, and piles that shrink lose
at least half of their cards. -/
def Followable (b : PlainBoard) : List Event → Prop
  | [] => True
  | e :: es => NoSingleLinks e ∧ ShrinksByHalf b.frame (frameOps e) ∧
    ∀ b', b.parseEvent e = .ok b' → Followable b' es

end Ygo.Spec
