import Verif.Spec.Handover

/-!
# The next duel

Servers and clients that have followed a duel are told that another one starts.
-/

namespace Ygo.Spec
open Ygo

/-- An event of a certain kind is among the messages. -/
def EventTold (P : Event → Prop) (ms : List Msg) : Prop := ∃ m ∈ ms, ∃ e, Msg.event? m = some e ∧ P e

/-- Says whose turn it is. -/
def Event.SaysTurn (e : Event) : Prop := ∃ con, e = .nextTurn con
/-- Says which phase it is. -/
def Event.SaysPhase (e : Event) : Prop := ∃ p, e = .nextPhase p
/-- Says which zones are blocked. -/
def Event.SaysBlocked (e : Event) : Prop := ∃ zs, e = .zoneBlock zs

/-- Clients that look alike but for whose turn it is, the phase and the blocked zones, and also in these as far as the messages told. -/
structure LookSameSince (ms : List Msg) (s s' : Client) : Prop where
  cards : Client.screen s = Client.screen s'
  chain : s.board.chainStack = s'.board.chainStack
  turn : s.board.turn = s'.board.turn
  lp : s.board.lp = s'.board.lp
  turnPlayer : EventTold Event.SaysTurn ms → s.board.turnController = s'.board.turnController
  phase : EventTold Event.SaysPhase ms → s.board.phase = s'.board.phase
  blocked : EventTold Event.SaysBlocked ms → s.board.blockedZones = s'.board.blockedZones

/-- Of what was not told, a client shows what it showed before. -/
structure StaysAsBefore (ms : List Msg) (s t : Client) : Prop where
  turnPlayer : ¬ EventTold Event.SaysTurn ms → t.board.turnController = s.board.turnController
  phase : ¬ EventTold Event.SaysPhase ms → t.board.phase = s.board.phase
  blocked : ¬ EventTold Event.SaysBlocked ms → t.board.blockedZones = s.board.blockedZones

end Ygo.Spec
