import Verif.Spec.Counts

/-!
# What a client shows

Users do not see how a client names its cards. They see what is known about the card in each place, and the values beside the table.
-/

namespace Ygo.Spec
open Ygo

/-- What is known about each card of each pile, each zone and the materials below it. -/
def Client.screen (s : Client) (C : Container) : List (Card Plain) := (view s.board.frame.layout C).map s.store

/-- Two clients that cannot be told apart by looking at them. -/
structure LookSame (s s' : Client) : Prop where
  cards : Client.screen s = Client.screen s'
  chain : s.board.chainStack = s'.board.chainStack
  turn : s.board.turn = s'.board.turn
  turnPlayer : s.board.turnController = s'.board.turnController
  lp : s.board.lp = s'.board.lp
  phase : s.board.phase = s'.board.phase
  blocked : s.board.blockedZones = s'.board.blockedZones

end Ygo.Spec
