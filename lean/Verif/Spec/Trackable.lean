import Verif.Spec.Score
import Verif.Spec.Core

/-!
# Tables that a server can track
-/

namespace Ygo.Spec
open Ygo

/-- The two skill zones and what lies below them. -/
def InSkillZone : Container → Prop
  | .pile _ => False
  | .slot k | .mats k => k.loc = .skill

/-- The server's table has `n C` cards in each pile, zone and set of materials, its score is `s` and the zones in `blocked` can not be used. -/
structure Tracks (c : BasicContext) (n : Container → Nat) (s : Score) (blocked : List Place) : Prop where
  table : ∀ C, (boardOf c C).length = n C
  score : scoreOf c = s
  blocked : c.board.blockedZones.val = blocked

/-- At most one card per zone and none in the skill zones. -/
structure TableFits (n : Container → Nat) : Prop where
  slots : ∀ k, n (.slot k) ≤ 1
  skill : ∀ C, InSkillZone C → n C = 0

/-- The score consists of numbers that the core sends: a 32-bit turn and life points, a player of one byte, a phase of two bytes; the chain
consists of links it sends. -/
structure ScoreFits (s : Score) : Prop where
  turn : s.turn < 2 ^ 32
  player : ∃ p : UInt8, s.player = p.toNat
  phase : ∃ p : UInt16, s.phase = p.toNat
  lp : ∀ i, s.lp i < 2 ^ 32
  chain : ∃ ls : List Link, s.chain = ls.map (·.chain)

/-- The blocked zones are those whose bits are clear in some mask. -/
def BlockedFits (blocked : List Place) : Prop := ∃ mask : UInt32, blocked = clearBits mask 0

end Ygo.Spec
