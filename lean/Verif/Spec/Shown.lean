import Verif.Spec.Trackable
import Verif.Spec.System

/-!
# What a server or client can come to show
-/

namespace Ygo.Spec
open Ygo

/-- A value of a field of a card that the core has words for: numbers of four bytes, the race of eight, the owner of one; a place as the core names places. -/
def FieldFits : (f : QField) → f.Val → Prop
  | .level, v | .atk, v | .def_, v | .baseAtk, v | .baseDef, v => -2 ^ 31 ≤ v ∧ v < 2 ^ 31
  | .owner, v => 0 ≤ v ∧ v < 2 ^ 8
  | .equippedTo, p => ∃ l : LocInfo, p = l.place
  | .isPublic, _ | .isHidden, _ => True
  | .race, v => v < 2 ^ 64
  | .code, v | .position, v | .«alias», v | .type, v | .xyzRank, v | .«attribute», v | .status, v | .pendLScale, v | .pendRScale, v
  | .cover, v | .linkRate, v | .linkArrow, v => v < 2 ^ 32

/-- All that is known of a card can be said by the core. -/
structure CardFits (d : Card Plain) : Prop where
  single : ∀ f, FieldFits f (d.single f).val
  targets : ∀ p ∈ d.targets.val, ∃ l : LocInfo, p = l.place
  counters : ∀ c ∈ d.counters.val, c.type < 2 ^ 16 ∧ c.count < 2 ^ 16

/-- The score on a board. -/
def boardScore (b : PlainBoard) : Score := ⟨b.turn.val, b.turnController.val, b.phase.val, fun i => (b.lp i).val, b.chainStack.val⟩

/-- All that is shown: what is known of each card, place by place, the score and the zones that can not be used. -/
structure Picture where
  cards : Container → List (Card Plain)
  score : Score
  blocked : List Place

/-- What a client shows. -/
def picture (s : Client) : Picture :=
  ⟨fun C => (view s.board.frame.layout C).map s.store, boardScore s.board, s.board.blockedZones.val⟩

/-- A picture that the core has words for. -/
structure PictureFits (P : Picture) : Prop where
  table : TableFits fun C => (P.cards C).length
  cards : ∀ C, ∀ d ∈ P.cards C, CardFits d
  score : ScoreFits P.score
  blocked : BlockedFits P.blocked

/-- A message that some server sends, given some bytes. -/
def OfServer (m : Msg) : Prop := ∃ ds rs c, feed BasicContext.init ds = .ok (rs, c) ∧ m ∈ messages rs

end Ygo.Spec
