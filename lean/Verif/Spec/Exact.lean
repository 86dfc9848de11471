import Verif.Spec.Stream
import Verif.Model.Decode

/-!
# Which answers and messages are taken
-/

namespace Ygo.Spec
open Ygo

/-! ## Answers -/

/-- The request asks for cards. -/
def AsksCards : Request → Prop
  | .selectCard _ => True
  | _ => False

/-- The request asks what to do. -/
def AsksAction : Request → Prop
  | .selectIdle _ => True
  | _ => False

/-- The request is about the battle phase. -/
def InBattle : Request → Prop
  | .selectIdle s => s.isBattleCmd = true
  | _ => False

/-- An answer that does not belong to the request, or names no card or no action with a card where there should be one. -/
def Misplaced (request : Request) : Answer → Prop
  | .selectCard (.indexes is) => is = [] ∨ ¬ AsksCards request
  | .selectIdle a => ¬ AsksAction request ∨ ∃ i, a = .cardAction .shuffle i ∨ a = .cardAction .phase i
  | _ => False

/-- An answer that says nothing to the core: a value that is not set, counters, or a phase that is not one of the two that can be entered. -/
def SaysNothing (request : Request) : Answer → Prop
  | .unset | .selectCard .unset | .selectToChain .unset | .selectIdle .unset | .selectCounter _ => True
  | .selectIdle (.phase p) => p.testBit 9 = false ∧ (InBattle request → p.testBit 8 = false) ∧ (¬ InBattle request → p.testBit 7 = false)
  | _ => False

/-! ## Messages -/

/-- A place in a zone that exists. -/
def NamesZone (p : Place) : Prop := ∃ k : ZoneKey, p.con = k.con.val ∧ p.loc = k.loc.code ∧ p.seq = k.seq

open Classical in
/-- What the server has to know to tell what a message means: who wins why, players that exist, a mask with a bit for each card, where a
monster left its materials, zones that exist. -/
def Known (c : BasicContext) : CoreMsg → Prop
  | .win .. => c.matchWinReason ≠ none
  | .deckTop p .. | .draw p _ => p.toNat < 2
  | .swapGraveDeck p _ mask => ∃ i : Fin 2, p.toNat = i.val ∧ (pileOf c ⟨i, .graveyard⟩).length ≤ 8 * mask.length ∧
      (pileOf c ⟨i, .graveyard⟩).length < 2 ^ 32
  | .move _ a b _ =>
    (moveKind a.place b.place = .removed → ¬ InPile a.place.loc → NamesZone a.place) ∧
    (moveKind a.place b.place = .leftBehind → c.left { a.place with oseq := -1 } ≠ none) ∧
    (moveKind a.place b.place = .plain → InPile b.place.loc → ¬ InPile a.place.loc → NamesZone a.place)
  | _ => True

end Ygo.Spec
