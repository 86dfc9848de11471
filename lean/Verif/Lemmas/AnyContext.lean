import Verif.Spec.AnyContext
import Verif.Lemmas.CountsServer

/-!
# Contexts that answer alike
-/

set_option linter.unusedSimpArgs false

namespace Ygo
open Ygo.Spec P EncodeContext

/-- Readers that fail in the same way, or succeed with related results and as many bytes left. -/
def Alongside {α β : Type} (R : α → β → Prop) (p : P α) (q : P β) : Prop :=
  ∀ s, Together (fun x y => R x.1 y.1 ∧ x.2 = y.2) (p s) (q s)

namespace Alongside
variable {α α' β γ : Type}

theorem pure {R : α → β → Prop} {a : α} {b : β} (h : R a b) : Alongside R (Pure.pure a) (Pure.pure b) := fun _ => ⟨h, rfl⟩
theorem bind {R : β → γ → Prop} {p : P α} {g : α → P β} {h : α → P γ} (hg : ∀ a, Alongside R (g a) (h a)) : Alongside R (p >>= g) (p >>= h) := by
  intro s
  rw [bind_run, bind_run]
  cases p s with
  | error e => exact rfl
  | ok x => exact hg x.1 x.2
theorem lift {R : α → β → Prop} {x : Res α} {y : Res β} (h : Together R x y) : Alongside R (P.lift x) (P.lift y) := by
  intro s
  cases x <;> cases y <;> first | exact h | exact absurd h id | exact ⟨h, rfl⟩
theorem of_eq {R : α → β → Prop} {p : P α} {q q' : P β} (h : q' = q) (hp : Alongside R p q) : Alongside R p q' := h ▸ hp

end Alongside

variable {C D : Type} [EncodeContext C] [EncodeContext D] {R : C → D → Prop}

/-- The same outcome next to related contexts. -/
def NextTo {α : Type} (R : C → D → Prop) (x : α × C) (y : α × D) : Prop := x.1 = y.1 ∧ R x.2 y.2

theorem moveOutcome_alike (hR : AnswerAlike R) {c : C} {d : D} (h : R c d) (p q : Place) (r : Nat) :
    Together (NextTo R) (moveOutcome c p q r) (moveOutcome d p q r) := by
  unfold moveOutcome
  split
  · exact ⟨rfl, h⟩
  split
  · exact ⟨rfl, h⟩
  split
  · split
    · exact ⟨rfl, h⟩
    · rename_i hp
      rw [hR.hasXyzMat c d h p (by simpa using hp)]
      cases hasXyzMat d p with
      | error e => exact rfl
      | ok v => cases v <;> first | exact ⟨rfl, h⟩ | exact ⟨rfl, hR.xyzLeft c d h _ _⟩
  split
  · exact ⟨rfl, hR.xyzMatDefer c d h p⟩
  split
  · have e := hR.deferred c d h
    have t := hR.takeDeferred c d h
    revert e t
    rcases takeDeferredXyzMat c with ⟨a, c'⟩
    rcases takeDeferredXyzMat d with ⟨b, d'⟩
    rintro ⟨⟩ t
    exact ⟨rfl, t⟩
  split
  · rename_i hp
    rw [hR.getXyzLeft c d h { p with oseq := OSEQ_INVALID } hp.2 rfl]
    cases getXyzLeft d { p with oseq := OSEQ_INVALID } with
    | error e => exact rfl
    | ok v => exact ⟨rfl, h⟩
  · split
    · rename_i hp
      rw [hR.hasXyzMat c d h p hp.1]
      cases hasXyzMat d p with
      | error e => exact rfl
      | ok v => cases v <;> first | exact ⟨rfl, h⟩ | exact ⟨rfl, hR.xyzLeft c d h _ _⟩
    · exact ⟨rfl, h⟩

theorem encodeCase_alike (hR : AnswerAlike R) {c : C} {d : D} (h : R c d) (k : Kind) :
    Alongside (NextTo R) (encodeCase c k) (encodeCase d k) := by
  have keep : ∀ {p : P Outcome}, Alongside (NextTo R) (p >>= fun o => Pure.pure (o, c)) (p >>= fun o => Pure.pure (o, d)) :=
    Alongside.bind fun o => Alongside.pure ⟨rfl, h⟩
  have hm : ∀ con, pileSize d con Loc.mainDeck = pileSize c con Loc.mainDeck := fun con => (hR.pileSize c d h con _ (.inl rfl)).symm
  have hh : ∀ con, pileSize d con Loc.hand = pileSize c con Loc.hand := fun con => (hR.pileSize c d h con _ (.inr (.inl rfl))).symm
  have hg : ∀ con, pileSize d con Loc.graveyard = pileSize c con Loc.graveyard := fun con => (hR.pileSize c d h con _ (.inr (.inr rfl))).symm
  unfold encodeCase
  cases h1 : eventCase k with
  | some p => exact keep
  | none =>
  cases h2 : queryCase k with
  | some p => exact keep
  | none =>
  cases h3 : requestCase k with
  | some p => exact Alongside.bind fun o => Alongside.bind fun r => Alongside.pure ⟨rfl, h⟩
  | none =>
  cases h4 : swallowedCase k with
  | some p => exact Alongside.bind fun o => Alongside.pure ⟨rfl, h⟩
  | none =>
  cases k <;> simp only [contextCase]
  case win => exact Alongside.of_eq (by simp only [winEvent, hR.getMatchWinReason c d h]) keep
  case deckTop => exact Alongside.of_eq (by simp only [deckTopEvent, hm]) keep
  case move => exact Alongside.bind fun _ => Alongside.bind fun _ => Alongside.bind fun _ => Alongside.bind fun _ => Alongside.lift (moveOutcome_alike hR h _ _ _)
  case swapGraveDeck => exact Alongside.of_eq (by simp only [swapGraveDeckEvent, hm, hg]) keep
  case draw => exact Alongside.of_eq (by simp only [drawEvent, hm, hh]) keep
  case reverseDeck => exact Alongside.of_eq (by simp only [reverseDeckEvent, hm]) keep
  case matchKill => exact Alongside.bind fun r => Alongside.pure ⟨rfl, hR.matchWinReason c d h r⟩
  all_goals exact Alongside.pure ⟨rfl, h⟩

theorem encodeOne_alike (hR : AnswerAlike R) {c : C} {d : D} (h : R c d) (s : List UInt8) :
    Together (fun x y => x.1 = y.1 ∧ R x.2 y.2) (encodeOne c s) (encodeOne d s) := by
  have hb : Alongside (NextTo R) (encodeBody c) (encodeBody d) := by
    unfold encodeBody
    refine Alongside.bind fun x => ?_
    cases Kind.ofByte x with
    | none => exact Alongside.pure ⟨rfl, h⟩
    | some k => exact encodeCase_alike hR h k
  have := hb s
  unfold encodeOne
  revert this
  cases encodeBody c s with
  | error e =>
    cases encodeBody d s with
    | error e' => exact id
    | ok y => exact False.elim
  | ok x =>
    cases encodeBody d s with
    | error e' => exact False.elim
    | ok y =>
      obtain ⟨⟨o, c'⟩, r⟩ := x
      obtain ⟨⟨o', d'⟩, r'⟩ := y
      rintro ⟨⟨rfl, hr⟩, rfl⟩
      exact ⟨rfl, hr⟩

/-- Without any relation, for the kinds that do not need the context. -/
theorem encodeCase_alone (c : C) (d : D) (k : Kind) (hk : k ∉ [Kind.win, .swapGraveDeck, .reverseDeck, .deckTop, .move, .draw, .matchKill]) :
    Alongside (NextTo fun c' d' => c' = c ∧ d' = d) (encodeCase c k) (encodeCase d k) := by
  have keep : ∀ {p : P Outcome}, Alongside (NextTo fun c' d' => c' = c ∧ d' = d) (p >>= fun o => Pure.pure (o, c)) (p >>= fun o => Pure.pure (o, d)) :=
    Alongside.bind fun o => Alongside.pure ⟨rfl, rfl, rfl⟩
  unfold encodeCase
  cases h1 : eventCase k with
  | some p => exact keep
  | none =>
  cases h2 : queryCase k with
  | some p => exact keep
  | none =>
  cases h3 : requestCase k with
  | some p => exact Alongside.bind fun o => Alongside.bind fun r => Alongside.pure ⟨rfl, rfl, rfl⟩
  | none =>
  cases h4 : swallowedCase k with
  | some p => exact Alongside.bind fun o => Alongside.pure ⟨rfl, rfl, rfl⟩
  | none =>
  cases k <;> simp only [contextCase] <;> first | exact absurd (by decide) hk | exact Alongside.pure ⟨rfl, rfl, rfl⟩

end Ygo
