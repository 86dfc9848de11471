import Verif.Lemmas.Ext

/-!
# Readers on input that stops too early

`Cut p`: on the first part of an input on which `p` succeeds, `p` either reads past the end or does the same.
-/

set_option linter.unusedSimpArgs false

namespace Ygo
open P

def Cut {α : Type} (p : P α) : Prop :=
  ∀ s t a r, p (s ++ t) = .ok (a, r) → p s = .error .ub ∨ ∃ r', p s = .ok (a, r') ∧ r = r' ++ t

namespace Cut
variable {α β : Type}

theorem pure (a : α) : Cut (Pure.pure a : P α) := by
  intro s t b r h
  simp only [pure_run, Except.ok.injEq, Prod.mk.injEq] at h
  exact Or.inr ⟨s, by rw [pure_run, h.1], h.2.symm⟩

theorem bind_run_error {p : P α} {f : α → P β} {s : List UInt8} {e : Err} (h : p s = .error e) : (p >>= f) s = .error e := by
  show (match p s with | .ok (a, r) => f a r | .error e => .error e) = _
  rw [h]

theorem bind {p : P α} {f : α → P β} (hp : Cut p) (hf : ∀ a, Cut (f a)) : Cut (p >>= f) := by
  intro s t b r h
  obtain ⟨a, u, h1, h2⟩ := bind_eq_ok_iff.mp h
  rcases hp _ _ _ _ h1 with h3 | ⟨r', h3, rfl⟩
  · exact Or.inl (bind_run_error h3)
  · rw [bind_run_ok h3]
    exact hf a _ _ _ _ h2

theorem ite {c : Prop} [Decidable c] {p q : P α} (hp : Cut p) (hq : Cut q) : Cut (if c then p else q) := by
  split <;> assumption

theorem lift (x : Res α) : Cut (P.lift x) := by
  intro s t a r h
  obtain ⟨rfl, rfl⟩ := lift_eq_ok.mp h
  exact Or.inr ⟨s, lift_eq_ok.mpr ⟨rfl, rfl⟩, rfl⟩

theorem read (n : Nat) : Cut (P.read n) := by
  intro s t a r h
  unfold P.read at h ⊢
  by_cases hn : n ≤ s.length
  · rw [if_pos (by rw [List.length_append]; omega)] at h
    rw [if_pos hn]
    rw [List.take_append_of_le_length hn, List.drop_append_of_le_length hn] at h
    simp only [Except.ok.injEq, Prod.mk.injEq] at h
    exact Or.inr ⟨s.drop n, by rw [h.1], h.2.symm⟩
  · exact Or.inl (if_neg hn)

theorem skip (n : Nat) : Cut (P.skip n) := by
  intro s t a r h
  unfold P.skip at h ⊢
  by_cases hn : n ≤ s.length
  · rw [if_pos (by rw [List.length_append]; omega)] at h
    rw [if_pos hn]
    rw [List.drop_append_of_le_length hn] at h
    simp only [Except.ok.injEq, Prod.mk.injEq] at h
    exact Or.inr ⟨s.drop n, rfl, h.2.symm⟩
  · exact Or.inl (if_neg hn)

theorem peek {p : P α} (hp : Cut p) : Cut (P.peek p) := by
  intro s t a r h
  unfold P.peek at h ⊢
  cases h1 : p (s ++ t) with
  | error e => rw [h1] at h; cases h
  | ok x =>
    rw [h1] at h
    simp only [Except.ok.injEq, Prod.mk.injEq] at h
    obtain ⟨rfl, rfl⟩ := h
    rcases hp _ _ _ _ h1 with h3 | ⟨r', h3, _⟩
    · exact Or.inl (by rw [h3])
    · exact Or.inr ⟨s, by rw [h3], rfl⟩

theorem byteAt (n : Nat) : Cut (P.byteAt n) := by
  intro s t a r h
  unfold P.byteAt at h ⊢
  cases h1 : s[n]? with
  | none => exact Or.inl rfl
  | some b =>
    have hl : n < s.length := (List.getElem?_eq_some_iff.mp h1).1
    rw [List.getElem?_append_left hl, h1] at h
    simp only [Except.ok.injEq, Prod.mk.injEq] at h
    exact Or.inr ⟨s, by simp [h.1], h.2.symm⟩

theorem counted {p : P α} (hp : Cut p) : Cut (P.counted p) := by
  intro s t a r h
  unfold P.counted at h ⊢
  cases h1 : p (s ++ t) with
  | error e => rw [h1] at h; cases h
  | ok x =>
    rw [h1] at h
    simp only [Except.ok.injEq, Prod.mk.injEq] at h
    obtain ⟨rfl, rfl⟩ := h
    rcases hp _ _ _ _ h1 with h3 | ⟨r', h3, h4⟩
    · exact Or.inl (by rw [h3])
    · refine Or.inr ⟨r', ?_, h4⟩
      rw [h3]
      have : s.length - r'.length = (s ++ t).length - x.2.length := by rw [h4, List.length_append, List.length_append]; omega
      simp only [this]

theorem many {p : P α} (hp : Cut p) (n : Nat) : Cut (P.many p n) := by
  induction n with
  | zero => exact pure _
  | succ n ih => exact bind hp fun _ => bind ih fun _ => pure _

theorem skipMany {p : P Unit} (hp : Cut p) (n : Nat) : Cut (P.skipMany p n) := by
  induction n with
  | zero => exact pure _
  | succ n ih => exact bind hp fun _ => ih

theorem forEach {f : α → P (List β)} (hf : ∀ a, Cut (f a)) (xs : List α) : Cut (P.forEach f xs) := by
  induction xs with
  | nil => exact pure _
  | cons x xs ih => exact bind (hf x) fun _ => bind ih fun _ => pure _

theorem listOf {p : P α} (hp : Cut p) : Cut (listOf p) := bind (read 4) fun n => many hp n
theorem slistOf {p : P α} (hp : Cut p) : Cut (slistOf p) := bind (read 1) fun n => many hp n

/-- Closes goals `Cut p` for readers put together from the ones above. -/
macro "cut_tac" : tactic => `(tactic| repeat' (first
  | with_reducible exact Cut.pure _
  | with_reducible exact Cut.read _
  | with_reducible exact Cut.skip _
  | with_reducible exact Cut.lift _
  | with_reducible exact Cut.byteAt _
  | assumption
  | with_reducible refine Cut.bind ?_ fun _ => ?_
  | with_reducible refine Cut.listOf ?_
  | with_reducible refine Cut.slistOf ?_
  | with_reducible refine Cut.many ?_ _
  | with_reducible refine Cut.skipMany ?_ _
  | with_reducible refine Cut.forEach (fun _ => ?_) _
  | with_reducible refine Cut.counted ?_
  | with_reducible refine Cut.peek ?_
  | with_reducible refine Cut.ite ?_ ?_))

theorem readBool : Cut readBool := by unfold Ygo.readBool; cut_tac
theorem readCon : Cut readCon := by unfold Ygo.readCon; cut_tac
theorem readCounter : Cut readCounter := by unfold Ygo.readCounter; cut_tac
theorem readEffect : Cut readEffect := by unfold Ygo.readEffect; cut_tac
theorem readLoc (a b : Nat) (c : Option Nat) : Cut (readLoc a b c) := by
  have := readCon
  unfold Ygo.readLoc
  cases c <;> cut_tac
theorem readLocInfo : Cut readLocInfo := readLoc _ _ _
theorem readLocSeq : Cut readLocSeq := readLoc _ _ _
theorem readLocSSeq : Cut readLocSSeq := readLoc _ _ _
theorem coded {p : P α} (hp : Cut p) : Cut (coded p) := by unfold Ygo.coded; cut_tac

theorem readField (f : QField) : Cut (readField f) := by
  have := readBool
  have := readCon
  have := readLocInfo
  cases f <;> (unfold Ygo.readField; cut_tac)

theorem queryField (size flag : Nat) (v : QueryRead) : Cut (queryField size flag v) := by
  have := readLocInfo
  have := readCounter
  unfold Ygo.queryField
  cut_tac
  split
  · have := readField
    cut_tac
    exact this _
  · cut_tac

theorem queryLoop (f g : Nat) (v : QueryRead) (s t : List UInt8) (a : QueryRead) (r : List UInt8)
    (h : queryLoop f v (s ++ t) = .ok (a, r)) (hg : s.length < g) :
    Ygo.queryLoop g v s = .error .ub ∨ ∃ r', Ygo.queryLoop g v s = .ok (a, r') ∧ r = r' ++ t := by
  induction f generalizing v s g with
  | zero => cases h
  | succ f ih =>
    obtain ⟨g, rfl⟩ : ∃ k, g = k + 1 := ⟨g - 1, by omega⟩
    simp only [Ygo.queryLoop] at h ⊢
    obtain ⟨size, s1, h1, h'⟩ := bind_eq_ok_iff.mp h
    clear h
    rcases read 2 _ _ _ _ h1 with e1 | ⟨s1, e1, rfl⟩
    · exact Or.inl (bind_run_error e1)
    rw [bind_run_ok e1]
    have l1 := AtLeast.read 2 _ _ _ e1
    obtain ⟨flag, s2, h2, h⟩ := bind_eq_ok_iff.mp h'
    clear h'
    rcases read 4 _ _ _ _ h2 with e2 | ⟨s2, e2, rfl⟩
    · exact Or.inl (bind_run_error e2)
    rw [bind_run_ok e2]
    have l2 := AtLeast.read 4 _ _ _ e2
    by_cases hx : flag = 0x80000000
    · rw [if_pos hx] at h ⊢
      exact pure v _ _ _ _ h
    · rw [if_neg hx] at h ⊢
      obtain ⟨w, s3, h3, h4⟩ := bind_eq_ok_iff.mp h
      rcases queryField size flag v _ _ _ _ h3 with e3 | ⟨s3, e3, rfl⟩
      · exact Or.inl (bind_run_error e3)
      rw [bind_run_ok e3]
      have l3 := AtLeast.zero (Tight.queryField size flag v).ext _ _ _ e3
      exact ih g w s3 h4 (by omega)

theorem encodeOneQuery : Cut encodeOneQuery := by
  intro s t a r h
  exact queryLoop _ _ _ _ _ _ _ h (by omega)

theorem updateLoop (con : Int) (loc total f g i n : Nat) (s t : List UInt8) (a : List Query) (r : List UInt8)
    (h : updateLoop con loc total f i n (s ++ t) = .ok (a, r)) (hg : s.length < g) :
    Ygo.updateLoop con loc total g i n s = .error .ub ∨ ∃ r', Ygo.updateLoop con loc total g i n s = .ok (a, r') ∧ r = r' ++ t := by
  induction f generalizing i n s a g r with
  | zero => cases h
  | succ f ih =>
    obtain ⟨g, rfl⟩ : ∃ k, g = k + 1 := ⟨g - 1, by omega⟩
    simp only [Ygo.updateLoop] at h ⊢
    by_cases hn : n < total
    · rw [if_pos hn] at h ⊢
      obtain ⟨size, s1, h1, h'⟩ := bind_eq_ok_iff.mp h
      clear h
      rcases peek (read 2) _ _ _ _ h1 with e1 | ⟨s1, e1, rfl⟩
      · exact Or.inl (bind_run_error e1)
      rw [bind_run_ok e1]
      have l1 : s1.length ≤ s.length := by
        unfold P.peek at e1
        split at e1
        · simp only [Except.ok.injEq, Prod.mk.injEq] at e1
          rw [e1.2]
        · cases e1
      by_cases hz : size = 0
      · rw [if_pos hz] at h' ⊢
        obtain ⟨_, s2, h2, h3⟩ := bind_eq_ok_iff.mp h'
        rcases skip 2 _ _ _ _ h2 with e2 | ⟨s2, e2, rfl⟩
        · exact Or.inl (bind_run_error e2)
        rw [bind_run_ok e2]
        have l2 := AtLeast.skip 2 _ _ _ e2
        exact ih g _ _ s2 _ _ h3 (by omega)
      · rw [if_neg hz] at h' ⊢
        obtain ⟨⟨v, used⟩, s2, h2, h3⟩ := bind_eq_ok_iff.mp h'
        rcases counted encodeOneQuery _ _ _ _ h2 with e2 | ⟨s2, e2, rfl⟩
        · exact Or.inl (bind_run_error e2)
        rw [bind_run_ok e2]
        have l2 := AtLeast.counted AtLeast.encodeOneQuery _ _ _ e2
        dsimp only at h3 ⊢
        obtain ⟨rest, s3, h4, h5⟩ := bind_eq_ok_iff.mp h3
        rcases ih g _ _ s2 _ _ h4 (by omega) with e4 | ⟨s3, e4, rfl⟩
        · exact Or.inl (bind_run_error e4)
        rw [bind_run_ok e4]
        exact pure _ _ _ _ _ h5
    · rw [if_neg hn] at h ⊢
      exact pure _ _ _ _ _ h

theorem updateAll (con : Int) (loc total : Nat) : Cut (updateAll con loc total) := by
  intro s t a r h
  exact updateLoop _ _ _ _ _ _ _ _ _ _ _ h (by omega)

theorem readActCard {p : P Place} (hp : Cut p) : Cut (readActCard p) := by
  have := readEffect
  unfold Ygo.readActCard; cut_tac
theorem readChain : Cut readChain := by
  have := readEffect
  have := readLocInfo
  have := readLocSeq
  unfold Ygo.readChain; cut_tac
theorem readSelectable : Cut readSelectable := by
  have := readLocInfo
  unfold Ygo.readSelectable; cut_tac

theorem reloadZone (con : Int) (loc seq : Nat) : Cut (reloadZone con loc seq) := by
  unfold Ygo.reloadZone; cut_tac

theorem reloadController (con : Int) : Cut (reloadController con) := by
  have := reloadZone
  unfold Ygo.reloadController; cut_tac
  · exact this _ _ _
  · exact this _ _ _

theorem eventCase (k : Kind) (p : P Outcome) (h : eventCase k = some p) : Cut p := by
  have hBool := readBool
  have hCon := readCon
  have hEffect := readEffect
  have hLocInfo := readLocInfo
  have hLocSeq := readLocSeq
  have hLocSSeq := readLocSSeq
  have hCoded := coded hLocSeq
  have hChain := readChain
  have hReload := reloadController
  cases k <;> simp only [Ygo.eventCase, Option.some.injEq, reduceCtorEq] at h <;> subst h <;>
    (try unfold summoningEvent) <;> (try unfold selectedEvent) <;> (try unfold lpEvent) <;> (try unfold startEvent) <;>
    (try unfold tagSwapEvent) <;> (try unfold reloadEvent) <;> cut_tac <;> first | done | apply hReload

theorem queryCase (k : Kind) (p : P Outcome) (h : queryCase k = some p) : Cut p := by
  have hCon := readCon
  have hLocSSeq := readLocSSeq
  have hq := encodeOneQuery
  have hu := updateAll
  cases k <;> simp only [Ygo.queryCase, Option.some.injEq, reduceCtorEq] at h <;> subst h <;> cut_tac
  apply hu

theorem selectCardRequest : Cut selectCardRequest := by
  have hBool := readBool
  have hSel := readSelectable
  unfold Ygo.selectCardRequest
  cut_tac

theorem requestCase (k : Kind) (f : Int → P Request) (h : requestCase k = some f) (i : Int) : Cut (f i) := by
  have hBool := readBool
  have hCon := readCon
  have hEffect := readEffect
  have hLocInfo := readLocInfo
  have hLocSeq := readLocSeq
  have hLocSSeq := readLocSSeq
  have hCoded := coded hLocSeq
  have hCodedS := coded hLocSSeq
  have hCodedL := coded (readLoc 4 4 none)
  have hAct := readActCard hLocSeq
  have hAct' := readActCard hLocInfo
  have hSel := readSelectable
  have hCard := selectCardRequest
  cases k <;> simp only [Ygo.requestCase, Option.some.injEq, reduceCtorEq] at h <;> subst h <;>
    (try unfold battleRequest) <;> (try unfold idleRequest) <;> cut_tac

theorem swallowedCase (k : Kind) (p : P Unit) (h : swallowedCase k = some p) : Cut p := by
  cases k <;> simp only [Ygo.swallowedCase, Option.some.injEq, reduceCtorEq] at h <;> subst h <;> cut_tac

theorem graveLoop (con : Int) (pos n i seq size sent : Nat) : Cut (graveLoop con pos n i seq size sent) := by
  induction n generalizing i seq size sent with
  | zero => exact pure _
  | succ n ih =>
    simp only [Ygo.graveLoop]
    cut_tac
    all_goals apply ih

section
variable {C : Type} [EncodeContext C]

theorem contextCase (c : C) (k : Kind) (p : P (Outcome × C)) (h : contextCase c k = some p) : Cut p := by
  have hCon := readCon
  have hLocInfo := readLocInfo
  have hg := graveLoop
  cases k <;> simp only [Ygo.contextCase, Option.some.injEq, reduceCtorEq] at h <;> (try subst h) <;>
    (try unfold winEvent) <;> (try unfold deckTopEvent) <;> (try unfold drawEvent) <;> (try unfold reverseDeckEvent) <;>
    (try unfold swapGraveDeckEvent) <;> cut_tac
  apply hg

theorem encodeCase (c : C) (k : Kind) : Cut (encodeCase c k) := by
  unfold Ygo.encodeCase
  have hCon := readCon
  split
  · have := eventCase _ _ ‹Ygo.eventCase k = some _›; cut_tac
  · have := queryCase _ _ ‹Ygo.queryCase k = some _›; cut_tac
  · have := fun i => requestCase _ _ ‹Ygo.requestCase k = some _› i; cut_tac; exact this _
  · have := swallowedCase _ _ ‹Ygo.swallowedCase k = some _›; cut_tac
  · exact contextCase c _ _ ‹Ygo.contextCase c k = some _›
  · cut_tac

theorem body (c : C) : Cut (encodeBody c) := by
  unfold encodeBody
  refine bind (read 1) fun b => ?_
  split
  · exact encodeCase c _
  · exact pure _

end
end Cut
end Ygo
