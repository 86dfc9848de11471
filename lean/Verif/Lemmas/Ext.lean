import Verif.Model.Encode
import Verif.Lemmas.Wire

/-!
# Readers look at a prefix only

`Ext p`: when `p` succeeds it leaves a suffix of its input, and it does the same whatever is appended to the input.
`Tight p`: more than that, what it does depends only on the bytes it moves past.
-/

set_option linter.unusedSimpArgs false

namespace Ygo
open P

def Ext {α : Type} (p : P α) : Prop :=
  ∀ s a r, p s = .ok (a, r) → (∃ used, s = used ++ r) ∧ ∀ t, p (s ++ t) = .ok (a, r ++ t)

def Tight {α : Type} (p : P α) : Prop := ∀ s a r, p s = .ok (a, r) → ∃ used, s = used ++ r ∧ ∀ t, p (used ++ t) = .ok (a, t)

/-- `p` moves past at least `n` bytes. -/
def AtLeast {α : Type} (n : Nat) (p : P α) : Prop := ∀ s a r, p s = .ok (a, r) → r.length + n ≤ s.length

theorem Tight.ext {α : Type} {p : P α} (h : Tight p) : Ext p := by
  intro s a r e
  obtain ⟨u, rfl, hu⟩ := h s a r e
  refine ⟨⟨u, rfl⟩, fun t => ?_⟩
  rw [List.append_assoc, hu]

namespace AtLeast
variable {α β : Type}

theorem zero {p : P α} (h : Ext p) : AtLeast 0 p := by
  intro s a r e
  obtain ⟨⟨u, rfl⟩, _⟩ := h s a r e
  simp

theorem bind {m n : Nat} {p : P α} {f : α → P β} (hp : AtLeast m p) (hf : ∀ a, AtLeast n (f a)) : AtLeast (m + n) (p >>= f) := by
  intro s b r h
  obtain ⟨a, t, h1, h2⟩ := bind_eq_ok_iff.mp h
  have := hp _ _ _ h1
  have := hf _ _ _ _ h2
  omega

theorem pure (a : α) : AtLeast 0 (Pure.pure a : P α) := by
  intro s b r h
  simp only [pure_run, Except.ok.injEq, Prod.mk.injEq] at h
  obtain ⟨rfl, rfl⟩ := h
  simp

theorem read (n : Nat) : AtLeast n (P.read n) := by
  intro s a r h
  unfold P.read at h
  split at h
  · simp only [Except.ok.injEq, Prod.mk.injEq] at h
    obtain ⟨rfl, rfl⟩ := h
    rw [List.length_drop]
    omega
  · cases h

theorem skip (n : Nat) : AtLeast n (P.skip n) := by
  intro s a r h
  unfold P.skip at h
  split at h
  · simp only [Except.ok.injEq, Prod.mk.injEq, true_and] at h
    subst h
    rw [List.length_drop]
    omega
  · cases h

theorem mono {m n : Nat} {p : P α} (h : AtLeast n p) (hm : m ≤ n) : AtLeast m p := by
  intro s a r e
  have := h _ _ _ e
  omega

end AtLeast

namespace Tight
variable {α β : Type}

theorem pure (a : α) : Tight (Pure.pure a : P α) := by
  intro s b r h
  simp only [pure_run, Except.ok.injEq, Prod.mk.injEq] at h
  obtain ⟨rfl, rfl⟩ := h
  exact ⟨[], rfl, fun t => rfl⟩

theorem bind {p : P α} {f : α → P β} (hp : Tight p) (hf : ∀ a, Tight (f a)) : Tight (p >>= f) := by
  intro s b r h
  obtain ⟨a, t, h1, h2⟩ := bind_eq_ok_iff.mp h
  obtain ⟨u1, rfl, e1⟩ := hp _ _ _ h1
  obtain ⟨u2, rfl, e2⟩ := hf a _ _ _ h2
  refine ⟨u1 ++ u2, by simp, fun t => ?_⟩
  rw [List.append_assoc, bind_run_ok (e1 _), e2 t]

theorem ite {c : Prop} [Decidable c] {p q : P α} (hp : Tight p) (hq : Tight q) : Tight (if c then p else q) := by
  split <;> assumption

theorem lift (x : Res α) : Tight (P.lift x) := by
  intro s a r h
  obtain ⟨rfl, rfl⟩ := lift_eq_ok.mp h
  exact ⟨[], rfl, fun t => rfl⟩

theorem read (n : Nat) : Tight (P.read n) := by
  intro s a r h
  unfold P.read at h
  split at h
  · next hn =>
    simp only [Except.ok.injEq, Prod.mk.injEq] at h
    obtain ⟨rfl, rfl⟩ := h
    refine ⟨s.take n, (List.take_append_drop n s).symm, fun t => ?_⟩
    exact read_append (by simp [hn])
  · cases h

theorem skip (n : Nat) : Tight (P.skip n) := by
  intro s a r h
  unfold P.skip at h
  split at h
  · next hn =>
    simp only [Except.ok.injEq, Prod.mk.injEq, true_and] at h
    subst h
    refine ⟨s.take n, (List.take_append_drop n s).symm, fun t => ?_⟩
    exact skip_append (by simp [hn])
  · cases h

/-- Looking ahead is harmless if what follows moves past everything looked at. -/
theorem peek_bind {n : Nat} {q : P α} {f : α → P β} (hq : Tight q) (hn : ∀ s a r, q s = .ok (a, r) → s.length ≤ r.length + n)
    (hf : ∀ a, Tight (f a)) (hl : ∀ a, AtLeast n (f a)) : Tight (P.peek q >>= f) := by
  intro s b r h
  obtain ⟨a, t, h1, h2⟩ := bind_eq_ok_iff.mp h
  unfold P.peek at h1
  cases hx : q s with
  | error e => rw [hx] at h1; cases h1
  | ok x =>
    obtain ⟨a', r1⟩ := x
    rw [hx] at h1
    simp only [Except.ok.injEq, Prod.mk.injEq] at h1
    obtain ⟨rfl, rfl⟩ := h1
    have l1 := hn _ _ _ hx
    have l2 := hl _ _ _ _ h2
    obtain ⟨u1, rfl, e1⟩ := hq _ _ _ hx
    obtain ⟨u2, e, e2⟩ := hf _ _ _ _ h2
    refine ⟨u2, e, fun t => ?_⟩
    have : ∃ v, u2 = u1 ++ v := by
      have hp : u1 <+: u2 := List.prefix_of_prefix_length_le ⟨r1, rfl⟩ ⟨r, e.symm⟩ (by
        have := congrArg List.length e
        simp only [List.length_append] at this l1 l2
        omega)
      obtain ⟨v, hv⟩ := hp
      exact ⟨v, hv.symm⟩
    obtain ⟨v, rfl⟩ := this
    have hpk : P.peek q (u1 ++ v ++ t) = .ok (a', u1 ++ v ++ t) := by
      unfold P.peek
      rw [List.append_assoc, e1]
    rw [bind_run_ok hpk, e2]

theorem counted {p : P α} (hp : Tight p) : Tight (P.counted p) := by
  intro s a r h
  unfold P.counted at h
  cases h1 : p s with
  | error e => rw [h1] at h; cases h
  | ok x =>
    obtain ⟨b, q⟩ := x
    rw [h1] at h
    simp only [Except.ok.injEq, Prod.mk.injEq] at h
    obtain ⟨rfl, rfl⟩ := h
    obtain ⟨u, rfl, e⟩ := hp _ _ _ h1
    refine ⟨u, rfl, fun t => ?_⟩
    simp only [P.counted, e t]
    simp

theorem many {p : P α} (hp : Tight p) (n : Nat) : Tight (P.many p n) := by
  induction n with
  | zero => exact pure _
  | succ n ih => exact bind hp fun a => bind ih fun as => pure _

theorem skipMany {p : P Unit} (hp : Tight p) (n : Nat) : Tight (P.skipMany p n) := by
  induction n with
  | zero => exact pure _
  | succ n ih => exact bind hp fun _ => ih

theorem forEach {f : α → P (List β)} (hf : ∀ a, Tight (f a)) (xs : List α) : Tight (P.forEach f xs) := by
  induction xs with
  | nil => exact pure _
  | cons x xs ih => exact bind (hf x) fun a => bind ih fun as => pure _

theorem listOf {p : P α} (hp : Tight p) : Tight (listOf p) := bind (read 4) fun n => many hp n
theorem slistOf {p : P α} (hp : Tight p) : Tight (slistOf p) := bind (read 1) fun n => many hp n

/-- Closes goals `Tight p` for readers put together from the ones above. -/
macro "tight_tac" : tactic => `(tactic| repeat' (first
  | with_reducible exact Tight.pure _
  | with_reducible exact Tight.read _
  | with_reducible exact Tight.skip _
  | with_reducible exact Tight.lift _
  | assumption
  | with_reducible refine Tight.bind ?_ fun _ => ?_
  | with_reducible refine Tight.listOf ?_
  | with_reducible refine Tight.slistOf ?_
  | with_reducible refine Tight.many ?_ _
  | with_reducible refine Tight.skipMany ?_ _
  | with_reducible refine Tight.forEach (fun _ => ?_) _
  | with_reducible refine Tight.counted ?_
  | with_reducible refine Tight.ite ?_ ?_))

theorem readBool : Tight readBool := by unfold Ygo.readBool; tight_tac
theorem readCon : Tight readCon := by unfold Ygo.readCon; tight_tac
theorem readCounter : Tight readCounter := by unfold Ygo.readCounter; tight_tac
theorem readEffect : Tight readEffect := by unfold Ygo.readEffect; tight_tac
theorem readLoc (a b : Nat) (c : Option Nat) : Tight (readLoc a b c) := by
  have := readCon
  unfold Ygo.readLoc
  cases c <;> tight_tac
theorem readLocInfo : Tight readLocInfo := readLoc _ _ _
theorem readLocSeq : Tight readLocSeq := readLoc _ _ _
theorem readLocSSeq : Tight readLocSSeq := readLoc _ _ _
theorem coded {p : P α} (hp : Tight p) : Tight (coded p) := by unfold Ygo.coded; tight_tac

theorem readField (f : QField) : Tight (readField f) := by
  have := readBool
  have := readCon
  have := readLocInfo
  cases f <;> (unfold Ygo.readField; tight_tac)

theorem queryField (size flag : Nat) (v : QueryRead) : Tight (queryField size flag v) := by
  have := readLocInfo
  have := readCounter
  unfold Ygo.queryField
  tight_tac
  split
  · have := readField
    tight_tac
    exact this _
  · tight_tac

theorem queryLoop (f : Nat) (v : QueryRead) (s : List UInt8) (a : QueryRead) (r : List UInt8) (h : queryLoop f v s = .ok (a, r)) :
    ∃ used, s = used ++ r ∧ 6 ≤ used.length ∧ ∀ g t, f ≤ g ∨ used.length ≤ g → Ygo.queryLoop g v (used ++ t) = .ok (a, t) := by
  induction f generalizing v s with
  | zero => cases h
  | succ f ih =>
    simp only [Ygo.queryLoop] at h
    obtain ⟨size, s1, h1, h'⟩ := bind_eq_ok_iff.mp h
    clear h
    obtain ⟨flag, s2, h2, h⟩ := bind_eq_ok_iff.mp h'
    clear h'
    have l1 := AtLeast.read 2 _ _ _ h1
    have l2 := AtLeast.read 4 _ _ _ h2
    obtain ⟨u1, rfl, e1⟩ := read 2 _ _ _ h1
    obtain ⟨u2, rfl, e2⟩ := read 4 _ _ _ h2
    simp only [List.length_append] at l1 l2
    by_cases hx : flag = 0x80000000
    · rw [if_pos hx] at h
      simp only [pure_run, Except.ok.injEq, Prod.mk.injEq] at h
      obtain ⟨rfl, rfl⟩ := h
      refine ⟨u1 ++ u2, by simp, by simp only [List.length_append]; omega, fun g t hg => ?_⟩
      simp only [List.length_append] at hg
      obtain ⟨g, rfl⟩ : ∃ k, g = k + 1 := ⟨g - 1, by omega⟩
      simp only [Ygo.queryLoop, List.append_assoc]
      rw [bind_run_ok (e1 _), bind_run_ok (e2 t), if_pos hx, pure_run]
    · rw [if_neg hx] at h
      obtain ⟨w, s3, h3, h4⟩ := bind_eq_ok_iff.mp h
      obtain ⟨u3, rfl, e3⟩ := queryField size flag v _ _ _ h3
      obtain ⟨u4, rfl, _, e4⟩ := ih w _ h4
      refine ⟨u1 ++ (u2 ++ (u3 ++ u4)), by simp, by simp only [List.length_append]; omega, fun g t hg => ?_⟩
      simp only [List.length_append] at hg
      obtain ⟨g, rfl⟩ : ∃ k, g = k + 1 := ⟨g - 1, by omega⟩
      simp only [Ygo.queryLoop, List.append_assoc]
      rw [bind_run_ok (e1 _), bind_run_ok (e2 _), if_neg hx, bind_run_ok (e3 _), e4 g t (by omega)]

theorem encodeOneQuery : Tight encodeOneQuery := by
  intro s a r h
  obtain ⟨u, hu, _, e⟩ := queryLoop _ _ _ _ _ h
  refine ⟨u, hu, fun t => ?_⟩
  exact e _ t (Or.inr (by simp; omega))

theorem _root_.Ygo.AtLeast.encodeOneQuery : AtLeast 6 Ygo.encodeOneQuery := by
  intro s a r h
  obtain ⟨u, rfl, hl, e⟩ := queryLoop _ _ _ _ _ h
  simp only [List.length_append]
  omega

theorem _root_.Ygo.AtLeast.counted {α : Type} {p : P α} {n : Nat} (hp : AtLeast n p) : AtLeast n (P.counted p) := by
  intro s a r h
  unfold P.counted at h
  cases h1 : p s with
  | error e => rw [h1] at h; cases h
  | ok x =>
    obtain ⟨b, q⟩ := x
    rw [h1] at h
    simp only [Except.ok.injEq, Prod.mk.injEq] at h
    obtain ⟨rfl, rfl⟩ := h
    exact hp _ _ _ h1

theorem updateLoop (con : Int) (loc total f i n : Nat) (s : List UInt8) (a : List Query) (r : List UInt8)
    (h : updateLoop con loc total f i n s = .ok (a, r)) :
    ∃ used, s = used ++ r ∧ ∀ g t, f ≤ g ∨ used.length < g → Ygo.updateLoop con loc total g i n (used ++ t) = .ok (a, t) := by
  induction f generalizing i n s a with
  | zero => cases h
  | succ f ih =>
    simp only [Ygo.updateLoop] at h
    by_cases hn : n < total
    · rw [if_pos hn] at h
      obtain ⟨size, s1, h1, h'⟩ := bind_eq_ok_iff.mp h
      clear h
      rename' h' => h
      -- what was looked at
      obtain ⟨sz, rest2, hr, rfl, rfl⟩ : ∃ sz rest, P.read 2 s = .ok (sz, rest) ∧ sz = size ∧ s = s1 := by
        unfold P.peek at h1
        cases hx : P.read 2 s with
        | error e => rw [hx] at h1; cases h1
        | ok x =>
          obtain ⟨a', r1⟩ := x
          rw [hx] at h1
          simp only [Except.ok.injEq, Prod.mk.injEq] at h1
          exact ⟨a', r1, rfl, h1.1, h1.2⟩
      have lr : rest2.length + 2 = s.length := by
        unfold P.read at hr
        split at hr
        · simp only [Except.ok.injEq, Prod.mk.injEq] at hr
          rw [← hr.2, List.length_drop]; omega
        · cases hr
      have look : ∀ u r' : List UInt8, s = u ++ r' → 2 ≤ u.length → ∀ t, P.peek (P.read 2) (u ++ t) = .ok (sz, u ++ t) := by
        intro u r' e hl t
        obtain ⟨u1, e', e1⟩ := read 2 _ _ _ hr
        have hp : u1 <+: u := List.prefix_of_prefix_length_le ⟨rest2, e'.symm⟩ ⟨r', e.symm⟩ (by
          have := congrArg List.length e'
          simp only [List.length_append] at this
          omega)
        obtain ⟨v, rfl⟩ := hp
        unfold P.peek
        rw [List.append_assoc, e1]
      by_cases hs : sz = 0
      · rw [if_pos hs] at h
        obtain ⟨_, s2, h2, h3⟩ := bind_eq_ok_iff.mp h
        have l2 := AtLeast.skip 2 _ _ _ h2
        obtain ⟨u2, e, e2⟩ := skip 2 _ _ _ h2
        obtain ⟨u3, rfl, e3⟩ := ih _ _ _ _ h3
        have l2' : 2 ≤ u2.length := by
          have := congrArg List.length e
          simp only [List.length_append] at this l2
          omega
        refine ⟨u2 ++ u3, by rw [e]; simp, fun g t hg => ?_⟩
        simp only [List.length_append] at hg
        obtain ⟨g, rfl⟩ : ∃ k, g = k + 1 := ⟨g - 1, by omega⟩
        simp only [Ygo.updateLoop]
        rw [if_pos hn, bind_run_ok (look (u2 ++ u3) r (by rw [e]; simp) (by simp; omega) t), if_pos hs, List.append_assoc,
          bind_run_ok (e2 _), e3 g t (by omega)]
      · rw [if_neg hs] at h
        obtain ⟨⟨v, used⟩, s2, h2, h'⟩ := bind_eq_ok_iff.mp h
        obtain ⟨rest, s3, h3, h4⟩ := bind_eq_ok_iff.mp h'
        have l2 := AtLeast.counted AtLeast.encodeOneQuery _ _ _ h2
        obtain ⟨u2, e, e2⟩ := counted encodeOneQuery _ _ _ h2
        simp only [pure_run, Except.ok.injEq, Prod.mk.injEq] at h4
        obtain ⟨rfl, rfl⟩ := h4
        obtain ⟨u3, rfl, e3⟩ := ih _ _ _ _ h3
        have l2' : 6 ≤ u2.length := by
          have := congrArg List.length e
          simp only [List.length_append] at this l2
          omega
        refine ⟨u2 ++ u3, by rw [e]; simp, fun g t hg => ?_⟩
        simp only [List.length_append] at hg
        obtain ⟨g, rfl⟩ : ∃ k, g = k + 1 := ⟨g - 1, by omega⟩
        simp only [Ygo.updateLoop]
        rw [if_pos hn, bind_run_ok (look (u2 ++ u3) s3 (by rw [e]; simp) (by simp; omega) t), if_neg hs, List.append_assoc,
          bind_run_ok (e2 _), bind_run_ok (e3 g t (by omega)), pure_run]
    · rw [if_neg hn] at h
      simp only [pure_run, Except.ok.injEq, Prod.mk.injEq] at h
      obtain ⟨rfl, rfl⟩ := h
      refine ⟨[], rfl, fun g t hg => ?_⟩
      obtain ⟨g, rfl⟩ : ∃ k, g = k + 1 := ⟨g - 1, by omega⟩
      simp only [Ygo.updateLoop]
      rw [if_neg hn, pure_run]
      rfl

theorem updateAll (con : Int) (loc total : Nat) : Tight (updateAll con loc total) := by
  intro s a r h
  obtain ⟨u, hu, e⟩ := updateLoop _ _ _ _ _ _ _ _ _ h
  exact ⟨u, hu, fun t => e _ t (Or.inr (by simp; omega))⟩

theorem readActCard {p : P Place} (hp : Tight p) : Tight (readActCard p) := by
  have := readEffect
  unfold Ygo.readActCard; tight_tac
theorem readChain : Tight readChain := by
  have := readEffect
  have := readLocInfo
  have := readLocSeq
  unfold Ygo.readChain; tight_tac
theorem readSelectable : Tight readSelectable := by
  have := readLocInfo
  unfold Ygo.readSelectable; tight_tac

theorem reloadZone (con : Int) (loc seq : Nat) : Tight (reloadZone con loc seq) := by
  unfold Ygo.reloadZone; tight_tac

theorem reloadController (con : Int) : Tight (reloadController con) := by
  have := reloadZone
  unfold Ygo.reloadController; tight_tac
  · exact this _ _ _
  · exact this _ _ _

theorem eventCase (k : Kind) (p : P Outcome) (h : eventCase k = some p) : Tight p := by
  have hBool := readBool
  have hCon := readCon
  have hEffect := readEffect
  have hLocInfo := readLocInfo
  have hLocSeq := readLocSeq
  have hLocSSeq := readLocSSeq
  have hCoded := coded hLocSeq
  have hChain := readChain
  have hReload := reloadController
  cases k <;> simp only [Ygo.eventCase, Option.some.injEq, reduceCtorEq] at h <;> subst h <;>
    (try unfold summoningEvent) <;> (try unfold selectedEvent) <;> (try unfold lpEvent) <;> (try unfold startEvent) <;>
    (try unfold tagSwapEvent) <;> (try unfold reloadEvent) <;> tight_tac <;> first | done | apply hReload

theorem queryCase (k : Kind) (p : P Outcome) (h : queryCase k = some p) : Tight p := by
  have hCon := readCon
  have hLocSSeq := readLocSSeq
  have hq := encodeOneQuery
  have hu := updateAll
  cases k <;> simp only [Ygo.queryCase, Option.some.injEq, reduceCtorEq] at h <;> subst h <;> tight_tac
  apply hu

theorem _root_.Ygo.AtLeast.many {α : Type} {p : P α} {m : Nat} (hp : AtLeast m p) (hx : ∀ n, Ext (P.many p n)) (n : Nat) (hn : 0 < n) :
    AtLeast m (P.many p n) := by
  obtain ⟨n, rfl⟩ : ∃ k, n = k + 1 := ⟨n - 1, by omega⟩
  exact (AtLeast.bind hp (n := 0) fun _ => AtLeast.bind (m := 0) (n := 0) (AtLeast.zero (hx _)) fun _ => AtLeast.pure _)

theorem massert_bind {c : Prop} [Decidable c] {p : P α} (hp : c → Tight p) : Tight (P.lift (massert c) >>= fun _ => p) := by
  by_cases h : c
  · exact bind (lift _) fun _ => hp h
  · intro s a r e
    obtain ⟨x, t, h1, _⟩ := bind_eq_ok_iff.mp e
    obtain ⟨h2, _⟩ := lift_eq_ok.mp h1
    simp [massert, h] at h2

theorem selectCardRequest : Tight selectCardRequest := by
  have hBool := readBool
  have hSel := readSelectable
  unfold Ygo.selectCardRequest
  refine bind hBool fun _ => bind (read 4) fun _ => bind (read 4) fun _ => bind (read 4) fun count => massert_bind fun hc => ?_
  refine peek_bind (n := 6) ?_ ?_ ?_ ?_
  · tight_tac
  · intro s a r h
    obtain ⟨_, s1, h1, h'⟩ := bind_eq_ok_iff.mp h
    obtain ⟨x, s2, h2, h3⟩ := bind_eq_ok_iff.mp h'
    simp only [pure_run, Except.ok.injEq, Prod.mk.injEq] at h3
    obtain ⟨-, rfl⟩ := h3
    unfold P.skip at h1
    unfold P.read at h2
    split at h1
    · split at h2
      · simp only [Except.ok.injEq, Prod.mk.injEq, true_and] at h1 h2
        rw [← h2.2, ← h1]
        simp only [List.length_drop]
        omega
      · cases h2
    · cases h1
  · intro b; tight_tac
  · intro b
    have e1 : ∀ n, Ext (P.many Ygo.readSelectable n) := fun n => (many hSel n).ext
    have e2 : ∀ n, Ext (P.many (do let c ← P.read 4; P.skip 10; return c) n) := fun n => (many (by tight_tac) n).ext
    have a1 : AtLeast 6 Ygo.readSelectable := by
      refine (AtLeast.bind (n := 2) (AtLeast.read 4) fun _ => ?_)
      refine (AtLeast.bind (m := 2) (n := 0) ?_ fun _ => AtLeast.pure _)
      unfold Ygo.readLocInfo Ygo.readLoc
      refine (AtLeast.bind (m := 1) (n := 1) ?_ fun _ => ?_)
      · exact AtLeast.bind (n := 0) (AtLeast.read 1) fun _ => AtLeast.pure _
      · refine (AtLeast.bind (m := 1) (n := 0) (AtLeast.read 1) fun _ => AtLeast.zero (Tight.ext ?_))
        tight_tac
    have a2 : AtLeast 6 (do let c ← P.read 4; P.skip 10; return c : P Nat) := by
      refine (AtLeast.bind (n := 2) (AtLeast.read 4) fun _ => ?_)
      exact (AtLeast.bind (n := 0) (AtLeast.skip 10) fun _ => AtLeast.pure _).mono (by omega)
    split
    · exact AtLeast.bind (n := 0) (AtLeast.many a1 e1 _ hc) fun _ => AtLeast.pure _
    · exact AtLeast.bind (n := 0) (AtLeast.many a2 e2 _ hc) fun _ => AtLeast.pure _

theorem requestCase (k : Kind) (f : Int → P Request) (h : requestCase k = some f) (i : Int) : Tight (f i) := by
  have hBool := readBool
  have hCon := readCon
  have hEffect := readEffect
  have hLocInfo := readLocInfo
  have hLocSeq := readLocSeq
  have hLocSSeq := readLocSSeq
  have hCoded := coded hLocSeq
  have hCodedS := coded hLocSSeq
  have hCodedL := coded (readLoc 4 4 none)
  have hAct := readActCard hLocSeq
  have hAct' := readActCard hLocInfo
  have hSel := readSelectable
  have hCard := selectCardRequest
  cases k <;> simp only [Ygo.requestCase, Option.some.injEq, reduceCtorEq] at h <;> subst h <;>
    (try unfold battleRequest) <;> (try unfold idleRequest) <;> tight_tac

theorem swallowedCase (k : Kind) (p : P Unit) (h : swallowedCase k = some p) : Tight p := by
  cases k <;> simp only [Ygo.swallowedCase, Option.some.injEq, reduceCtorEq] at h <;> subst h <;> tight_tac

section
variable {C : Type} [EncodeContext C]

/-- The loop over the mask moves past nothing. -/
theorem _root_.Ygo.graveLoop_rest (con : Int) (pos n i seq size sent : Nat) (s : List UInt8) (a : List SpliceOp) (r : List UInt8)
    (h : graveLoop con pos n i seq size sent s = .ok (a, r)) : r = s := by
  induction n generalizing i seq size sent a with
  | zero =>
    simp only [graveLoop, pure_run, Except.ok.injEq, Prod.mk.injEq] at h
    exact h.2.symm
  | succ n ih =>
    simp only [graveLoop] at h
    obtain ⟨b, s1, h1, h2⟩ := bind_eq_ok_iff.mp h
    have : s1 = s := by
      unfold P.byteAt at h1
      split at h1
      · simp only [Except.ok.injEq, Prod.mk.injEq] at h1; exact h1.2.symm
      · cases h1
    subst this
    split at h2
    · exact ih _ _ _ _ _ h2
    · split at h2
      · obtain ⟨c, s2, h3, h4⟩ := bind_eq_ok_iff.mp h2
        simp only [pure_run, Except.ok.injEq, Prod.mk.injEq] at h4
        obtain ⟨-, rfl⟩ := h4
        exact ih _ _ _ _ _ h3
      · exact ih _ _ _ _ _ h2

/-- The loop over the mask depends only on the bytes that hold bits. -/
theorem _root_.Ygo.graveLoop_prefix (con : Int) (pos n i seq size sent : Nat) (u s s' : List UInt8) (a : List SpliceOp)
    (h : graveLoop con pos n i seq size sent (u ++ s) = .ok (a, u ++ s)) (hb : i + n ≤ 8 * u.length) :
    graveLoop con pos n i seq size sent (u ++ s') = .ok (a, u ++ s') := by
  induction n generalizing i seq size sent a with
  | zero =>
    simp only [graveLoop, pure_run, Except.ok.injEq, Prod.mk.injEq] at h ⊢
    exact ⟨h.1, trivial⟩
  | succ n ih =>
    simp only [graveLoop] at h ⊢
    obtain ⟨b, s1, h1, h2⟩ := bind_eq_ok_iff.mp h
    have hi : i / 8 < u.length := by omega
    have h1' : P.byteAt (i / 8) (u ++ s') = .ok (b, u ++ s') ∧ s1 = u ++ s := by
      unfold P.byteAt at h1 ⊢
      rw [List.getElem?_append_left hi] at h1 ⊢
      split at h1
      · simp only [Except.ok.injEq, Prod.mk.injEq] at h1
        exact ⟨by rw [h1.1], h1.2.symm⟩
      · cases h1
    obtain ⟨h1', rfl⟩ := h1'
    rw [bind_run_ok h1']
    split at h2
    · next hx => rw [if_pos hx]; exact ih _ _ _ _ _ h2 (by omega)
    · next hx =>
      rw [if_neg hx]
      split at h2
      · next hy =>
        rw [if_pos hy]
        obtain ⟨c, s2, h3, h4⟩ := bind_eq_ok_iff.mp h2
        simp only [pure_run, Except.ok.injEq, Prod.mk.injEq] at h4
        obtain ⟨rfl, rfl⟩ := h4
        rw [bind_run_ok (ih _ _ _ _ _ h3 (by omega)), pure_run]
      · next hy => rw [if_neg hy]; exact ih _ _ _ _ _ h2 (by omega)

/-- Appending bytes does not change the loop over the mask. -/
theorem _root_.Ygo.graveLoop_append (con : Int) (pos n i seq size sent : Nat) (s t : List UInt8) (a : List SpliceOp)
    (h : graveLoop con pos n i seq size sent s = .ok (a, s)) : graveLoop con pos n i seq size sent (s ++ t) = .ok (a, s ++ t) := by
  induction n generalizing i seq size sent a with
  | zero =>
    simp only [graveLoop, pure_run, Except.ok.injEq, Prod.mk.injEq] at h ⊢
    exact ⟨h.1, trivial⟩
  | succ n ih =>
    simp only [graveLoop] at h ⊢
    obtain ⟨b, s1, h1, h2⟩ := bind_eq_ok_iff.mp h
    have h1' : P.byteAt (i / 8) (s ++ t) = .ok (b, s ++ t) ∧ s1 = s := by
      unfold P.byteAt at h1 ⊢
      split at h1
      · next x hx =>
        simp only [Except.ok.injEq, Prod.mk.injEq] at h1
        have hl : i / 8 < s.length := by
          rw [List.getElem?_eq_some_iff] at hx
          exact hx.1
        rw [List.getElem?_append_left hl, hx]
        exact ⟨by rw [← h1.1], h1.2.symm⟩
      · cases h1
    obtain ⟨h1', rfl⟩ := h1'
    rw [bind_run_ok h1']
    split at h2
    · next hx => rw [if_pos hx]; exact ih _ _ _ _ _ h2
    · next hx =>
      rw [if_neg hx]
      split at h2
      · next hy =>
        rw [if_pos hy]
        obtain ⟨c, s2, h3, h4⟩ := bind_eq_ok_iff.mp h2
        simp only [pure_run, Except.ok.injEq, Prod.mk.injEq] at h4
        obtain ⟨rfl, rfl⟩ := h4
        rw [bind_run_ok (ih _ _ _ _ _ h3), pure_run]
      · next hy => rw [if_neg hy]; exact ih _ _ _ _ _ h2

/-- Every case but the one for `MSG_SWAP_GRAVE_DECK`. -/
theorem contextCase (c : C) (k : Kind) (p : P (Outcome × C)) (hk : k ≠ .swapGraveDeck) (h : contextCase c k = some p) : Tight p := by
  have hCon := readCon
  have hLocInfo := readLocInfo
  cases k <;> simp only [Ygo.contextCase, Option.some.injEq, reduceCtorEq] at h <;> (try subst h) <;>
    (try unfold winEvent) <;> (try unfold deckTopEvent) <;> (try unfold drawEvent) <;> (try unfold reverseDeckEvent) <;>
    first | (exact absurd rfl hk) | tight_tac

theorem encodeCase (c : C) (k : Kind) (hk : k ≠ .swapGraveDeck) : Tight (encodeCase c k) := by
  unfold Ygo.encodeCase
  have hCon := readCon
  split
  · have := eventCase _ _ ‹Ygo.eventCase k = some _›; tight_tac
  · have := queryCase _ _ ‹Ygo.queryCase k = some _›; tight_tac
  · have := fun i => requestCase _ _ ‹Ygo.requestCase k = some _› i; tight_tac; exact this _
  · have := swallowedCase _ _ ‹Ygo.swallowedCase k = some _›; tight_tac
  · exact contextCase c _ _ hk ‹Ygo.contextCase c k = some _›
  · tight_tac

/-- `MSG_SWAP_GRAVE_DECK` with a mask that covers the graveyard. -/
theorem swapGraveDeck (c : C) (s : List UInt8) (a : Outcome) (r : List UInt8) (h : swapGraveDeckEvent c s = .ok (a, r)) :
    ∃ used, s = used ++ r ∧ (∀ t, swapGraveDeckEvent c (s ++ t) = .ok (a, r ++ t)) ∧
      ((∀ con n, EncodeContext.pileSize c con Loc.graveyard = .ok n → n ≤ 8 * (used.length - 9)) →
        ∀ t, swapGraveDeckEvent c (used ++ t) = .ok (a, t)) := by
  unfold swapGraveDeckEvent at h ⊢
  obtain ⟨con, s1, h1, h'⟩ := bind_eq_ok_iff.mp h
  clear h
  obtain ⟨pos, s2, h2, h''⟩ := bind_eq_ok_iff.mp h'
  clear h'
  obtain ⟨len, s3, h3, h⟩ := bind_eq_ok_iff.mp h''
  clear h''
  obtain ⟨gy, s4, h4, h'⟩ := bind_eq_ok_iff.mp h
  clear h
  obtain ⟨hgy, rfl⟩ := lift_eq_ok.mp h4
  obtain ⟨deck, s5, h5, h⟩ := bind_eq_ok_iff.mp h'
  clear h'
  obtain ⟨hdeck, rfl⟩ := lift_eq_ok.mp h5
  obtain ⟨ops, s6, h6, h'⟩ := bind_eq_ok_iff.mp h
  clear h
  obtain rfl := graveLoop_rest _ _ _ _ _ _ _ _ _ _ h6
  by_cases hbig : gy ≥ 2 ^ 32
  · dsimp only at h'
    rw [if_pos hbig] at h'
    obtain ⟨_, _, h7, _⟩ := bind_eq_ok_iff.mp h'
    cases h7
  dsimp only at h'
  rw [if_neg hbig] at h'
  rename' h' => h8
  obtain ⟨_, s8, h9, h10⟩ := bind_eq_ok_iff.mp h8
  simp only [pure_run, Except.ok.injEq, Prod.mk.injEq] at h10
  obtain ⟨rfl, rfl⟩ := h10
  have l1 : s1.length + 1 = s.length := by
    unfold Ygo.readCon at h1
    obtain ⟨x, q, g1, g2⟩ := bind_eq_ok_iff.mp h1
    simp only [pure_run, Except.ok.injEq, Prod.mk.injEq] at g2
    obtain ⟨-, rfl⟩ := g2
    unfold P.read at g1
    split at g1
    · simp only [Except.ok.injEq, Prod.mk.injEq] at g1
      rw [← g1.2, List.length_drop]; omega
    · cases g1
  have l2 : s2.length + 4 = s1.length := by
    unfold P.read at h2
    split at h2
    · simp only [Except.ok.injEq, Prod.mk.injEq] at h2
      rw [← h2.2, List.length_drop]; omega
    · cases h2
  have l3 : s6.length + 4 = s2.length := by
    unfold P.read at h3
    split at h3
    · simp only [Except.ok.injEq, Prod.mk.injEq] at h3
      rw [← h3.2, List.length_drop]; omega
    · cases h3
  obtain ⟨u1, rfl, e1⟩ := readCon _ _ _ h1
  obtain ⟨u2, rfl, e2⟩ := read 4 _ _ _ h2
  obtain ⟨u3, rfl, e3⟩ := read 4 _ _ _ h3
  obtain ⟨u4, rfl, e4⟩ := skip len _ _ _ h9
  simp only [List.length_append] at l1 l2 l3
  try dsimp only
  refine ⟨u1 ++ (u2 ++ (u3 ++ u4)), by simp, fun t => ?_, fun hc t => ?_⟩
  · simp only [List.append_assoc]
    rw [bind_run_ok (e1 _), bind_run_ok (e2 _), bind_run_ok (e3 _), hgy, bind_run_ok (lift_ok _ _), hdeck, bind_run_ok (lift_ok _ _)]
    have := graveLoop_append _ _ _ _ _ _ _ _ t _ h6
    rw [List.append_assoc] at this
    rw [bind_run_ok this]
    rw [if_neg hbig, bind_run_ok (e4 _), pure_run]
    try simp only [List.append_assoc]
  · have hc := hc _ _ hgy
    simp only [List.length_append] at hc
    simp only [List.append_assoc]
    rw [bind_run_ok (e1 _), bind_run_ok (e2 _), bind_run_ok (e3 _), hgy, bind_run_ok (lift_ok _ _), hdeck, bind_run_ok (lift_ok _ _)]
    have := graveLoop_prefix _ _ _ _ _ _ _ _ _ t _ h6 (by omega)
    rw [bind_run_ok this]
    rw [if_neg hbig, bind_run_ok (e4 _), pure_run]
    try simp only [List.append_assoc]

/-- A message byte is read first. -/
theorem body_split (c : C) (s : List UInt8) (a : Outcome × C) (r : List UInt8) (h : encodeBody c s = .ok (a, r)) :
    ∃ b s', s = b :: s' ∧ (∀ t, encodeBody c (b :: t) =
      (match Kind.ofByte b.toNat with | some k => Ygo.encodeCase c k | none => (Pure.pure ({}, c) : P (Outcome × C))) t) := by
  cases s with
  | nil => cases h
  | cons b s' =>
    refine ⟨b, s', rfl, fun t => ?_⟩
    unfold encodeBody
    have e : P.read 1 (b :: t) = .ok (b.toNat, t) := by
      unfold P.read
      simp [leVal]
    rw [bind_run_ok e]
    rfl

/-- Appending bytes changes nothing; nor does replacing the bytes that follow, when no bits are read outside the mask. -/
theorem body (c : C) (s : List UInt8) (a : Outcome × C) (r : List UInt8) (h : encodeBody c s = .ok (a, r)) :
    ∃ used, s = used ++ r ∧ 0 < used.length ∧ (∀ t, encodeBody c (s ++ t) = .ok (a, r ++ t)) ∧
      ((used.head? ≠ some 35 ∨ ∀ con n, EncodeContext.pileSize c con Loc.graveyard = .ok n → n ≤ 8 * (used.length - 10)) →
        ∀ t, encodeBody c (used ++ t) = .ok (a, t)) := by
  obtain ⟨b, s', rfl, hb⟩ := body_split c s a r h
  rw [hb] at h
  by_cases hk : Kind.ofByte b.toNat = some .swapGraveDeck
  · rw [hk] at h
    obtain ⟨o, s1, h1, h2⟩ := bind_eq_ok_iff.mp (show (swapGraveDeckEvent c >>= fun o => Pure.pure (o, c)) s' = _ from h)
    simp only [pure_run, Except.ok.injEq, Prod.mk.injEq] at h2
    obtain ⟨rfl, rfl⟩ := h2
    obtain ⟨u, rfl, e1, e2⟩ := swapGraveDeck c _ _ _ h1
    refine ⟨b :: u, rfl, by simp, fun t => ?_, fun hx t => ?_⟩
    · rw [List.cons_append, hb, hk]
      exact (bind_run_ok (e1 t)).trans rfl
    · have hc : ∀ con n, EncodeContext.pileSize c con Loc.graveyard = .ok n → n ≤ 8 * (u.length - 9) := by
        rcases hx with hx | hx
        · exfalso
          apply hx
          have : b = 35 := by
            have hall : ∀ x : Fin 256, Kind.ofByte x.val = some .swapGraveDeck → x = 35 := by decide +kernel
            have := hall b.toFin hk
            exact UInt8.toFin_inj.mp this
          simp [this]
        · intro con n hn
          have := hx con n hn
          simp only [List.length_cons] at this
          omega
      rw [List.cons_append, hb, hk]
      exact (bind_run_ok (e2 hc t)).trans rfl
  · have ht : Tight (match Kind.ofByte b.toNat with | some k => Ygo.encodeCase c k | none => (Pure.pure ({}, c) : P (Outcome × C))) := by
      split
      · next k h => exact encodeCase c k fun e => hk (e ▸ h)
      · exact pure _
    obtain ⟨u, rfl, e⟩ := ht _ _ _ h
    refine ⟨b :: u, rfl, by simp, fun t => ?_, fun _ t => ?_⟩
    · rw [List.cons_append, hb, List.append_assoc, e]
    · rw [List.cons_append, hb, e]

end
end Tight
end Ygo
