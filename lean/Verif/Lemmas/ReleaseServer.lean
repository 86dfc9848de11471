import Verif.Lemmas.ReleaseMore
import Verif.Lemmas.Cut
import Verif.Spec.ReleaseServer

set_option linter.unusedSimpArgs false

/-!
# How reading can fail
-/

namespace Ygo
open Ygo.Spec P

/-- A reader only fails in the given ways. -/
def Fails {α : Type} (E : Err → Prop) (p : P α) : Prop := ∀ s e, p s = .error e → E e

namespace Fails
variable {α β : Type} {E : Err → Prop}

theorem pure (a : α) : Fails E (Pure.pure a : P α) := fun _ _ h => by cases h

theorem bind {p : P α} {f : α → P β} (hp : Fails E p) (hf : ∀ a, Fails E (f a)) : Fails E (p >>= f) := by
  intro s e h
  rw [bind_run] at h
  cases hr : p s with
  | ok x => rw [hr] at h; exact hf _ _ _ h
  | error e' => rw [hr] at h; cases h; exact hp _ _ hr

theorem ite {c : Prop} [Decidable c] {p q : P α} (hp : Fails E p) (hq : Fails E q) : Fails E (if c then p else q) := by
  split <;> assumption

theorem lift {x : Res α} (h : Only E x) : Fails E (P.lift x) := by
  intro s e he
  cases x with
  | ok a => cases he
  | error e' => cases he; exact h _ rfl

theorem read (h : E .ub) (n : Nat) : Fails E (P.read n) := by
  intro s e he
  unfold P.read at he
  split at he <;> cases he; exact h

theorem skip (h : E .ub) (n : Nat) : Fails E (P.skip n) := by
  intro s e he
  unfold P.skip at he
  split at he <;> cases he; exact h

theorem peek {p : P α} (hp : Fails E p) : Fails E (P.peek p) := by
  intro s e he
  unfold P.peek at he
  split at he <;> cases he
  exact hp _ _ ‹_›

theorem byteAt (h : E .ub) (n : Nat) : Fails E (P.byteAt n) := by
  intro s e he
  unfold P.byteAt at he
  split at he <;> cases he; exact h

theorem counted {p : P α} (hp : Fails E p) : Fails E (P.counted p) := by
  intro s e he
  unfold P.counted at he
  split at he <;> cases he
  exact hp _ _ ‹_›

theorem many {p : P α} (hp : Fails E p) (n : Nat) : Fails E (P.many p n) := by
  induction n with
  | zero => exact pure _
  | succ n ih => exact bind hp fun _ => bind ih fun _ => pure _

theorem skipMany {p : P Unit} (hp : Fails E p) (n : Nat) : Fails E (P.skipMany p n) := by
  induction n with
  | zero => exact pure _
  | succ n ih => exact bind hp fun _ => ih

theorem forEach {f : α → P (List β)} (hf : ∀ a, Fails E (f a)) (xs : List α) : Fails E (P.forEach f xs) := by
  induction xs with
  | nil => exact pure _
  | cons x xs ih => exact bind (hf x) fun _ => bind ih fun _ => pure _

variable (hE : E .ub)
include hE

theorem listOf {p : P α} (hp : Fails E p) : Fails E (listOf p) := bind (read hE 4) fun n => many hp n
theorem slistOf {p : P α} (hp : Fails E p) : Fails E (slistOf p) := bind (read hE 1) fun n => many hp n

omit hE in
/-- Closes goals `Fails E p` for readers put together from the ones above. -/
macro "fails_tac" : tactic => `(tactic| repeat' (first
  | with_reducible exact Fails.pure _
  | with_reducible exact Fails.read ‹_› _
  | with_reducible exact Fails.skip ‹_› _
  | with_reducible exact Fails.byteAt ‹_› _
  | assumption
  | with_reducible refine Fails.bind ?_ fun _ => ?_
  | with_reducible refine Fails.listOf ‹_› ?_
  | with_reducible refine Fails.slistOf ‹_› ?_
  | with_reducible refine Fails.many ?_ _
  | with_reducible refine Fails.skipMany ?_ _
  | with_reducible refine Fails.forEach (fun _ => ?_) _
  | with_reducible refine Fails.counted ?_
  | with_reducible refine Fails.peek ?_
  | with_reducible refine Fails.ite ?_ ?_))

theorem readBool : Fails E readBool := by unfold Ygo.readBool; fails_tac
theorem readCon : Fails E readCon := by unfold Ygo.readCon; fails_tac
theorem readCounter : Fails E readCounter := by unfold Ygo.readCounter; fails_tac
theorem readEffect : Fails E readEffect := by unfold Ygo.readEffect; fails_tac
theorem readLoc (a b : Nat) (c : Option Nat) : Fails E (readLoc a b c) := by
  have := readCon hE
  unfold Ygo.readLoc
  cases c <;> fails_tac
theorem readLocInfo : Fails E readLocInfo := readLoc hE _ _ _
theorem readLocSeq : Fails E readLocSeq := readLoc hE _ _ _
theorem readLocSSeq : Fails E readLocSSeq := readLoc hE _ _ _
theorem coded {p : P α} (hp : Fails E p) : Fails E (coded p) := by unfold Ygo.coded; fails_tac

theorem readField (f : QField) : Fails E (readField f) := by
  have := readBool hE
  have := readCon hE
  have := readLocInfo hE
  cases f <;> (unfold Ygo.readField; fails_tac)

theorem queryField (size flag : Nat) (v : QueryRead) : Fails E (queryField size flag v) := by
  have := readLocInfo hE
  have := readCounter hE
  unfold Ygo.queryField
  fails_tac
  split
  · have := readField hE
    fails_tac
    exact this _
  · have := lift (Only.guardUb hE (4 ≤ size))
    fails_tac

theorem queryLoop (n : Nat) (v : QueryRead) : Fails E (queryLoop n v) := by
  induction n generalizing v with
  | zero => exact lift (.ub hE)
  | succ n ih =>
    unfold Ygo.queryLoop
    have := queryField hE
    fails_tac
    · exact this _ _ _
    · exact ih _

theorem encodeOneQuery : Fails E encodeOneQuery := fun _ _ h => queryLoop hE _ _ _ _ h

theorem updateLoop (con : Int) (loc total n i size : Nat) : Fails E (updateLoop con loc total n i size) := by
  induction n generalizing i size with
  | zero => exact lift (.ub hE)
  | succ n ih =>
    unfold Ygo.updateLoop
    have := encodeOneQuery hE
    fails_tac
    all_goals exact ih _ _

theorem updateAll (con : Int) (loc total : Nat) : Fails E (updateAll con loc total) := fun _ _ h => updateLoop hE _ _ _ _ _ _ _ _ h

theorem readActCard {p : P Place} (hp : Fails E p) : Fails E (readActCard p) := by
  have := readEffect hE
  unfold Ygo.readActCard; fails_tac
theorem readChain : Fails E readChain := by
  have := readEffect hE
  have := readLocInfo hE
  have := readLocSeq hE
  unfold Ygo.readChain; fails_tac
theorem readSelectable : Fails E readSelectable := by
  have := readLocInfo hE
  unfold Ygo.readSelectable; fails_tac

theorem reloadZone (con : Int) (loc seq : Nat) : Fails E (reloadZone con loc seq) := by
  unfold Ygo.reloadZone; fails_tac

theorem reloadController (con : Int) : Fails E (reloadController con) := by
  have := reloadZone hE
  unfold Ygo.reloadController; fails_tac
  · exact this _ _ _
  · exact this _ _ _

theorem eventCase (k : Kind) (p : P Outcome) (h : eventCase k = some p) : Fails E p := by
  have hBool := readBool hE
  have hCon := readCon hE
  have hEffect := readEffect hE
  have hLocInfo := readLocInfo hE
  have hLocSeq := readLocSeq hE
  have hLocSSeq := readLocSSeq hE
  have hCoded := coded hE hLocSeq
  have hChain := readChain hE
  have hReload := reloadController hE
  cases k <;> simp only [Ygo.eventCase, Option.some.injEq, reduceCtorEq] at h <;> subst h <;>
    (try unfold summoningEvent) <;> (try unfold selectedEvent) <;> (try unfold lpEvent) <;> (try unfold startEvent) <;>
    (try unfold tagSwapEvent) <;> (try unfold reloadEvent) <;> fails_tac <;> first | done | apply hReload

theorem queryCase (k : Kind) (p : P Outcome) (h : queryCase k = some p) : Fails E p := by
  have hCon := readCon hE
  have hLocSSeq := readLocSSeq hE
  have hq := encodeOneQuery hE
  have hu := updateAll hE
  cases k <;> simp only [Ygo.queryCase, Option.some.injEq, reduceCtorEq] at h <;> subst h <;> fails_tac
  apply hu

theorem rawSelectCard : Fails E rawSelectCard := by
  have hBool := readBool hE
  have hSel := readSelectable hE
  unfold Ygo.rawSelectCard
  fails_tac

theorem requestCase (k : Kind) (hk : k ≠ .selectCard) (f : Int → P Request) (h : requestCase k = some f) (i : Int) : Fails E (f i) := by
  have hBool := readBool hE
  have hCon := readCon hE
  have hEffect := readEffect hE
  have hLocInfo := readLocInfo hE
  have hLocSeq := readLocSeq hE
  have hLocSSeq := readLocSSeq hE
  have hCoded := coded hE hLocSeq
  have hCodedS := coded hE hLocSSeq
  have hCodedL := coded hE (readLoc hE 4 4 none)
  have hAct := readActCard hE hLocSeq
  have hAct' := readActCard hE hLocInfo
  have hSel := readSelectable hE
  cases k <;> simp only [Ygo.requestCase, Option.some.injEq, reduceCtorEq] at h <;> (try exact absurd rfl hk) <;> subst h <;>
    (try unfold battleRequest) <;> (try unfold idleRequest) <;> fails_tac

theorem swallowedCase (k : Kind) (p : P Unit) (h : swallowedCase k = some p) : Fails E p := by
  cases k <;> simp only [Ygo.swallowedCase, Option.some.injEq, reduceCtorEq] at h <;> subst h <;> fails_tac

theorem graveLoop (con : Int) (pos n i seq size sent : Nat) : Fails E (graveLoop con pos n i seq size sent) := by
  induction n generalizing i seq size sent with
  | zero => exact pure _
  | succ n ih =>
    simp only [Ygo.graveLoop]
    fails_tac
    all_goals apply ih

omit hE in
theorem bindLift {x : Res α} {f : α → P β} (hx : Only E x) (hf : ∀ a, x = .ok a → Fails E (f a)) : Fails E (P.lift x >>= f) := by
  cases x with
  | ok a => exact hf a rfl
  | error e' => intro s e he; cases he; exact hx _ rfl

section
variable {C : Type} [EncodeContext C]
open EncodeContext

omit hE in
theorem _root_.Ygo.moveOutcome_only (c : C) (hx : ∀ p, Only E (hasXyzMat c p)) (hl : ∀ p, Only E (getXyzLeft c p)) (a b : Place) (r : Nat) :
    Only E (moveOutcome c a b r) := by
  unfold moveOutcome
  split
  · exact .ok _
  split
  · exact .ok _
  split
  · dsimp only
    split
    · exact .bind (.pure _) fun _ => .pure _
    · exact .bind (hx _) fun _ => .bind (.pure _) fun _ => .pure _
  split
  · exact .ok _
  split
  · exact .ok _
  split
  · exact .bind (hl _) fun _ => .pure _
  · dsimp only
    split
    · exact .bind (hx _) fun _ => .bind (.pure _) fun _ => .pure _
    · exact .bind (.pure _) fun _ => .pure _

theorem contextCase (c : C) (hp : ∀ con loc, Only E (pileSize c con loc)) (hw : Only E (getMatchWinReason c))
    (hx : ∀ p, Only E (hasXyzMat c p)) (hl : ∀ p, Only E (getXyzLeft c p))
    (hh : ∀ con n, pileSize c con Loc.graveyard = .ok n → 2 ^ 32 ≤ n → E .hang) (k : Kind) (p : P (Outcome × C))
    (h : contextCase c k = some p) : Fails E p := by
  have hCon := readCon hE
  have hLocInfo := readLocInfo hE
  have hg := graveLoop hE
  have hm := fun a b r => lift (moveOutcome_only c hx hl a b r)
  have hp' := fun con loc => lift (hp con loc)
  have hw' := lift hw
  cases k <;> simp only [Ygo.contextCase, Option.some.injEq, reduceCtorEq] at h <;> (try subst h) <;>
    (try unfold winEvent) <;> (try unfold deckTopEvent) <;> (try unfold drawEvent) <;> (try unfold reverseDeckEvent)
  case swapGraveDeck =>
    unfold swapGraveDeckEvent
    refine bind (bind hCon fun con => bind (read hE _) fun _ => bind (read hE _) fun _ => bindLift (hp _ _) fun n hn =>
      bind (hp' _ _) fun _ => ?_) fun _ => pure _
    refine bind (hg _ _ _ _ _ _ _) fun _ => ?_
    dsimp only
    split
    · rename_i h32
      exact bind (lift (x := .error .hang) (fun e he => by cases he; exact hh _ _ hn h32)) fun _ => bind (skip hE _) fun _ => pure _
    · exact bind (skip hE _) fun _ => pure _
  all_goals fails_tac
  all_goals first | exact hp' _ _ | exact hm _ _ _

theorem rawCase (c : C) (hp : ∀ con loc, Only E (pileSize c con loc)) (hw : Only E (getMatchWinReason c))
    (hx : ∀ p, Only E (hasXyzMat c p)) (hl : ∀ p, Only E (getXyzLeft c p))
    (hh : ∀ con n, pileSize c con Loc.graveyard = .ok n → 2 ^ 32 ≤ n → E .hang) (k : Kind) : Fails E (rawEncodeCase c k) := by
  unfold rawEncodeCase
  have hCon := readCon hE
  split
  · have := rawSelectCard hE
    fails_tac
  · unfold Ygo.encodeCase
    split
    · have := eventCase hE _ _ ‹Ygo.eventCase k = some _›; fails_tac
    · have := queryCase hE _ _ ‹Ygo.queryCase k = some _›; fails_tac
    · have := fun i => requestCase hE _ ‹_› _ ‹Ygo.requestCase k = some _› i; fails_tac; exact this _
    · have := swallowedCase hE _ _ ‹Ygo.swallowedCase k = some _›; fails_tac
    · exact contextCase hE c hp hw hx hl hh _ _ ‹Ygo.contextCase c k = some _›
    · fails_tac

theorem rawOne (c : C) (hp : ∀ con loc, Only E (pileSize c con loc)) (hw : Only E (getMatchWinReason c))
    (hx : ∀ p, Only E (hasXyzMat c p)) (hl : ∀ p, Only E (getXyzLeft c p))
    (hh : ∀ con n, pileSize c con Loc.graveyard = .ok n → 2 ^ 32 ≤ n → E .hang) (d : List UInt8) : Only E (rawEncodeOne c d) := by
  intro e he
  have hb : Fails E (rawEncodeBody c) := by
    unfold rawEncodeBody
    refine bind (read hE 1) fun b => ?_
    split
    · exact rawCase hE c hp hw hx hl hh _
    · exact pure _
  unfold rawEncodeOne at he
  split at he <;> cases he
  exact hb _ _ ‹_›

end
end Fails

/-! ## Reading with and without asserts -/

/-- Two readers that do the same, up to how they fail. -/
def Alike {α β : Type} (f : α → β) (p : P α) (q : P β) : Prop := ∀ s, (q s).toOption = (p s).toOption.map fun x => (f x.1, x.2)

namespace Alike
variable {α β γ : Type}

theorem refl (p : P α) : Alike id p p := fun s => by cases p s <;> rfl

theorem pure (f : α → β) (a : α) : Alike f (Pure.pure a) (Pure.pure (f a)) := fun _ => rfl

theorem bind {f : β → γ} {p q : P α} {g : α → P β} {h : α → P γ} (hp : Alike id p q) (hg : ∀ a, Alike f (g a) (h a)) :
    Alike f (p >>= g) (q >>= h) := by
  intro s
  have := hp s
  simp only [bind_run]
  cases h1 : p s with
  | ok x =>
    cases h2 : q s with
    | ok y =>
      rw [h1, h2] at this
      cases this
      exact hg _ _
    | error e => rw [h1, h2] at this; cases this
  | error e =>
    cases h2 : q s with
    | ok y => rw [h1, h2] at this; cases this
    | error e => rfl

theorem bind_same {f : β → γ} {p : P α} {g : α → P β} {h : α → P γ} (hg : ∀ a, Alike f (g a) (h a)) : Alike f (p >>= g) (p >>= h) :=
  bind (refl p) hg

theorem lift {f : α → β} {x : Res α} {y : Res β} (h : y.toOption = x.toOption.map f) : Alike f (P.lift x) (P.lift y) := by
  intro s
  cases x <;> cases y <;> simp_all [P.lift, Except.toOption]

end Alike

theorem pileKey_option (con : Int) (loc : Nat) : (Raw.pileKey con loc).toOption = (pileKey con loc).toOption := by
  cases h : pileKey con loc with
  | ok k => rw [Raw.pileKey_eq_ok.mpr (Ygo.pileKey_eq_ok.mp h)]
  | error e =>
    cases h' : Raw.pileKey con loc with
    | ok k => rw [Ygo.pileKey_eq_ok.mpr (Raw.pileKey_eq_ok.mp h')] at h; cases h
    | error e => rfl

theorem zoneOf_option (p : Place) : (Raw.zoneOf p).toOption = p.zoneKey.toOption := by
  cases h : p.zoneKey with
  | ok k => rw [Raw.zoneOf_iff.mpr h]
  | error e =>
    obtain ⟨e', h'⟩ := Raw.zoneOf_error h
    rw [h']; rfl

/-- The context next to an outcome. -/
def withRaw (x : Outcome × BasicContext) : Outcome × RawContext := (x.1, asRawContext x.2)

open EncodeContext

theorem pileSize_option (c : BasicContext) (con : Int) (loc : Nat) :
    (pileSize (asRawContext c) con loc).toOption = (pileSize c con loc).toOption := by
  have := pileKey_option con loc
  simp only [pileSize, asRawContext, asRawBoard, asRaw, List.length_map]
  cases h1 : pileKey con loc <;> cases h2 : Raw.pileKey con loc <;> rw [h1, h2] at this <;> cases this <;> rfl

theorem hasXyzMat_option (c : BasicContext) (p : Place) : (hasXyzMat (asRawContext c) p).toOption = (hasXyzMat c p).toOption := by
  have := zoneOf_option p
  simp only [hasXyzMat, asRawContext, asRawBoard, asRaw, List.isEmpty_map]
  cases h1 : p.zoneKey <;> cases h2 : Raw.zoneOf p <;> rw [h1, h2] at this <;> cases this <;> rfl

theorem moveOutcome_option (c : BasicContext) (a b : Place) (r : Nat) :
    (moveOutcome (asRawContext c) a b r).toOption = (moveOutcome c a b r).toOption.map withRaw := by
  unfold moveOutcome
  split
  · rfl
  split
  · rfl
  split
  · dsimp only
    split
    · rfl
    · have := hasXyzMat_option c a
      cases h1 : hasXyzMat c a <;> cases h2 : hasXyzMat (asRawContext c) a <;> rw [h1, h2] at this <;> cases this
      · rfl
      · rename_i b; cases b <;> rfl
  split
  · rfl
  split
  · rfl
  split
  · show Except.toOption (do let src ← orUb (c.left _); _) = Option.map withRaw (Except.toOption (do let src ← orUb (c.left _); _))
    cases c.left { con := a.con, loc := a.loc, seq := a.seq, oseq := OSEQ_INVALID } <;> rfl
  · dsimp only
    split
    · have := hasXyzMat_option c a
      cases h1 : hasXyzMat c a <;> cases h2 : hasXyzMat (asRawContext c) a <;> rw [h1, h2] at this <;> cases this
      · rfl
      · rename_i b; cases b <;> rfl
    · rfl

theorem Alike.contextCase (c : BasicContext) (k : Kind) :
    match contextCase c k, contextCase (asRawContext c) k with
    | some p, some q => Alike withRaw p q
    | none, none => True
    | _, _ => False := by
  have hp := fun con loc => Alike.lift (f := id) (x := pileSize c con loc) (y := pileSize (asRawContext c) con loc)
    (by rw [pileSize_option]; cases (pileSize c con loc).toOption <;> rfl)
  have keep : ∀ {p q : P Outcome}, Alike id p q → Alike withRaw (p >>= fun o => Pure.pure (o, c)) (q >>= fun o => Pure.pure (o, asRawContext c)) :=
    fun h => bind h fun o => pure withRaw (o, c)
  have last : ∀ o : Outcome, Alike id (Pure.pure o) (Pure.pure o) := fun o => refl _
  cases k <;> simp only [Ygo.contextCase]
  case win => exact keep (refl _)
  case deckTop => exact keep (bind_same fun _ => bind (hp _ _) fun _ => refl _)
  case move => exact bind_same fun _ => bind_same fun _ => bind_same fun _ => bind_same fun _ => lift (moveOutcome_option c _ _ _)
  case swapGraveDeck =>
    exact keep (bind_same fun _ => bind_same fun _ => bind_same fun _ => bind (hp _ _) fun _ => bind (hp _ _) fun _ => refl _)
  case draw => exact keep (bind_same fun _ => bind_same fun _ => bind_same fun _ => bind (hp _ _) fun _ => bind (hp _ _) fun _ => refl _)
  case reverseDeck => exact keep (bind (hp _ _) fun _ => bind (hp _ _) fun _ => refl _)
  case matchKill => exact bind_same fun r => pure withRaw (.swallowed, EncodeContext.matchWinReason c r)

theorem Alike.encodeCase (c : BasicContext) (k : Kind) : Alike withRaw (encodeCase c k) (Ygo.encodeCase (asRawContext c) k) := by
  have hc := contextCase c k
  unfold Ygo.encodeCase
  generalize eventCase k = e at *
  generalize queryCase k = q at *
  generalize requestCase k = r at *
  generalize swallowedCase k = w at *
  generalize Ygo.contextCase c k = x at *
  generalize Ygo.contextCase (asRawContext c) k = y at *
  cases e with
  | some p => exact bind_same fun o => pure withRaw (o, c)
  | none =>
  cases q with
  | some p => exact bind_same fun o => pure withRaw (o, c)
  | none =>
  cases r with
  | some p => exact bind_same fun o => bind_same fun r => pure withRaw (_, c)
  | none =>
  cases w with
  | some p => exact bind_same fun o => pure withRaw (_, c)
  | none =>
  cases x with
  | some p =>
    cases y with
    | some p' => exact hc
    | none => exact hc.elim
  | none =>
    cases y with
    | some p' => exact hc.elim
    | none => exact pure withRaw ({}, c)

end Ygo
