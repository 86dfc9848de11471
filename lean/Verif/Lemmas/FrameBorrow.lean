import Verif.Lemmas.FrameStrange
import Verif.Lemmas.FrameSafe
import Verif.Lemmas.FrameNew
import Verif.Lemmas.BranchNames
import Verif.Spec.FrameCopies
import Mathlib.Data.List.Flatten

/-!
# Frames some of whose cards are not theirs
-/

set_option linter.unusedSimpArgs false

namespace Ygo
open Ygo.Spec Ygo.Rename

variable {α : Type}

/-- `g` is `f` without the cards of `old`, which it shows but does not own. It may own other cards, which it does not show. -/
structure Lent (old : List CardId) (f g : Frame) : Prop where
  layout : g.layout = f.layout
  next : g.next = f.next
  mem : ∀ c ∈ f.owned, c ∈ g.owned ↔ c ∉ old
  sub : ∀ c ∈ old, c ∈ f.owned
  nodup : f.owned.Nodup
  nodup' : g.owned.Nodup
  low : ∀ c ∈ g.owned, c < g.next

/-- With another layout. -/
theorem Lent.with {old : List CardId} {f g : Frame} (h : Lent old f g) (l : Layout) : Lent old { f with layout := l } { g with layout := l } :=
  ⟨rfl, h.next, h.mem, h.sub, h.nodup, h.nodup', h.low⟩

theorem Lent.destruct {old : List CardId} {f g : Frame} (h : Lent old f g) {c : CardId} (hc : c ∈ f.owned) (ho : c ∉ old) :
    Lent old { f with owned := f.owned.erase c } { g with owned := g.owned.erase c } := by
  refine ⟨h.layout, h.next, fun a ha => ?_, fun a ha => ?_, h.nodup.erase c, h.nodup'.erase c, fun a ha => h.low a (List.mem_of_mem_erase ha)⟩
  · obtain ⟨h1, h2⟩ := (List.Nodup.mem_erase_iff h.nodup).mp ha
    simp only [List.Nodup.mem_erase_iff h.nodup', h.mem a h2]
    exact ⟨fun x => x.2, fun x => ⟨h1, x⟩⟩
  · exact (List.Nodup.mem_erase_iff h.nodup).mpr ⟨fun e => ho (e ▸ ha), h.sub a ha⟩

/-- What two results have to do with each other. -/
structure LentRes (old : List CardId) (rf rg : Res Frame) : Prop where
  keep : ∀ f, rf = .ok f → (∀ c ∈ old, c ∈ f.owned) → ∃ g, rg = .ok g ∧ Lent old f g
  both : ∀ f g, rf = .ok f → rg = .ok g → Lent old f g

theorem LentRes.ok {old : List CardId} {f g : Frame} (h : Lent old f g) : LentRes old (.ok f) (.ok g) :=
  ⟨fun _ e _ => by cases e; exact ⟨g, rfl, h⟩, fun _ _ e e' => by cases e; cases e'; exact h⟩

theorem LentRes.bind {old : List CardId} {rf rg : Res Frame} (h : LentRes old rf rg) {kf kg : Frame → Res Frame}
    (hk : ∀ f g, Lent old f g → LentRes old (kf f) (kg g)) (hm : ∀ f f', kf f = .ok f' → ∀ c ∈ f'.owned, c ∈ f.owned) :
    LentRes old (rf >>= kf) (rg >>= kg) := by
  refine ⟨fun f' e hs => ?_, fun f' g' e e' => ?_⟩
  · obtain ⟨f, h1, h2⟩ := bind_eq_ok.mp e
    obtain ⟨g, h3, h4⟩ := h.keep f h1 fun c hc => hm f f' h2 c (hs c hc)
    rw [h3, bind_ok]
    exact (hk f g h4).keep f' h2 hs
  · obtain ⟨f, h1, h2⟩ := bind_eq_ok.mp e
    obtain ⟨g, h3, h4⟩ := bind_eq_ok.mp e'
    exact (hk f g (h.both f g h1 h3)).both f' g' h2 h4

theorem Lent.destruct_res {old : List CardId} {f g : Frame} (h : Lent old f g) (c : CardId) : LentRes old (f.destruct c) (g.destruct c) := by
  refine ⟨fun f' e hs => ?_, fun f' g' e e' => ?_⟩
  · obtain ⟨h1, rfl⟩ := Frame.destruct_eq_ok.mp e
    have ho : c ∉ old := fun hc => ((List.Nodup.mem_erase_iff h.nodup).mp (hs c hc)).1 rfl
    exact ⟨_, Frame.destruct_eq_ok.mpr ⟨(h.mem c h1).mpr ho, rfl⟩, h.destruct h1 ho⟩
  · obtain ⟨h1, rfl⟩ := Frame.destruct_eq_ok.mp e
    obtain ⟨h2, rfl⟩ := Frame.destruct_eq_ok.mp e'
    exact h.destruct h1 ((h.mem c h1).mp h2)

theorem destruct_owned {f f' : Frame} {c : CardId} (h : f.destruct c = .ok f') : ∀ x ∈ f'.owned, x ∈ f.owned := by
  obtain ⟨_, rfl⟩ := Frame.destruct_eq_ok.mp h
  exact fun x hx => List.mem_of_mem_erase hx

theorem Lent.destructCards {old : List CardId} (cs : List CardId) {f g : Frame} (h : Lent old f g) :
    LentRes old (Frame.destructCards cs f) (Frame.destructCards cs g) := by
  induction cs generalizing f g with
  | nil => exact .ok h
  | cons c cs ih => exact (h.destruct_res c).bind (fun _ _ h => ih h) fun f f' e x hx => destructCards_owned e hx

theorem Lent.clearPiles {old : List CardId} (ks : List PileKey) {f g : Frame} (h : Lent old f g) :
    LentRes old (Frame.clearPiles ks f) (Frame.clearPiles ks g) := by
  induction ks generalizing f g with
  | nil => exact .ok h
  | cons k ks ih =>
    unfold Frame.clearPiles
    rw [h.layout]
    refine (h.destructCards _).bind (fun f g h => ?_) fun f f' e x hx => clearPiles_owned e hx
    rw [h.layout]
    exact ih (h.with _)

theorem Lent.clearZones {old : List CardId} (ks : List ZoneKey) {f g : Frame} (h : Lent old f g) :
    LentRes old (Frame.clearZones ks f) (Frame.clearZones ks g) := by
  induction ks generalizing f g with
  | nil => exact .ok h
  | cons k ks ih =>
    unfold Frame.clearZones
    rw [h.layout]
    refine (h.destructCards _).bind (fun f g h => ?_) fun f f' e x hx => ?_
    · simp only
      rw [h.layout]
      refine ((h.with _).destructCards _).bind (fun f g h => ?_) fun f f' e x hx => clearZones_owned e hx
      rw [h.layout]
      exact ih (h.with _)
    · obtain ⟨f1, h1, h2⟩ := bind_eq_ok.mp e
      exact destructCards_owned h1 (clearZones_owned h2 hx)

theorem Lent.clear {old : List CardId} {f g : Frame} (h : Lent old f g) : LentRes old f.clear g.clear :=
  (h.clearPiles _).bind (fun _ _ h => h.clearZones _) fun _ _ e _ hx => clearZones_owned e hx

theorem shrinkPile_owned {k : PileKey} {n : Nat} {f f' : Frame} (h : Frame.shrinkPile k n f = .ok f') : ∀ x ∈ f'.owned, x ∈ f.owned := by
  induction n generalizing f with
  | zero => cases h; exact fun _ hx => hx
  | succ n ih =>
    simp only [Frame.shrinkPile, bind_eq_ok] at h
    obtain ⟨c, _, f1, h1, h2⟩ := h
    exact fun x hx => destruct_owned h1 x (ih h2 x hx)

theorem Lent.shrinkPile {old : List CardId} (k : PileKey) (n : Nat) {f g : Frame} (h : Lent old f g) :
    LentRes old (Frame.shrinkPile k n f) (Frame.shrinkPile k n g) := by
  induction n generalizing f g with
  | zero => exact .ok h
  | succ n ih =>
    unfold Frame.shrinkPile
    rw [h.layout]
    cases (f.layout.pile k).getLast? with
    | none => exact ⟨fun _ e => by simp [orUb] at e, fun _ _ e => by simp [orUb] at e⟩
    | some c =>
      simp only [orUb, bind_ok]
      refine (h.destruct_res c).bind (fun f g h => ?_) fun f f' e x hx => by
        have := shrinkPile_owned e x hx
        exact this
      rw [h.layout]
      exact ih (h.with _)

/-- Nothing fails but assertions. -/
def OnlyAsserts {β : Type} (r : Res β) : Prop := ∀ e, r = .error e → e = .assert

theorem OnlyAsserts.bind {β γ : Type} {r : Res β} {k : β → Res γ} (h : OnlyAsserts r) (hk : ∀ b, r = .ok b → OnlyAsserts (k b)) : OnlyAsserts (r >>= k) := by
  cases r with
  | error e => exact fun e' he => h e' (by simpa using he)
  | ok b => exact hk b rfl

theorem destruct_only (f : Frame) (c : CardId) : OnlyAsserts (f.destruct c) := by
  intro e he
  by_cases h : c ∈ f.owned
  · simp [Frame.destruct, massert, h] at he
  · simpa [Frame.destruct, massert, h] using he.symm

theorem destructCards_only (cs : List CardId) (f : Frame) : OnlyAsserts (Frame.destructCards cs f) := by
  induction cs generalizing f with
  | nil => intro e he; cases he
  | cons c cs ih => exact (destruct_only f c).bind fun _ _ => ih _

theorem clear_only (f : Frame) : OnlyAsserts f.clear := by
  have hp : ∀ ks f, OnlyAsserts (Frame.clearPiles ks f) := by
    intro ks
    induction ks with
    | nil => intro f e he; cases he
    | cons k ks ih => exact fun f => (destructCards_only _ f).bind fun _ _ => ih _
  have hz : ∀ ks f, OnlyAsserts (Frame.clearZones ks f) := by
    intro ks
    induction ks with
    | nil => intro f e he; cases he
    | cons k ks ih => exact fun f => (destructCards_only _ f).bind fun _ _ => (destructCards_only _ _).bind fun _ _ => ih _
  exact (hp _ f).bind fun _ _ => hz _ _

theorem shrinkPile_only {k : PileKey} {n : Nat} (f : Frame) (h : n ≤ (f.layout.pile k).length) : OnlyAsserts (Frame.shrinkPile k n f) := by
  induction n generalizing f with
  | zero => intro e he; cases he
  | succ n ih =>
    unfold Frame.shrinkPile
    cases hl : (f.layout.pile k).getLast? with
    | none =>
      rw [List.getLast?_eq_none_iff] at hl
      simp [hl] at h
    | some c =>
      simp only [orUb, bind_ok]
      refine (destruct_only f c).bind fun g hg => ih _ ?_
      obtain ⟨_, rfl⟩ := Frame.destruct_eq_ok.mp hg
      simp
      omega

/-- A card more for both. -/
theorem Lent.construct {old : List CardId} {f g : Frame} (h : Lent old f g) (hf : ∀ c ∈ f.owned, c < f.next) :
    Lent old f.construct.2 g.construct.2 := by
  simp only [Frame.construct, h.next]
  have h1 : f.next ∉ f.owned := fun hc => Nat.lt_irrefl _ (hf _ hc)
  have h2 : f.next ∉ g.owned := fun hc => Nat.lt_irrefl _ (h.next ▸ h.low _ hc)
  have h3 : f.next ∉ old := fun hc => h1 (h.sub _ hc)
  refine ⟨h.layout, rfl, fun c hc => ?_, fun c hc => List.mem_cons_of_mem _ (h.sub c hc), List.nodup_cons.mpr ⟨h1, h.nodup⟩, List.nodup_cons.mpr ⟨h2, h.nodup'⟩, fun c hc => ?_⟩
  · rcases List.mem_cons.mp hc with rfl | hc
    · simp [h3]
    · rw [List.mem_cons, h.mem c hc]
      exact ⟨fun x => x.elim (fun e => e ▸ h3) id, .inr⟩
  · rcases List.mem_cons.mp hc with rfl | hc
    · exact Nat.lt_succ_self _
    · exact Nat.lt_succ_of_lt (h.next ▸ h.low c hc)

theorem growPile_lent {old : List CardId} (k : PileKey) (n : Nat) {f g : Frame} (h : Lent old f g) (hf : ∀ c ∈ f.owned, c < f.next) :
    Lent old (Frame.growPile k n f) (Frame.growPile k n g) := by
  induction n generalizing f g with
  | zero => exact h
  | succ n ih =>
    have h1 := h.construct hf
    simp only [Frame.growPile]
    have h2 : g.construct.1 = f.construct.1 := h.next
    rw [h1.layout, h2]
    refine ih (h1.with _) fun c hc => ?_
    simp only [Frame.construct, List.mem_cons] at hc ⊢
    rcases hc with rfl | hc
    · exact Nat.lt_succ_self _
    · exact Nat.lt_succ_of_lt (hf c hc)

/-- **Calls on a frame that shows cards of another one.** They succeed if they do on a frame of its own and destroy no such card; otherwise they
fail as on a frame of its own, or stop at an assertion. -/
theorem Lent.step {old : List CardId} {f g : Frame} (h : Lent old f g) (hi : Inv f) (op : FrameOp) :
    (∀ e, f.step op = .error e → g.step op = .error e) ∧
    (∀ f', f.step op = .ok f' → (∀ c ∈ old, c ∈ f'.owned) → ∃ g', g.step op = .ok g' ∧ Lent old f' g') ∧
    (∀ f', f.step op = .ok f' → ¬ (∀ c ∈ old, c ∈ f'.owned) → g.step op = .error .assert) := by
  have same : ∀ (r : Res Layout), f.step op = (do let l ← r; return { f with layout := l }) → g.step op = (do let l ← r; return { g with layout := l }) →
      (∀ e, f.step op = .error e → g.step op = .error e) ∧
      (∀ f', f.step op = .ok f' → (∀ c ∈ old, c ∈ f'.owned) → ∃ g', g.step op = .ok g' ∧ Lent old f' g') ∧
      (∀ f', f.step op = .ok f' → ¬ (∀ c ∈ old, c ∈ f'.owned) → g.step op = .error .assert) := by
    intro r h1 h2
    rw [h1, h2]
    cases r with
    | error e => simp
    | ok l =>
      simp only [bind_ok, pure_eq_ok, Except.ok.injEq, reduceCtorEq, imp_false, forall_eq']
      exact ⟨fun _ => id, fun _ => ⟨_, rfl, h.with l⟩, fun hn => hn h.sub⟩
  have lose : ∀ {rf rg : Res Frame}, LentRes old rf rg → OnlyAsserts rg → ∀ f', rf = .ok f' → ¬ (∀ c ∈ old, c ∈ f'.owned) → rg = .error .assert := by
    intro rf rg hr hu f' e hn
    match rg, hr, hu with
    | .ok g', hr, _ => exact absurd (hr.both f' g' e rfl).sub hn
    | .error e, _, hu => exact congrArg _ (hu e rfl)
  cases op with
  | add p =>
    simp only [Frame.step, Frame.cardAdd]
    have h1 := h.construct hi.fresh
    have h2 : g.construct.1 = f.construct.1 := h.next
    rw [h1.layout, h2]
    cases f.construct.2.layout.cardInsert p f.construct.1 with
    | error e => simp
    | ok l =>
      simp only [bind_ok, pure_eq_ok, Except.ok.injEq, reduceCtorEq, imp_false, forall_eq']
      exact ⟨fun _ => id, fun _ => ⟨_, rfl, h1.with l⟩, fun hn => hn h1.sub⟩
  | remove p =>
    simp only [Frame.step, Frame.cardRemove]
    rw [h.layout]
    cases hh : f.layout.hasCard p with
    | error e => simp
    | ok b =>
      simp only [bind_ok]
      by_cases hb : b = true
      · simp only [massert_true hb, bind_ok]
        cases he : f.layout.cardErase p with
        | error e => simp
        | ok r =>
          obtain ⟨c, l⟩ := r
          simp only [bind_ok]
          obtain ⟨C, i, _, hc, _⟩ := Layout.cardErase_eq_ok.mp he
          have hm : c ∈ f.owned := hi.mem_owned (List.mem_of_getElem? hc)
          have hr := (h.with l).destruct_res c
          refine ⟨fun e e' => ?_, hr.keep, lose hr (destruct_only _ _)⟩
          rw [Frame.destruct_eq_ok (f := { f with layout := l }).mpr ⟨hm, rfl⟩] at e'
          cases e'
      · simp [massert, hb]
  | move a b => exact same ((·.1) <$> f.layout.cardMove a b) (by
      simp only [Frame.step, Frame.cardMove]; cases f.layout.cardMove a b <;> rfl) (by
      simp only [Frame.step, Frame.cardMove, h.layout]; cases f.layout.cardMove a b <;> rfl)
  | shuffle p c n => exact same (f.layout.cardShuffle p c n) rfl (by simp only [Frame.step, Frame.cardShuffle, h.layout])
  | swap a b => exact same (f.layout.cardSwap a b) rfl (by simp only [Frame.step, Frame.cardSwap, h.layout])
  | splice a n b r => exact same (f.layout.pileSplice a n b r) rfl (by simp only [Frame.step, Frame.pileSplice, h.layout])
  | pswap a b => exact same (f.layout.pileSwap a b) rfl (by simp only [Frame.step, Frame.pileSwap, h.layout])
  | resize p n =>
    simp only [Frame.step, Frame.pileResize]
    by_cases hp : p.isPile = true
    · simp only [massert_true hp, bind_ok]
      cases p.pileKey with
      | error e => simp
      | ok k =>
        simp only [bind_ok, h.layout]
        split
        · have h1 := growPile_lent k (n - (f.layout.pile k).length) h hi.fresh
          simp only [pure_eq_ok, Except.ok.injEq, reduceCtorEq, imp_false, forall_eq']
          exact ⟨fun _ => id, fun _ => ⟨_, rfl, h1⟩, fun hn => hn h1.sub⟩
        · split
          · have hle : (f.layout.pile k).length - n ≤ (f.layout.pile k).length := Nat.sub_le _ _
            obtain ⟨f1, hf1⟩ := Frame.shrinkPile_returns (k := k) hi hle
            have hr := h.shrinkPile k ((f.layout.pile k).length - n)
            refine ⟨fun e e' => ?_, hr.keep, lose hr (shrinkPile_only _ (by rw [h.layout]; exact hle))⟩
            rw [hf1] at e'
            cases e'
          · simp only [pure_eq_ok, Except.ok.injEq, reduceCtorEq, imp_false, forall_eq']
            exact ⟨fun _ => id, fun _ => ⟨_, rfl, h⟩, fun hn => hn h.sub⟩
    · simp [massert, hp]
  | clear =>
    obtain ⟨f1, hf1, _⟩ := hi.clear
    have hr := h.clear
    refine ⟨fun e e' => ?_, hr.keep, lose hr (clear_only _)⟩
    simp only [Frame.step] at e'
    rw [hf1] at e'
    cases e'

/-! ## In memory -/

/-- The frame `o` has its cards where `y` has them; those of `old` are not its own. -/
structure Borrows (m : FrameMemory α) (o : Nat) (y : Solo α) (old : List CardId) (σ : CardId → CardId) (ow : List CardId) : Prop where
  virt : FHolds (m.put o (some (y.frame.layout.map σ, y.frame.owned.map σ))) o y σ
  obj : m.obj o = some (y.frame.layout.map σ, ow)
  lent : Lent (old.map σ) ⟨y.frame.layout.map σ, y.frame.owned.map σ, m.fresh⟩ ⟨y.frame.layout.map σ, ow, m.fresh⟩
  sub : ∀ c ∈ old, c ∈ y.frame.owned

theorem Borrows.read {m : FrameMemory α} {o : Nat} {y : Solo α} {old : List CardId} {σ : CardId → CardId} {ow : List CardId}
    (h : Borrows m o y old σ ow) (q : Place) : m.read o q = y.read q := by
  rw [← h.virt.read q]
  simp only [FrameMemory.read, h.obj, h.virt.obj, orUb, bind_ok]
  rfl

theorem Borrows.inv {m : FrameMemory α} {o : Nat} {y : Solo α} {old : List CardId} {σ : CardId → CardId} {ow : List CardId}
    (h : Borrows m o y old σ ow) : Inv ⟨y.frame.layout.map σ, y.frame.owned.map σ, m.fresh⟩ := by
  have e : (⟨y.frame.layout.map σ, y.frame.owned.map σ, m.fresh⟩ : Frame) = _ := h.virt.as_frame
  rw [e]
  refine h.virt.inv.map h.virt.renames.inj fun c hc => ?_
  simp only [FrameMemory.put]
  rw [extend_old hc, extend_new (Nat.le_refl _)]
  exact Nat.lt_of_lt_of_le (h.virt.low c hc) (by simp [FrameMemory.put])

/-- A call on it. -/
theorem Borrows.call {m : FrameMemory α} {o : Nat} {y : Solo α} {old : List CardId} {σ : CardId → CardId} {ow : List CardId}
    (h : Borrows m o y old σ ow) (op : FrameOp) (d : α) :
    (∀ e, y.call op d = .error e → m.call o op d = .error e) ∧
    (∀ z, y.call op d = .ok z → (∀ c ∈ old, c ∈ z.frame.owned) → ∃ m' σ' ow', m.call o op d = .ok m' ∧ Borrows m' o z old σ' ow' ∧
      ∀ p w ρ, p ≠ o → FHolds m p w ρ → (∀ c ∈ w.frame.owned, ρ c ∉ ow) → FHolds m' p w ρ ∧ ∀ c ∈ w.frame.owned, ρ c ∉ ow') ∧
    (∀ z, y.call op d = .ok z → ¬ (∀ c ∈ old, c ∈ z.frame.owned) → m.call o op d = .error .assert) := by
  have hstep := h.lent.step h.inv op
  have hcall := h.virt.call_eq op
  simp only [FrameMemory.put] at hcall
  rw [hcall] at hstep
  obtain ⟨h1, h2, h3⟩ := hstep
  have hold : ∀ c ∈ old, c < y.frame.next := fun c hc => h.virt.inv.fresh c (h.sub c hc)
  have hext : ∀ c ∈ old, extend σ y.frame.next m.fresh c = σ c := fun c hc => extend_old (hold c hc)
  have hren := h.virt.renames
  simp only [FrameMemory.put] at hren
  have hmem : ∀ f : Frame, (∀ c ∈ old.map σ, c ∈ (f.map (extend σ y.frame.next m.fresh)).owned) ↔ ∀ c ∈ old, c ∈ f.owned := by
    intro f
    simp only [Frame.map, List.mem_map, forall_exists_index, and_imp, forall_apply_eq_imp_iff₂]
    refine ⟨fun hx c hc => ?_, fun hx c hc => ⟨c, hx c hc, hext c hc⟩⟩
    obtain ⟨a, ha, hac⟩ := hx c hc
    rw [← hext c hc] at hac
    exact hren.inj _ _ hac ▸ ha
  simp only [Solo.call, FrameMemory.call, h.obj, orUb, bind_ok]
  cases hf : y.frame.step op with
  | error e =>
    rw [hf] at h1
    simp only [bind_error, Except.error.injEq, reduceCtorEq, false_implies, implies_true, and_true]
    rintro e' rfl
    rw [h1 e rfl, bind_error]
  | ok f =>
    rw [hf] at h1 h2 h3
    simp only [mapRes_ok, Except.ok.injEq, forall_eq'] at h2 h3
    rw [hmem] at h2 h3
    simp only [bind_ok, pure_eq_ok, Except.ok.injEq, reduceCtorEq, false_implies, implies_true, true_and, forall_eq']
    refine ⟨fun hs => ?_, fun hs => by rw [h3 hs, bind_error]⟩
    obtain ⟨g, hg, hl⟩ := h2 hs
    rw [hg]
    simp only [bind_ok]
    have hfi : Inv f := h.virt.inv.step hf
    have hn : y.frame.next ≤ f.next := step_next hf
    have hgl : g.layout = f.layout.map (extend σ y.frame.next m.fresh) := hl.layout
    have hgn : g.next = m.fresh + (f.next - y.frame.next) := hl.next.trans (extend_new hn)
    have hgo : ∀ c ∈ g.owned, c ∈ ow ∨ m.fresh ≤ c := fun c hc => step_owned hg hc
    have hlow : ∀ c, c < y.frame.next → σ c < m.fresh := fun c hc => by simpa [FrameMemory.put] using h.virt.low c hc
    have hmapold : old.map (extend σ y.frame.next m.fresh) = old.map σ := List.map_congr_left hext
    refine ⟨_, extend σ y.frame.next m.fresh, g.owned, rfl, ⟨⟨hfi, fun a b _ _ e => hren.inj a b e, fun a ha => ?_, ?_, fun c hc => ?_⟩, ?_, ?_, hs⟩, ?_⟩
    · simp only [FrameMemory.put, hgn]
      rcases Nat.lt_or_ge a y.frame.next with hlt | hge
      · rw [extend_old hlt]; have := hlow a hlt; omega
      · rw [extend_new hge]; simp only at ha; omega
    · simp [FrameMemory.put]
    · simp only [FrameMemory.put]
      have hc : c ∈ f.owned := hc
      have hin : extend σ y.frame.next m.fresh c ∈ (f.map (extend σ y.frame.next m.fresh)).owned := List.mem_map_of_mem hc
      have hiff := hl.mem _ hin
      rcases Nat.lt_or_ge c y.frame.next with hlt | hge
      · have hco : c ∈ y.frame.owned := (step_owned hf hc).elim id fun hx => absurd hlt (Nat.not_lt.mpr hx)
        have hv := h.virt.card c hco
        simp only [FrameMemory.put] at hv
        rw [extend_old hlt] at hiff ⊢
        have hnl := hlow c hlt
        have hni : ¬ y.frame.next ≤ c := Nat.not_le.mpr hlt
        rw [if_neg hni]
        by_cases hio : σ c ∈ old.map σ
        · have hno : σ c ∉ ow := fun hx => (h.lent.mem (σ c) (List.mem_map_of_mem hco)).mp hx hio
          rw [if_neg (fun hx => hiff.mp hx hio), if_neg hno, hv]
        · rw [if_pos (hiff.mpr hio), if_neg (Nat.not_le.mpr hnl), hv]
      · have hni : extend σ y.frame.next m.fresh c ∉ old.map σ := by
          rw [extend_new hge]
          intro hx
          obtain ⟨a, ha, hax⟩ := List.mem_map.mp hx
          have := hlow a (hold a ha)
          omega
        have hle : m.fresh ≤ extend σ y.frame.next m.fresh c := by rw [extend_new hge]; omega
        rw [if_pos (hiff.mpr hni), if_pos hle, if_pos hge]
    · simp [hgl]
    · rw [hmapold]
      have e1 : (f.map (extend σ y.frame.next m.fresh)) = ⟨f.layout.map (extend σ y.frame.next m.fresh), f.owned.map (extend σ y.frame.next m.fresh), g.next⟩ := by
        rw [hl.next]; rfl
      have e2 : g = ⟨f.layout.map (extend σ y.frame.next m.fresh), g.owned, g.next⟩ := by rw [← hgl]
      rw [e1] at hl
      rw [e2] at hl
      exact hl
    · intro p w ρ hpo hw hno
      have hnot : ∀ c ∈ w.frame.owned, ρ c ∉ g.owned := fun c hc hx => by
        rcases hgo _ hx with h4 | h4
        · exact hno c hc h4
        · have := hw.low c (hw.inv.fresh c hc); omega
      refine ⟨⟨hw.inv, hw.inj, fun a ha => ?_, by simp [hpo, hw.obj], fun c hc => ?_⟩, hnot⟩
      · have := hw.low a ha
        simp only [hgn]; omega
      · simp only
        rw [if_neg (hnot c hc), if_neg (hno c hc), hw.card c hc]

theorem FrameMemory.run_append (k : FrameMemory α) (xs ys : List (FrameObjOp α)) : k.run (xs ++ ys) = (do (← k.run xs).run ys) := by
  induction xs generalizing k with
  | nil => rfl
  | cons x xs ih =>
    simp only [List.cons_append, FrameMemory.run]
    cases k.step x with
    | error => rfl
    | ok k' => simp [ih]

theorem Solo.call_lost {x y : Solo α} {op : FrameOp} {d : α} (h : x.call op d = .ok y) {c : CardId} (hc : c < x.frame.next) (hy : c ∈ y.frame.owned) :
    c ∈ x.frame.owned ∧ c < y.frame.next := by
  simp only [Solo.call, bind_eq_ok, pure_eq_ok, Except.ok.injEq] at h
  obtain ⟨f, hf, rfl⟩ := h
  exact ⟨(step_owned hf hy).elim id fun hx => absurd hc (Nat.not_lt.mpr hx), Nat.lt_of_lt_of_le hc (step_next hf)⟩

theorem Solo.call_next {x y : Solo α} {op : FrameOp} {d : α} (h : x.call op d = .ok y) : x.frame.next ≤ y.frame.next := by
  simp only [Solo.call, bind_eq_ok, pure_eq_ok, Except.ok.injEq] at h
  obtain ⟨f, hf, rfl⟩ := h
  exact step_next hf

theorem Solo.calls_lost {x y : Solo α} {cs : List (FrameOp × α)} (h : x.calls cs = .ok y) {c : CardId} (hc : c < x.frame.next) (hy : c ∈ y.frame.owned) :
    c ∈ x.frame.owned := by
  induction cs generalizing x with
  | nil => cases h; exact hy
  | cons a cs ih =>
    simp only [Solo.calls, bind_eq_ok] at h
    obtain ⟨z, h1, h2⟩ := h
    exact (Solo.call_lost h1 hc (ih h2 (Nat.lt_of_lt_of_le hc (Solo.call_next h1)))).1

theorem Solo.call_inv {x y : Solo α} {op : FrameOp} {d : α} (hx : Inv x.frame) (h : x.call op d = .ok y) : Inv y.frame := by
  simp only [Solo.call, bind_eq_ok, pure_eq_ok, Except.ok.injEq] at h
  obtain ⟨f, hf, rfl⟩ := h
  exact hx.step hf

theorem Solo.calls_inv {x y : Solo α} {cs : List (FrameOp × α)} (hx : Inv x.frame) (h : x.calls cs = .ok y) : Inv y.frame := by
  induction cs generalizing x with
  | nil => cases h; exact hx
  | cons a cs ih =>
    simp only [Solo.calls, bind_eq_ok] at h
    obtain ⟨z, h1, h2⟩ := h
    exact ih (Solo.call_inv hx h1) h2

theorem keepsAll_iff {x y : Solo α} (hx : Inv x.frame) (hy : Inv y.frame) : KeepsAll x y ↔ ∀ c ∈ x.frame.owned, c ∈ y.frame.owned := by
  have h1 : ∀ c, c ∈ placed (view x.frame.layout) ↔ c ∈ x.frame.owned := fun c => hx.owns.perm.mem_iff
  have h2 : ∀ c, c ∈ placed (view y.frame.layout) ↔ c ∈ y.frame.owned := fun c => hy.owns.perm.mem_iff
  simp only [KeepsAll, h1, h2]

/-- The other frames, and that their cards are none of `ow`. -/
def Uninvolved (s : Nat → Option (Solo α)) (m : FrameMemory α) (o : Nat) (ow : List CardId) : Prop :=
  ∀ p w, p ≠ o → s p = some w → ∃ ρ, FHolds m p w ρ ∧ ∀ c ∈ w.frame.owned, ρ c ∉ ow

theorem Borrows.run {s : Nat → Option (Solo α)} {m : FrameMemory α} {o : Nat} {y : Solo α} {old : List CardId} {σ : CardId → CardId} {ow : List CardId}
    (h : Borrows m o y old σ ow) (ha : Uninvolved s m o ow) (cs : List (FrameOp × α)) :
    (∀ z, y.calls cs = .ok z → (∀ c ∈ old, c ∈ z.frame.owned) → ∃ m', m.run (callsOn o cs) = .ok m') ∧
    ∀ m', m.run (callsOn o cs) = .ok m' → ∃ z σ' ow', y.calls cs = .ok z ∧ Borrows m' o z old σ' ow' ∧ Uninvolved s m' o ow' := by
  induction cs generalizing m y σ ow with
  | nil =>
    refine ⟨fun z hz _ => ⟨m, rfl⟩, fun m' hm => ?_⟩
    cases hm
    exact ⟨y, σ, ow, rfl, h, ha⟩
  | cons a cs ih =>
    obtain ⟨h1, h2, h3⟩ := h.call a.1 a.2
    have haside : ∀ m' ow', (∀ p w ρ, p ≠ o → FHolds m p w ρ → (∀ c ∈ w.frame.owned, ρ c ∉ ow) → FHolds m' p w ρ ∧ ∀ c ∈ w.frame.owned, ρ c ∉ ow') →
        Uninvolved s m' o ow' := by
      intro m' ow' hx p w hp hs
      obtain ⟨ρ, h4, h5⟩ := ha p w hp hs
      exact ⟨ρ, hx p w ρ hp h4 h5⟩
    simp only [callsOn, List.map_cons, FrameMemory.run, FrameMemory.step, Solo.calls] at ih ⊢
    refine ⟨fun z hz hk => ?_, fun m' hm => ?_⟩
    · obtain ⟨y1, hy1, hz⟩ := bind_eq_ok.mp hz
      have hk1 : ∀ c ∈ old, c ∈ y1.frame.owned := fun c hc =>
        Solo.calls_lost hz (Nat.lt_of_lt_of_le (h.virt.inv.fresh c (h.sub c hc)) (Solo.call_next hy1)) (hk c hc)
      obtain ⟨m1, σ1, ow1, hm1, hb1, hx⟩ := h2 y1 hy1 hk1
      rw [hm1, bind_ok]
      exact (ih hb1 (haside _ _ hx)).1 z hz hk
    · obtain ⟨m1, hm1, hm⟩ := bind_eq_ok.mp hm
      cases hy : y.call a.1 a.2 with
      | error e => rw [h1 e hy] at hm1; cases hm1
      | ok y1 =>
        by_cases hk : ∀ c ∈ old, c ∈ y1.frame.owned
        · obtain ⟨m2, σ1, ow1, hm2, hb1, hx⟩ := h2 y1 hy hk
          rw [hm1] at hm2
          cases hm2
          simp only [bind_ok]
          exact (ih hb1 (haside _ _ hx)).2 m' hm
        · rw [h3 y1 hy hk] at hm1
          cases hm1

/-- What follows for a frame that starts with only cards that are not its own. -/
theorem Borrows.exactly {s : Nat → Option (Solo α)} {m : FrameMemory α} {o : Nat} {y : Solo α} {σ : CardId → CardId} {ow : List CardId}
    (h : Borrows m o y y.frame.owned σ ow) (ha : Uninvolved s m o ow) (cs : List (FrameOp × α)) :
    ((∃ m', m.run (callsOn o cs) = .ok m') ↔ ∃ z, y.calls cs = .ok z ∧ KeepsAll y z) ∧
    ∀ z m', y.calls cs = .ok z → m.run (callsOn o cs) = .ok m' →
      (∀ q, m'.read o q = z.read q) ∧
      (∀ p w, p ≠ o → s p = some w → ∀ q, m'.read p q = w.read q) ∧
      ∀ op d e, m'.call o op d = .error e ↔ z.call op d = .error e ∨ e = .assert ∧ ∃ z', z.call op d = .ok z' ∧ ¬ KeepsAll y z' := by
  obtain ⟨h1, h2⟩ := h.run ha cs
  refine ⟨⟨fun ⟨m', hm⟩ => ?_, fun ⟨z, hz, hk⟩ => ?_⟩, fun z m' hz hm => ?_⟩
  · obtain ⟨z, σ', ow', hz, hb, _⟩ := h2 m' hm
    exact ⟨z, hz, (keepsAll_iff h.virt.inv hb.virt.inv).mpr hb.sub⟩
  · exact h1 z hz ((keepsAll_iff h.virt.inv (Solo.calls_inv h.virt.inv hz)).mp hk)
  · obtain ⟨z', σ', ow', hz', hb, ha'⟩ := h2 m' hm
    rw [hz] at hz'
    cases hz'
    refine ⟨hb.read, fun p w hp hs q => ?_, fun op d e => ?_⟩
    · obtain ⟨ρ, hw, _⟩ := ha' p w hp hs
      exact hw.read q
    · obtain ⟨c1, c2, c3⟩ := hb.call op d
      cases hc : z.call op d with
      | error e' =>
        rw [c1 e' hc]
        simp
      | ok z1 =>
        have hki := keepsAll_iff h.virt.inv (Solo.call_inv hb.virt.inv hc)
        by_cases hk : ∀ c ∈ y.frame.owned, c ∈ z1.frame.owned
        · obtain ⟨m1, _, _, hm1, _⟩ := c2 z1 hc hk
          simp [hm1, hki.mpr hk]
        · rw [c3 z1 hc hk]
          simp [mt hki.mp hk, eq_comm]

end Ygo
