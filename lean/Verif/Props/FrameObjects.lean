import Verif.Lemmas.FrameStrange

/-!
# Frames in memory (C97)
-/

set_option linter.unusedSimpArgs false

namespace Ygo.Props
open Ygo Ygo.Spec Ygo.Rename

variable {α : Type} [Inhabited α]

/-- **C97** (partial: no copies, moved frames only assigned to, moved on or destroyed). Whatever a program does with any number of frames,
constructing, calling, writing to cards, moving and destroying them in any order, each frame behaves as a value of its own, with cards that
nothing else has: every place reads what it reads on a frame alone, and every call fails in the way it fails on a frame alone. Missing from
the full claim: copies and moved frames, for which it is false, see `C97_copies_are_no_values` and `C97_moved_are_not_empty`. -/
theorem C97_frames_partial (ops : List (FrameObjOp α)) (hc : NoFrameCopy ops) (s : Frames α) (hs : Frames.run (fun _ => none) ops = some s) :
    ∃ m, FrameMemory.empty.run ops = .ok m ∧
      (∀ o x, s o = some (some x) → ∀ p, m.read o p = x.read p) ∧
      (∀ o x, s o = some (some x) → ∀ op d e, m.call o op d = .error e ↔ x.call op d = .error e) ∧
      ∀ o, m.obj o = none ↔ s o = none := by
  obtain ⟨m, h1, h2⟩ := FShelved.empty.run ops hc hs
  refine ⟨m, h1, fun o x ho p => ?_, fun o x ho op d e => ?_, fun o => ⟨fun h => ?_, fun h => h2.absent h⟩⟩
  · obtain ⟨ρ, hx⟩ := h2.used ho
    exact hx.read p
  · obtain ⟨ρ, hx⟩ := h2.used ho
    exact hx.call_error op d e
  · match hs : s o with
    | none => rfl
    | some y =>
      obtain ⟨l, ow, h3⟩ := h2.there hs
      rw [h] at h3
      cases h3

/-- **C97** (partial as above). No card is lost and none is owned twice: the cards that live are the cards of the frames that live, each of
one frame only; when no frame is left, no card lives. -/
theorem C97_no_leaks_partial (ops : List (FrameObjOp α)) (hc : NoFrameCopy ops) (s : Frames α) (hs : Frames.run (fun _ => none) ops = some s)
    (m : FrameMemory α) (hm : FrameMemory.empty.run ops = .ok m) :
    (∀ c, (∃ v, m.card c = some v) ↔ ∃ o l ow, m.obj o = some (l, ow) ∧ c ∈ ow) ∧
    (∀ o p l ow l' ow' c, m.obj o = some (l, ow) → m.obj p = some (l', ow') → c ∈ ow → c ∈ ow' → o = p) ∧
    ((∀ o, s o = none) → ∀ c, m.card c = none) := by
  obtain ⟨m', h1, h2⟩ := FShelved.empty.run ops hc hs
  rw [hm] at h1
  cases h1
  refine ⟨h2.alive, fun o p l ow l' ow' c ho hp hc hc' => ?_, fun hn c => ?_⟩
  · apply Classical.byContradiction
    intro hne
    exact h2.apart o p _ _ _ _ hne ho hp c hc hc'
  · match hcard : m.card c with
    | none => rfl
    | some v =>
      obtain ⟨o, l, ow, ho, _⟩ := (h2.alive c).mp ⟨v, hcard⟩
      rw [h2.absent (hn o)] at ho
      cases ho

/-- **C97.** Swapping two frames, as `std::swap` does, exchanges all that is on them. A frame may be swapped with itself. -/
theorem C97_swap (s : Frames α) (tmp a b : Nat) (x y : Solo α) (ha : s a = some (some x)) (hb : s b = some (some y)) (ht : s tmp = none) :
    ∃ s', s.run (swapFrames tmp a b) = some s' ∧ NoFrameCopy (swapFrames (α := α) tmp a b) ∧ s' a = some (some y) ∧ s' b = some (some x) ∧
      ∀ o, o ≠ a → o ≠ b → s' o = s o := by
  have h1 : tmp ≠ a := fun e => by rw [e, ha] at ht; cases ht
  have h2 : tmp ≠ b := fun e => by rw [e, hb] at ht; cases ht
  by_cases hab : a = b
  · subst hab
    rw [ha] at hb
    simp only [Option.some.injEq] at hb
    subst hb
    simp [Frames.run, swapFrames, Frames.step, Frames.put, ha, ht, h1, Ne.symm h1, NoFrameCopy]
    intro o h3
    by_cases h4 : o = tmp
    · simp [h4, ht]
    · simp [h3, h4]
  · simp [Frames.run, swapFrames, Frames.step, Frames.put, ha, hb, ht, h1, Ne.symm h1, h2, Ne.symm h2, hab, Ne.symm hab, NoFrameCopy]
    intro o h3 h4
    by_cases h5 : o = tmp
    · simp [h5, ht]
    · simp [h3, h4, h5]

omit [Inhabited α] in
/-- **C97.** Why it holds: no call looks at which cards lie where. With other cards at the same places, every call does the same, and fails in
the same way. -/
theorem C97_any_cards (f : Frame) (ρ : CardId → CardId) (hi : ∀ x y, ρ x = ρ y → x = y) (hn : ∀ i, ρ (f.next + i) = ρ f.next + i) (op : FrameOp) :
    (∀ g, f.step op = .ok g → (f.map ρ).step op = .ok (g.map ρ)) ∧ ∀ e, f.step op = .error e → (f.map ρ).step op = .error e := by
  have := Rename.step ⟨hi, hn⟩ op
  exact ⟨fun g h => by rw [this, h]; rfl, fun e h => by rw [this, h]; rfl⟩

/-! ## Moved frames -/

/-- **C97, moved frames.** What a frame is left with when it was moved: nothing in its piles and under its zones, but every zone that had a card
still shows it. That card belongs to the other frame: reading it reads the card of the other frame, writing to it changes the other
frame, and when the other frame is gone, reading it is undefined. -/
theorem C97_moved (ops : List (FrameObjOp α)) (hc : NoFrameCopy ops) (s : Frames α) (hs : Frames.run (fun _ => none) ops = some s)
    (o p : Nat) (ho : s o = none) (x : Solo α) (hx : s p = some (some x)) :
    ∃ m l, FrameMemory.empty.run (ops ++ [.move o p]) = .ok m ∧ m.obj p = some (l, []) ∧
      (∀ k, view l (.pile k) = []) ∧ (∀ k, view l (.mats k) = []) ∧
      (∀ q, m.read o q = x.read q) ∧
      (∀ q k, At q (.slot k) 0 → m.read p q = x.read q) ∧
      (∀ q k v m', At q (.slot k) 0 → m.write p q v = .ok m' → m'.read o q = .ok v) ∧
      ∃ m', m.destroy o = .ok m' ∧ ∀ q k, At q (.slot k) 0 → view x.frame.layout (.slot k) ≠ [] → m'.read p q = .error .ub := by
  obtain ⟨m0, h1, h2⟩ := FShelved.empty.run ops hc hs
  obtain ⟨m, h3, h4⟩ := h2.move ho hx
  obtain ⟨ρ, hp⟩ := h2.used hx
  have hop : o ≠ p := fun e => by rw [e, hx] at ho; cases ho
  have hs' : ((s.put o (some (some x))).put p (some none)) o = some (some x) := by simp [Frames.put, hop]
  have hm : m = (m0.put o (some (x.frame.layout.map ρ, x.frame.owned.map ρ))).put p (some (FrameMemory.leftovers (x.frame.layout.map ρ), [])) := by
    simp only [FrameMemory.move, hp.obj, orUb, bind_ok, pure_eq_ok, Except.ok.injEq] at h3
    exact h3.symm
  have hobjp : m.obj p = some (FrameMemory.leftovers (x.frame.layout.map ρ), []) := by rw [hm]; simp [FrameMemory.put]
  have hobjo : m.obj o = some (x.frame.layout.map ρ, x.frame.owned.map ρ) := by rw [hm]; simp [FrameMemory.put, hop]
  have hcard : ∀ q k, At q (.slot k) 0 → (FrameMemory.leftovers (x.frame.layout.map ρ)).card q = (x.frame.layout.map ρ).card q := fun q k hq => by
    rw [Layout.card_at hq, Layout.card_at hq]; rfl
  obtain ⟨σ, ho'⟩ := h4.used hs'
  have hread : ∀ q k, At q (.slot k) 0 → m.read p q = m.read o q := fun q k hq => by
    simp only [FrameMemory.read, hobjp, hobjo, orUb, bind_ok, hcard q k hq]
  refine ⟨m, _, by rw [FrameMemory.run_snoc, h1, bind_ok]; exact h3, hobjp, fun k => rfl, fun k => rfl, fun q => ho'.read q,
    fun q k hq => (hread q k hq).trans (ho'.read q), fun q k v m' hq hw => ?_, _, by simp only [FrameMemory.destroy, hobjo, orUb, bind_ok]; rfl, ?_⟩
  · simp only [FrameMemory.write, hobjp, orUb, bind_ok, hcard q k hq, bind_eq_ok, pure_eq_ok, Except.ok.injEq] at hw
    obtain ⟨c, h5, _, _, rfl⟩ := hw
    simp [FrameMemory.read, hobjo, orUb, h5]
  · intro q k hq hv
    have h5 : (((m.free (x.frame.owned.map ρ)).put o none)).obj p = some (FrameMemory.leftovers (x.frame.layout.map ρ), []) := by
      simp [FrameMemory.put, FrameMemory.free, Ne.symm hop, hobjp]
    simp only [FrameMemory.read, h5, orUb, bind_ok]
    rw [hcard q k hq, layout_card, Layout.card_at hq]
    match hl : view x.frame.layout (.slot k) with
    | [] => exact absurd hl hv
    | c :: cs =>
      have hown := hp.inv.mem_owned (C := .slot k) (c := c) (by rw [hl]; simp)
      have : ρ c ∈ x.frame.owned.map ρ := List.mem_map_of_mem hown
      simp only [List.getElem?_cons_zero, orAssert, mapRes_ok, bind_ok, FrameMemory.put, FrameMemory.free, if_pos this, orUb]

/-- **C97, moved frames.** A frame that was moved can be cleared exactly if no zone had a card; otherwise `clear` stops at an assertion. A frame that
had no card in any zone is left as a new one. -/
theorem C97_moved_clear (ops : List (FrameObjOp α)) (hc : NoFrameCopy ops) (s : Frames α) (hs : Frames.run (fun _ => none) ops = some s)
    (o p : Nat) (x : Solo α) (hx : s p = some (some x)) (d : α) :
    ∃ m, FrameMemory.empty.run (ops ++ [.move o p]) = .ok m ∧
      ((∃ k, view x.frame.layout (.slot k) ≠ []) → m.call p .clear d = .error .assert) ∧
      ((∀ k, view x.frame.layout (.slot k) = []) → m.obj p = some (Layout.empty, []) ∧ ∃ m', m.call p .clear d = .ok m') := by
  obtain ⟨m0, h1, h2⟩ := FShelved.empty.run ops hc hs
  obtain ⟨ρ, hp⟩ := h2.used hx
  refine ⟨_, by rw [FrameMemory.run_snoc, h1, bind_ok]; simp only [FrameMemory.step, FrameMemory.move, hp.obj, orUb, bind_ok]; rfl, ?_⟩
  generalize hm : (m0.put o (some (x.frame.layout.map ρ, x.frame.owned.map ρ))).put p (some (FrameMemory.leftovers (x.frame.layout.map ρ), [])) = m
  have hobjp : m.obj p = some (FrameMemory.leftovers (x.frame.layout.map ρ), []) := by rw [← hm]; simp [FrameMemory.put]
  have hslot : ∀ k, view (FrameMemory.leftovers (x.frame.layout.map ρ)) (.slot k) = (view x.frame.layout (.slot k)).map ρ := fun k =>
    view_map ρ x.frame.layout (.slot k)
  have hclear := clear_strange (f := ⟨FrameMemory.leftovers (x.frame.layout.map ρ), [], m.fresh⟩) (fun C c _ => List.not_mem_nil)
  refine ⟨fun ⟨k, hk⟩ => ?_, fun hall => ?_⟩
  · have := hclear.1 ⟨.slot k, by rw [hslot]; simpa using hk⟩
    simp only [FrameMemory.call, hobjp, orUb, bind_ok, Frame.step, this, bind_error]
  · have hempty : FrameMemory.leftovers (x.frame.layout.map ρ) = Layout.empty := by
      simp only [FrameMemory.leftovers, Layout.empty, Layout.mk.injEq, true_and]
      funext k
      have := hslot k
      rw [hall k] at this
      simp only [view, FrameMemory.leftovers, List.map_nil] at this
      match hz : ((x.frame.layout.map ρ).zone k).card, this with
      | none, _ => rfl
    have := hclear.2 fun C => by
      show view (FrameMemory.leftovers (x.frame.layout.map ρ)) C = []
      rw [hempty]
      cases C <;> rfl
    refine ⟨by rw [hobjp, hempty], ?_⟩
    simp only [FrameMemory.call, hobjp, orUb, bind_ok, Frame.step, this]
    exact ⟨_, rfl⟩

/-! ## Copies -/

/-- **C97, copies.** A copy shows the cards of the frame it was copied from, not its own: what is written to a card of the one is read from the
other. Removing any card from the copy stops at an assertion, and so does clearing it unless it is empty. When the other frame is
gone, reading any card of the copy is undefined. -/
theorem C97_copy (ops : List (FrameObjOp α)) (hc : NoFrameCopy ops) (s : Frames α) (hs : Frames.run (fun _ => none) ops = some s)
    (o p : Nat) (ho : s o = none) (x : Solo α) (hx : s p = some (some x)) (d : α) :
    ∃ m, FrameMemory.empty.run (ops ++ [.copy o p]) = .ok m ∧
      (∀ q, m.read o q = x.read q ∧ m.read p q = x.read q) ∧
      (∀ q v m', m.write p q v = .ok m' → m'.read o q = .ok v) ∧
      (∀ q v m', m.write o q v = .ok m' → m'.read p q = .ok v) ∧
      (∀ q C i, At q C i → m.call o (.remove q) d = .error .assert) ∧
      ((∃ C, view x.frame.layout C ≠ []) → m.call o .clear d = .error .assert) ∧
      (∃ m', m.destroy p = .ok m' ∧ ∀ q C i, At q C i → i < (view x.frame.layout C).length → m'.read o q = .error .ub) ∧
      ∃ m', m.destroy o = .ok m' ∧ ∀ q, m'.read p q = x.read q := by
  obtain ⟨m0, h1, h2⟩ := FShelved.empty.run ops hc hs
  obtain ⟨ρ, hp⟩ := h2.used hx
  have hop : o ≠ p := fun e => by rw [e, hx] at ho; cases ho
  let m : FrameMemory α := {
    card := fun c => if c < m0.fresh then m0.card c else (x.frame.owned.map ρ)[c - m0.fresh]?.bind m0.card
    obj := fun q => if q = o then some (x.frame.layout.map ρ, List.range' m0.fresh (x.frame.owned.map ρ).length) else m0.obj q
    fresh := m0.fresh + (x.frame.owned.map ρ).length }
  have hobjo : m.obj o = some (x.frame.layout.map ρ, List.range' m0.fresh (x.frame.owned.map ρ).length) := by simp [m]
  have hobjp : m.obj p = some (x.frame.layout.map ρ, x.frame.owned.map ρ) := by simp [m, Ne.symm hop, hp.obj]
  have hlow : ∀ c ∈ x.frame.owned, ρ c < m0.fresh := fun c hcm => hp.low c (hp.inv.fresh c hcm)
  have hcard : ∀ c ∈ x.frame.owned, m.card (ρ c) = some (x.value c) := fun c hcm => by
    show (if ρ c < m0.fresh then _ else _) = _
    rw [if_pos (hlow c hcm), hp.card c hcm]
  have hholds : FHolds m p x ρ := ⟨hp.inv, hp.inj, fun a ha => Nat.lt_of_lt_of_le (hp.low a ha) (Nat.le_add_right _ _), hobjp, hcard⟩
  have hstrange : ∀ C, ∀ c ∈ view (x.frame.layout.map ρ) C, c ∉ List.range' m0.fresh (x.frame.owned.map ρ).length := by
    intro C c hcm hr
    rw [view_map] at hcm
    obtain ⟨a, ha, rfl⟩ := List.mem_map.mp hcm
    have := hlow a (hp.inv.mem_owned ha)
    rw [List.mem_range'] at hr
    omega
  have hsame : ∀ q, m.read o q = m.read p q := fun q => by simp only [FrameMemory.read, hobjo, hobjp, orUb, bind_ok]
  refine ⟨m, ?_, fun q => ⟨(hsame q).trans (hholds.read q), hholds.read q⟩, fun q v m' hw => ?_, fun q v m' hw => ?_, fun q C i hq => ?_, fun ⟨C, hC⟩ => ?_,
    ⟨_, by simp only [FrameMemory.destroy, hobjp, orUb, bind_ok]; rfl, fun q C i hq hi => ?_⟩,
    ⟨_, by simp only [FrameMemory.destroy, hobjo, orUb, bind_ok]; rfl, fun q => ?_⟩⟩
  · rw [FrameMemory.run_snoc, h1, bind_ok]
    simp only [FrameMemory.step, FrameMemory.copy, hp.obj, orUb, bind_ok]
    rfl
  · simp only [FrameMemory.write, hobjp, orUb, bind_ok, bind_eq_ok, pure_eq_ok, Except.ok.injEq] at hw
    obtain ⟨c, h5, _, _, rfl⟩ := hw
    simp [FrameMemory.read, hobjo, orUb, h5]
  · simp only [FrameMemory.write, hobjo, orUb, bind_ok, bind_eq_ok, pure_eq_ok, Except.ok.injEq] at hw
    obtain ⟨c, h5, _, _, rfl⟩ := hw
    simp [FrameMemory.read, hobjp, orUb, h5]
  · have := remove_strange (f := ⟨x.frame.layout.map ρ, List.range' m0.fresh (x.frame.owned.map ρ).length, m.fresh⟩) hstrange hq
    simp only [FrameMemory.call, hobjo, orUb, bind_ok, Frame.step, this, bind_error]
  · have := (clear_strange (f := ⟨x.frame.layout.map ρ, List.range' m0.fresh (x.frame.owned.map ρ).length, m.fresh⟩) hstrange).1
      ⟨C, by rw [view_map]; simpa using hC⟩
    simp only [FrameMemory.call, hobjo, orUb, bind_ok, Frame.step, this, bind_error]
  · have h5 : ((m.free (x.frame.owned.map ρ)).put p none).obj o = some (x.frame.layout.map ρ, List.range' m0.fresh (x.frame.owned.map ρ).length) := by
      simp [FrameMemory.put, FrameMemory.free, hop, hobjo]
    have h6 : (view x.frame.layout C)[i]? = some (view x.frame.layout C)[i] := List.getElem?_eq_getElem hi
    have hown := hp.inv.mem_owned (List.getElem_mem hi)
    have : ρ (view x.frame.layout C)[i] ∈ x.frame.owned.map ρ := List.mem_map_of_mem hown
    simp only [FrameMemory.read, h5, orUb, bind_ok]
    rw [layout_card, Layout.card_at hq, h6]
    simp only [orAssert, mapRes_ok, bind_ok, FrameMemory.put, FrameMemory.free, if_pos this, orUb]
  · refine FHolds.read (m := (m.free (List.range' m0.fresh (x.frame.owned.map ρ).length)).put o none) (o := p) (x := x) (ρ := ρ) ⟨hp.inv, hp.inj, hholds.low, ?_, fun c hcm => ?_⟩ q
    · simp [FrameMemory.put, FrameMemory.free, Ne.symm hop, hobjp]
    · have : ρ c ∉ List.range' m0.fresh (x.frame.owned.map ρ).length := by
        have := hlow c hcm
        rw [List.mem_range']
        rintro ⟨i, _, hi⟩
        omega
      show (if ρ c ∈ List.range' m0.fresh (x.frame.owned.map ρ).length then none else m.card (ρ c)) = _
      rw [if_neg this, hcard c hcm]

/-- A monster, moved from the hand to its zone; and a deck. -/
def demoFrames : List (FrameObjOp Nat) :=
  [.construct 0, .construct 1, .call 0 (.resize ⟨0, 0x1, 0, -1⟩ 3) 7, .call 1 (.add ⟨0, 0x2, 0, -1⟩) 8, .call 1 (.move ⟨0, 0x2, 0, -1⟩ ⟨0, 0x4, 2, -1⟩) 8,
    .write 0 ⟨0, 0x1, 1, -1⟩ 9]

/-- **C97, negation.** A frame that was copied and then cleared is no value of its own. -/
theorem C97_copies_are_no_values : ¬ ∀ (ops : List (FrameObjOp Nat)) (s : Frames Nat), Frames.run (fun _ => none) ops = some s →
    ∃ m, FrameMemory.empty.run ops = .ok m := by
  intro h
  obtain ⟨s, hs⟩ : ∃ s, Frames.run (fun _ => none) [FrameObjOp.construct 0, .call 0 (.add ⟨0, 0x2, 0, -1⟩) 8, .copy 1 0, .call 1 (.remove ⟨0, 0x2, 0, -1⟩) 8] = some s :=
    ⟨_, rfl⟩
  obtain ⟨m, hm⟩ := h _ s hs
  cases hm

/-- **C97, negation.** A frame that was moved is not always an empty one that can be cleared. -/
theorem C97_moved_are_not_empty : ¬ ∀ (ops : List (FrameObjOp Nat)) (s : Frames Nat) (o p : Nat) (x : Solo Nat), NoFrameCopy ops →
    Frames.run (fun _ => none) ops = some s → s o = none → s p = some (some x) →
    ∃ m m', FrameMemory.empty.run (ops ++ [.move o p]) = .ok m ∧ m.call p .clear 0 = .ok m' := by
  intro h
  have hn : NoFrameCopy [FrameObjOp.construct 0, .call 0 (.add ⟨0, 0x4, 2, -1⟩) 8] := by intro o p; simp
  obtain ⟨s, x, hs, h1, h2, h3⟩ : ∃ s x, Frames.run (fun _ => none) [FrameObjOp.construct 0, .call 0 (.add ⟨0, 0x4, 2, -1⟩) 8] = some s ∧
      s 1 = none ∧ s 0 = some (some x) ∧ view x.frame.layout (.slot ⟨0, .monster, 2, by decide⟩) = [0] := ⟨_, _, rfl, rfl, rfl, rfl⟩
  obtain ⟨m, m', hm, hm'⟩ := h _ s 1 0 x hn hs h1 h2
  obtain ⟨k, hk, hk', _⟩ := C97_moved_clear _ hn s hs 1 0 x h2 0
  rw [hm] at hk
  cases hk
  rw [hk' ⟨_, by rw [h3]; simp⟩] at hm'
  cases hm'

example : NoFrameCopy demoFrames := by intro o p; simp [demoFrames]
example : (Frames.run (fun _ => none) demoFrames).isSome = true := rfl
example : (do (← FrameMemory.empty.run (demoFrames ++ swapFrames 2 0 1)).read 1 ⟨0, 0x1, 1, -1⟩) = .ok 9 := rfl
example : (do (← FrameMemory.empty.run (demoFrames ++ swapFrames 2 0 1)).read 0 ⟨0, 0x4, 2, -1⟩) = .ok 8 := rfl
example : (do (← FrameMemory.empty.run (demoFrames ++ [FrameObjOp.move 2 1])).read 1 ⟨0, 0x4, 2, -1⟩) = .ok 8 := rfl
example : (do (← FrameMemory.empty.run (demoFrames ++ [FrameObjOp.move 2 1, .destroy 2])).read 1 ⟨0, 0x4, 2, -1⟩) = .error .ub := rfl
example : (do (← FrameMemory.empty.run (demoFrames ++ [FrameObjOp.copy 2 0, .write 0 ⟨0, 0x1, 0, -1⟩ 5])).read 2 ⟨0, 0x1, 0, -1⟩) = .ok 5 := rfl
example : (do (← (← FrameMemory.empty.run (demoFrames ++ [FrameObjOp.moveAssign 1 0])).call 1 (.resize ⟨0, 0x1, 0, -1⟩ 1) 0).read 1 ⟨0, 0x1, 0, -1⟩) = .ok 7 := rfl

end Ygo.Props
