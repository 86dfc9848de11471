import Verif.Lemmas.Timeline

/-! # Moving back and forth over a list of events -/

set_option linter.unusedSimpArgs false

namespace Ygo
open Ygo.Spec

/-! ## Cells -/

/-- The cell `u` belongs to the straight run at `v`, whose furthest recorded point is `w`. -/
structure CellSim {α : Type} (u v w : Undoable α) : Prop where
  values : u.values = w.values
  current : u.current = v.current
  pre : v.values <+: w.values
  live : LiveCell v
  liveEnd : LiveCell w

namespace CellSim
variable {α : Type} {u v v' w : Undoable α}

theorem refl (h : LiveCell u) : CellSim u u u := ⟨rfl, rfl, List.prefix_refl _, h, h⟩

theorem get (h : CellSim u v w) : u.get = v.get := by
  have h1 := h.live
  unfold LiveCell at h1
  obtain ⟨t, ht⟩ := h.pre
  simp only [Undoable.get, h.values, h.current, ← ht]
  rw [List.getElem?_append_left (by omega)]

theorem get_ok (h : CellSim u v w) : ∃ x, u.get = .ok x := by
  have h1 := h.live
  unfold LiveCell at h1
  rw [h.get]
  exact ⟨v.values[v.current]'(by omega), by simp [Undoable.get]⟩

theorem eq_of_live (h : CellSim u w w) : u = w := by
  cases u; cases w
  have h1 := h.values; have h2 := h.current
  simp_all

theorem liveCell_set {v : Undoable α} {a : α} (h : LiveCell v) : v.set a = ⟨v.values ++ [a], v.current + 1⟩ ∧ LiveCell (v.set a) := by
  unfold LiveCell at h
  simp [Undoable.set, LiveCell, h]

theorem prefix_set {a : α} (h : LiveCell v) : v.values <+: (v.set a).values := by
  rw [(liveCell_set h).1]
  exact List.prefix_append _ _

theorem undo {a : α} (h : CellSim u (v.set a) w) (hl : LiveCell v) :
    u.undo = .ok ⟨u.values, u.current - 1⟩ ∧ CellSim ⟨u.values, u.current - 1⟩ v w := by
  have h0 := h.current
  rw [(liveCell_set hl).1] at h0
  refine ⟨by simp [Undoable.undo, massert, h0], h.values, by simp [h0], (prefix_set hl).trans h.pre, hl, h.liveEnd⟩

theorem redo {a x : α} (h : CellSim u v w) (hp : (v.set a).values <+: w.values) : CellSim (u.set x) (v.set a) w := by
  have h1 := h.values; have h2 := h.current; have h3 := h.live; have h4 := h.liveEnd
  obtain ⟨h5, h6⟩ := liveCell_set (a := a) h3
  have hne : u.current + 1 ≠ u.values.length := by
    rw [h5] at hp
    have := hp.length_le
    unfold LiveCell at h3
    simp at this
    rw [h1, h2]; omega
  exact ⟨by simp only [Undoable.set]; rw [if_neg hne, h1], by simp [Undoable.set, h2], hp, h6, h4⟩

end CellSim

/-! ## Boards without their frame -/

/-- All cells of a board belong to a straight run. -/
structure CellsSim (b B C : UndoBoard) : Prop where
  chainStack : CellSim b.chainStack B.chainStack C.chainStack
  turn : CellSim b.turn B.turn C.turn
  turnController : CellSim b.turnController B.turnController C.turnController
  lp : ∀ i, CellSim (b.lp i) (B.lp i) (C.lp i)
  phase : CellSim b.phase B.phase C.phase
  blockedZones : CellSim b.blockedZones B.blockedZones C.blockedZones

/-- The recorded values of one board begin those of another. -/
structure CellsLe (B C : UndoBoard) : Prop where
  chainStack : B.chainStack.values <+: C.chainStack.values
  turn : B.turn.values <+: C.turn.values
  turnController : B.turnController.values <+: C.turnController.values
  lp : ∀ i, (B.lp i).values <+: (C.lp i).values
  phase : B.phase.values <+: C.phase.values
  blockedZones : B.blockedZones.values <+: C.blockedZones.values

theorem CellsLe.refl (B : UndoBoard) : CellsLe B B :=
  ⟨List.prefix_refl _, List.prefix_refl _, List.prefix_refl _, fun _ => List.prefix_refl _, List.prefix_refl _, List.prefix_refl _⟩

theorem CellsLe.trans {A B C : UndoBoard} (h : CellsLe A B) (h' : CellsLe B C) : CellsLe A C :=
  ⟨h.1.trans h'.1, h.2.trans h'.2, h.3.trans h'.3, fun i => (h.4 i).trans (h'.4 i), h.5.trans h'.5, h.6.trans h'.6⟩

/-- The cells of a board are live. -/
structure CellsLive (B : UndoBoard) : Prop where
  chainStack : LiveCell B.chainStack
  turn : LiveCell B.turn
  turnController : LiveCell B.turnController
  lp : ∀ i, LiveCell (B.lp i)
  phase : LiveCell B.phase
  blockedZones : LiveCell B.blockedZones

theorem exchangeUndo_eq (e : BoardExchange) : UndoBoard.exchangeUndo e = (DuelBoard.exchangeOps e).reverse := by
  simp [UndoBoard.exchangeUndo, DuelBoard.exchangeOps, DuelBoard.resizeOps]

theorem stateUndo_eq (s : BoardState) : UndoBoard.stateUndo s = (DuelBoard.stateOps s).reverse := by
  simp [UndoBoard.stateUndo, DuelBoard.stateOps, DuelBoard.resizeOps]

theorem cardUndo_eq (e : CardEvent) : UndoBoard.cardUndo e = (DuelBoard.cardOps e).reverse := by
  cases e <;> simp [UndoBoard.cardUndo, DuelBoard.cardOps]

theorem pileUndo_eq (e : PileEvent) : UndoBoard.pileUndo e = (DuelBoard.pileOps e).reverse := by
  cases e <;> simp [UndoBoard.pileUndo, DuelBoard.pileOps]

/-- An event acts on the frame by its frame operations, whatever the frame type. -/
theorem parse_frame {F : Type} {V : Type → Type} [FrameLike F] [Cell V] {B B' : DuelBoard F V} {e : Event}
    (h : B.parseEvent e = .ok B') : runOps B.frame (frameOps e) = .ok B'.frame := by
  cases e with
  | board e =>
    cases e with
    | unset => cases h; rfl
    | exchange e => simp [DuelBoard.parseEvent, DuelBoard.onFrame] at h; obtain ⟨f, h, rfl⟩ := h; exact h
    | state s =>
      simp only [DuelBoard.parseEvent, DuelBoard.parseState, DuelBoard.onFrame, DuelBoard.setLp, bind_eq_ok, pure_eq_ok, Except.ok.injEq] at h
      obtain ⟨a, _, b, _, f, h, rfl⟩ := h
      simp only [frameOps]
      rw [← h]
      split <;> rfl
  | card r e => simp [DuelBoard.parseEvent, DuelBoard.onFrame] at h; obtain ⟨f, h, rfl⟩ := h; exact h
  | chainStack e =>
    cases e <;> simp [DuelBoard.parseEvent] at h
    · cases h; rfl
    · obtain ⟨f, h, rfl⟩ := h; rfl
    · obtain ⟨f, h, rfl⟩ := h; rfl
  | nextTurn c => simp [DuelBoard.parseEvent] at h; obtain ⟨f, h, rfl⟩ := h; rfl
  | lp con c => simp only [DuelBoard.parseEvent, DuelBoard.setLp, bind_eq_ok, pure_eq_ok, Except.ok.injEq] at h; obtain ⟨f, _, _, _, rfl⟩ := h; rfl
  | nextPhase p => cases h; rfl
  | pile r e => simp [DuelBoard.parseEvent, DuelBoard.onFrame] at h; obtain ⟨f, h, rfl⟩ := h; exact h
  | zoneBlock zs => cases h; rfl
  | finish => cases h; rfl
  | metaInfo => cases h; rfl
  | result => cases h; rfl
  | unset => cases h; rfl

/-- An event's effect on the cells does not depend on the frame. -/
theorem parse_other_frame {F : Type} {V : Type → Type} [FrameLike F] [Cell V] {B B' : DuelBoard F V} {e : Event} {g g' : F}
    (h : B.parseEvent e = .ok B') (hg : runOps g (frameOps e) = .ok g') :
    DuelBoard.parseEvent { B with frame := g } e = .ok { B' with frame := g' } := by
  cases e with
  | board e =>
    cases e with
    | unset => cases h; cases hg; rfl
    | exchange e =>
      simp [DuelBoard.parseEvent, DuelBoard.onFrame, frameOps] at h hg ⊢; obtain ⟨f, h, rfl⟩ := h; simp [hg]
    | state s =>
      simp only [DuelBoard.parseEvent, DuelBoard.parseState, DuelBoard.onFrame, DuelBoard.setLp, bind_eq_ok, pure_eq_ok, Except.ok.injEq, frameOps] at h hg ⊢
      obtain ⟨a, ha, b, hb, f, h, rfl⟩ := h
      refine ⟨a, ha, b, hb, g', ?_, ?_⟩
      · rw [← hg]; split <;> rfl
      · split <;> rfl
  | card r e => simp [DuelBoard.parseEvent, DuelBoard.onFrame, frameOps] at h hg ⊢; obtain ⟨f, h, rfl⟩ := h; simp [hg]
  | chainStack e =>
    cases hg
    cases e <;> simp only [DuelBoard.parseEvent, bind_eq_ok, pure_eq_ok, Except.ok.injEq] at h ⊢
    · cases h; rfl
    · obtain ⟨f, h, rfl⟩ := h; simp [h]
    · obtain ⟨f, h, rfl⟩ := h; simp [h]
  | nextTurn c => cases hg; simp [DuelBoard.parseEvent] at h ⊢; obtain ⟨f, h, rfl⟩ := h; simp [h]
  | lp con c => cases hg; simp only [DuelBoard.parseEvent, DuelBoard.setLp, bind_eq_ok, pure_eq_ok, Except.ok.injEq] at h ⊢; obtain ⟨i, h1, x, h2, rfl⟩ := h; exact ⟨i, h1, x, h2, rfl⟩
  | nextPhase p => cases h; cases hg; rfl
  | pile r e => simp [DuelBoard.parseEvent, DuelBoard.onFrame, frameOps] at h hg ⊢; obtain ⟨f, h, rfl⟩ := h; simp [hg]
  | zoneBlock zs => cases h; cases hg; rfl
  | finish => cases h; cases hg; rfl
  | metaInfo => cases h; cases hg; rfl
  | result => cases h; cases hg; rfl
  | unset => cases h; cases hg; rfl

/-- Which cells an event assigns: `b' = assign b` where untouched cells stay. -/
inductive Assigned {α : Type} : Undoable α → Undoable α → Prop
  | same {u} : Assigned u u
  | set {u a} : Assigned u (u.set a)

theorem Assigned.live {α : Type} {u v : Undoable α} (h : Assigned u v) (hl : LiveCell u) : LiveCell v ∧ u.values <+: v.values := by
  cases h with
  | same => exact ⟨hl, List.prefix_refl _⟩
  | set => exact ⟨(CellSim.liveCell_set hl).2, CellSim.prefix_set hl⟩

theorem parse_assigned {B B' : UndoBoard} {e : Event} (h : B.parseEvent e = .ok B') :
    Assigned B.chainStack B'.chainStack ∧ Assigned B.turn B'.turn ∧ Assigned B.turnController B'.turnController ∧
    (∀ i, Assigned (B.lp i) (B'.lp i)) ∧ Assigned B.phase B'.phase ∧ Assigned B.blockedZones B'.blockedZones := by
  cases e with
  | board e =>
    cases e with
    | unset => cases h; exact ⟨.same, .same, .same, fun _ => .same, .same, .same⟩
    | exchange e =>
      simp [DuelBoard.parseEvent, DuelBoard.onFrame] at h; obtain ⟨f, h, rfl⟩ := h
      exact ⟨.same, .same, .same, fun _ => .same, .same, .same⟩
    | state s =>
      simp only [DuelBoard.parseEvent, DuelBoard.parseState, DuelBoard.onFrame, DuelBoard.setLp, bind_eq_ok, pure_eq_ok, Except.ok.injEq] at h
      obtain ⟨a, _, b, _, f, h, rfl⟩ := h
      by_cases ht : 0 ≤ s.turnCounter
      · simp only [ht, if_true]
        refine ⟨.set, .set, .same, fun i => ?_, .same, .same⟩
        match i with
        | 0 => exact .set
        | 1 => exact .set
      · simp only [ht, if_false]
        refine ⟨.set, .same, .same, fun i => ?_, .same, .same⟩
        match i with
        | 0 => exact .set
        | 1 => exact .set
  | card r e =>
    simp [DuelBoard.parseEvent, DuelBoard.onFrame] at h; obtain ⟨f, h, rfl⟩ := h
    exact ⟨.same, .same, .same, fun _ => .same, .same, .same⟩
  | chainStack e =>
    cases e <;> simp [DuelBoard.parseEvent, Cell.push, Cell.pop, Undoable.unsupported] at h
    cases h; exact ⟨.same, .same, .same, fun _ => .same, .same, .same⟩
  | nextTurn c =>
    simp [DuelBoard.parseEvent] at h; obtain ⟨f, h, rfl⟩ := h
    exact ⟨.same, .set, .set, fun _ => .same, .same, .same⟩
  | lp con c =>
    simp only [DuelBoard.parseEvent, DuelBoard.setLp, bind_eq_ok, pure_eq_ok, Except.ok.injEq] at h; obtain ⟨i, _, _, _, rfl⟩ := h
    refine ⟨.same, .same, .same, fun j => ?_, .same, .same⟩
    by_cases hj : j = i
    · subst hj; simp only [if_true]; exact .set
    · simp only [hj, if_false]; exact .same
  | nextPhase p => cases h; exact ⟨.same, .same, .same, fun _ => .same, .set, .same⟩
  | pile r e =>
    simp [DuelBoard.parseEvent, DuelBoard.onFrame] at h; obtain ⟨f, h, rfl⟩ := h
    exact ⟨.same, .same, .same, fun _ => .same, .same, .same⟩
  | zoneBlock zs => cases h; exact ⟨.same, .same, .same, fun _ => .same, .same, .set⟩
  | finish => cases h; exact ⟨.same, .same, .same, fun _ => .same, .same, .same⟩
  | metaInfo => cases h; exact ⟨.same, .same, .same, fun _ => .same, .same, .same⟩
  | result => cases h; exact ⟨.same, .same, .same, fun _ => .same, .same, .same⟩
  | unset => cases h; exact ⟨.same, .same, .same, fun _ => .same, .same, .same⟩

theorem parse_cells {B B' : UndoBoard} {e : Event} (h : B.parseEvent e = .ok B') (hl : CellsLive B) : CellsLive B' ∧ CellsLe B B' := by
  obtain ⟨h1, h2, h3, h4, h5, h6⟩ := parse_assigned h
  exact ⟨⟨(h1.live hl.1).1, (h2.live hl.2).1, (h3.live hl.3).1, fun i => ((h4 i).live (hl.4 i)).1, (h5.live hl.5).1, (h6.live hl.6).1⟩,
    ⟨(h1.live hl.1).2, (h2.live hl.2).2, (h3.live hl.3).2, fun i => ((h4 i).live (hl.4 i)).2, (h5.live hl.5).2, (h6.live hl.6).2⟩⟩

/-- Redoing an event. -/
theorem parse_redo {b B B' C : UndoBoard} {e : Event} {f' : Limbo} (h : B.parseEvent e = .ok B') (hs : CellsSim b B C)
    (hle : CellsLe B' C) (hf : runOps b.frame (frameOps e) = .ok f') :
    ∃ b', b.parseEvent e = .ok b' ∧ b'.frame = f' ∧ CellsSim b' B' C := by
  cases e with
  | board e =>
    cases e with
    | unset => cases h; cases hf; exact ⟨b, rfl, rfl, hs⟩
    | exchange e =>
      simp [DuelBoard.parseEvent, DuelBoard.onFrame, frameOps] at h hf ⊢; obtain ⟨f, h, rfl⟩ := h
      exact ⟨_, ⟨f', hf, rfl⟩, rfl, ⟨hs.1, hs.2, hs.3, hs.4, hs.5, hs.6⟩⟩
    | state s =>
      simp only [DuelBoard.parseEvent, DuelBoard.parseState, DuelBoard.onFrame, DuelBoard.setLp, bind_eq_ok, pure_eq_ok, Except.ok.injEq, frameOps] at h hf ⊢
      obtain ⟨x, hx, y, hy, f, h, rfl⟩ := h
      by_cases ht : 0 ≤ s.turnCounter
      · simp only [ht, if_true] at hle ⊢
        refine ⟨_, ⟨x, hx, y, hy, f', hf, rfl⟩, rfl, ⟨hs.1.redo hle.1, hs.2.redo hle.2, hs.3, fun i => ?_, hs.5, hs.6⟩⟩
        match i with
        | 0 => exact (hs.4 0).redo (hle.4 0)
        | 1 => exact (hs.4 1).redo (hle.4 1)
      · simp only [ht, if_false] at hle ⊢
        refine ⟨_, ⟨x, hx, y, hy, f', hf, rfl⟩, rfl, ⟨hs.1.redo hle.1, hs.2, hs.3, fun i => ?_, hs.5, hs.6⟩⟩
        match i with
        | 0 => exact (hs.4 0).redo (hle.4 0)
        | 1 => exact (hs.4 1).redo (hle.4 1)
  | card r e =>
    simp [DuelBoard.parseEvent, DuelBoard.onFrame, frameOps] at h hf ⊢; obtain ⟨f, h, rfl⟩ := h
    exact ⟨_, ⟨f', hf, rfl⟩, rfl, ⟨hs.1, hs.2, hs.3, hs.4, hs.5, hs.6⟩⟩
  | chainStack e =>
    cases e <;> simp [DuelBoard.parseEvent, Cell.push, Cell.pop, Undoable.unsupported] at h
    cases h; cases hf; exact ⟨b, rfl, rfl, hs⟩
  | nextTurn c =>
    cases hf
    simp [DuelBoard.parseEvent] at h ⊢; obtain ⟨x, h, rfl⟩ := h
    obtain ⟨y, hy⟩ := hs.2.get_ok
    exact ⟨_, ⟨y, hy, rfl⟩, rfl, ⟨hs.1, hs.2.redo hle.2, hs.3.redo hle.3, hs.4, hs.5, hs.6⟩⟩
  | lp con c =>
    cases hf
    simp only [DuelBoard.parseEvent, DuelBoard.setLp, bind_eq_ok, pure_eq_ok, Except.ok.injEq] at h ⊢; obtain ⟨i, hi, x, _, rfl⟩ := h
    obtain ⟨y, hy⟩ := (hs.4 i).get_ok
    refine ⟨_, ⟨i, hi, y, hy, rfl⟩, rfl, ⟨hs.1, hs.2, hs.3, fun j => ?_, hs.5, hs.6⟩⟩
    have h1 := hle.4 j
    by_cases hj : j = i
    · subst hj; simp only [if_true] at h1 ⊢; exact (hs.4 j).redo h1
    · simp only [hj, if_false]; exact hs.4 j
  | nextPhase p => cases h; cases hf; exact ⟨_, rfl, rfl, ⟨hs.1, hs.2, hs.3, hs.4, hs.5.redo hle.5, hs.6⟩⟩
  | pile r e =>
    simp [DuelBoard.parseEvent, DuelBoard.onFrame, frameOps] at h hf ⊢; obtain ⟨f, h, rfl⟩ := h
    exact ⟨_, ⟨f', hf, rfl⟩, rfl, ⟨hs.1, hs.2, hs.3, hs.4, hs.5, hs.6⟩⟩
  | zoneBlock zs => cases h; cases hf; exact ⟨_, rfl, rfl, ⟨hs.1, hs.2, hs.3, hs.4, hs.5, hs.6.redo hle.6⟩⟩
  | finish => cases h; cases hf; exact ⟨b, rfl, rfl, hs⟩
  | metaInfo => cases h; cases hf; exact ⟨b, rfl, rfl, hs⟩
  | result => cases h; cases hf; exact ⟨b, rfl, rfl, hs⟩
  | unset => cases h; cases hf; exact ⟨b, rfl, rfl, hs⟩

/-- Undoing an event. -/
theorem undo_parse {b B B' C : UndoBoard} {e : Event} {f' : Limbo} (h : B.parseEvent e = .ok B') (hs : CellsSim b B' C)
    (hl : CellsLive B) (hf : UndoBoard.undoOps b.frame (frameOps e).reverse = .ok f') :
    ∃ b', b.undoParseEvent e = .ok b' ∧ b'.frame = f' ∧ CellsSim b' B C := by
  cases e with
  | board e =>
    cases e with
    | unset => cases h; cases hf; exact ⟨b, rfl, rfl, hs⟩
    | exchange e =>
      simp only [frameOps, ← exchangeUndo_eq] at hf
      simp [DuelBoard.parseEvent, DuelBoard.onFrame] at h; obtain ⟨f, h, rfl⟩ := h
      exact ⟨{ b with frame := f' }, by simp [UndoBoard.undoParseEvent, UndoBoard.undoFrame, hf], rfl, ⟨hs.1, hs.2, hs.3, hs.4, hs.5, hs.6⟩⟩
    | state s =>
      simp only [frameOps, ← stateUndo_eq] at hf
      simp only [DuelBoard.parseEvent, DuelBoard.parseState, DuelBoard.onFrame, DuelBoard.setLp, bind_eq_ok, pure_eq_ok, Except.ok.injEq] at h
      obtain ⟨x, hx, y, hy, f, h, rfl⟩ := h
      by_cases ht : 0 ≤ s.turnCounter
      · simp only [ht, if_true] at hs
        have hc := hs.1.undo hl.1
        have h0 := (hs.4 0).undo (hl.4 0)
        have h1 := (hs.4 1).undo (hl.4 1)
        have h2 := hs.2.undo hl.2
        refine ⟨⟨f', ⟨b.chainStack.values, b.chainStack.current - 1⟩, ⟨b.turn.values, b.turn.current - 1⟩, b.turnController,
          fun i => ⟨(b.lp i).values, (b.lp i).current - 1⟩, b.phase, b.blockedZones⟩, ?_, rfl, ⟨hc.2, h2.2, hs.3, fun i => ?_, hs.5, hs.6⟩⟩
        · simp [UndoBoard.undoParseEvent, UndoBoard.undoState, UndoBoard.undoFrame, DuelBoard.setLp, hf, hc.1, h0.1, h1.1, h2.1, ht]
          funext i
          match i with
          | 0 => rfl
          | 1 => rfl
        · match i with
          | 0 => exact h0.2
          | 1 => exact h1.2
      · simp only [ht, if_false] at hs
        have hc := hs.1.undo hl.1
        have h0 := (hs.4 0).undo (hl.4 0)
        have h1 := (hs.4 1).undo (hl.4 1)
        refine ⟨⟨f', ⟨b.chainStack.values, b.chainStack.current - 1⟩, b.turn, b.turnController,
          fun i => ⟨(b.lp i).values, (b.lp i).current - 1⟩, b.phase, b.blockedZones⟩, ?_, rfl, ⟨hc.2, hs.2, hs.3, fun i => ?_, hs.5, hs.6⟩⟩
        · simp [UndoBoard.undoParseEvent, UndoBoard.undoState, UndoBoard.undoFrame, DuelBoard.setLp, hf, hc.1, h0.1, h1.1, ht]
          funext i
          match i with
          | 0 => rfl
          | 1 => rfl
        · match i with
          | 0 => exact h0.2
          | 1 => exact h1.2
  | card r e =>
    simp only [frameOps, ← cardUndo_eq] at hf
    simp [DuelBoard.parseEvent, DuelBoard.onFrame] at h; obtain ⟨f, h, rfl⟩ := h
    exact ⟨{ b with frame := f' }, by simp [UndoBoard.undoParseEvent, UndoBoard.undoFrame, hf], rfl, ⟨hs.1, hs.2, hs.3, hs.4, hs.5, hs.6⟩⟩
  | chainStack e =>
    cases e <;> simp [DuelBoard.parseEvent, Cell.push, Cell.pop, Undoable.unsupported] at h
    cases h; cases hf; exact ⟨b, rfl, rfl, hs⟩
  | nextTurn c =>
    cases hf
    simp [DuelBoard.parseEvent] at h; obtain ⟨x, h, rfl⟩ := h
    have h2 := hs.2.undo hl.2
    have h3 := hs.3.undo hl.3
    exact ⟨{ b with turn := ⟨b.turn.values, b.turn.current - 1⟩, turnController := ⟨b.turnController.values, b.turnController.current - 1⟩ },
      by simp [UndoBoard.undoParseEvent, h2.1, h3.1], rfl, ⟨hs.1, h2.2, h3.2, hs.4, hs.5, hs.6⟩⟩
  | lp con c =>
    cases hf
    simp only [DuelBoard.parseEvent, bind_eq_ok, pure_eq_ok, Except.ok.injEq] at h; obtain ⟨i, hi, x, _, rfl⟩ := h
    have h4 : CellSim (b.lp i) ((B.lp i).set (DuelBoard.lpAfter x c)) (C.lp i) := by
      have := hs.4 i; simp only [DuelBoard.setLp, if_true] at this; exact this
    have h5 := h4.undo (hl.4 i)
    refine ⟨b.setLp i ⟨(b.lp i).values, (b.lp i).current - 1⟩, by simp [UndoBoard.undoParseEvent, hi, h5.1], rfl,
      ⟨hs.1, hs.2, hs.3, fun j => ?_, hs.5, hs.6⟩⟩
    by_cases hj : j = i
    · subst hj; simp only [DuelBoard.setLp, if_true]; exact h5.2
    · have := hs.4 j
      simpa [DuelBoard.setLp, hj] using this
  | nextPhase p =>
    cases h; cases hf
    have h5 := hs.5.undo hl.5
    exact ⟨{ b with phase := ⟨b.phase.values, b.phase.current - 1⟩ }, by simp [UndoBoard.undoParseEvent, h5.1], rfl,
      ⟨hs.1, hs.2, hs.3, hs.4, h5.2, hs.6⟩⟩
  | pile r e =>
    simp only [frameOps, ← pileUndo_eq] at hf
    simp [DuelBoard.parseEvent, DuelBoard.onFrame] at h; obtain ⟨f, h, rfl⟩ := h
    exact ⟨{ b with frame := f' }, by simp [UndoBoard.undoParseEvent, UndoBoard.undoFrame, hf], rfl, ⟨hs.1, hs.2, hs.3, hs.4, hs.5, hs.6⟩⟩
  | zoneBlock zs =>
    cases h; cases hf
    have h6 := hs.6.undo hl.6
    exact ⟨{ b with blockedZones := ⟨b.blockedZones.values, b.blockedZones.current - 1⟩ }, by simp [UndoBoard.undoParseEvent, h6.1], rfl,
      ⟨hs.1, hs.2, hs.3, hs.4, hs.5, h6.2⟩⟩
  | finish => cases h; cases hf; exact ⟨b, rfl, rfl, hs⟩
  | metaInfo => cases h; cases hf; exact ⟨b, rfl, rfl, hs⟩
  | result => cases h; cases hf; exact ⟨b, rfl, rfl, hs⟩
  | unset => cases h; cases hf; exact ⟨b, rfl, rfl, hs⟩

/-! ## The straight run -/

/-- A straight run over `es`: `B i` is the board after the first `i` events. -/
structure Run (es : List Event) (B : Nat → UndoBoard) : Prop where
  parse : ∀ {i e}, es[i]? = some e → (B i).parseEvent e = .ok (B (i + 1))
  cells : ∀ {i}, i ≤ es.length → CellsLive (B i)
  frame : ∀ {i}, i ≤ es.length → LiveFrame (B i).frame
  undoes : ∀ {i e}, es[i]? = some e → UndoesAll (B i).frame (frameOps e)

/-- The trail of the `i`-th event. -/
def seg (es : List Event) (B : Nat → UndoBoard) (i : Nat) : Trail :=
  match es[i]? with
  | some e => (B i).frame.trail (frameOps e)
  | none => []

/-- The trail of the first `i` events. -/
def before (es : List Event) (B : Nat → UndoBoard) : Nat → Trail
  | 0 => []
  | i + 1 => before es B i ++ seg es B i

/-- The trail of the events from `i` up to `i + k`. -/
def after (es : List Event) (B : Nat → UndoBoard) (i : Nat) : Nat → Trail
  | 0 => []
  | k + 1 => seg es B i ++ after es B (i + 1) k

/-- The board `b` is at position `i` of the run; `k` further events are recorded. -/
structure Sim (es : List Event) (B : Nat → UndoBoard) (b : UndoBoard) (i k : Nat) : Prop where
  le : i + k ≤ es.length
  frame : Between (B 0).frame.base.layout b.frame (before es B i) (after es B i k)
  owned : b.frame.base.owned = (B (i + k)).frame.base.owned
  next : b.frame.base.next = (B (i + k)).frame.base.next
  cells : CellsSim b (B i) (B (i + k))

namespace Run
variable {es : List Event} {B : Nat → UndoBoard}

theorem between (h : Run es B) {i : Nat} (hi : i ≤ es.length) : Between (B 0).frame.base.layout (B i).frame (before es B i) [] := by
  induction i with
  | zero => exact .start (h.frame (by omega))
  | succ i ih =>
    have hlt : i < es.length := by omega
    have he : es[i]? = some es[i] := List.getElem?_eq_getElem hlt
    have h1 := parse_frame (h.parse he)
    obtain ⟨f', h2, h3, h4, _⟩ := Between.news (ih (by omega)) (h.frame (by omega)) rfl (h.undoes he) h1
    rw [h1] at h2
    cases h2
    simpa [before, seg, he] using h3

theorem le (h : Run es B) {i k : Nat} (hi : i + k ≤ es.length) : CellsLe (B i) (B (i + k)) := by
  induction k with
  | zero => exact .refl _
  | succ k ih =>
    have hlt : i + k < es.length := by omega
    exact (ih (by omega)).trans (parse_cells (h.parse (List.getElem?_eq_getElem hlt)) (h.cells (by omega))).2

theorem start (h : Run es B) : Sim es B (B 0) 0 0 := by
  have hc := h.cells (Nat.zero_le _)
  exact ⟨by simp, .start (h.frame (by omega)), rfl, rfl,
    ⟨.refl hc.1, .refl hc.2, .refl hc.3, fun i => .refl (hc.4 i), .refl hc.5, .refl hc.6⟩⟩

theorem layout (h : Run es B) {b : UndoBoard} {i k : Nat} (hs : Sim es B b i k) : b.frame.base.layout = (B i).frame.base.layout := by
  exact hs.frame.last.trans (h.between (by have := hs.le; omega)).last.symm

theorem sight (h : Run es B) {b : UndoBoard} {i k : Nat} (hs : Sim es B b i k) : SameSight b (B i) :=
  ⟨h.layout hs, hs.cells.1.get, hs.cells.2.get, hs.cells.3.get, fun j => (hs.cells.4 j).get, hs.cells.5.get, hs.cells.6.get⟩

theorem seg_ops (h : Run es B) {i : Nat} {e : Event} (he : es[i]? = some e) : (seg es B i).map (·.1) = frameOps e := by
  simp only [seg, he]
  exact trail_ops (parse_frame (h.parse he))

/-- One event back. -/
theorem back (h : Run es B) {b : UndoBoard} {i k : Nat} {e : Event} (he : es[i]? = some e) (hs : Sim es B b (i + 1) k) :
    ∃ b', b.undoParseEvent e = .ok b' ∧ Sim es B b' i (k + 1) := by
  have hk : i + (k + 1) = i + 1 + k := by omega
  have hle := hs.le
  obtain ⟨f', h1, h2, h3, h4⟩ := Between.backs hs.frame
  rw [h.seg_ops he] at h1
  obtain ⟨b', h5, h6, h7⟩ := undo_parse (h.parse he) hs.cells (h.cells (by omega)) h1
  subst h6
  refine ⟨b', h5, ⟨by omega, h2, ?_, ?_, ?_⟩⟩
  · rw [hk, h3, hs.owned]
  · rw [hk, h4, hs.next]
  · rw [hk]; exact h7

/-- One event forward that was undone before. -/
theorem forth (h : Run es B) {b : UndoBoard} {i k : Nat} {e : Event} (he : es[i]? = some e) (hs : Sim es B b i (k + 1)) :
    ∃ b', b.parseEvent e = .ok b' ∧ Sim es B b' (i + 1) k := by
  have hk : i + (k + 1) = i + 1 + k := by omega
  have hle := hs.le
  obtain ⟨f', h1, h2, h3, h4⟩ := Between.forths hs.frame
  rw [h.seg_ops he] at h1
  have hcl := h.le (i := i + 1) (k := k) (by omega)
  have hc := hs.cells
  rw [hk] at hc
  obtain ⟨b', h5, h6, h7⟩ := parse_redo (h.parse he) hc hcl h1
  subst h6
  refine ⟨b', h5, ⟨by omega, h2, ?_, ?_, h7⟩⟩
  · rw [h3, hs.owned, hk]
  · rw [h4, hs.next, hk]

/-- One new event. -/
theorem new (h : Run es B) {b : UndoBoard} {i : Nat} {e : Event} (he : es[i]? = some e) (hs : Sim es B b i 0) :
    ∃ b', b.parseEvent e = .ok b' ∧ Sim es B b' (i + 1) 0 := by
  have hlt : i < es.length := (List.getElem?_eq_some_iff.mp he).1
  have hbase : b.frame.base = (B i).frame.base := by
    have h1 := h.layout hs; have h2 := hs.owned; have h3 := hs.next
    simp only [Nat.add_zero] at h2 h3
    cases hb : b.frame.base; cases hb2 : (B i).frame.base
    simp_all
  obtain ⟨f', h1, h2, h3, h4⟩ := Between.news (f := b.frame) (T1 := before es B i) hs.frame (h.frame (by omega)) hbase (h.undoes he) (parse_frame (h.parse he))
  have hb : b = { B i with frame := b.frame } := by
    have hc := hs.cells
    simp only [Nat.add_zero] at hc
    cases b
    simp only [DuelBoard.mk.injEq, true_and]
    exact ⟨hc.1.eq_of_live, hc.2.eq_of_live, hc.3.eq_of_live, funext fun i => (hc.4 i).eq_of_live, hc.5.eq_of_live, hc.6.eq_of_live⟩
  have h5 := parse_other_frame (h.parse he) h1
  rw [← hb] at h5
  have hc := h.cells (i := i + 1) hlt
  refine ⟨_, h5, ⟨hlt, ?_, ?_, ?_, ⟨.refl hc.1, .refl hc.2, .refl hc.3, fun i => .refl (hc.4 i), .refl hc.5, .refl hc.6⟩⟩⟩
  · simpa [before, seg, he, after] using h2
  · simp [h3]
  · simp [h3]

/-- Any sequence of moves. -/
theorem scrub (h : Run es B) (ms : List Move) {b : UndoBoard} {i k : Nat} (hs : Sim es B b i k) :
    ∃ b' i' k', Spec.scrub es b i ms = .ok (b', i') ∧ Sim es B b' i' k' := by
  induction ms generalizing b i k with
  | nil => exact ⟨b, i, k, rfl, hs⟩
  | cons m ms ih =>
    cases m with
    | forward =>
      cases he : es[i]? with
      | none => simp only [Spec.scrub, he]; exact ih hs
      | some e =>
        cases k with
        | zero =>
          obtain ⟨b1, h1, h2⟩ := h.new he hs
          simp only [Spec.scrub, he, h1, bind_ok]
          exact ih h2
        | succ k =>
          obtain ⟨b1, h1, h2⟩ := h.forth he hs
          simp only [Spec.scrub, he, h1, bind_ok]
          exact ih h2
    | backward =>
      cases i with
      | zero => simp only [Spec.scrub]; exact ih hs
      | succ i =>
        have hlt : i < es.length := by have := hs.le; omega
        have he : es[i]? = some es[i] := List.getElem?_eq_getElem hlt
        obtain ⟨b1, h1, h2⟩ := h.back he hs
        simp only [Spec.scrub, he, h1, bind_ok]
        exact ih h2

end Run

/-- The straight run that parses `es`. -/
def runBoard (b : UndoBoard) (es : List Event) (i : Nat) : UndoBoard :=
  match b.parseEvents (es.take i) with
  | .ok b' => b'
  | .error _ => b

theorem runBoard_cons {b b1 : UndoBoard} {e : Event} {es : List Event} {i : Nat} (h : b.parseEvent e = .ok b1)
    (hok : ∃ b', b1.parseEvents (es.take i) = .ok b') : runBoard b (e :: es) (i + 1) = runBoard b1 es i := by
  obtain ⟨b', hb⟩ := hok
  simp [runBoard, DuelBoard.parseEvents, h, hb]

theorem parseEvents_take {F : Type} {V : Type → Type} [FrameLike F] [Cell V] {b b' : DuelBoard F V} {es : List Event}
    (h : b.parseEvents es = .ok b') (i : Nat) : ∃ b1, b.parseEvents (es.take i) = .ok b1 := by
  induction es generalizing b i with
  | nil => exact ⟨b', by simpa using h⟩
  | cons e es ih =>
    cases i with
    | zero => exact ⟨b, rfl⟩
    | succ i =>
      simp only [DuelBoard.parseEvents, bind_eq_ok] at h
      obtain ⟨b1, h1, h2⟩ := h
      obtain ⟨b2, h3⟩ := ih h2 i
      exact ⟨b2, by simp [DuelBoard.parseEvents, h1, h3]⟩

theorem Run.of_parse {b b' : UndoBoard} {es : List Event} (hl : Live b) (hs : Supported b es) (h : b.parseEvents es = .ok b') :
    Run es (runBoard b es) := by
  induction es generalizing b with
  | nil =>
    have hb : ∀ i, runBoard b [] i = b := fun i => by simp [runBoard, DuelBoard.parseEvents]
    exact ⟨by simp, fun _ => by rw [hb]; exact ⟨hl.2, hl.3, hl.4, hl.5, hl.6, hl.7⟩, fun _ => by rw [hb]; exact hl.1, by simp⟩
  | cons e es ih =>
    simp only [DuelBoard.parseEvents, bind_eq_ok] at h
    obtain ⟨b1, h1, h2⟩ := h
    have hc : CellsLive b := ⟨hl.2, hl.3, hl.4, hl.5, hl.6, hl.7⟩
    have hc1 := (parse_cells h1 hc).1
    obtain ⟨f', h3, _, h4, h5⟩ := Between.news (.start hl.1) hl.1 rfl hs.1 (parse_frame h1)
    have ih := ih ⟨h5, hc1.1, hc1.2, hc1.3, hc1.4, hc1.5, hc1.6⟩ (hs.2 b1 h1) h2
    have hb0 : runBoard b (e :: es) 0 = b := rfl
    have hb1 : ∀ i, runBoard b (e :: es) (i + 1) = runBoard b1 es i := fun i => runBoard_cons h1 (parseEvents_take h2 i)
    refine ⟨?_, ?_, ?_, ?_⟩
    · intro i e' he
      cases i with
      | zero =>
        simp at he
        subst he
        rw [hb0, hb1]
        exact h1
      | succ i => rw [hb1, hb1]; exact ih.parse (by simpa using he)
    · intro i hi
      cases i with
      | zero => rw [hb0]; exact hc
      | succ i => rw [hb1]; exact ih.cells (by simpa using hi)
    · intro i hi
      cases i with
      | zero => rw [hb0]; exact hl.1
      | succ i => rw [hb1]; exact ih.frame (by simpa using hi)
    · intro i e' he
      cases i with
      | zero => simp at he; subst he; rw [hb0]; exact hs.1
      | succ i => rw [hb1]; exact ih.undoes (by simpa using he)

end Ygo
