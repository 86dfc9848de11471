import Verif.Lemmas.Refine

/-! # Histories of undoable frames, and undoable boards against plain boards -/

set_option linter.unusedSimpArgs false

namespace Ygo
open Ygo.Spec

/-- Every card on the layout is among `ow`, and none is there twice. -/
def Good (L : Layout) (ow : List CardId) : Prop := (placed (view L)).Nodup ∧ ∀ c ∈ placed (view L), c ∈ ow

theorem Good.mono {L : Layout} {ow ow' : List CardId} (h : Good L ow) (hs : ∀ c ∈ ow, c ∈ ow') : Good L ow' :=
  ⟨h.1, fun c hc => hs c (h.2 c hc)⟩

theorem Inv.good {g : Frame} (h : Inv g) {ow : List CardId} (hs : ∀ c ∈ g.owned, c ∈ ow) : Good g.layout ow :=
  ⟨h.owns.perm.nodup_iff.mpr h.nodup, fun c hc => hs c (h.owns.perm.mem_iff.mp hc)⟩

theorem Good.inv {L : Layout} {ow : List CardId} {nx : Nat} (h : Good L ow) (hb : ∀ c ∈ ow, c < nx) : Inv ⟨L, placed (view L), nx⟩ :=
  ⟨fun _ => rfl, h.1, fun c hc => hb c (h.2 c hc)⟩

/-- What is always true of a frame with a history. -/
structure HistInv (f : Limbo) (past future : List FrameOp) (L0 : Layout) (T1 T2 : Trail) : Prop where
  between : Between L0 f T1 T2
  past : T1.map (·.1) = past.reverse
  future : T2.map (·.1) = future
  start : Good L0 f.base.owned
  good : ∀ e ∈ T1 ++ T2, Good e.2 f.base.owned
  fresh : ∀ c ∈ f.base.owned, c < f.base.next

theorem HistInv.here {f : Limbo} {past future : List FrameOp} {L0 : Layout} {T1 T2 : Trail} (h : HistInv f past future L0 T1 T2) :
    Good f.base.layout f.base.owned := by
  rw [h.between.last]
  unfold Trail.last
  cases hl : T1.getLast? with
  | none => exact h.start
  | some e => exact h.good e (List.mem_append_left _ (List.mem_of_getLast? hl))

theorem step_good {f f' : Limbo} {X : FrameOp} (hl : LiveFrame f) (hg : Good f.base.layout f.base.owned)
    (hb : ∀ c ∈ f.base.owned, c < f.base.next) (h : f.step X = .ok f') :
    Good f'.base.layout f'.base.owned ∧ ∀ c ∈ f.base.owned, c ∈ f'.base.owned := by
  obtain ⟨_, h2, g', h3, h4⟩ := Limbo.step_refines hl (hg.inv hb) ⟨rfl, rfl, hg.2⟩ h
  refine ⟨?_, h2⟩
  rw [h4.layout]
  exact ((hg.inv hb).step h3).good h4.owned

theorem step_fresh {f f' : Limbo} {X : FrameOp} (hl : LiveFrame f) (hb : ∀ c ∈ f.base.owned, c < f.base.next) (h : f.step X = .ok f') :
    ∀ c ∈ f'.base.owned, c < f'.base.next := by
  obtain ⟨⟨L, ow, nx⟩, op, q, pre⟩ := f
  cases X with
  | add p =>
    obtain ⟨ha, hb'⟩ := hl
    simp only at ha hb'
    subst ha hb'
    simp [Limbo.step, Limbo.cardAdd, Limbo.advance, Limbo.emplace, Frame.cardAdd, Frame.construct] at h
    obtain ⟨L', h, rfl⟩ := h
    intro c hc
    simp only [List.mem_cons] at hc
    simp only at hb ⊢
    rcases hc with rfl | hc
    · omega
    · have := hb c hc; omega
  | remove p =>
    obtain ⟨ha, hb'⟩ := hl
    simp only at ha hb'
    subst ha hb'
    simp [Limbo.step, Limbo.cardRemove, Limbo.advance, Limbo.emplace, Limbo.setLayout] at h
    obtain ⟨_, c, L', h, rfl⟩ := h
    exact hb
  | move a b =>
    simp [Limbo.step, Limbo.cardMove, Frame.cardMove] at h
    obtain ⟨L', ⟨c, h⟩, rfl⟩ := h
    exact hb
  | shuffle p c n =>
    simp [Limbo.step, Limbo.cardShuffle, Frame.cardShuffle] at h
    obtain ⟨L', h, rfl⟩ := h
    exact hb
  | swap a b =>
    simp [Limbo.step, Limbo.cardSwap, Frame.cardSwap] at h
    obtain ⟨L', h, rfl⟩ := h
    exact hb
  | resize p n =>
    have h0 := h
    simp only [Limbo.step, Limbo.pileResize, bind_eq_ok, massert_eq_ok] at h0
    obtain ⟨_, hp, k, hk, _⟩ := h0
    have hat := isPile_pileKey_iff.mp ⟨hp, hk⟩
    have hcases : (L.pile k).length ≤ n ∨ 2 * n ≤ (L.pile k).length := by
      by_cases h1 : n < (L.pile k).length ∧ (L.pile k).length < 2 * n
      · have := Limbo.resize_live_ub hl hat h1.1 h1.2
        simp only [Limbo.step] at h
        rw [this] at h
        cases h
      · omega
    obtain ⟨s, hs, _⟩ := Limbo.resize_live hl hat hcases
    simp only [Limbo.step] at h
    rw [hs] at h
    cases h
    intro c hc
    simp only [List.mem_append, List.mem_reverse, List.mem_range'_1] at hc ⊢
    simp only at hb
    rcases hc with hc | hc
    · omega
    · have := hb c hc; omega
  | splice a n b r =>
    simp [Limbo.step, Limbo.pileSplice, Frame.pileSplice] at h
    obtain ⟨L', h, rfl⟩ := h
    exact hb
  | pswap a b =>
    simp [Limbo.step, Limbo.pileSwap, Frame.pileSwap] at h
    obtain ⟨L', h, rfl⟩ := h
    exact hb
  | clear =>
    obtain ⟨ha, hb'⟩ := hl
    simp only at ha hb'
    subst ha hb'
    simp [Limbo.step, Limbo.clear, Limbo.advance, Limbo.emplace, Limbo.currentClear, Limbo.current_mk, Limbo.setCurrent_mk, Limbo.setLayout] at h
    subst h
    exact hb

theorem Between.erase {L0 : Layout} {f f' : Limbo} {T1 T2 : Trail} (h : Between L0 f T1 T2) (he : f.eraseHistory = .ok f') :
    Between L0 f' T1 [] ∧ f'.base = f.base := by
  obtain ⟨pre, post, hp, hf, ho, hop, hpr⟩ := h
  obtain ⟨⟨L, ow, nx⟩, op, q, ops⟩ := f
  simp only at hp hf ho hop hpr
  subst ho hop hpr
  simp only [Limbo.eraseHistory] at he
  by_cases hpost : post = []
  · subst hpost
    simp at he
    subst he
    exact ⟨⟨pre, [], hp, .nil, by simp, rfl, by simp⟩, rfl⟩
  · have : ¬ pre.length = (pre ++ post).length := by
      have := List.length_pos_iff.mpr hpost
      simp; omega
    rw [if_neg this] at he
    simp at he
    obtain ⟨_, rfl⟩ := he
    exact ⟨⟨pre, [], hp, .nil, by simp, rfl, by simp⟩, rfl⟩

theorem history_inv {f : Limbo} {past future : List FrameOp} (h : History f past future) : ∃ L0 T1 T2, HistInv f past future L0 T1 T2 := by
  induction h with
  | init =>
    refine ⟨Layout.empty, [], [], ⟨Between.start (f := Limbo.init) ⟨rfl, rfl⟩, rfl, rfl, ?_, by simp, ?_⟩⟩
    · exact Inv.init.good (fun _ h => h)
    · simp [Limbo.init, Frame.init]
  | new h hu hs ih =>
    rename_i f f' past X
    obtain ⟨L0, T1, T2, hi⟩ := ih
    have h2 : T2 = [] := by have := hi.future; simpa using this
    subst h2
    obtain ⟨f1, h3, h4, h5, _⟩ := Between.new hi.between hi.between.live rfl hu hs
    rw [hs] at h3
    cases h3
    obtain ⟨h6, h7⟩ := step_good hi.between.live hi.here hi.fresh hs
    refine ⟨L0, _, [], ⟨h4, by simp [hi.past], rfl, hi.start.mono h7, ?_, step_fresh hi.between.live hi.fresh hs⟩⟩
    intro e he
    simp only [List.append_nil, List.mem_append, List.mem_singleton] at he
    rcases he with he | rfl
    · exact (hi.good e (by simpa using he)).mono h7
    · exact h6
  | barrier h hs ih =>
    rename_i f f' past X
    obtain ⟨L0, T1, T2, hi⟩ := ih
    have h2 : T2 = [] := by have := hi.future; simpa using this
    subst h2
    obtain ⟨h6, h7⟩ := step_good hi.between.live hi.here hi.fresh hs
    have h8 := (Limbo.step_refines hi.between.live (hi.here.inv hi.fresh) ⟨rfl, rfl, hi.here.2⟩ hs).1
    exact ⟨_, [], [], ⟨.start h8, rfl, rfl, h6, by simp, step_fresh hi.between.live hi.fresh hs⟩⟩
  | undo h hs ih =>
    rename_i f f' past future X
    obtain ⟨L0, T1, T2, hi⟩ := ih
    have hp := hi.past
    obtain ⟨T, ⟨X', L'⟩, rfl⟩ : ∃ T a, T1 = T ++ [a] := by
      have hne : T1 ≠ [] := by intro hT; simp [hT] at hp
      exact ⟨T1.dropLast, T1.getLast hne, (List.dropLast_concat_getLast hne).symm⟩
    simp only [List.map_append, List.map_cons, List.map_nil, List.reverse_cons] at hp
    obtain ⟨hp1, hp2⟩ := List.append_inj' hp (by simp)
    simp at hp2
    subst hp2
    obtain ⟨f1, h3, h4, h5, h6⟩ := hi.between.back
    rw [hs] at h3
    cases h3
    refine ⟨L0, T, _, ⟨h4, hp1, by simp [hi.future], h5 ▸ hi.start, ?_, ?_⟩⟩
    · intro e he
      rw [h5]
      exact hi.good e (by simpa using he)
    · rw [h5, h6]; exact hi.fresh
  | redo h hs ih =>
    rename_i f f' past future X
    obtain ⟨L0, T1, T2, hi⟩ := ih
    have hf := hi.future
    obtain ⟨⟨X', L'⟩, T, rfl⟩ : ∃ a T, T2 = a :: T := by
      cases T2 with
      | nil => simp at hf
      | cons a T => exact ⟨a, T, rfl⟩
    simp only [List.map_cons, List.cons.injEq] at hf
    obtain ⟨rfl, hf⟩ := hf
    obtain ⟨f1, h3, h4, h5, h6⟩ := hi.between.forth
    rw [hs] at h3
    cases h3
    refine ⟨L0, _, T, ⟨h4, by simp [hi.past], hf, h5 ▸ hi.start, ?_, ?_⟩⟩
    · intro e he
      rw [h5]
      exact hi.good e (by simpa using he)
    · rw [h5, h6]; exact hi.fresh
  | erase h hs ih =>
    rename_i f f' past future
    obtain ⟨L0, T1, T2, hi⟩ := ih
    obtain ⟨h1, h2⟩ := hi.between.erase hs
    refine ⟨L0, T1, [], ⟨h1, hi.past, rfl, h2 ▸ hi.start, ?_, h2 ▸ hi.fresh⟩⟩
    intro e he
    rw [h2]
    exact hi.good e (by simp at he; simp [he])

/-- The undo and redo that a history offers return. -/
theorem history_progress {f : Limbo} {past future : List FrameOp} (h : History f past future) :
    (∀ X rest, past = X :: rest → ∃ f', f.undo X = .ok f') ∧ (∀ X rest, future = X :: rest → ∃ f', f.step X = .ok f') := by
  obtain ⟨L0, T1, T2, hi⟩ := history_inv h
  constructor
  · rintro X rest rfl
    have hp := hi.past
    obtain ⟨T, ⟨X', L'⟩, rfl⟩ : ∃ T a, T1 = T ++ [a] := by
      have hne : T1 ≠ [] := by intro hT; simp [hT] at hp
      exact ⟨T1.dropLast, T1.getLast hne, (List.dropLast_concat_getLast hne).symm⟩
    simp only [List.map_append, List.map_cons, List.map_nil, List.reverse_cons] at hp
    obtain ⟨hp1, hp2⟩ := List.append_inj' hp (by simp)
    simp at hp2
    subst hp2
    obtain ⟨f1, h3, _⟩ := hi.between.back
    exact ⟨f1, h3⟩
  · rintro X rest rfl
    have hf := hi.future
    obtain ⟨⟨X', L'⟩, T, rfl⟩ : ∃ a T, T2 = a :: T := by
      cases T2 with
      | nil => simp at hf
      | cons a T => exact ⟨a, T, rfl⟩
    simp only [List.map_cons, List.cons.injEq] at hf
    obtain ⟨rfl, hf⟩ := hf
    obtain ⟨f1, h3, _⟩ := hi.between.forth
    exact ⟨f1, h3⟩

/-! ## Undoable and plain boards -/

theorem cell_get_set {α : Type} {u : Undoable α} {a : α} (h : LiveCell u) : (u.set a).get = .ok a := by
  rw [(CellSim.liveCell_set h).1]
  unfold LiveCell at h
  simp [Undoable.get, h]

theorem runOps_refines {Xs : List FrameOp} {g : Frame} {f f' : Limbo} (hl : LiveFrame f) (hi : Inv g) (hr : Refines g f)
    (h : runOps f Xs = .ok f') : LiveFrame f' ∧ ∃ g', runOps g Xs = .ok g' ∧ Refines g' f' ∧ Inv g' := by
  induction Xs generalizing f g with
  | nil => cases h; exact ⟨hl, g, rfl, hr, hi⟩
  | cons X Xs ih =>
    simp only [runOps, FrameLike.step, bind_eq_ok] at h
    obtain ⟨f1, h1, h2⟩ := h
    obtain ⟨h3, _, g1, h4, h5⟩ := Limbo.step_refines hl hi hr h1
    obtain ⟨h6, g', h7, h8, h9⟩ := ih h3 (hi.step h4) h5 h2
    exact ⟨h6, g', by simp only [runOps, FrameLike.step, h4, bind_ok]; exact h7, h8, h9⟩

theorem parse_shows {p : PlainBoard} {u u' : UndoBoard} {e : Event} (hs : Shows p u) (hr : Refines p.frame u.frame) (hi : Inv p.frame)
    (hl : Live u) (h : u.parseEvent e = .ok u') :
    ∃ p', p.parseEvent e = .ok p' ∧ Shows p' u' ∧ Refines p'.frame u'.frame ∧ Inv p'.frame ∧ Live u' := by
  obtain ⟨h1, g', h2, h3, h4⟩ := runOps_refines hl.1 hi hr (parse_frame h)
  have hc := (parse_cells h ⟨hl.2, hl.3, hl.4, hl.5, hl.6, hl.7⟩).1
  have hl' : Live u' := ⟨h1, hc.1, hc.2, hc.3, hc.4, hc.5, hc.6⟩
  cases e with
  | board e =>
    cases e with
    | unset => cases h; cases h2; exact ⟨p, rfl, hs, h3, h4, hl'⟩
    | exchange e =>
      simp only [frameOps] at h2
      simp [DuelBoard.parseEvent, DuelBoard.onFrame] at h; obtain ⟨f, h, rfl⟩ := h
      exact ⟨{ p with frame := g' }, by simp [DuelBoard.parseEvent, DuelBoard.onFrame, h2], ⟨h3.1, hs.2, hs.3, hs.4, hs.5, hs.6, hs.7⟩, h3, h4, hl'⟩
    | state s =>
      simp only [frameOps] at h2
      simp only [DuelBoard.parseEvent, DuelBoard.parseState, DuelBoard.onFrame, DuelBoard.setLp, bind_eq_ok, pure_eq_ok, Except.ok.injEq] at h ⊢
      obtain ⟨x, hx, y, hy, f, h, rfl⟩ := h
      by_cases ht : 0 ≤ s.turnCounter
      · simp only [ht, if_true] at h3 hl' ⊢
        refine ⟨_, ⟨x, hx, y, hy, g', h2, rfl⟩, ⟨h3.1, cell_get_set hl.2, cell_get_set hl.3, hs.4, fun i => ?_, hs.6, hs.7⟩, h3, h4, hl'⟩
        match i with
        | 0 => exact cell_get_set (hl.5 0)
        | 1 => exact cell_get_set (hl.5 1)
      · simp only [ht, if_false] at h3 hl' ⊢
        refine ⟨_, ⟨x, hx, y, hy, g', h2, rfl⟩, ⟨h3.1, cell_get_set hl.2, hs.3, hs.4, fun i => ?_, hs.6, hs.7⟩, h3, h4, hl'⟩
        match i with
        | 0 => exact cell_get_set (hl.5 0)
        | 1 => exact cell_get_set (hl.5 1)
  | card r e =>
    simp only [frameOps] at h2
    simp [DuelBoard.parseEvent, DuelBoard.onFrame] at h; obtain ⟨f, h, rfl⟩ := h
    exact ⟨{ p with frame := g' }, by simp [DuelBoard.parseEvent, DuelBoard.onFrame, h2], ⟨h3.1, hs.2, hs.3, hs.4, hs.5, hs.6, hs.7⟩, h3, h4, hl'⟩
  | chainStack e =>
    cases e <;> simp [DuelBoard.parseEvent, Cell.push, Cell.pop, Undoable.unsupported] at h
    cases h; cases h2; exact ⟨p, rfl, hs, h3, h4, hl'⟩
  | nextTurn c =>
    cases h2
    simp only [DuelBoard.parseEvent, bind_eq_ok, pure_eq_ok, Except.ok.injEq] at h
    obtain ⟨x, hx, rfl⟩ := h
    have hx' := hs.3
    have : x = p.turn.val := by
      have h0 : u.turn.get = .ok x := hx
      rw [h0] at hx'; cases hx'; rfl
    subst this
    exact ⟨_, rfl, ⟨hs.1, hs.2, cell_get_set hl.3, cell_get_set hl.4, hs.5, hs.6, hs.7⟩, h3, h4, hl'⟩
  | lp con c =>
    cases h2
    simp only [DuelBoard.parseEvent, DuelBoard.setLp, bind_eq_ok, pure_eq_ok, Except.ok.injEq] at h ⊢
    obtain ⟨i, hi', x, hx, rfl⟩ := h
    have hx' := hs.5 i
    have : x = (p.lp i).val := by
      have h0 : (u.lp i).get = .ok x := hx
      rw [h0] at hx'; cases hx'; rfl
    subst this
    refine ⟨_, ⟨i, hi', _, rfl, rfl⟩, ⟨hs.1, hs.2, hs.3, hs.4, fun j => ?_, hs.6, hs.7⟩, h3, h4, hl'⟩
    by_cases hj : j = i
    · subst hj; simp only [if_true]; exact cell_get_set (hl.5 j)
    · simp only [hj, if_false]; exact hs.5 j
  | nextPhase ph => cases h; cases h2; exact ⟨_, rfl, ⟨hs.1, hs.2, hs.3, hs.4, hs.5, cell_get_set hl.6, hs.7⟩, h3, h4, hl'⟩
  | pile r e =>
    simp only [frameOps] at h2
    simp [DuelBoard.parseEvent, DuelBoard.onFrame] at h; obtain ⟨f, h, rfl⟩ := h
    exact ⟨{ p with frame := g' }, by simp [DuelBoard.parseEvent, DuelBoard.onFrame, h2], ⟨h3.1, hs.2, hs.3, hs.4, hs.5, hs.6, hs.7⟩, h3, h4, hl'⟩
  | zoneBlock zs => cases h; cases h2; exact ⟨_, rfl, ⟨hs.1, hs.2, hs.3, hs.4, hs.5, hs.6, cell_get_set hl.7⟩, h3, h4, hl'⟩
  | finish => cases h; cases h2; exact ⟨p, rfl, hs, h3, h4, hl'⟩
  | metaInfo => cases h; cases h2; exact ⟨p, rfl, hs, h3, h4, hl'⟩
  | result => cases h; cases h2; exact ⟨p, rfl, hs, h3, h4, hl'⟩
  | unset => cases h; cases h2; exact ⟨p, rfl, hs, h3, h4, hl'⟩

/-! ## Ownership in arbitrary states -/

namespace Limbo

@[simp] theorem advance_base (f : Limbo) : f.advance.1.base = f.base := by
  unfold advance; split <;> rfl

theorem regress_base {f f' : Limbo} (h : f.regress = .ok f') : f'.base = f.base := by
  simp [regress] at h
  obtain ⟨_, rfl⟩ := h
  rfl

theorem step_owned {f f' : Limbo} {X : FrameOp} (h : f.step X = .ok f') : ∀ c ∈ f.base.owned, c ∈ f'.base.owned := by
  cases X with
  | add p =>
    simp only [step, cardAdd, bind_eq_ok, pure_eq_ok, Except.ok.injEq] at h
    obtain ⟨⟨f1, c⟩, h, rfl⟩ := h
    split at h
    · simp [Frame.cardAdd, Frame.construct, emplace] at h
      obtain ⟨L', h, rfl, rfl⟩ := h
      intro x hx
      simp [hx]
    · simp only [bind_eq_ok, pure_eq_ok, Except.ok.injEq, Prod.mk.injEq] at h
      obtain ⟨_, _, _, _, _, _, _, _, rfl, rfl⟩ := h
      intro x hx
      simpa [setLayout] using hx
  | remove p =>
    simp only [step, cardRemove, bind_eq_ok] at h
    obtain ⟨_, _, _, _, _, _, h⟩ := h
    split at h
    · simp at h; subst h; intro x hx; simpa [setLayout, emplace] using hx
    · simp at h; obtain ⟨_, _, _, rfl⟩ := h; intro x hx; simpa [setLayout] using hx
  | move a b =>
    simp [step, cardMove, Frame.cardMove] at h
    obtain ⟨L', ⟨c, h⟩, rfl⟩ := h
    exact fun _ h => h
  | shuffle p c n =>
    simp [step, cardShuffle, Frame.cardShuffle] at h
    obtain ⟨L', h, rfl⟩ := h
    exact fun _ h => h
  | swap a b =>
    simp [step, cardSwap, Frame.cardSwap] at h
    obtain ⟨L', h, rfl⟩ := h
    exact fun _ h => h
  | resize p n =>
    simp only [step, pileResize, bind_eq_ok] at h
    obtain ⟨_, _, k, _, _, _, h⟩ := h
    have hb := advance_base f
    cases hadv : f.advance with
    | mk f1 fresh =>
    rw [hadv] at h hb
    simp only at hb
    rw [← hb]
    cases fresh
    · simp only [Bool.false_eq_true, if_false] at h
      split at h
      · simp only [bind_eq_ok, pure_eq_ok, Except.ok.injEq] at h
        obtain ⟨_, _, _, _, rfl⟩ := h
        intro x hx
        simpa [setCurrent, setLayout] using hx
      · split at h
        · simp only [bind_eq_ok, pure_eq_ok, Except.ok.injEq] at h
          obtain ⟨_, _, rfl⟩ := h
          intro x hx
          simpa [setCurrent, setLayout] using hx
        · simp only [pure_eq_ok, Except.ok.injEq] at h
          subst h
          intro x hx
          simpa [setCurrent, setLayout] using hx
    · simp only [if_true] at h
      split at h
      · simp only [pure_eq_ok, Except.ok.injEq] at h
        subst h
        intro x hx
        simp only
        rw [(Frame.growPile_spec _ _ _).2.1]
        apply List.mem_append_right
        simpa [setCurrent, emplace] using hx
      · split at h
        · simp only [bind_eq_ok, pure_eq_ok, Except.ok.injEq] at h
          obtain ⟨_, _, rfl⟩ := h
          intro x hx
          simpa [setCurrent, setLayout, emplace] using hx
        · simp only [pure_eq_ok, Except.ok.injEq] at h
          subst h
          intro x hx
          simpa [setCurrent, setLayout, emplace] using hx
  | splice a n b r =>
    simp [step, pileSplice, Frame.pileSplice] at h
    obtain ⟨L', h, rfl⟩ := h
    exact fun _ h => h
  | pswap a b =>
    simp [step, pileSwap, Frame.pileSwap] at h
    obtain ⟨L', h, rfl⟩ := h
    exact fun _ h => h
  | clear =>
    simp only [step, clear, bind_eq_ok, pure_eq_ok, Except.ok.injEq] at h
    obtain ⟨_, _, rfl⟩ := h
    intro x hx
    simp only [setCurrent, setLayout]
    split <;> simpa [emplace] using hx

theorem undo_owned {f f' : Limbo} {X : FrameOp} (h : f.undo X = .ok f') : f'.base.owned = f.base.owned := by
  cases X with
  | add p =>
    simp only [undo, undoCardAdd, bind_eq_ok, pure_eq_ok, Except.ok.injEq] at h
    obtain ⟨⟨f1, c⟩, ⟨_, _, _, _, ⟨_, _⟩, _, _, _, _, _, f2, h, h'⟩, rfl⟩ := h
    cases h'
    rw [regress_base h]; rfl
  | remove p =>
    simp only [undo, undoCardRemove, bind_eq_ok, pure_eq_ok, Except.ok.injEq] at h
    obtain ⟨⟨f1, c⟩, ⟨_, _, _, _, f2, h, _, _, _, _, h'⟩, rfl⟩ := h
    cases h'
    rw [regress_base h]; rfl
  | move a b =>
    simp [undo, cardMove, Frame.cardMove] at h
    obtain ⟨L', ⟨c, h⟩, rfl⟩ := h
    rfl
  | shuffle p c n => simp [undo, undoCardShuffle] at h
  | swap a b =>
    simp [undo, cardSwap, Frame.cardSwap] at h
    obtain ⟨L', h, rfl⟩ := h
    rfl
  | resize p n =>
    simp only [undo, undoPileResize, bind_eq_ok] at h
    obtain ⟨_, _, k, _, ⟨prev, slice⟩, _, h⟩ := h
    split at h
    · simp only [bind_eq_ok, pure_eq_ok, Except.ok.injEq] at h
      obtain ⟨_, _, f1, h, _, _, rfl⟩ := h
      rw [regress_base h]; rfl
    · split at h
      · simp only [bind_eq_ok] at h
        obtain ⟨_, _, h⟩ := h
        rw [regress_base h]; rfl
      · rw [regress_base h]
  | splice a n b r =>
    simp [undo, pileSplice, Frame.pileSplice] at h
    obtain ⟨L', h, rfl⟩ := h
    rfl
  | pswap a b =>
    simp [undo, pileSwap, Frame.pileSwap] at h
    obtain ⟨L', h, rfl⟩ := h
    rfl
  | clear =>
    simp only [undo, undoClear, bind_eq_ok] at h
    obtain ⟨_, _, h⟩ := h
    rw [regress_base h]; rfl

theorem erase_owned {f f' : Limbo} (h : f.eraseHistory = .ok f') : f'.base = f.base := by
  simp only [eraseHistory] at h
  split at h
  · cases h; rfl
  · simp at h; obtain ⟨_, _, rfl⟩ := h; rfl

end Limbo
/-! ## Deciding whether concrete events can be undone -/

/-- Sufficient test for `Undoes`. -/
def undoesB (L : Layout) : FrameOp → Bool
  | .shuffle _ _ _ => false
  | .resize p n => match p.pileKey with
    | .ok k => decide ((L.pile k).length ≤ n ∨ (L.pile k).length = 2 * n)
    | .error _ => true
  | _ => true

theorem undoesB_sound {L : Layout} {X : FrameOp} (h : undoesB L X = true) : Undoes L X := by
  cases X <;> simp only [undoesB, Undoes] at h ⊢
  case shuffle => cases h
  case resize p n =>
    intro k i hp
    rw [Spec.At.pileKey hp] at h
    simpa using h

/-- Sufficient test for `UndoesAll`. -/
def undoesAllB (f : Limbo) : List FrameOp → Bool
  | [] => true
  | X :: Xs => undoesB f.base.layout X && match f.step X with
    | .ok f' => undoesAllB f' Xs
    | .error _ => true

theorem undoesAllB_sound {f : Limbo} {Xs : List FrameOp} (h : undoesAllB f Xs = true) : UndoesAll f Xs := by
  induction Xs generalizing f with
  | nil => trivial
  | cons X Xs ih =>
    simp only [undoesAllB, Bool.and_eq_true] at h
    refine ⟨undoesB_sound h.1, fun f' hf => ih ?_⟩
    rw [hf] at h
    exact h.2

/-- Sufficient test for `Supported`. -/
def supportedB (b : UndoBoard) : List Event → Bool
  | [] => true
  | e :: es => undoesAllB b.frame (frameOps e) && match b.parseEvent e with
    | .ok b' => supportedB b' es
    | .error _ => true

theorem supportedB_sound {b : UndoBoard} {es : List Event} (h : supportedB b es = true) : Supported b es := by
  induction es generalizing b with
  | nil => trivial
  | cons e es ih =>
    simp only [supportedB, Bool.and_eq_true] at h
    refine ⟨undoesAllB_sound h.1, fun b' hb => ih ?_⟩
    rw [hb] at h
    exact h.2

end Ygo
