import Verif.Lemmas.Limbo

/-! # Moving back and forth over a list of frame operations -/

set_option linter.unusedSimpArgs false

namespace Ygo
open Ygo.Spec

/-- Operations with the layout each one led to. -/
abbrev Trail := List (FrameOp × Layout)

/-- `Past L0 T L pre`: the operations of `T` led from `L0` to `L`; `pre` is the log behind the cursor. -/
inductive Past (L0 : Layout) : Trail → Layout → List LimboOp → Prop
  | nil {pre} : Past L0 [] L0 pre
  | snoc {T L pre X L' es} : Past L0 T L pre → Done X L L' es → Past L0 (T ++ [(X, L')]) L' (pre ++ es)

/-- `Future L T post`: redoing the operations of `T` from `L`; `post` is the log ahead of the cursor. -/
inductive Future : Layout → Trail → List LimboOp → Prop
  | nil {L} : Future L [] []
  | cons {X L L' es T post} : Undone X L L' es → Future L' T post → Future L ((X, L') :: T) (es ++ post)

theorem Past.inv {L0 L L' : Layout} {T : Trail} {X : FrameOp} {log : List LimboOp} (h : Past L0 (T ++ [(X, L')]) L log) :
    L = L' ∧ ∃ L1 pre es, Past L0 T L1 pre ∧ Done X L1 L' es ∧ log = pre ++ es := by
  generalize hT : T ++ [(X, L')] = T' at h
  cases h with
  | nil => simp at hT
  | snoc hp hd =>
    obtain ⟨rfl, h2⟩ := List.append_inj' hT (by simp)
    simp at h2
    obtain ⟨rfl, rfl⟩ := h2
    exact ⟨rfl, _, _, _, hp, hd, rfl⟩

/-- The last layout of a trail. -/
def Trail.last (L0 : Layout) (T : Trail) : Layout := (T.getLast?.map (·.2)).getD L0

theorem Past.last {L0 L : Layout} {T : Trail} {pre : List LimboOp} (h : Past L0 T L pre) : L = T.last L0 := by
  cases h <;> simp [Trail.last]

/-- The frame is between the operations of `T1` (done) and `T2` (undone), and knows it. -/
def Between (L0 : Layout) (f : Limbo) (T1 T2 : Trail) : Prop :=
  ∃ pre post, Past L0 T1 f.base.layout pre ∧ Future f.base.layout T2 post ∧ f.ops = pre ++ post ∧ f.op = pre.length ∧
    f.processed = f.ops.length

namespace Between
variable {L0 : Layout} {f : Limbo} {T1 T2 : Trail}

theorem last (h : Between L0 f T1 T2) : f.base.layout = T1.last L0 := by
  obtain ⟨_, _, hp, _⟩ := h
  exact hp.last

theorem start (h : LiveFrame f) : Between f.base.layout f [] [] :=
  ⟨f.ops, [], .nil, .nil, by simp, h.1, h.2⟩

theorem live (h : Between L0 f T1 []) : LiveFrame f := by
  obtain ⟨pre, post, _, hf, ho, hop, hpr⟩ := h
  cases hf
  simp only [List.append_nil] at ho
  exact ⟨by rw [hop, ho], hpr⟩

theorem back {X : FrameOp} {L' : Layout} (h : Between L0 f (T1 ++ [(X, L')]) T2) :
    ∃ f', f.undo X = .ok f' ∧ Between L0 f' T1 ((X, L') :: T2) ∧ f'.base.owned = f.base.owned ∧ f'.base.next = f.base.next := by
  obtain ⟨_, post, hp, hf, ho, hop, hpr⟩ := h
  obtain ⟨hL, L1, pre, es, hp', hd, rfl⟩ := hp.inv
  obtain ⟨⟨L, ow, nx⟩, op, q, ops⟩ := f
  simp only at hL ho hop hpr hf
  subst hL ho hop
  obtain ⟨es', h1, h2, h3⟩ := Limbo.undo_done hd ow nx q pre post
  exact ⟨_, h1, ⟨pre, es' ++ post, hp', .cons h2 hf, by simp, rfl, by simp [hpr, h3]⟩, rfl, rfl⟩

theorem forth {X : FrameOp} {L' : Layout} (h : Between L0 f T1 ((X, L') :: T2)) :
    ∃ f', f.step X = .ok f' ∧ Between L0 f' (T1 ++ [(X, L')]) T2 ∧ f'.base.owned = f.base.owned ∧ f'.base.next = f.base.next := by
  obtain ⟨pre, _, hp, hf, ho, hop, hpr⟩ := h
  obtain ⟨⟨L, ow, nx⟩, op, q, ops⟩ := f
  cases hf with
  | cons hu hf =>
    rename_i es post
    simp only at ho hop hpr hf hp hu
    subst ho hop
    obtain ⟨es', h1, h2, h3⟩ := Limbo.step_undone hu ow nx q pre post (by simp [hpr])
    rw [List.append_assoc] at h1
    exact ⟨_, h1, ⟨pre ++ es', post, .snoc hp h2, hf, by simp, rfl, by simp [hpr, h3]⟩, rfl, rfl⟩

/-- A new operation; any frame with the same cards does the same. -/
theorem new {X : FrameOp} {g g' : Limbo} (h : Between L0 f T1 []) (hg : LiveFrame g) (hb : f.base = g.base)
    (hu : Undoes g.base.layout X) (hs : g.step X = .ok g') :
    ∃ f', f.step X = .ok f' ∧ Between L0 f' (T1 ++ [(X, g'.base.layout)]) [] ∧ f'.base = g'.base ∧ LiveFrame g' := by
  obtain ⟨pre, _, hp, hf, ho, hop, hpr⟩ := h
  obtain ⟨⟨L, ow, nx⟩, op, q, ops⟩ := f
  obtain ⟨⟨L2, ow2, nx2⟩, op2, q2, ops2⟩ := g
  cases hf
  obtain ⟨hg1, hg2⟩ := hg
  simp only [List.append_nil, Frame.mk.injEq] at ho hop hpr hp hg1 hg2 hb hu
  obtain ⟨rfl, rfl, rfl⟩ := hb
  subst ho hop hpr hg1 hg2
  obtain ⟨L', ow', nx', es, hd, hall⟩ := Limbo.step_live hu hs
  rw [hall ops2] at hs
  cases hs
  exact ⟨_, hall ops, ⟨ops ++ es, [], .snoc hp hd, .nil, by simp, rfl, rfl⟩, rfl, rfl, rfl⟩

theorem backs : ∀ {B : Trail} {T1 T2 : Trail} {f : Limbo}, Between L0 f (T1 ++ B) T2 →
    ∃ f', UndoBoard.undoOps f (B.map (·.1)).reverse = .ok f' ∧ Between L0 f' T1 (B ++ T2) ∧ f'.base.owned = f.base.owned ∧
      f'.base.next = f.base.next := by
  intro B
  generalize hn : B.length = n
  induction n generalizing B with
  | zero =>
    intro T1 T2 f h
    have : B = [] := List.eq_nil_of_length_eq_zero hn
    subst this
    exact ⟨f, rfl, by simpa using h, rfl, rfl⟩
  | succ n ih =>
    intro T1 T2 f h
    obtain ⟨B', ⟨X, L'⟩, rfl⟩ : ∃ B' a, B = B' ++ [a] := by
      have hne : B ≠ [] := by intro hB; simp [hB] at hn
      exact ⟨B.dropLast, B.getLast hne, (List.dropLast_concat_getLast hne).symm⟩
    rw [← List.append_assoc] at h
    obtain ⟨f1, h1, h2, h3, h4⟩ := h.back
    obtain ⟨f', h5, h6, h7, h8⟩ := ih (B := B') (by simpa using hn) h2
    refine ⟨f', ?_, by simpa using h6, by rw [h7, h3], by rw [h8, h4]⟩
    simp [UndoBoard.undoOps, h1]
    simpa using h5

theorem forths {B : Trail} {T1 T2 : Trail} {f : Limbo} (h : Between L0 f T1 (B ++ T2)) :
    ∃ f', runOps f (B.map (·.1)) = .ok f' ∧ Between L0 f' (T1 ++ B) T2 ∧ f'.base.owned = f.base.owned ∧
      f'.base.next = f.base.next := by
  induction B generalizing T1 f with
  | nil => exact ⟨f, rfl, by simpa using h, rfl, rfl⟩
  | cons a B ih =>
    obtain ⟨X, L'⟩ := a
    obtain ⟨f1, h1, h2, h3, h4⟩ := Between.forth (T2 := B ++ T2) h
    obtain ⟨f', h5, h6, h7, h8⟩ := ih h2
    refine ⟨f', ?_, by simpa using h6, by rw [h7, h3], by rw [h8, h4]⟩
    simp only [List.map_cons, runOps, FrameLike.step, h1, bind_ok]
    exact h5

/-- The trail of new operations on a frame. -/
def _root_.Ygo.Limbo.trail (g : Limbo) : List FrameOp → Trail
  | [] => []
  | X :: Xs => match g.step X with
    | .ok g' => (X, g'.base.layout) :: g'.trail Xs
    | .error _ => []

theorem news {Xs : List FrameOp} {g g' : Limbo} (h : Between L0 f T1 []) (hg : LiveFrame g) (hb : f.base = g.base)
    (hu : UndoesAll g Xs) (hs : runOps g Xs = .ok g') :
    ∃ f', runOps f Xs = .ok f' ∧ Between L0 f' (T1 ++ g.trail Xs) [] ∧ f'.base = g'.base ∧ LiveFrame g' := by
  induction Xs generalizing f g T1 with
  | nil =>
    cases hs
    exact ⟨f, rfl, by simpa [Limbo.trail] using h, hb, hg⟩
  | cons X Xs ih =>
    simp only [runOps, FrameLike.step, bind_eq_ok] at hs
    obtain ⟨g1, hs1, hs2⟩ := hs
    obtain ⟨f1, h1, h2, h3, h4⟩ := Between.new h hg hb hu.1 hs1
    obtain ⟨f', h5, h6, h7, h8⟩ := ih h2 h4 h3 (hu.2 g1 hs1) hs2
    refine ⟨f', ?_, ?_, h7, h8⟩
    · simp only [runOps, FrameLike.step, h1, bind_ok]
      exact h5
    · simpa [Limbo.trail, hs1] using h6

end Between

theorem trail_ops {Xs : List FrameOp} {g g' : Limbo} (h : runOps g Xs = .ok g') : (g.trail Xs).map (·.1) = Xs := by
  induction Xs generalizing g with
  | nil => rfl
  | cons X Xs ih =>
    simp only [runOps, FrameLike.step, bind_eq_ok] at h
    obtain ⟨g1, hs1, hs2⟩ := h
    simp [Limbo.trail, hs1, ih hs2]

end Ygo
