import Verif.Lemmas.CountsServer
import Verif.Props.Apart
import Verif.Props.Setup
import Verif.Props.Mirror

/-!
# The order in which the changes of the two sides are listed does not matter for the number of cards
-/

set_option linter.unusedSimpArgs false

namespace Ygo
open Ygo.Spec Ygo.Props

theorem _root_.Ygo.Spec.SameCounts.refl (l : Layout) : SameCounts l l := fun _ => rfl
theorem _root_.Ygo.Spec.SameCounts.trans {l l' l'' : Layout} (h : SameCounts l l') (h' : SameCounts l' l'') : SameCounts l l'' := fun C => (h C).trans (h' C)
theorem _root_.Ygo.Spec.SameCounts.symm {l l' : Layout} (h : SameCounts l l') : SameCounts l' l := fun C => (h C).symm

/-- Everything the call names is one player's. -/
def FrameOp.IsOf (op : FrameOp) (i : Int) : Prop := op ≠ .clear ∧ ∀ p ∈ placesOf op, p.con = i

theorem reaches_con {p q : Place} {C : Container} (h : Reaches p C) (h' : Reaches q C) : p.con = q.con := by
  cases C <;> exact h.1.trans h'.1.symm

theorem runOps_sides {f g : Frame} (hi : Inv f) {pre X Y post : List FrameOp} (ht : ∀ op ∈ X ++ Y, Tidy op) {i j : Int} (hij : i ≠ j)
    (hX : ∀ op ∈ X, op.IsOf i) (hY : ∀ op ∈ Y, op.IsOf j) (h : runOps f (pre ++ (X ++ Y) ++ post) = .ok g) :
    ∃ g', runOps f (pre ++ (Y ++ X) ++ post) = .ok g' ∧ SameCounts g.layout g'.layout := by
  rw [runOps_append', runOps_append'] at h
  simp only [bind_eq_ok] at h
  obtain ⟨f2, ⟨f1, h1, h2⟩, h3⟩ := h
  have hi1 : Inv f1 := hi.run (by rw [run_eq_runOps]; exact h1)
  have hi2 : Inv f2 := hi1.run (by rw [run_eq_runOps]; exact h2)
  obtain ⟨f2', σ, h2', _, _, hv⟩ := calls_swap (f := f1) (f' := f2) hi1 (ops := X) (ops' := Y) ht (by
    rintro op ho op' ho' C ⟨a | ⟨p, hp, a⟩, b | ⟨q, hq, b⟩⟩
    · exact (hX op ho).1 a
    · exact (hX op ho).1 a
    · exact (hY op' ho').1 b
    · have e1 := (hX op ho).2 p hp
      have e2 := (hY op' ho').2 q hq
      exact hij (e1.symm.trans ((reaches_con a b).trans e2))) (by rw [run_eq_runOps]; exact h2)
  rw [run_eq_runOps] at h2'
  have hc : SameCounts f2.layout f2'.layout := fun C => by rw [hv C, List.length_map]
  have hi2' : Inv f2' := hi1.run (by rw [run_eq_runOps]; exact h2')
  have e := runOps_counted (ops := post) hi2
  rw [show f2.counted = f2'.counted from congrArg CountFrame.mk (blank_iff.mpr hc), runOps_counted hi2', h3] at e
  rw [runOps_append', runOps_append', h1]
  simp only [bind_ok, h2']
  cases hg : runOps f2' post with
  | error x => rw [hg] at e; cases e
  | ok g' =>
    rw [hg] at e
    refine ⟨g', rfl, ?_⟩
    have : g'.counted = g.counted := by simpa [Except.map] using e
    exact (blank_iff.mp (congrArg CountFrame.layout this)).symm

theorem onFrame_counts {b b1 : PlainBoard} {ops ops' : List FrameOp}
    (hf : ∀ g, runOps b.frame ops = .ok g → ∃ g', runOps b.frame ops' = .ok g' ∧ SameCounts g.layout g'.layout)
    (h : b.onFrame ops = .ok b1) : ∃ b2, b.onFrame ops' = .ok b2 ∧ CountsAlike b1 b2 := by
  simp only [DuelBoard.onFrame, bind_eq_ok, pure_eq_ok, Except.ok.injEq] at h ⊢
  obtain ⟨g, hg, rfl⟩ := h
  obtain ⟨g', hg', hc⟩ := hf g hg
  exact ⟨_, ⟨g', hg', rfl⟩, ⟨hc, rfl, rfl, rfl, rfl⟩⟩

theorem parse_sides {b b1 : PlainBoard} (hi : Inv b.frame) {e e' : Event} (hr : SidesReordered e' e) (h : b.parseEvent e = .ok b1) :
    ∃ b2, b.parseEvent e' = .ok b2 ∧ CountsAlike b1 b2 := by
  unfold SidesReordered at hr
  split at hr
  · rename_i s t
    obtain ⟨_, ht, hl, hc, ⟨a, b', ea, eb, ha, hb⟩, ⟨x, y, ex, ey, hx, hy⟩⟩ := hr
    have key : ∀ g, runOps b.frame (DuelBoard.stateOps t) = .ok g → ∃ g', runOps b.frame (DuelBoard.stateOps s) = .ok g' ∧ SameCounts g.layout g'.layout := by
      intro g hg
      have e1 : DuelBoard.stateOps t = [.clear] ++ (b'.map .add ++ a.map .add) ++ DuelBoard.resizeOps t.resize := by
        simp [DuelBoard.stateOps, eb]
      have e2 : [.clear] ++ (a.map .add ++ b'.map .add) ++ DuelBoard.resizeOps t.resize =
          ([.clear] ++ (a.map FrameOp.add ++ b'.map .add)) ++ (DuelBoard.resizeOps y ++ DuelBoard.resizeOps x) ++ [] := by
        simp [DuelBoard.resizeOps, ey]
      have e3 : ([.clear] ++ (a.map FrameOp.add ++ b'.map .add)) ++ (DuelBoard.resizeOps x ++ DuelBoard.resizeOps y) ++ [] = DuelBoard.stateOps s := by
        simp [DuelBoard.stateOps, DuelBoard.resizeOps, ea, ex]
      rw [e1] at hg
      obtain ⟨g1, h1, c1⟩ := runOps_sides hi (by simp only [List.mem_append, List.mem_map]; rintro _ (⟨_, _, rfl⟩ | ⟨_, _, rfl⟩) <;> trivial)
        (i := 1) (j := 0) (by decide)
        (by simp only [List.mem_map]; rintro _ ⟨p, hp, rfl⟩; exact ⟨by simp, by simpa [placesOf] using hb p hp⟩)
        (by simp only [List.mem_map]; rintro _ ⟨p, hp, rfl⟩; exact ⟨by simp, by simpa [placesOf] using ha p hp⟩) hg
      rw [e2] at h1
      obtain ⟨g2, h2, c2⟩ := runOps_sides hi
        (by simp only [List.mem_append, DuelBoard.resizeOps, List.mem_map]; rintro _ (⟨_, _, rfl⟩ | ⟨_, _, rfl⟩) <;> trivial)
        (i := 1) (j := 0) (by decide)
        (by simp only [DuelBoard.resizeOps, List.mem_map]; rintro _ ⟨p, hp, rfl⟩; exact ⟨by simp, by simpa [placesOf] using hy p hp⟩)
        (by simp only [DuelBoard.resizeOps, List.mem_map]; rintro _ ⟨p, hp, rfl⟩; exact ⟨by simp, by simpa [placesOf] using hx p hp⟩) h1
      rw [e3] at h2
      exact ⟨g2, h2, c1.trans c2⟩
    simp only [DuelBoard.parseEvent, DuelBoard.parseState] at h ⊢
    rw [ht, hl, hc]
    match hl : t.lps with
    | [] => rw [hl] at h; cases h
    | [_] => rw [hl] at h; cases h
    | u :: v :: r =>
      rw [hl] at h
      simp only [List.getElem?_cons_zero, List.getElem?_cons_succ, orUb, bind_ok] at h ⊢
      refine onFrame_counts ?_ h
      by_cases h0 : 0 ≤ t.turnCounter <;> simp only [h0, if_true, if_false] <;> exact key
  · cases h
    exact ⟨_, rfl, ⟨SameCounts.refl _, rfl, rfl, rfl, rfl⟩⟩
  · obtain ⟨rfl, a, b', rfl, rfl, ha, hb⟩ := hr
    refine onFrame_counts (fun g hg => ?_) h
    have e1 : ∀ xs ys : List SpliceOp, DuelBoard.pileOps (.splice (xs ++ ys)) = [] ++ (DuelBoard.pileOps (.splice xs) ++ DuelBoard.pileOps (.splice ys)) ++ [] := by
      intro xs ys; simp [DuelBoard.pileOps]
    rw [e1] at hg ⊢
    refine runOps_sides hi (by simp only [List.mem_append, DuelBoard.pileOps, List.mem_map]; rintro _ (⟨_, _, rfl⟩ | ⟨_, _, rfl⟩) <;> trivial)
      (i := 1) (j := 0) (by decide) ?_ ?_ hg
    · simp only [DuelBoard.pileOps, List.mem_map]; rintro _ ⟨p, hp, rfl⟩; exact ⟨by simp, by simpa [placesOf] using hb p hp⟩
    · simp only [DuelBoard.pileOps, List.mem_map]; rintro _ ⟨p, hp, rfl⟩; exact ⟨by simp, by simpa [placesOf] using ha p hp⟩
  · cases hr

end Ygo
