import Verif.Spec.Counts
import Verif.Lemmas.FrameRename
import Verif.Lemmas.FrameSafe
import Verif.Lemmas.FrameNew
import Verif.Lemmas.Mirror

/-!
# Tables on which only the number of cards is known
-/

set_option linter.unusedSimpArgs false

namespace Ygo
open Ygo.Spec Rename

theorem mapRes_eq {α β : Type} (g : α → β) (x : Res α) : mapRes g x = x.map g := by cases x <;> rfl

/-- All cards are the same. -/
def Layout.blank (l : Layout) : Layout := l.map fun _ => 0

theorem Layout.blank_view (l : Layout) (C : Container) : view l.blank C = (view l C).map fun _ => 0 := by
  cases C with
  | pile k => rfl
  | slot k =>
    show ((l.zone k).card.map fun _ => 0).toList = (l.zone k).card.toList.map fun _ => 0
    cases (l.zone k).card <;> rfl
  | mats k => rfl

theorem map_blank {xs ys : List CardId} : (xs.map fun _ => 0) = (ys.map fun _ => (0 : CardId)) ↔ xs.length = ys.length := by
  constructor
  · intro h; simpa using congrArg List.length h
  · intro h
    refine List.ext_getElem (by simpa using h) fun i _ _ => by simp

theorem blank_iff {l l' : Layout} : l.blank = l'.blank ↔ SameCounts l l' := by
  constructor
  · intro h C
    have := congrFun (congrArg view h) C
    rw [Layout.blank_view, Layout.blank_view, map_blank] at this
    exact this
  · intro h
    refine view_inj (funext fun C => ?_)
    rw [Layout.blank_view, Layout.blank_view, map_blank]
    exact h C

/-- A table with labels instead of cards; new cards get the label 0. -/
structure CountFrame where
  layout : Layout

namespace CountFrame

/-- Calls on such a table. -/
def step (f : CountFrame) : FrameOp → Res CountFrame
  | .add p => (f.layout.cardInsert p 0).map mk
  | .remove p => do
    let h ← f.layout.hasCard p
    massert (h = true)
    let x ← f.layout.cardErase p
    return ⟨x.2⟩
  | .move a b => (f.layout.cardMove a b).map fun x => ⟨x.1⟩
  | .shuffle p c n => (f.layout.cardShuffle p c n).map mk
  | .swap a b => (f.layout.cardSwap a b).map mk
  | .resize p n => do
    massert (p.isPile = true)
    let k ← p.pileKey
    return ⟨f.layout.setPile k ((f.layout.pile k).take n ++ List.replicate (n - (f.layout.pile k).length) 0)⟩
  | .splice a n b r => (f.layout.pileSplice a n b r).map mk
  | .pswap a b => (f.layout.pileSwap a b).map mk
  | .clear => .ok ⟨Layout.empty⟩

end CountFrame

instance : FrameLike CountFrame := ⟨CountFrame.step⟩

theorem Layout.map_view (lab : CardId → CardId) (l : Layout) (C : Container) : view (l.map lab) C = (view l C).map lab := by
  cases C with
  | pile k => rfl
  | slot k =>
    show ((l.zone k).card.map lab).toList = (l.zone k).card.toList.map lab
    cases (l.zone k).card <;> rfl
  | mats k => rfl

/-- What is left when each card is replaced by its label. -/
def Frame.labelled (lab : CardId → CardId) (f : Frame) : CountFrame := ⟨f.layout.map lab⟩

theorem step_labelled {lab : CardId → CardId} {f : Frame} (h : Inv f) (hl : ∀ x, f.next ≤ x → lab x = 0) (op : FrameOp) :
    (f.labelled lab).step op = (f.step op).map (Frame.labelled lab) := by
  cases op with
  | add p =>
    have := cardInsert (l := f.layout) (ρ := lab) p f.next
    rw [hl f.next (Nat.le_refl _)] at this
    simp only [CountFrame.step, Frame.step, Frame.cardAdd, Frame.construct, Frame.labelled, this, mapRes_eq, bind_map', map_map',
      pure_eq_ok, map_ok', bind_ok]
    cases f.layout.cardInsert p f.next <;> rfl
  | remove p =>
    have e1 : (f.layout.map lab).hasCard p = f.layout.hasCard p := hasCard_map ..
    have e2 : (f.layout.map lab).cardErase p = (f.layout.cardErase p).map fun x => (lab x.1, x.2.map lab) := by
      rw [← mapRes_eq]; exact cardErase ..
    simp only [CountFrame.step, Frame.step, Frame.cardRemove, Frame.labelled, e1, e2, bind_map']
    refine bind_congr' fun b => bind_congr' fun _ => ?_
    rw [map_bind']
    cases he : f.layout.cardErase p with
    | error x => rfl
    | ok x =>
      obtain ⟨c, l⟩ := x
      obtain ⟨C, i, _, hc, _⟩ := Layout.cardErase_eq_ok.mp he
      have hm : c ∈ f.owned := h.mem_owned (List.mem_of_getElem? hc)
      simp only [bind_ok]
      rw [Frame.destruct_eq_ok (f := ⟨l, f.owned, f.next⟩).mpr ⟨hm, rfl⟩]
      rfl
  | move a b =>
    have := cardMove (l := f.layout) (ρ := lab) a b
    simp only [CountFrame.step, Frame.step, Frame.cardMove, Frame.labelled, this, mapRes_eq, bind_map', map_map', map_bind',
      pure_eq_ok, map_ok', bind_ok]
    cases f.layout.cardMove a b <;> rfl
  | shuffle p c n =>
    have := cardShuffle (l := f.layout) (ρ := lab) p c n
    simp only [CountFrame.step, Frame.step, Frame.cardShuffle, Frame.labelled, this, mapRes_eq, bind_map', map_map', map_bind',
      pure_eq_ok, map_ok', bind_ok]
    cases f.layout.cardShuffle p c n <;> rfl
  | swap a b =>
    have := cardSwap (l := f.layout) (ρ := lab) a b
    simp only [CountFrame.step, Frame.step, Frame.cardSwap, Frame.labelled, this, mapRes_eq, bind_map', map_map', map_bind',
      pure_eq_ok, map_ok', bind_ok]
    cases f.layout.cardSwap a b <;> rfl
  | resize p n =>
    simp only [CountFrame.step, Frame.step]
    by_cases hp : p.isPile = true
    · cases hk : p.pileKey with
      | error e =>
        simp only [Frame.pileResize, massert_true hp, hk, bind_ok]
        rfl
      | ok k =>
        have ha := isPile_pileKey_iff.mp ⟨hp, hk⟩
        obtain ⟨g, hg⟩ := Frame.pileResize_returns (n := n) h ha
        obtain ⟨hv, _, _⟩ := Frame.pileResize_at ha hg
        rw [hg]
        simp only [massert_true hp, bind_ok, pure_eq_ok, map_ok', Frame.labelled]
        congr 2
        refine view_inj (funext fun C => ?_)
        rw [Layout.map_view, hv, view_setPile]
        by_cases hC : C = .pile k
        · subst hC
          simp only [upd_apply, if_true, Layout.map, List.map_append, List.map_take, List.length_map]
          congr 1
          refine List.ext_getElem (by simp) fun i h1 h2 => ?_
          simp only [List.getElem_replicate, List.getElem_map]
          refine (hl _ ?_).symm
          simp
        · simp only [upd_apply, hC, if_false, Layout.map_view]
    · simp only [Frame.pileResize]
      rw [show massert (p.isPile = true) = .error .assert by simp [massert, hp]]
      rfl
  | splice a n b r =>
    have := pileSplice (l := f.layout) (ρ := lab) a n b r
    simp only [CountFrame.step, Frame.step, Frame.pileSplice, Frame.labelled, this, mapRes_eq, bind_map', map_map', map_bind',
      pure_eq_ok, map_ok', bind_ok]
    cases f.layout.pileSplice a n b r <;> rfl
  | pswap a b =>
    have := pileSwap (l := f.layout) (ρ := lab) a b
    simp only [CountFrame.step, Frame.step, Frame.pileSwap, Frame.labelled, this, mapRes_eq, bind_map', map_map', map_bind',
      pure_eq_ok, map_ok', bind_ok]
    cases f.layout.pileSwap a b <;> rfl
  | clear =>
    obtain ⟨g, hg, _, _, hv, _⟩ := h.clear
    simp only [CountFrame.step, Frame.step, hg, map_ok', Frame.labelled]
    congr 2
    refine view_inj (funext fun C => ?_)
    rw [Layout.map_view, hv, view_empty]
    rfl

theorem runOps_labelled {lab : CardId → CardId} {ops : List FrameOp} {f : Frame} (h : Inv f) (hl : ∀ x, f.next ≤ x → lab x = 0) :
    runOps (f.labelled lab) ops = (runOps f ops).map (Frame.labelled lab) := by
  induction ops generalizing f with
  | nil => rfl
  | cons op ops ih =>
    simp only [runOps, FrameLike.step, step_labelled h hl, map_bind', bind_map']
    cases hs : f.step op with
    | error e => rfl
    | ok g => exact ih (h.step hs) fun x hx => hl x (Nat.le_trans (step_next hs) hx)

/-- What is left when one only counts. -/
def Frame.counted (f : Frame) : CountFrame := ⟨f.layout.blank⟩

theorem runOps_counted {ops : List FrameOp} {f : Frame} (h : Inv f) : runOps f.counted ops = (runOps f ops).map Frame.counted :=
  runOps_labelled (lab := fun _ => 0) h fun _ _ => rfl

/-! ## Boards -/

namespace DuelBoard
variable {F G : Type} {V : Type → Type} [FrameLike F] [FrameLike G] [Cell V]

/-- The board with another frame. -/
def withFrame (m : F → G) (b : DuelBoard F V) : DuelBoard G V := ⟨m b.frame, b.chainStack, b.turn, b.turnController, b.lp, b.phase, b.blockedZones⟩

theorem onFrame_with {m : F → G} {b : DuelBoard F V} {ops : List FrameOp} (h : runOps (m b.frame) ops = (runOps b.frame ops).map m) :
    (b.withFrame m).onFrame ops = (b.onFrame ops).map (withFrame m) := by
  simp only [onFrame, show (b.withFrame m).frame = m b.frame from rfl, h, map_bind', bind_map', pure_eq_ok, map_ok']
  rfl

theorem parseEvent_with {m : F → G} {b : DuelBoard F V} (h : ∀ ops, runOps (m b.frame) ops = (runOps b.frame ops).map m) (e : Event) :
    (b.withFrame m).parseEvent e = (b.parseEvent e).map (withFrame m) := by
  cases e with
  | board x =>
    cases x with
    | unset => rfl
    | exchange x => exact onFrame_with (h _)
    | state s =>
      simp only [parseEvent, parseState]
      match hl : s.lps with
      | [] => rfl
      | [x] => rfl
      | x :: y :: r =>
        simp only [List.getElem?_cons_zero, List.getElem?_cons_succ, orUb, bind_ok]
        rw [← onFrame_with]
        · by_cases ht : 0 ≤ s.turnCounter <;> simp only [ht, if_true, if_false] <;> rfl
        · by_cases ht : 0 ≤ s.turnCounter <;> simp only [ht, if_true, if_false] <;> exact h _
  | card r x => exact onFrame_with (h _)
  | chainStack x =>
    cases x with
    | unset => rfl
    | push c =>
      simp only [parseEvent, bind_map', pure_eq_ok, map_ok']
      rfl
    | pop n =>
      simp only [parseEvent, bind_map', pure_eq_ok, map_ok']
      rfl
  | nextTurn con =>
    simp only [parseEvent, bind_map', pure_eq_ok, map_ok']
    rfl
  | lp con c =>
    simp only [parseEvent, bind_map', pure_eq_ok, map_ok']
    rfl
  | nextPhase p => rfl
  | pile r x => exact onFrame_with (h _)
  | zoneBlock zs => rfl
  | finish f => rfl
  | metaInfo x => rfl
  | result x => rfl
  | unset => rfl

end DuelBoard
end Ygo
