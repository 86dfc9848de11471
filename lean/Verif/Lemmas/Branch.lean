import Verif.Spec.Branch
import Verif.Lemmas.Counts
import Verif.Lemmas.UndoExact
import Verif.Lemmas.History

/-!
# Going back and then another way: how many cards lie where
-/

set_option linter.unusedSimpArgs false

namespace Ygo
open Ygo.Spec Rename

/-- What lies in the log for a call that was made on a table with as many cards as on `g`. -/
def Entry (g : Layout) : FrameOp → List LimboOp → Prop
  | .add _, es => ∃ c, es = [.card c]
  | .remove _, es => ∃ c, es = [.card c]
  | .resize p _, es => ∃ prev s, es = [.resize prev s] ∧ ∀ k i, At p (.pile k) i → prev = (g.pile k).length
  | .clear, es => ∃ l, es = [.clear l] ∧ l.blank = g.blank
  | _, es => es = []

/-- The calls in `past`, latest first, lead a plain frame to `g`, and `es` is the log for them. -/
inductive Kept : List FrameOp → Frame → List LimboOp → Prop
  | nil : Kept [] Frame.init []
  | cons {past g es X g' new} : Kept past g es → g.step X = .ok g' → Entry g.layout X new → Kept (X :: past) g' (es ++ new)

/-- Tables that are saved ahead of the cursor are empty. -/
def EmptyClears (es : List LimboOp) : Prop := ∀ l, LimboOp.clear l ∈ es → l.blank = Layout.empty.blank

theorem Kept.inv {past : List FrameOp} {g : Frame} {es : List LimboOp} (h : Kept past g es) : Inv g := by
  induction h with
  | nil => exact Inv.init
  | cons _ hs _ ih => exact ih.step hs

theorem Kept.run {past : List FrameOp} {g : Frame} {es : List LimboOp} (h : Kept past g es) : runOps Frame.init past.reverse = .ok g := by
  induction h with
  | nil => rfl
  | cons _ hs _ ih =>
    rw [List.reverse_cons, runOps_concat, ih]
    show runOps _ _ = _
    simp only [runOps, FrameLike.step, hs, bind_ok]

/-- Counting what a call does is doing it on a plain frame. -/
theorem count_step {g : Frame} (hg : Inv g) {L L' : Layout} {X : FrameOp} (hb : L.blank = g.layout.blank)
    (h : CountFrame.step ⟨L.blank⟩ X = .ok ⟨L'.blank⟩) : ∃ g', g.step X = .ok g' ∧ L'.blank = g'.layout.blank := by
  have := step_labelled (lab := fun _ => 0) hg (fun _ _ => rfl) X
  rw [show g.labelled (fun _ => 0) = ⟨L.blank⟩ by rw [hb]; rfl, h] at this
  cases hs : g.step X with
  | error e => rw [hs] at this; cases this
  | ok g' =>
    rw [hs] at this
    refine ⟨g', rfl, ?_⟩
    injection this with this
    injection this

namespace CountFrame

theorem add {L L' : Layout} {p : Place} {c : CardId} (h : L.cardInsert p c = .ok L') : step ⟨L.blank⟩ (.add p) = .ok ⟨L'.blank⟩ := by
  have := Rename.cardInsert (l := L) (ρ := fun _ => 0) p c
  rw [h] at this
  show (L.blank.cardInsert p 0).map mk = _
  unfold Layout.blank
  rw [this]
  rfl

theorem remove {L L' : Layout} {p : Place} {c : CardId} (h : L.cardErase p = .ok (c, L')) : step ⟨L.blank⟩ (.remove p) = .ok ⟨L'.blank⟩ := by
  have h1 := Rename.cardErase (l := L) (ρ := fun _ => 0) p
  have h2 : L.blank.hasCard p = .ok true := by
    rw [show L.blank.hasCard p = L.hasCard p from hasCard_map ..]
    exact Layout.hasCard_erase h
  rw [h] at h1
  simp only [step, h2, bind_ok, massert_true rfl]
  unfold Layout.blank
  rw [h1]
  rfl

theorem move {L L' : Layout} {a b : Place} {c : CardId} (h : L.cardMove a b = .ok (L', c)) : step ⟨L.blank⟩ (.move a b) = .ok ⟨L'.blank⟩ := by
  have := Rename.cardMove (l := L) (ρ := fun _ => 0) a b
  rw [h] at this
  show (L.blank.cardMove a b).map _ = _
  unfold Layout.blank
  rw [this]
  rfl

theorem shuffle {L L' : Layout} {a b : List Place} {n : Nat} (h : L.cardShuffle a b n = .ok L') :
    step ⟨L.blank⟩ (.shuffle a b n) = .ok ⟨L'.blank⟩ := by
  have := Rename.cardShuffle (l := L) (ρ := fun _ => 0) a b n
  rw [h] at this
  show (L.blank.cardShuffle a b n).map _ = _
  unfold Layout.blank
  rw [this]
  rfl

theorem swap {L L' : Layout} {a b : Place} (h : L.cardSwap a b = .ok L') : step ⟨L.blank⟩ (.swap a b) = .ok ⟨L'.blank⟩ := by
  have := Rename.cardSwap (l := L) (ρ := fun _ => 0) a b
  rw [h] at this
  show (L.blank.cardSwap a b).map _ = _
  unfold Layout.blank
  rw [this]
  rfl

theorem splice {L L' : Layout} {a b : Place} {n : Nat} {r : Bool} (h : L.pileSplice a n b r = .ok L') :
    step ⟨L.blank⟩ (.splice a n b r) = .ok ⟨L'.blank⟩ := by
  have := Rename.pileSplice (l := L) (ρ := fun _ => 0) a n b r
  rw [h] at this
  show (L.blank.pileSplice a n b r).map _ = _
  unfold Layout.blank
  rw [this]
  rfl

theorem pswap {L L' : Layout} {a b : Place} (h : L.pileSwap a b = .ok L') : step ⟨L.blank⟩ (.pswap a b) = .ok ⟨L'.blank⟩ := by
  have := Rename.pileSwap (l := L) (ρ := fun _ => 0) a b
  rw [h] at this
  show (L.blank.pileSwap a b).map _ = _
  unfold Layout.blank
  rw [this]
  rfl

theorem resize {L : Layout} {p : Place} {k : PileKey} {i n : Nat} {v : List CardId} (hp : At p (.pile k) i) (hv : v.length = n) :
    step ⟨L.blank⟩ (.resize p n) = .ok ⟨(L.setPile k v).blank⟩ := by
  simp only [step, massert_true (Spec.At.isPile hp), Spec.At.pileKey hp, bind_ok, pure_eq_ok]
  congr 2
  refine view_inj (funext fun C => ?_)
  rw [view_setPile, Layout.blank_view, view_setPile]
  by_cases hC : C = .pile k
  · subst hC
    simp only [upd_apply, if_true]
    refine List.ext_getElem ?_ fun i h1 h2 => ?_
    · simp [Layout.blank, Layout.map, hv]
      omega
    · simp only [List.getElem_map]
      rw [List.getElem_append]
      split
      · simp [Layout.blank, Layout.map]
      · simp
  · simp only [upd_apply, hC, if_false, Layout.blank_view]

end CountFrame

/-- What is true wherever a walk leads. -/
structure WalkInv (f : Limbo) (past : List FrameOp) (g : Frame) (pre post : List LimboOp) : Prop where
  ops : f.ops = pre ++ post
  op : f.op = pre.length
  processed : f.processed = f.ops.length
  kept : Kept past g pre
  clears : EmptyClears post
  counts : f.base.layout.blank = g.layout.blank

theorem EmptyClears.tail {e : LimboOp} {es : List LimboOp} (h : EmptyClears (e :: es)) : EmptyClears es :=
  fun l hl => h l (List.mem_cons_of_mem _ hl)

theorem EmptyClears.nil : EmptyClears [] := fun _ h => by cases h

theorem EmptyClears.cons {e : LimboOp} {es : List LimboOp} (h : EmptyClears es) (he : ∀ l, e = .clear l → l.blank = Layout.empty.blank) :
    EmptyClears (e :: es) := by
  intro l hl
  rcases List.mem_cons.mp hl with h1 | h1
  · exact he l h1.symm
  · exact h l h1

/-- A call on the layout of the frame and one entry of the log. -/
theorem WalkInv.next {f f' : Limbo} {past : List FrameOp} {g : Frame} {pre post : List LimboOp} {X : FrameOp}
    (h : WalkInv f past g pre post) {e : LimboOp} (hc : CountFrame.step ⟨f.base.layout.blank⟩ X = .ok ⟨f'.base.layout.blank⟩)
    (he : Entry g.layout X [e]) (hops : f'.ops = pre ++ e :: post.tail) (hop : f'.op = pre.length + 1) (hp : f'.processed = f'.ops.length) :
    ∃ g' pre' post', WalkInv f' (X :: past) g' pre' post' := by
  obtain ⟨g', hg, hb⟩ := count_step h.kept.inv h.counts hc
  refine ⟨g', pre ++ [e], post.tail, by simp [hops], by simp [hop], hp, .cons h.kept hg he, ?_, hb⟩
  intro l hl
  exact h.clears l (List.mem_of_mem_tail hl)

/-- A call that is not logged. -/
theorem WalkInv.quiet {f f' : Limbo} {past : List FrameOp} {g : Frame} {pre post : List LimboOp} {X : FrameOp}
    (h : WalkInv f past g pre post) (hc : CountFrame.step ⟨f.base.layout.blank⟩ X = .ok ⟨f'.base.layout.blank⟩) (he : Entry g.layout X [])
    (hops : f'.ops = f.ops) (hop : f'.op = f.op) (hp : f'.processed = f'.ops.length) :
    ∃ g' pre' post', WalkInv f' (X :: past) g' pre' post' := by
  obtain ⟨g', hg, hb⟩ := count_step h.kept.inv h.counts hc
  refine ⟨g', pre, post, hops.trans h.ops, hop.trans h.op, hp, ?_, h.clears, hb⟩
  have := Kept.cons h.kept hg he
  simpa using this

theorem WalkInv.step {f f' : Limbo} {past : List FrameOp} {g : Frame} {pre post : List LimboOp} {X : FrameOp}
    (h : WalkInv f past g pre post) (hs : f.step X = .ok f') : ∃ g' pre' post', WalkInv f' (X :: past) g' pre' post' := by
  have hI := h
  obtain ⟨⟨L, ow, nx⟩, op, q, ops⟩ := f
  obtain ⟨ho, hop, hq, hk, hcl, hb⟩ := h
  simp only at ho hop hq hb
  subst ho hop hq
  cases X with
  | move a b =>
    simp [Limbo.step, Limbo.cardMove, Frame.cardMove] at hs
    obtain ⟨L', ⟨c, h⟩, rfl⟩ := hs
    exact hI.quiet (CountFrame.move h) rfl rfl rfl (by simp)
  | shuffle p c n =>
    simp [Limbo.step, Limbo.cardShuffle, Frame.cardShuffle] at hs
    obtain ⟨L', h, rfl⟩ := hs
    exact hI.quiet (CountFrame.shuffle h) rfl rfl rfl (by simp)
  | swap a b =>
    simp [Limbo.step, Limbo.cardSwap, Frame.cardSwap] at hs
    obtain ⟨L', h, rfl⟩ := hs
    exact hI.quiet (CountFrame.swap h) rfl rfl rfl (by simp)
  | splice a n b r =>
    simp [Limbo.step, Limbo.pileSplice, Frame.pileSplice] at hs
    obtain ⟨L', h, rfl⟩ := hs
    exact hI.quiet (CountFrame.splice h) rfl rfl rfl (by simp)
  | pswap a b =>
    simp [Limbo.step, Limbo.pileSwap, Frame.pileSwap] at hs
    obtain ⟨L', h, rfl⟩ := hs
    exact hI.quiet (CountFrame.pswap h) rfl rfl rfl (by simp)
  | add p =>
    cases post with
    | nil =>
      simp [Limbo.step, Limbo.cardAdd, Limbo.advance, Limbo.emplace, Frame.cardAdd, Frame.construct] at hs
      obtain ⟨L', h, rfl⟩ := hs
      exact hI.next (e := .card nx) (CountFrame.add h) ⟨_, rfl⟩ (by simp) rfl (by simp)
    | cons e post =>
      have hne : ¬ pre.length = (pre ++ e :: post).length := by simp
      simp only [Limbo.step, Limbo.cardAdd, Limbo.advance, hne, if_false, Limbo.currentCard, Limbo.current_mk, bind_ok] at hs
      cases e with
      | card c =>
        simp [Limbo.setLayout] at hs
        obtain ⟨L', h, _, rfl⟩ := hs
        exact hI.next (e := .card c) (CountFrame.add h) ⟨_, rfl⟩ (by simp) rfl (by simp)
      | resize _ _ => cases hs
      | clear _ => cases hs
  | remove p =>
    cases post with
    | nil =>
      simp [Limbo.step, Limbo.cardRemove, Limbo.advance, Limbo.emplace, Limbo.setLayout] at hs
      obtain ⟨_, c, L', h, rfl⟩ := hs
      exact hI.next (e := .card c) (CountFrame.remove h) ⟨_, rfl⟩ (by simp) rfl (by simp)
    | cons e post =>
      have hne : ¬ pre.length = (pre ++ e :: post).length := by simp
      simp only [Limbo.step, Limbo.cardRemove, Limbo.setLayout, Limbo.advance, hne, if_false, Limbo.currentCard, Limbo.current_mk,
        bind_eq_ok, massert_eq_ok] at hs
      obtain ⟨_, _, _, _, ⟨c, L'⟩, h, hs⟩ := hs
      cases e with
      | card c' =>
        simp [massert] at hs
        obtain ⟨_, rfl⟩ := hs
        exact hI.next (e := .card c') (CountFrame.remove h) ⟨_, rfl⟩ (by simp) rfl (by simp)
      | resize _ _ => simp at hs
      | clear _ => simp at hs
  | clear =>
    have hc : ∀ l : Layout, l.blank = Layout.empty.blank → CountFrame.step ⟨L.blank⟩ .clear = .ok ⟨l.blank⟩ := by
      intro l hl
      rw [hl]
      show Except.ok _ = _
      rfl
    cases post with
    | nil =>
      simp [Limbo.step, Limbo.clear, Limbo.advance, Limbo.emplace, Limbo.currentClear, Limbo.current_mk, Limbo.setCurrent_mk, Limbo.setLayout] at hs
      subst hs
      exact hI.next (e := .clear L) (hc _ rfl) ⟨_, rfl, hb⟩ (by simp) rfl (by simp)
    | cons e post =>
      have hne : ¬ pre.length = (pre ++ e :: post).length := by simp
      simp only [Limbo.step, Limbo.clear, Limbo.advance, hne, if_false, Limbo.currentClear, Bool.false_eq_true, Limbo.current_mk, bind_ok] at hs
      cases e with
      | card _ => cases hs
      | resize _ _ => cases hs
      | clear l =>
        simp [Limbo.setCurrent_mk, Limbo.setLayout] at hs
        subst hs
        exact hI.next (e := .clear L) (hc l (hcl l (by simp))) ⟨_, rfl, hb⟩ (by simp) rfl (by simp)
  | resize p n =>
    simp only [Limbo.step, Limbo.pileResize, bind_eq_ok, massert_eq_ok] at hs
    obtain ⟨_, hp, k, hkk, hs⟩ := hs
    have ha := isPile_pileKey_iff.mp ⟨hp, hkk⟩
    have hlen : (L.pile k).length = (g.layout.pile k).length := blank_iff.mp hb (.pile k)
    have hent : ∀ s, Entry g.layout (.resize p n) [.resize (L.pile k).length s] := by
      intro s
      refine ⟨_, _, rfl, ?_⟩
      intro k' i' ha'
      have : k' = k := by
        have := (Spec.At.pileKey ha').symm.trans hkk
        injection this
      rw [this, hlen]
    have hsame : n = (L.pile k).length → CountFrame.step ⟨L.blank⟩ (.resize p n) = .ok ⟨L.blank⟩ := by
      intro hn
      have := CountFrame.resize (L := L) (v := L.pile k) ha hn.symm
      rwa [Layout.setPile_same] at this
    have hshrink : n < (L.pile k).length → CountFrame.step ⟨L.blank⟩ (.resize p n) = .ok ⟨(L.setPile k ((L.pile k).take n)).blank⟩ :=
      fun hn => CountFrame.resize ha (by simp; omega)
    cases post with
    | nil =>
      simp only [List.append_nil, Limbo.advance, if_true, Limbo.emplace, Limbo.currentResize, Limbo.current_mk, bind_ok, pure_eq_ok,
        Except.ok.injEq, Limbo.setCurrent_mk] at hs
      obtain ⟨⟨_, s⟩, he, hs⟩ := hs
      cases he
      by_cases h1 : (L.pile k).length < n
      · simp only [h1, if_true, Except.ok.injEq] at hs
        subst hs
        obtain ⟨e1, _, _⟩ := Frame.growPile_spec k (n - (L.pile k).length) ⟨L, ow, nx⟩
        have e4 : (Frame.growPile k (n - (L.pile k).length) ⟨L, ow, nx⟩).layout =
            L.setPile k (L.pile k ++ List.range' nx (n - (L.pile k).length)) := by
          apply view_inj; rw [e1, view_setPile]
        refine hI.next (e := .resize (L.pile k).length []) ?_ (hent _) (by simp) rfl (by simp)
        simp only [e4]
        exact CountFrame.resize ha (by simp; omega)
      · by_cases h2 : n < (L.pile k).length
        · simp only [h1, h2, if_true, if_false, bind_eq_ok, Except.ok.injEq, Limbo.setLayout] at hs
          obtain ⟨s, _, rfl⟩ := hs
          exact hI.next (e := .resize (L.pile k).length s) (hshrink h2) (hent _) (by simp) rfl (by simp)
        · simp only [h1, h2, if_false, Except.ok.injEq] at hs
          subst hs
          exact hI.next (e := .resize (L.pile k).length []) (hsame (by omega)) (hent _) (by simp) rfl (by simp)
    | cons e post =>
      have hne : ¬ pre.length = (pre ++ e :: post).length := by simp
      simp only [Limbo.advance, hne, if_false, Bool.false_eq_true, Limbo.currentResize, Limbo.current_mk, bind_ok] at hs
      cases e with
      | card _ => simp at hs
      | clear _ => simp at hs
      | resize prev s =>
        simp only [pure_eq_ok, Except.ok.injEq, Limbo.setCurrent_mk] at hs
        obtain ⟨⟨_, s'⟩, he, hs⟩ := hs
        cases he
        by_cases h1 : (L.pile k).length < n
        · simp only [h1, if_true, bind_eq_ok, massert_eq_ok, Except.ok.injEq, Limbo.setLayout] at hs
          obtain ⟨v, _, _, h3, rfl⟩ := hs
          exact hI.next (e := .resize (L.pile k).length s) (CountFrame.resize ha h3) (hent _) (by simp) rfl (by simp)
        · by_cases h2 : n < (L.pile k).length
          · simp only [h1, h2, if_true, if_false, bind_eq_ok, Except.ok.injEq, Limbo.setLayout] at hs
            obtain ⟨s, _, rfl⟩ := hs
            exact hI.next (e := .resize (L.pile k).length s) (hshrink h2) (hent _) (by simp) rfl (by simp)
          · simp only [h1, h2, if_false, Except.ok.injEq] at hs
            subst hs
            exact hI.next (e := .resize (L.pile k).length s) (hsame (by omega)) (hent _) (by simp) rfl (by simp)

/-- What undoing the last call does to the number of cards. -/
theorem WalkInv.undo {f f' : Limbo} {past : List FrameOp} {g : Frame} {pre post : List LimboOp} {X : FrameOp}
    (h : WalkInv f (X :: past) g pre post) (hs : f.undo X = .ok f') : ∃ g' pre' post', WalkInv f' past g' pre' post' := by
  obtain ⟨⟨L, ow, nx⟩, op, q, ops⟩ := f
  obtain ⟨ho, hop, hq, hk, hcl, hb⟩ := h
  simp only at ho hop hq hb
  subst ho hop hq
  cases hk with
  | @cons _ g0 es _ _ new hk0 hstep hent =>
  have key : ∀ {Y : FrameOp} {L' : Layout}, CountFrame.step ⟨L.blank⟩ Y = .ok ⟨L'.blank⟩ →
      CountFrame.step ⟨g.layout.blank⟩ Y = .ok ⟨g0.layout.blank⟩ → L'.blank = g0.layout.blank := by
    intro Y L' h1 h2
    rw [hb, h2] at h1
    injection h1 with h1
    injection h1 with h1
    exact h1.symm
  have quiet : ∀ {Y : FrameOp} {L' : Layout}, new = [] → CountFrame.step ⟨L.blank⟩ Y = .ok ⟨L'.blank⟩ →
      CountFrame.step ⟨g.layout.blank⟩ Y = .ok ⟨g0.layout.blank⟩ →
      ∃ g' pre' post', WalkInv ⟨⟨L', ow, nx⟩, (es ++ new).length, (es ++ new ++ post).length, es ++ new ++ post⟩ past g' pre' post' := by
    intro Y L' hn h1 h2
    subst hn
    exact ⟨g0, es, post, by simp, by simp, rfl, hk0, hcl, key h1 h2⟩
  cases X with
  | shuffle p c n => cases hs
  | move a b =>
    simp only [Limbo.undo, Limbo.cardMove, Frame.cardMove, bind_eq_ok, pure_eq_ok, Except.ok.injEq] at hs
    obtain ⟨⟨f1, c⟩, ⟨⟨b1, c1⟩, ⟨⟨L', c2⟩, h, e1⟩, e2⟩, rfl⟩ := hs
    cases e1
    cases e2
    simp only [Frame.step, Frame.cardMove, bind_eq_ok, pure_eq_ok, Except.ok.injEq] at hstep
    obtain ⟨⟨g1, c3⟩, ⟨⟨L3, c4⟩, h', e1⟩, rfl⟩ := hstep
    cases e1
    exact quiet hent (CountFrame.move h) (CountFrame.move (Layout.cardMove_back h'))
  | swap a b =>
    simp only [Limbo.undo, Limbo.cardSwap, Frame.cardSwap, bind_eq_ok, pure_eq_ok, Except.ok.injEq] at hs
    obtain ⟨_, ⟨L', h, rfl⟩, rfl⟩ := hs
    simp only [Frame.step, Frame.cardSwap, bind_eq_ok, pure_eq_ok, Except.ok.injEq] at hstep
    obtain ⟨L3, h', rfl⟩ := hstep
    obtain ⟨⟨C1, i, ha⟩, C2, j, hb'⟩ := Layout.cardSwap_places h'
    exact quiet hent (CountFrame.swap h) (CountFrame.swap (Layout.cardSwap_back ha hb' h'))
  | splice a n b r =>
    simp only [Limbo.undo, Limbo.pileSplice, Frame.pileSplice, bind_eq_ok, pure_eq_ok, Except.ok.injEq] at hs
    obtain ⟨_, ⟨L', h, rfl⟩, rfl⟩ := hs
    simp only [Frame.step, Frame.pileSplice, bind_eq_ok, pure_eq_ok, Except.ok.injEq] at hstep
    obtain ⟨L3, h', rfl⟩ := hstep
    exact quiet hent (CountFrame.splice h) (CountFrame.splice (Layout.pileSplice_back h'))
  | pswap a b =>
    simp only [Limbo.undo, Limbo.pileSwap, Frame.pileSwap, bind_eq_ok, pure_eq_ok, Except.ok.injEq] at hs
    obtain ⟨_, ⟨L', h, rfl⟩, rfl⟩ := hs
    simp only [Frame.step, Frame.pileSwap, bind_eq_ok, pure_eq_ok, Except.ok.injEq] at hstep
    obtain ⟨L3, h', rfl⟩ := hstep
    exact quiet hent (CountFrame.pswap h) (CountFrame.pswap (Layout.pileSwap_back h'))
  | add p =>
    obtain ⟨c, rfl⟩ := hent
    simp only [Limbo.undo, Limbo.undoCardAdd, Limbo.setLayout, Limbo.currentCard, List.append_assoc, List.singleton_append, List.length_append,
      List.length_singleton, Limbo.current_mk, Limbo.regress_mk, bind_eq_ok, pure_eq_ok, Except.ok.injEq] at hs
    obtain ⟨⟨f1, _⟩, ⟨_, _, _, _, ⟨c', L'⟩, h, _, _, _, _, _, rfl, e⟩, rfl⟩ := hs
    cases e
    simp only [Frame.step, Frame.cardAdd, Frame.construct, bind_eq_ok, pure_eq_ok, Except.ok.injEq] at hstep
    obtain ⟨⟨g1, _⟩, ⟨L3, h', e⟩, rfl⟩ := hstep
    cases e
    exact ⟨g0, es, .card c :: post, rfl, rfl, by simp, hk0, hcl.cons (by rintro l ⟨⟩),
      key (CountFrame.remove h) (CountFrame.remove (Layout.erase_insert h'))⟩
  | remove p =>
    obtain ⟨c, rfl⟩ := hent
    simp only [Limbo.undo, Limbo.undoCardRemove, Limbo.setLayout, Limbo.currentCard, List.append_assoc, List.singleton_append, List.length_append,
      List.length_singleton, Limbo.current_mk, Limbo.regress_mk, bind_eq_ok, pure_eq_ok, Except.ok.injEq] at hs
    obtain ⟨⟨f1, _⟩, ⟨c', ⟨_, e0, e1⟩, L', h, _, rfl, _, _, _, _, e⟩, rfl⟩ := hs
    cases e
    obtain ⟨C, i, c1, hp, hc, hm, hv, _, _⟩ := Frame.cardRemove_eq_ok.mp hstep
    have h' : g0.layout.cardErase p = .ok (c1, g.layout) := Layout.cardErase_eq_ok.mpr ⟨C, i, hp, hc, hv⟩
    exact ⟨g0, es, .card c :: post, rfl, rfl, by simp, hk0, hcl.cons (by rintro l ⟨⟩),
      key (CountFrame.add h) (CountFrame.add (Layout.insert_erase h'))⟩
  | clear =>
    obtain ⟨l, rfl, hl⟩ := hent
    simp only [Limbo.undo, Limbo.undoClear, Limbo.currentClear, List.append_assoc, List.singleton_append, List.length_append,
      List.length_singleton, Limbo.current_mk, Limbo.setCurrent_mk, Limbo.setLayout, Limbo.regress_mk, bind_ok, pure_eq_ok, Except.ok.injEq] at hs
    subst hs
    refine ⟨g0, es, .clear L :: post, rfl, rfl, by simp, hk0, hcl.cons ?_, hl⟩
    rintro _ ⟨⟩
    rw [hb]
    obtain ⟨g1, hg, _, _, hv, _⟩ := hk0.inv.clear
    rw [show g0.step .clear = g0.clear from rfl, hg] at hstep
    cases hstep
    congr 1
    exact view_inj (funext fun C => by rw [hv, view_empty]; try rfl)
  | resize p n =>
    obtain ⟨prev, s, rfl, hprev⟩ := hent
    simp only [Limbo.undo, Limbo.undoPileResize, Limbo.currentResize, List.append_assoc, List.singleton_append, List.length_append,
      List.length_singleton, Limbo.current_mk, Limbo.setCurrent_mk, Limbo.setLayout, Limbo.regress_mk, bind_eq_ok, massert_eq_ok, bind_ok,
      pure_eq_ok, Except.ok.injEq] at hs
    obtain ⟨_, hp, k, hkk, hs⟩ := hs
    have ha := isPile_pileKey_iff.mp ⟨hp, hkk⟩
    have hpr := hprev k _ ha
    have hback : ∀ v : List CardId, v.length = prev → (L.setPile k v).blank = g0.layout.blank := by
      intro v hv
      refine key (CountFrame.resize (n := prev) ha hv) ?_
      have : g0.layout = g.layout.setPile k (g0.layout.pile k) := by
        refine view_inj ?_
        obtain ⟨hv, _, _⟩ := Frame.pileResize_at ha hstep
        rw [view_setPile, hv, upd_upd]
        exact (upd_same ..).symm
      rw [this]
      exact CountFrame.resize ha hpr.symm
    split at hs
    · simp only [bind_eq_ok, massert_eq_ok, Except.ok.injEq] at hs
      obtain ⟨v, _, _, hv, rfl⟩ := hs
      exact ⟨g0, es, .resize prev s :: post, rfl, rfl, by simp, hk0, hcl.cons (by rintro l ⟨⟩), hback _ (by simpa using hv)⟩
    · split at hs
      · simp only [bind_eq_ok, Except.ok.injEq] at hs
        obtain ⟨v, _, rfl⟩ := hs
        exact ⟨g0, es, .resize prev v :: post, rfl, rfl, by simp, hk0, hcl.cons (by rintro l ⟨⟩), hback _ (by simp; omega)⟩
      · cases hs
        have := hback (L.pile k) (by omega)
        rw [Layout.setPile_same] at this
        exact ⟨g0, es, .resize prev s :: post, rfl, rfl, by simp, hk0, hcl.cons (by rintro l ⟨⟩), this⟩

theorem WalkInv.erase {f f' : Limbo} {past : List FrameOp} {g : Frame} {pre post : List LimboOp}
    (h : WalkInv f past g pre post) (hs : f.eraseHistory = .ok f') : ∃ g' pre' post', WalkInv f' past g' pre' post' := by
  obtain ⟨ho, hop, hq, hk, hcl, hb⟩ := h
  simp only [Limbo.eraseHistory] at hs
  split at hs
  · cases hs
    exact ⟨g, pre, post, ho, hop, hq, hk, hcl, hb⟩
  · simp only [bind_eq_ok, massert_eq_ok, pure_eq_ok, Except.ok.injEq] at hs
    obtain ⟨_, _, _, _, rfl⟩ := hs
    refine ⟨g, pre, [], ?_, hop, ?_, hk, .nil, hb⟩
    · simp [ho, hop]
    · simp [ho, hop]

theorem walk_inv {f : Limbo} {past : List FrameOp} (h : Walk f past) : ∃ g pre post, WalkInv f past g pre post := by
  induction h with
  | init => exact ⟨Frame.init, [], [], rfl, rfl, rfl, .nil, .nil, rfl⟩
  | step _ hs ih =>
    obtain ⟨g, pre, post, ih⟩ := ih
    exact ih.step hs
  | undo _ hs ih =>
    obtain ⟨g, pre, post, ih⟩ := ih
    exact ih.undo hs
  | erase _ hs ih =>
    obtain ⟨g, pre, post, ih⟩ := ih
    exact ih.erase hs

/-! ## Boards -/

theorem _root_.Ygo.Spec.Walk.runOps {Xs : List FrameOp} {f f' : Limbo} {past : List FrameOp} (h : Walk f past) (hr : Ygo.runOps f Xs = .ok f') :
    Walk f' (Xs.reverse ++ past) := by
  induction Xs generalizing f past with
  | nil => cases hr; exact h
  | cons X Xs ih =>
    simp only [Ygo.runOps, FrameLike.step, bind_eq_ok] at hr
    obtain ⟨f1, h1, h2⟩ := hr
    have := ih (h.step h1) h2
    simpa using this

theorem _root_.Ygo.Spec.Walk.undoOps {Xs : List FrameOp} {f f' : Limbo} {past : List FrameOp} (h : Walk f (Xs ++ past))
    (hr : UndoBoard.undoOps f Xs = .ok f') : Walk f' past := by
  induction Xs generalizing f with
  | nil => cases hr; exact h
  | cons X Xs ih =>
    simp only [UndoBoard.undoOps, bind_eq_ok] at hr
    obtain ⟨f1, h1, h2⟩ := hr
    exact ih (.undo h h1) h2

theorem _root_.Ygo.Spec.BoardWalk.frame {b : UndoBoard} {past : List Event} (h : BoardWalk b past) : Walk b.frame (allOps past.reverse).reverse := by
  induction h with
  | init => exact .init
  | parse _ hs ih =>
    have := ih.runOps (parse_frame hs)
    simpa [allOps] using this
  | undo _ hs ih =>
    refine Walk.undoOps ?_ (undo_frame hs)
    simpa [allOps] using ih

end Ygo
