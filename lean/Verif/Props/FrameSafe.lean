import Verif.Props.Frame

/-!
# Memory safety of `BasicFrame` (C18)
-/

namespace Ygo.Props
open Ygo Ygo.Spec

/-! ## Accessors -/

/-- **C18.** `has_card` of a well-formed place never aborts. -/
theorem C18_has_card_total (f : Frame) (p : Place) (hp : WellFormed p) : ∃ b, f.layout.hasCard p = .ok b := by
  obtain ⟨C, i, ha⟩ := wellFormed_iff_at.mp hp
  exact ⟨_, Layout.hasCard_at ha⟩

/-- **C18.** `card(p)` returns exactly when `has_card(p)`; otherwise it stops at an assertion. -/
theorem C18_card_iff_has_card (f : Frame) (p : Place) (hp : WellFormed p) :
    ((∃ c, f.layout.card p = .ok c) ↔ f.layout.hasCard p = .ok true) ∧
    (f.layout.hasCard p = .ok false → f.layout.card p = .error .assert) := by
  obtain ⟨C, i, ha⟩ := wellFormed_iff_at.mp hp
  constructor
  · rw [Layout.hasCard_at ha]
    constructor
    · rintro ⟨c, h⟩
      obtain ⟨D, j, h1, h2⟩ := Layout.card_eq_ok.mp h
      obtain ⟨rfl, rfl⟩ := At.unique ha h1
      simp [lt_of_getElem?_some h2]
    · intro h
      obtain ⟨c, hc⟩ := getElem?_some_of_lt (by simpa using h)
      exact ⟨c, Layout.card_eq_ok.mpr ⟨C, i, ha, hc⟩⟩
  · intro h
    simp [Layout.card, h]

/-- **C18.** The accessors read the board: `card(p)` is the card at the position the place names. -/
theorem C18_card_reads_board (f : Frame) (p : Place) (c : CardId) :
    f.layout.card p = .ok c ↔ ∃ C i, At p C i ∧ (view f.layout C)[i]? = some c :=
  Layout.card_eq_ok

example : WellFormed (mz0 6 3) ∧ WellFormed (hand0 1000) :=
  ⟨.zone 0 4 7 6 3 (.inl rfl) (by decide) (by decide), .pile 0 2 1000 (-1) (.inl rfl) (by decide)⟩
example : (demo.bind fun f => f.layout.hasCard (mz0 6 3)) = .ok false := by decide
example : (demo.bind fun f => f.layout.card (mz0 0 1)) = .ok 14 := by decide

/-! ## Operations -/

/-- Well-formed arguments, without the cases shown below to be unsafe: a material as the first place of a swap whose
zone sequence is not a valid material index, a splice beyond the end of its target, a shuffle with no cards or with a
pile as a new place. -/
def SafeArgs (f : Frame) : FrameOp → Prop
  | .add p | .remove p | .resize p _ => WellFormed p
  | .move a b | .pswap a b => WellFormed a ∧ WellFormed b
  | .swap a b => WellFormed a ∧ WellFormed b ∧
      ∀ k i, At a (.mats k) i → (∃ k' j, At b (.pile k') j) ∨ a.seq < (view f.layout (.mats k)).length
  | .splice a n b _ => WellFormed a ∧ WellFormed b ∧
      ∀ k1 i k2 j, At a (.pile k1) i → At b (.pile k2) j → j ≤ ((view f.layout).cut (.pile k1) i n (.pile k2)).length
  | .shuffle prev cur n => (∀ p ∈ prev, WellFormed p) ∧ (∀ p ∈ cur, p.isEmpty = true ∨ WellFormed p ∧ p.isPile = false) ∧
      prev ≠ [] ∧ n ≤ prev.length ∧ n ≤ cur.length
  | .clear => True

/-- **C18** (partial: the full claim has only `WellFormed` hypotheses; the further ones in `SafeArgs` are needed, see the `C18_*_ub` theorems).
No operation with well-formed places reaches undefined behaviour. -/
theorem C18_no_ub_partial (f : Frame) (op : FrameOp) (h : SafeArgs f op) : f.step op ≠ .error .ub := by
  show NoUb _
  cases op with
  | add p =>
    simp only [Frame.step, noUb_bind, Frame.cardAdd, Frame.construct]
    refine ⟨⟨Layout.cardInsert_noUb h, ?_⟩, ?_⟩ <;> simp
  | remove p =>
    simp only [Frame.step, Frame.cardRemove, noUb_bind]
    refine ⟨Layout.hasCard_noUb h, ?_⟩
    intro b hb
    refine ⟨by simp, ?_⟩
    intro _ hm
    have hb' : b = true := by
      cases b
      · simp [massert] at hm
      · rfl
    subst hb'
    refine ⟨Layout.cardErase_noUb hb, ?_⟩
    intro _ _
    exact Frame.destruct_noUb
  | move a b =>
    simp only [Frame.step, Frame.cardMove, noUb_bind]
    refine ⟨⟨Layout.cardMove_noUb h.1 h.2, ?_⟩, ?_⟩ <;> simp
  | shuffle p c n =>
    simp only [Frame.step, Frame.cardShuffle, noUb_bind]
    refine ⟨Layout.cardShuffle_noUb h.1 h.2.1 h.2.2.1 h.2.2.2.1 h.2.2.2.2, ?_⟩; simp
  | swap a b =>
    obtain ⟨h1, h2, h3⟩ := h
    obtain ⟨C1, i, ha⟩ := wellFormed_iff_at.mp h1
    obtain ⟨C2, j, hb⟩ := wellFormed_iff_at.mp h2
    simp only [Frame.step, Frame.cardSwap, noUb_bind]
    refine ⟨Layout.cardSwap_noUb ha hb ?_, by simp⟩
    intro hi
    cases C1 with
    | pile => exact hi
    | slot => exact hi
    | mats k =>
      cases C2 with
      | pile => exact hi
      | slot k' =>
        rcases h3 k i ha with ⟨k2, j2, h⟩ | h
        · have := (At.unique hb h).1; cases this
        · exact h
      | mats k' =>
        rcases h3 k i ha with ⟨k2, j2, h⟩ | h
        · have := (At.unique hb h).1; cases this
        · exact h
  | resize p n => exact Frame.pileResize_noUb h
  | splice a n b r =>
    simp only [Frame.step, Frame.pileSplice, noUb_bind]
    refine ⟨Layout.pileSplice_noUb h.1 h.2.1 (fun k1 k2 i j => h.2.2 k1 i k2 j), ?_⟩; simp
  | pswap a b =>
    simp only [Frame.step, Frame.pileSwap, noUb_bind]
    refine ⟨Layout.pileSwap_noUb h.1 h.2, ?_⟩; simp
  | clear => exact Frame.clear_noUb

/-- On the demo board, a move onto an occupied zone has safe arguments and stops at an assertion. -/
example : ∃ f, demo = .ok f ∧ SafeArgs f (.move (hand0 0) (mz0 1)) ∧ (demo.bind fun f => f.step (.move (hand0 0) (mz0 1))).toOption.isSome = false := by
  obtain ⟨f, hf⟩ := demo_ok
  refine ⟨f, hf, ⟨.pile 0 2 0 (-1) (.inl rfl) (by decide), .zone 0 4 7 1 (-1) (.inl rfl) (by decide) (by decide)⟩, by decide⟩

/-! ## Where the full claim fails -/

/-- What a run that ends in undefined behaviour looks like. -/
def isUb {α : Type} : Res α → Bool
  | .error .ub => true
  | _ => false

theorem isUb_iff {α : Type} {r : Res α} : isUb r = true ↔ r = .error .ub := by
  cases r with
  | ok a => simp [isUb]
  | error e => cases e <;> simp [isUb]

theorem ub_witness {op : FrameOp} (h : isUb (demo.bind fun f => f.step op) = true) :
    ∃ f, Reachable f ∧ f.step op = .error .ub := by
  obtain ⟨f, hf⟩ := demo_ok
  rw [hf] at h
  exact ⟨f, ⟨demoOps, hf⟩, isUb_iff.mp h⟩

/-- A board with materials under zone 5. -/
def demo5Ops : List FrameOp := [.add (mz0 5), .add (mz0 5 0), .add (mz0 0)]

/-- **C18, negation.** `card_swap` of material 0 of zone 5 with a monster reads material 5, out of bounds (frame.hpp:400). -/
theorem C18_card_swap_ub : ∃ f a b, Reachable f ∧ WellFormed a ∧ WellFormed b ∧
    f.layout.hasCard a = .ok true ∧ f.layout.hasCard b = .ok true ∧ f.step (.swap a b) = .error .ub := by
  have h0 : (Frame.init.run demo5Ops).toOption.isSome = true := by decide
  cases hd : Frame.init.run demo5Ops with
  | error e => rw [hd] at h0; cases h0
  | ok f =>
    have h1 : ((Frame.init.run demo5Ops).bind fun f => f.layout.hasCard (mz0 5 0)) = .ok true := by decide
    have h2 : ((Frame.init.run demo5Ops).bind fun f => f.layout.hasCard (mz0 0)) = .ok true := by decide
    have h3 : isUb ((Frame.init.run demo5Ops).bind fun f => f.step (.swap (mz0 5 0) (mz0 0))) = true := by decide
    rw [hd] at h1 h2 h3
    exact ⟨f, mz0 5 0, mz0 0, ⟨_, hd⟩, .zone 0 4 7 5 0 (.inl rfl) (by decide) (by decide),
      .zone 0 4 7 0 (-1) (.inl rfl) (by decide) (by decide), h1, h2, isUb_iff.mp h3⟩

/-- **C18, negation.** `pile_splice` to a position beyond the end of the target pile is undefined behaviour (frame.hpp:501). -/
theorem C18_pile_splice_ub : ∃ f a b, Reachable f ∧ WellFormed a ∧ WellFormed b ∧ f.step (.splice a 1 b false) = .error .ub := by
  obtain ⟨f, hr, h⟩ := ub_witness (op := .splice (hand0 0) 1 (grave1 3) false) (by decide)
  exact ⟨f, _, _, hr, .pile 0 2 0 (-1) (.inl rfl) (by decide), .pile 1 16 3 (-1) (.inr rfl) (by decide), h⟩

/-- **C18, negation.** `card_shuffle` of no cards dereferences the end of the range, and with a pile as a new place it
reaches the unreachable branch of the zone lookup. -/
theorem C18_card_shuffle_ub : (∃ f, Reachable f ∧ f.step (.shuffle [] [] 0) = .error .ub) ∧
    ∃ f a b, Reachable f ∧ WellFormed a ∧ WellFormed b ∧ f.step (.shuffle [a] [b] 1) = .error .ub := by
  refine ⟨ub_witness (by decide), ?_⟩
  obtain ⟨f, hr, h⟩ := ub_witness (op := .shuffle [mz0 0] [hand0 0] 1) (by decide)
  exact ⟨f, _, _, hr, .zone 0 4 7 0 (-1) (.inl rfl) (by decide) (by decide), .pile 0 2 0 (-1) (.inl rfl) (by decide), h⟩

/-- **C18, what ill-formed places do.** A negative controller passes the check and indexes out of bounds; two location
bits at once reach the unreachable branch. -/
theorem C18_ill_formed_place_ub : (∃ f, Reachable f ∧ f.layout.hasCard ⟨-1, 0x2, 0, -1⟩ = .error .ub) ∧
    ∃ f, Reachable f ∧ f.layout.hasCard ⟨0, 0x3, 0, -1⟩ = .error .ub :=
  ⟨⟨Frame.init, ⟨[], rfl⟩, isUb_iff.mp (by decide)⟩, ⟨Frame.init, ⟨[], rfl⟩, isUb_iff.mp (by decide)⟩⟩

/-! ## Exactly when -/

/-- Well-formed places, and iterator ranges that are long enough. -/
def WellFormedArgs : FrameOp → Prop
  | .add p | .remove p | .resize p _ => WellFormed p
  | .move a b | .pswap a b | .swap a b | .splice a _ b _ => WellFormed a ∧ WellFormed b
  | .shuffle prev cur n => (∀ p ∈ prev, WellFormed p) ∧ (∀ p ∈ cur, p.isEmpty = true ∨ WellFormed p) ∧ n ≤ prev.length ∧ n ≤ cur.length
  | .clear => True

/-- The calls that are undefined. A swap of a material with another card on the field when the zone's sequence number is no index of a
material; a splice of cards that are there to a position beyond the end of the target; a shuffle of no range at all, or one that gets to
a pile as new place. -/
def UnsafeArgs (f : Frame) : FrameOp → Prop
  | .swap a b => ∃ k i C j, At a (.mats k) i ∧ i < (view f.layout (.mats k)).length ∧ (view f.layout (.mats k)).length ≤ a.seq ∧
      At b C j ∧ j < (view f.layout C).length ∧ ∀ k', C ≠ .pile k'
  | .splice a n b _ => ∃ k1 i k2 j, At a (.pile k1) i ∧ At b (.pile k2) j ∧ n + i ≤ (view f.layout (.pile k1)).length ∧
      ((view f.layout).cut (.pile k1) i n (.pile k2)).length < j
  | .shuffle prev cur n => prev = [] ∨ (n ≤ 7 ∧ (∀ p ∈ prev.take n, f.layout.hasCard p = .ok true) ∧
      ∃ m p, m < n ∧ cur[m]? = some p ∧ p.isEmpty = false ∧ p.isPile = true ∧ ∃ f', f.step (.shuffle prev cur m) = .ok f')
  | _ => False

theorem replaceFirst_take (s x K : Nat) (l : List Nat) : (Layout.replaceFirst s x l).take K = Layout.replaceFirst s x (l.take K) := by
  induction l generalizing K with
  | nil => simp [Layout.replaceFirst]
  | cons a l ih =>
    cases K with
    | zero => simp [Layout.replaceFirst]
    | succ K =>
      simp only [Layout.replaceFirst, List.take_succ_cons]
      split
      · simp [ih]
      · simp

/-- The loop only looks at as many previous sequences as it has places. -/
theorem shuffleLoop_take {n i K : Nat} {ps : List Place} {seqs seqs' : List Nat} {l : Layout} (h : seqs.take K = seqs'.take K) (hK : i + n ≤ K) :
    Layout.shuffleLoop n i ps seqs l = Layout.shuffleLoop n i ps seqs' l := by
  induction n generalizing i ps seqs seqs' l with
  | zero => rfl
  | succ n ih =>
    cases ps with
    | nil => rfl
    | cons p ps =>
      simp only [Layout.shuffleLoop]
      have hi : seqs[i]? = seqs'[i]? := by
        have := congrArg (fun l => l[i]?) h
        simpa [List.getElem?_take, show i < K by omega] using this
      rw [hi]
      have ih1 := fun l => ih (i := i + 1) (ps := ps) (l := l) h (by omega)
      have ih2 := fun si l => ih (i := i + 1) (ps := ps) (l := l) (seqs := (Layout.replaceFirst p.seq si seqs).set i p.seq)
        (seqs' := (Layout.replaceFirst p.seq si seqs').set i p.seq) (by
          rw [List.take_set, List.take_set, replaceFirst_take, replaceFirst_take, h]) (by omega)
      split
      · exact ih1 l
      · simp only [ih2]

theorem zoneKey_pile {p : Place} (h : WellFormed p) (hp : p.isPile = true) (s : Nat) : Ygo.zoneKey p.con p.loc s = .error .ub := by
  obtain ⟨C, i, ha⟩ := wellFormed_iff_at.mp h
  cases ha with
  | pile k s o =>
    have hc : ((k.con.val : Nat) : Int) ≤ 1 := by omega
    simp only [Ygo.zoneKey, massert, hc, if_true, bind_ok]
    cases k with | mk c l => cases l <;> rfl
  | slot k o ho => simp at hp
  | mats k n => simp at hp

theorem shuffleLoop_ub {n i : Nat} {ps : List Place} {seqs : List Nat} {l : Layout}
    (h : ∀ p ∈ ps, p.isEmpty = true ∨ WellFormed p) (hn : n ≤ ps.length) (hs : i + n ≤ seqs.length) :
    Layout.shuffleLoop n i ps seqs l = .error .ub ↔
      ∃ m p, m < n ∧ ps[m]? = some p ∧ p.isEmpty = false ∧ p.isPile = true ∧ ∃ l', Layout.shuffleLoop m i ps seqs l = .ok l' := by
  induction n generalizing i ps seqs l with
  | zero => simp [Layout.shuffleLoop]
  | succ n ih =>
    cases ps with
    | nil => simp at hn
    | cons p ps =>
      have ih' := fun i seqs l hs => ih (i := i) (seqs := seqs) (l := l) (fun q hq => h q (List.mem_cons_of_mem _ hq)) (by simpa using hn) hs
      have shift : ∀ {P : Nat → Place → Prop}, p.isEmpty = true ∨ p.isPile = false →
          ((∃ m q, m < n + 1 ∧ (p :: ps)[m]? = some q ∧ q.isEmpty = false ∧ q.isPile = true ∧ P m q) ↔
            ∃ m q, m < n ∧ ps[m]? = some q ∧ q.isEmpty = false ∧ q.isPile = true ∧ P (m + 1) q) := by
        intro P hp
        constructor
        · rintro ⟨m, q, h1, h2, h3, h4, h5⟩
          cases m with
          | zero =>
            simp at h2; subst h2
            rcases hp with hp | hp
            · rw [hp] at h3; cases h3
            · rw [hp] at h4; cases h4
          | succ m => exact ⟨m, q, by omega, by simpa using h2, h3, h4, h5⟩
        · rintro ⟨m, q, h1, h2, h3, h4, h5⟩
          exact ⟨m + 1, q, by omega, by simpa using h2, h3, h4, h5⟩
      by_cases he : p.isEmpty = true
      · rw [shift (.inl he)]
        simp only [Layout.shuffleLoop, he, if_true]
        exact ih' _ _ _ (by omega)
      · have hw : WellFormed p := (h p (by simp)).resolve_left he
        have hsi : seqs[i]? = some seqs[i] := List.getElem?_eq_getElem (by omega)
        generalize seqs[i] = si at hsi
        by_cases hp : p.isPile = true
        · constructor
          · intro _
            exact ⟨0, p, by omega, rfl, by simpa using he, hp, l, rfl⟩
          · intro _
            simp only [Layout.shuffleLoop, he, hsi, orUb, bind_ok, zoneKey_pile hw hp]
            rfl
        · have hp' : p.isPile = false := by simpa using hp
          rw [shift (.inr hp')]
          simp only [Layout.shuffleLoop, he, hsi, orUb, bind_ok]
          have n1 := Layout.zoneKey_seq_noUb hw hp' si
          have n2 := Layout.zoneKey_seq_noUb hw hp' p.seq
          cases e1 : Ygo.zoneKey p.con p.loc si with
          | error e =>
            simp only [bind_error]
            constructor
            · intro e'; rw [e1] at n1; exact absurd (by simpa using e') n1
            · rintro ⟨m, q, _, _, _, _, l', hl⟩; simp at hl
          | ok k1 =>
            simp only [bind_ok]
            cases e2 : p.zoneKey with
            | error e =>
              simp only [bind_error]
              constructor
              · intro e'; simp only [Place.zoneKey] at e2; rw [e2] at n2; exact absurd (by simpa using e') n2
              · rintro ⟨m, q, _, _, _, _, l', hl⟩; simp at hl
            | ok k2 =>
              simp only [bind_ok]
              exact ih' _ _ _ (by simp [Layout.length_replaceFirst]; omega)

theorem shuffleSeqs_cards {l : Layout} {n : Nat} {ps : List Place} {seqs : List Nat} (h : l.shuffleSeqs n ps = .ok seqs) :
    ∀ p ∈ ps.take n, l.hasCard p = .ok true := by
  induction n generalizing ps seqs with
  | zero => simp
  | succ n ih =>
    cases ps with
    | nil => simp
    | cons p ps =>
      simp only [Layout.shuffleSeqs, bind_eq_ok, massert_eq_ok] at h
      obtain ⟨b, hb, _, rfl, r, hr, _⟩ := h
      intro q hq
      simp only [List.take_succ_cons, List.mem_cons] at hq
      rcases hq with rfl | hq
      · exact hb
      · exact ih hr q hq

/-- **C18.** Exactly the unsafe calls are undefined, for well-formed places. -/
theorem C18_ub_exactly (f : Frame) (op : FrameOp) (h : WellFormedArgs op) : f.step op = .error .ub ↔ UnsafeArgs f op := by
  cases op with
  | add p => simpa [UnsafeArgs] using C18_no_ub_partial f (.add p) h
  | remove p => simpa [UnsafeArgs] using C18_no_ub_partial f (.remove p) h
  | resize p n => simpa [UnsafeArgs] using C18_no_ub_partial f (.resize p n) h
  | move a b => simpa [UnsafeArgs] using C18_no_ub_partial f (.move a b) h
  | pswap a b => simpa [UnsafeArgs] using C18_no_ub_partial f (.pswap a b) h
  | clear => simpa [UnsafeArgs] using C18_no_ub_partial f .clear h
  | swap a b =>
    obtain ⟨C1, i, ha⟩ := wellFormed_iff_at.mp h.1
    obtain ⟨C2, j, hb⟩ := wellFormed_iff_at.mp h.2
    constructor
    · intro hub
      have hi : i < (view f.layout C1).length := Classical.byContradiction fun hi => by
        simp [Frame.step, Frame.cardSwap, Layout.cardSwap, Layout.hasCard_at ha, hi] at hub
      have hj : j < (view f.layout C2).length := Classical.byContradiction fun hj => by
        simp [Frame.step, Frame.cardSwap, Layout.cardSwap, Layout.hasCard_at ha, Layout.hasCard_at hb, hi, hj] at hub
      have hu : ¬ SafeArgs f (.swap a b) := fun hs => C18_no_ub_partial f _ hs hub
      simp only [SafeArgs, h.1, h.2, true_and, Classical.not_forall, not_or, Nat.not_lt] at hu
      obtain ⟨k, i', ha', hp, hl⟩ := hu
      obtain ⟨rfl, rfl⟩ := At.unique ha ha'
      refine ⟨k, i, C2, j, ha, hi, hl, hb, hj, ?_⟩
      rintro k' rfl
      exact hp ⟨k', j, hb⟩
    · rintro ⟨k, i', C, j', ha', hi, hl, hb', hj, hn⟩
      obtain ⟨rfl, rfl⟩ := At.unique ha ha'
      obtain ⟨rfl, rfl⟩ := At.unique hb hb'
      cases ha with
      | mats k i =>
      have hm : ¬ ((i : Int) < 0) := by omega
      have hr : (f.layout.zone k).materials[k.seq]? = none := List.getElem?_eq_none hl
      cases hb with
      | pile k' => exact absurd rfl (hn k')
      | slot k2 o2 h2 =>
        simp [Frame.step, Frame.cardSwap, Layout.cardSwap, Layout.hasCard_at (At.mats k i), Layout.hasCard_at (At.slot k2 o2 h2), hm, h2,
          Layout.swapRefs, Layout.read, hr, orUb]
        exact ⟨hi, hj⟩
      | mats k2 n =>
        have hn' : ¬ ((j : Int) < 0) := by omega
        simp [Frame.step, Frame.cardSwap, Layout.cardSwap, Layout.hasCard_at (At.mats k i), Layout.hasCard_at (At.mats k2 j), hm, hn',
          Layout.swapRefs, Layout.read, hr, orUb]
        exact ⟨hi, hj⟩
  | splice a n b r =>
    obtain ⟨C1, i, ha⟩ := wellFormed_iff_at.mp h.1
    obtain ⟨C2, j, hb⟩ := wellFormed_iff_at.mp h.2
    constructor
    · intro hub
      have hu : ¬ SafeArgs f (.splice a n b r) := fun hs => C18_no_ub_partial f _ hs hub
      simp only [SafeArgs, h.1, h.2, true_and, Classical.not_forall, Nat.not_le] at hu
      obtain ⟨k1, i', k2, j', ha', hb', hl⟩ := hu
      refine ⟨k1, i', k2, j', ha', hb', ?_, hl⟩
      refine Classical.byContradiction fun hc => ?_
      cases ha' with
      | pile k1 s1 o1 =>
      cases hb' with
      | pile k2 s2 o2 =>
      have hc' : ¬ (n + i' ≤ (f.layout.pile k1).length) := hc
      simp [Frame.step, Frame.pileSplice, Layout.pileSplice, hc', massert] at hub
    · rintro ⟨k1, i', k2, j', ha', hb', hl, hj⟩
      cases ha' with
      | pile k1 s1 o1 =>
      cases hb' with
      | pile k2 s2 o2 =>
      have hl' : n + i' ≤ (f.layout.pile k1).length := hl
      have hj' : ¬ (j' ≤ ((f.layout.setPile k1 ((f.layout.pile k1).take i' ++ (f.layout.pile k1).drop (i' + n))).pile k2).length) := by
        rw [← view_pile, view_setPile]; exact Nat.not_le.mpr hj
      simp only [Frame.step, Frame.pileSplice, Layout.pileSplice, Place.pileKey_mk, bind_ok, massert, hl', if_true, guardUb, hj', if_false,
        Place.isPile_pile]
      rfl
  | shuffle prev cur n =>
    obtain ⟨h1, h2, h3, h4⟩ := h
    cases prev with
    | nil => simp [UnsafeArgs, Frame.step, Frame.cardShuffle, Layout.cardShuffle, orUb]
    | cons p0 prev =>
      have hstep : ∀ m, f.step (.shuffle (p0 :: prev) cur m) = (do
          let l ← f.layout.cardShuffle (p0 :: prev) cur m
          pure { f with layout := l }) := fun m => rfl
      have hret : ∀ m, (∃ f', f.step (.shuffle (p0 :: prev) cur m) = .ok f') ↔ ∃ l', f.layout.cardShuffle (p0 :: prev) cur m = .ok l' := by
        intro m
        rw [hstep]
        cases f.layout.cardShuffle (p0 :: prev) cur m with
        | error e => simp
        | ok l => simp
      have hubs : f.step (.shuffle (p0 :: prev) cur n) = .error .ub ↔ f.layout.cardShuffle (p0 :: prev) cur n = .error .ub := by
        rw [hstep]
        cases f.layout.cardShuffle (p0 :: prev) cur n with
        | error e => simp
        | ok l => simp
      simp only [UnsafeArgs, hubs, hret, reduceCtorEq, false_or]
      have h3' : n ≤ prev.length + 1 := by simpa using h3
      by_cases hp : p0.isPile = true
      · simp [Layout.cardShuffle, orUb, hp, massert]
      have hp' : p0.isPile = false := by simpa using hp
      by_cases h7 : n ≤ 7
      · have hcs : ∀ m, m ≤ 7 → f.layout.cardShuffle (p0 :: prev) cur m = (f.layout.shuffleSeqs m (p0 :: prev)).bind fun seqs =>
            Layout.shuffleLoop m 0 cur seqs f.layout := by
          intro m hm
          simp [Layout.cardShuffle, orUb, hp', massert, guardUb, hm, bind, Except.bind]
        have hall : (∀ p ∈ (p0 :: prev).take n, f.layout.hasCard p = .ok true) →
            ∀ m, m ≤ n → f.layout.shuffleSeqs m (p0 :: prev) = .ok (((p0 :: prev).take m).map (·.seq)) := by
          intro hc m hm
          refine Layout.shuffleSeqs_returns (by omega) ?_
          intro p hpm
          exact hc p ((List.take_subset_take_left _ hm) hpm)
        cases hq : f.layout.shuffleSeqs n (p0 :: prev) with
        | error e =>
          have := Layout.shuffleSeqs_noUb (l := f.layout) h1 h3
          rw [hq] at this
          constructor
          · intro hub
            rw [hcs n h7, hq] at hub
            exact absurd (by simpa [Except.bind] using hub) this
          · rintro ⟨_, hc, _⟩
            rw [hall hc n (Nat.le_refl _)] at hq; cases hq
        | ok seqs =>
          have hc : ∀ p ∈ (p0 :: prev).take n, f.layout.hasCard p = .ok true := shuffleSeqs_cards hq
          have hseqs := hall hc n (Nat.le_refl _)
          rw [hq] at hseqs
          cases hseqs
          rw [hcs n h7, hq]
          show Layout.shuffleLoop n 0 cur _ f.layout = _ ↔ _
          rw [shuffleLoop_ub h2 h4 (by simp; omega)]
          constructor
          · rintro ⟨m, p, a1, a2, a3, a4, l', a5⟩
            refine ⟨h7, hc, m, p, a1, a2, a3, a4, l', ?_⟩
            rw [hcs m (by omega), hall hc m (by omega)]
            show Layout.shuffleLoop m 0 cur _ f.layout = _
            rw [← a5]
            refine shuffleLoop_take (K := m) ?_ (by omega)
            rw [List.take_of_length_le (by simp; omega), ← List.map_take, List.take_take, Nat.min_eq_left (by omega)]
          · rintro ⟨_, _, m, p, a1, a2, a3, a4, l', a5⟩
            refine ⟨m, p, a1, a2, a3, a4, l', ?_⟩
            rw [hcs m (by omega), hall hc m (by omega)] at a5
            rw [← a5]
            refine shuffleLoop_take (K := m) ?_ (by omega)
            simp only [← List.map_take, List.take_take, Nat.min_self, Nat.min_eq_left (Nat.le_of_lt a1)]
      · simp [Layout.cardShuffle, orUb, hp', massert, h7]

/-- There are reachable boards where each of the three kinds of unsafe calls exists. -/
example : (∃ f a b, Reachable f ∧ WellFormedArgs (.swap a b) ∧ UnsafeArgs f (.swap a b)) ∧
    (∃ f a b, Reachable f ∧ WellFormedArgs (.splice a 1 b false) ∧ UnsafeArgs f (.splice a 1 b false)) ∧
    ∃ f a b, Reachable f ∧ WellFormedArgs (.shuffle [a] [b] 1) ∧ UnsafeArgs f (.shuffle [a] [b] 1) := by
  obtain ⟨f, a, b, hr, ha, hb, _, _, hu⟩ := C18_card_swap_ub
  obtain ⟨f', a', b', hr', ha', hb', hu'⟩ := C18_pile_splice_ub
  obtain ⟨_, f2, a2, b2, hr2, ha2, hb2, hu2⟩ := C18_card_shuffle_ub
  have w : WellFormedArgs (.shuffle [a2] [b2] 1) := by simp [WellFormedArgs, ha2, hb2]
  exact ⟨⟨f, a, b, hr, ⟨ha, hb⟩, (C18_ub_exactly _ (.swap a b) ⟨ha, hb⟩).mp hu⟩,
    ⟨f', a', b', hr', ⟨ha', hb'⟩, (C18_ub_exactly _ (.splice a' 1 b' false) ⟨ha', hb'⟩).mp hu'⟩,
    ⟨f2, a2, b2, hr2, w, (C18_ub_exactly _ _ w).mp hu2⟩⟩

/-- And the swap of a material is defined where the zone's number happens to be the number of a material. -/
example : ((Frame.init.run [.add (mz0 0), .add (mz0 0 0), .add (mz0 1)]).bind fun f => f.step (.swap (mz0 0 0) (mz0 1))).toOption.isSome
    = true := by decide

end Ygo.Props
