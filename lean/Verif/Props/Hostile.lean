import Verif.Lemmas.Hostile
import Verif.Props.Table

/-!
# Events from a server that is not trusted (C84)
-/

namespace Ygo.Props
open Ygo Ygo.Spec

/-- Layout-level calls fail the way the frame's do. -/
theorem lift_ub {α β : Type} {x : Res α} {g : α → β} : (x >>= fun a => (.ok (g a) : Res β)) = .error .ub ↔ x = .error .ub := by
  cases x <;> simp

/-- **C84.** Exactly which calls of the frame are undefined, for all boards and all arguments. -/
theorem C84_call (f : Frame) (op : FrameOp) : f.step op = .error .ub ↔ Undefined f op := by
  cases op with
  | add p =>
    rw [show Undefined f (.add p) ↔ PutBad p from Iff.rfl, ← Layout.cardInsert_ub (l := f.layout) (c := f.next)]
    simp only [Frame.step, Frame.cardAdd, Frame.construct]
    cases f.layout.cardInsert p f.next <;> simp
  | remove p =>
    rw [show Undefined f (.remove p) ↔ LookBad p from Iff.rfl, ← Layout.hasCard_ub (l := f.layout)]
    simp only [Frame.step, Frame.cardRemove]
    cases hh : f.layout.hasCard p with
    | error e => simp
    | ok t =>
      cases t with
      | false => simp [massert]
      | true =>
        have := Layout.cardErase_noUb hh
        simp only [bind_ok, massert_true]
        cases hx : f.layout.cardErase p with
        | error e => rw [hx] at this; simpa [NoUb] using this
        | ok x => simp [Frame.destruct]
  | move a b =>
    have := Layout.cardMove_ub (l := f.layout) (a := a) (b := b)
    rw [pileLoc_iff, pileLoc_iff] at this
    simp only [Undefined, ← this, Frame.step, Frame.cardMove]
    cases f.layout.cardMove a b <;> simp
  | swap a b =>
    have nocc : ∀ {p : Place}, f.layout.hasCard p ≠ .ok true → ¬ Occupied (view f.layout) p :=
      fun h h' => h (Layout.hasCard_occupied.mpr h')
    show _ ↔ (LookBad a ∨ (Occupied (view f.layout) a ∧ LookBad b) ∨ UnsafeArgs f (.swap a b))
    simp only [← Layout.hasCard_ub (l := f.layout)]
    cases ha : f.layout.hasCard a with
    | error e =>
      have hn : ¬ Occupied (view f.layout) a := nocc (by rw [ha]; simp)
      have h3 : ¬ UnsafeArgs f (.swap a b) := fun ⟨k, i, _, _, h, h', _⟩ => hn ⟨_, _, h, h'⟩
      simp [hn, h3, Frame.step, Frame.cardSwap, Layout.cardSwap, ha]
    | ok t =>
      cases t with
      | false =>
        have hn : ¬ Occupied (view f.layout) a := nocc (by rw [ha]; simp)
        have h3 : ¬ UnsafeArgs f (.swap a b) := fun ⟨k, i, _, _, h, h', _⟩ => hn ⟨_, _, h, h'⟩
        simp [hn, h3, Frame.step, Frame.cardSwap, Layout.cardSwap, ha, massert]
      | true =>
        have ho : Occupied (view f.layout) a := Layout.hasCard_occupied.mp ha
        cases hb : f.layout.hasCard b with
        | error e =>
          have hn : ¬ Occupied (view f.layout) b := nocc (by rw [hb]; simp)
          have h3 : ¬ UnsafeArgs f (.swap a b) := fun ⟨k, i, _, _, _, _, _, h, h', _⟩ => hn ⟨_, _, h, h'⟩
          simp [ho, h3, Frame.step, Frame.cardSwap, Layout.cardSwap, ha, hb, massert]
        | ok t =>
          cases t with
          | false =>
            have hn : ¬ Occupied (view f.layout) b := nocc (by rw [hb]; simp)
            have h3 : ¬ UnsafeArgs f (.swap a b) := fun ⟨k, i, _, _, _, _, _, h, h', _⟩ => hn ⟨_, _, h, h'⟩
            simp [ho, h3, Frame.step, Frame.cardSwap, Layout.cardSwap, ha, hb, massert]
          | true =>
            obtain ⟨C, i, h1, _⟩ := ho
            obtain ⟨D, j, h2, _⟩ := Layout.hasCard_occupied.mp hb
            have := C18_ub_exactly f (.swap a b) ⟨wellFormed_iff_at.mpr ⟨C, i, h1⟩, wellFormed_iff_at.mpr ⟨D, j, h2⟩⟩
            rw [this]
            simp only [reduceCtorEq, and_false, false_or]
  | resize p n =>
    simp only [Undefined, ← pileLoc_iff]
    by_cases hp : p.isPile = true
    · simp only [hp, true_and, Layout.putBad_pile hp]
      cases hk : p.pileKey with
      | error e => simp [Frame.step, Frame.pileResize, massert_true hp, hk]
      | ok k =>
        refine iff_of_false ?_ (by simp)
        obtain ⟨h1, h2⟩ := pileKey_eq_ok.mp hk
        have : WellFormed p := by
          rw [wellFormed_iff_at]
          exact ⟨_, _, by have := At.pile k p.seq p.oseq; rw [← h1, ← h2] at this; exact this⟩
        exact Frame.pileResize_noUb this
    · simp [hp, Frame.step, Frame.pileResize, massert]
  | splice a n b r =>
    simp only [Undefined, ← pileLoc_iff]
    by_cases ha : a.isPile = true
    · by_cases hb : b.isPile = true
      · simp only [ha, hb, true_and, Layout.putBad_pile ha, Layout.putBad_pile hb]
        cases hk : a.pileKey with
        | error e =>
          have hno : ∀ k i, ¬ At a (.pile k) i := fun k i h => by have := h.pileKey; rw [hk] at this; cases this
          simp [Frame.step, Frame.pileSplice, Layout.pileSplice, massert_true ha, massert_true hb, hk, hno]
        | ok k1 =>
          obtain ⟨h1, h2⟩ := pileKey_eq_ok.mp hk
          have hat : At a (.pile k1) a.seq := by have := At.pile k1 a.seq a.oseq; rw [← h1, ← h2] at this; exact this
          have huniq : ∀ {k i}, At a (.pile k) i → k = k1 ∧ i = a.seq := fun h => by
            obtain ⟨e1, e2⟩ := At.unique hat h
            cases e1; exact ⟨rfl, e2.symm⟩
          by_cases hl : n + a.seq ≤ (f.layout.pile k1).length
          · cases hkb : b.pileKey with
            | error e =>
              have hno : ∀ k i, ¬ At b (.pile k) i := fun k i h => by have := h.pileKey; rw [hkb] at this; cases this
              simp only [Frame.step, Frame.pileSplice, Layout.pileSplice, massert_true ha, massert_true hb, hk, bind_ok, massert_true hl, hkb,
                bind_error, Except.error.injEq, reduceCtorEq, false_or, hno, false_and, exists_false, or_false]
              constructor
              · intro h; exact ⟨k1, a.seq, hat, hl, h⟩
              · rintro ⟨_, _, _, _, h⟩; exact h
            | ok k2 =>
              obtain ⟨h3, h4⟩ := pileKey_eq_ok.mp hkb
              have hbt : At b (.pile k2) b.seq := by have := At.pile k2 b.seq b.oseq; rw [← h3, ← h4] at this; exact this
              have := C18_ub_exactly f (.splice a n b r) ⟨wellFormed_iff_at.mpr ⟨_, _, hat⟩, wellFormed_iff_at.mpr ⟨_, _, hbt⟩⟩
              rw [this]
              simp only [UnsafeArgs, reduceCtorEq, false_or]
              constructor
              · rintro ⟨k1, i, k2, j, g1, g2, g3, g4⟩
                exact ⟨k1, i, g1, g3, k2, j, g2, g4⟩
              · rintro ⟨k1, i, g1, g3, k2, j, g2, g4⟩
                exact ⟨k1, i, k2, j, g1, g2, g3, g4⟩
          · refine iff_of_false ?_ ?_
            · simp [Frame.step, Frame.pileSplice, Layout.pileSplice, massert_true ha, massert_true hb, hk, massert_false hl]
            · rintro (h | ⟨k, i, h, h', _⟩)
              · cases h
              · obtain ⟨rfl, rfl⟩ := huniq h
                exact hl h'
      · simp [hb, Frame.step, Frame.pileSplice, Layout.pileSplice, massert_true ha]
    · simp [ha, Frame.step, Frame.pileSplice, Layout.pileSplice]
  | pswap a b =>
    simp only [Undefined, ← pileLoc_iff]
    by_cases ha : a.isPile = true
    · by_cases hb : b.isPile = true
      · simp only [ha, hb, true_and, Layout.putBad_pile ha, Layout.putBad_pile hb]
        cases hk : a.pileKey with
        | error e =>
          have hno : ¬ WellFormed a := fun h => by
            obtain ⟨C, i, h⟩ := wellFormed_iff_at.mp h
            cases h with
            | pile k s o => simp at hk
            | slot k o h => simp at ha
            | mats k n => simp at ha
          simp [Frame.step, Frame.pileSwap, Layout.pileSwap, massert_true ha, massert_true hb, hk, hno]
        | ok k1 =>
          obtain ⟨h1, h2⟩ := pileKey_eq_ok.mp hk
          have hw : WellFormed a := wellFormed_iff_at.mpr ⟨_, _, by have := At.pile k1 a.seq a.oseq; rw [← h1, ← h2] at this; exact this⟩
          simp only [hw, true_and, reduceCtorEq, false_or, Frame.step, Frame.pileSwap, Layout.pileSwap, massert_true ha, massert_true hb, hk, bind_ok]
          cases b.pileKey <;> simp
      · simp [hb, Frame.step, Frame.pileSwap, Layout.pileSwap, massert_true ha]
    · simp [ha, Frame.step, Frame.pileSwap, Layout.pileSwap]
  | clear => simpa [Undefined, NoUb] using C18_no_ub_partial f .clear trivial
  | shuffle prev cur n =>
    cases prev with
    | nil => simp [Undefined, Frame.step, Frame.cardShuffle, Layout.cardShuffle, orUb]
    | cons p0 prev =>
      have hstep : ∀ m cur, f.step (.shuffle (p0 :: prev) cur m) = (do
          let l ← f.layout.cardShuffle (p0 :: prev) cur m
          pure { f with layout := l }) := fun m cur => rfl
      have hret : ∀ m cur, (∃ f', f.step (.shuffle (p0 :: prev) cur m) = .ok f') ↔ ∃ l', f.layout.cardShuffle (p0 :: prev) cur m = .ok l' := by
        intro m cur
        rw [hstep]
        cases f.layout.cardShuffle (p0 :: prev) cur m with
        | error e => simp
        | ok l => simp
      have hubs : f.step (.shuffle (p0 :: prev) cur n) = .error .ub ↔ f.layout.cardShuffle (p0 :: prev) cur n = .error .ub := by
        rw [hstep]
        cases f.layout.cardShuffle (p0 :: prev) cur n with
        | error e => simp
        | ok l => simp
      simp only [Undefined, hubs, hret, reduceCtorEq, false_or, List.head?_cons, Option.some.injEq, exists_eq_left']
      rw [← pileLoc_iff]
      by_cases hp : p0.isPile = true
      · simp [Layout.cardShuffle, orUb, hp, massert]
      have hp' : p0.isPile = false := by simpa using hp
      by_cases h7 : n ≤ 7
      · simp only [h7, hp', Bool.false_eq_true, not_false_eq_true, true_and]
        have hcs : ∀ m cur, m ≤ 7 → f.layout.cardShuffle (p0 :: prev) cur m = (f.layout.shuffleSeqs m (p0 :: prev)).bind fun seqs =>
            Layout.shuffleLoop m 0 cur seqs f.layout := by
          intro m cur hm
          simp [Layout.cardShuffle, orUb, hp', massert, guardUb, hm, bind, Except.bind]
        rw [← Layout.shuffleSeqs_ub]
        have hall : n ≤ (p0 :: prev).length → (∀ p ∈ (p0 :: prev).take n, Occupied (view f.layout) p) →
            ∀ m, m ≤ n → f.layout.shuffleSeqs m (p0 :: prev) = .ok (((p0 :: prev).take m).map (·.seq)) := by
          intro hl hc m hm
          refine Layout.shuffleSeqs_returns (by omega) ?_
          intro p hpm
          exact Layout.hasCard_occupied.mpr (hc p ((List.take_subset_take_left _ hm) hpm))
        cases hq : f.layout.shuffleSeqs n (p0 :: prev) with
        | error e =>
          rw [hcs n _ h7, hq]
          constructor
          · intro h; exact .inl (by simpa [Except.bind] using h)
          · rintro (h | ⟨h1, h2, _⟩)
            · simpa [Except.bind] using h
            · rw [hall h2 h1 n (Nat.le_refl _)] at hq; cases hq
        | ok seqs =>
          have hc : ∀ p ∈ (p0 :: prev).take n, Occupied (view f.layout) p :=
            fun p h => Layout.hasCard_occupied.mp (shuffleSeqs_cards hq p h)
          obtain ⟨hlen, hseqs⟩ := Layout.shuffleSeqs_eq_ok hq
          have hgo : ∀ m cur, m ≤ n → ((∃ l', f.layout.cardShuffle (p0 :: prev) cur m = .ok l') ↔
              ∃ l', Layout.shuffleLoop m 0 cur seqs f.layout = .ok l') := by
            intro m cur hm
            rw [hcs m cur (by omega), hall hlen hc m hm]
            show (∃ l', Layout.shuffleLoop m 0 cur _ f.layout = .ok l') ↔ _
            rw [shuffleLoop_take (K := m) (seqs' := seqs) ?_ (by omega)]
            rw [hseqs, ← List.map_take, ← List.map_take, List.take_take, List.take_take, Nat.min_self, Nat.min_eq_left hm]
          rw [hcs n _ h7, hq]
          show Layout.shuffleLoop n 0 cur _ f.layout = _ ↔ _
          have hlen' : 0 + n ≤ seqs.length := by
            rw [hseqs]
            simp only [List.length_map, List.length_take]; omega
          rw [Layout.shuffleLoop_undefined hlen']
          constructor
          · rintro ⟨m, hm, h1, h2⟩
            refine .inr ⟨hc, hlen, m, hm, (hgo m cur (by omega)).mpr h1, ?_⟩
            intro q hq
            obtain ⟨g1, g2, g3⟩ := h2 q hq
            exact ⟨g1, g2, g3.imp id fun h => ⟨h.1, (hgo (m + 1) _ hm).mpr h.2⟩⟩
          · rintro (h | ⟨_, _, m, hm, h1, h2⟩)
            · cases h
            · refine ⟨m, hm, (hgo m cur (by omega)).mp h1, ?_⟩
              intro q hq
              obtain ⟨g1, g2, g3⟩ := h2 q hq
              exact ⟨g1, g2, g3.imp id fun h => ⟨h.1, (hgo (m + 1) _ hm).mp h.2⟩⟩
      · simp [Layout.cardShuffle, orUb, hp', massert, h7]

/-- An ill-formed target of a move is not looked at when there is no card to move; a card cannot be added nowhere; players before the
first are not checked, players after the second are. -/
example : ¬ Undefined Frame.init (.move ⟨0, 2, 0, -1⟩ ⟨0, 0, 0, 0⟩) ∧ Undefined Frame.init (.add ⟨0, 0, 0, 0⟩) ∧
    Undefined Frame.init (.remove ⟨-1, 2, 0, 0⟩) ∧ ¬ Undefined Frame.init (.remove ⟨2, 2, 0, 0⟩) := by
  simp only [← C84_call]
  refine ⟨?_, ?_, ?_, ?_⟩ <;> simp only [← isUb_iff] <;> decide

/-! ## Events -/

/-- The calls of a history up to the one that is undefined. -/
theorem runOps_ub {f : Frame} {ops : List FrameOp} : runOps f ops = .error .ub ↔
    ∃ pre op post g, ops = pre ++ op :: post ∧ runOps f pre = .ok g ∧ g.step op = .error .ub := by
  induction ops generalizing f with
  | nil => simp [runOps]
  | cons o ops ih =>
    simp only [runOps, FrameLike.step, bind_eq_error]
    constructor
    · rintro (h | ⟨g, hg, h⟩)
      · exact ⟨[], o, ops, f, rfl, rfl, h⟩
      · obtain ⟨pre, op, post, g', rfl, h2, h3⟩ := ih.mp h
        exact ⟨o :: pre, op, post, g', rfl, by simp only [runOps, FrameLike.step, hg, bind_ok, h2], h3⟩
    · rintro ⟨pre, op, post, g, h1, h2, h3⟩
      cases pre with
      | nil =>
        simp only [List.nil_append, List.cons.injEq] at h1
        obtain ⟨rfl, rfl⟩ := h1
        cases h2
        exact .inl h3
      | cons o' pre =>
        simp only [List.cons_append, List.cons.injEq] at h1
        obtain ⟨rfl, rfl⟩ := h1
        simp only [runOps, FrameLike.step, bind_eq_ok] at h2
        obtain ⟨g1, hg1, h2⟩ := h2
        exact .inr ⟨g1, hg1, ih.mpr ⟨pre, op, post, g, rfl, h2, h3⟩⟩

/-- What is undefined beside the calls of the frame: life points that the state event does not have, the end of an empty chain, the life
points of a third player. -/
def UndefinedBeside (b : PlainBoard) : Event → Prop
  | .board (.state s) => s.lps.length < 2
  | .chainStack (.pop _) => b.chainStack.val = []
  | .lp con _ => con = 2
  | _ => False

theorem onFrame_ub {b : PlainBoard} {ops : List FrameOp} : DuelBoard.onFrame b ops = .error .ub ↔ runOps b.frame ops = .error .ub := by
  simp only [DuelBoard.onFrame]
  cases runOps b.frame ops <;> simp

/-- **C84.** Exactly which events are undefined on a board: those that are undefined beside the frame, and those one of whose calls is
undefined after the calls before it went well. -/
theorem C84_event (b : PlainBoard) (e : Event) : b.parseEvent e = .error .ub ↔ UndefinedBeside b e ∨
    ∃ pre op post g, callsOf e = pre ++ op :: post ∧ runOps b.frame pre = .ok g ∧ Undefined g op := by
  simp only [← C84_call, ← runOps_ub]
  cases e with
  | board e =>
    cases e with
    | unset => simp [DuelBoard.parseEvent, UndefinedBeside, callsOf, runOps]
    | exchange e => exact (onFrame_ub (b := b)).trans (by simp only [UndefinedBeside, false_or]; rfl)
    | state s =>
      by_cases hl : s.lps.length < 2
      · refine iff_of_true ?_ (.inl hl)
        match hs : s.lps, hl with
        | [], _ => simp [DuelBoard.parseEvent, DuelBoard.parseState, hs, orUb]
        | [x], _ => simp [DuelBoard.parseEvent, DuelBoard.parseState, hs, orUb]
      · have h0 : s.lps[0]? = some s.lps[0] := List.getElem?_eq_getElem (by omega)
        have h1 : s.lps[1]? = some s.lps[1] := List.getElem?_eq_getElem (by omega)
        simp only [UndefinedBeside, hl, false_or, DuelBoard.parseEvent, DuelBoard.parseState, h0, h1, orUb, bind_ok]
        rw [onFrame_ub]
        split <;> rfl
  | card r e => cases e <;> exact (onFrame_ub (b := b)).trans (by simp only [UndefinedBeside, false_or]; rfl)
  | chainStack e =>
    cases e with
    | unset => simp [DuelBoard.parseEvent, UndefinedBeside, callsOf, runOps]
    | push c => simp [DuelBoard.parseEvent, UndefinedBeside, callsOf, runOps, Cell.push]
    | pop x =>
      by_cases h : b.chainStack.val = []
      · simp [DuelBoard.parseEvent, UndefinedBeside, callsOf, runOps, Cell.pop, h, guardUb]
      · have : b.chainStack.val.length ≠ 0 := fun e => h (List.eq_nil_of_length_eq_zero e)
        simp [DuelBoard.parseEvent, UndefinedBeside, callsOf, runOps, Cell.pop, h, guardUb]
  | nextTurn con => simp [DuelBoard.parseEvent, UndefinedBeside, callsOf, runOps, Cell.get]
  | lp con c =>
    have : DuelBoard.lpIdx con = .error .ub ↔ con = 2 := by
      simp only [DuelBoard.lpIdx, bind_eq_error, massert_eq_error, massert_eq_ok, conIdx_ub, reduceCtorEq, and_false, false_or]
      constructor
      · rintro ⟨_, h1, h2⟩; omega
      · rintro rfl; exact ⟨(), by omega, by omega⟩
    simp only [UndefinedBeside, ← this, DuelBoard.parseEvent, callsOf, runOps, Cell.get]
    cases DuelBoard.lpIdx con <;> simp
  | nextPhase p => simp [DuelBoard.parseEvent, UndefinedBeside, callsOf, runOps]
  | pile r e => cases e <;> exact (onFrame_ub (b := b)).trans (by simp only [UndefinedBeside, false_or]; rfl)
  | zoneBlock zs => simp [DuelBoard.parseEvent, UndefinedBeside, callsOf, runOps]
  | finish _ => simp [DuelBoard.parseEvent, UndefinedBeside, callsOf, runOps]
  | metaInfo _ => simp [DuelBoard.parseEvent, UndefinedBeside, callsOf, runOps]
  | result _ => simp [DuelBoard.parseEvent, UndefinedBeside, callsOf, runOps]
  | unset => simp [DuelBoard.parseEvent, UndefinedBeside, callsOf, runOps]

/-- Several events: exactly when the first one that fails is undefined. -/
theorem C84_events (b : PlainBoard) (es : List Event) : b.parseEvents es = .error .ub ↔
    ∃ pre e post b', es = pre ++ e :: post ∧ b.parseEvents pre = .ok b' ∧ (UndefinedBeside b' e ∨
      ∃ cs op ds g, callsOf e = cs ++ op :: ds ∧ runOps b'.frame cs = .ok g ∧ Undefined g op) := by
  simp only [← C84_event]
  induction es generalizing b with
  | nil => simp [DuelBoard.parseEvents]
  | cons o es ih =>
    simp only [DuelBoard.parseEvents, bind_eq_error]
    constructor
    · rintro (h | ⟨g, hg, h⟩)
      · exact ⟨[], o, es, b, rfl, rfl, h⟩
      · obtain ⟨pre, op, post, g', rfl, h2, h3⟩ := (ih g).mp h
        exact ⟨o :: pre, op, post, g', rfl, by simp only [DuelBoard.parseEvents, hg, bind_ok, h2], h3⟩
    · rintro ⟨pre, op, post, g, h1, h2, h3⟩
      cases pre with
      | nil =>
        simp only [List.nil_append, List.cons.injEq] at h1
        obtain ⟨rfl, rfl⟩ := h1
        cases h2
        exact .inl h3
      | cons o' pre =>
        simp only [List.cons_append, List.cons.injEq] at h1
        obtain ⟨rfl, rfl⟩ := h1
        simp only [DuelBoard.parseEvents, bind_eq_ok] at h2
        obtain ⟨g1, hg1, h2⟩ := h2
        exact .inr ⟨g1, hg1, (ih g1).mpr ⟨pre, op, post, g, rfl, h2, h3⟩⟩

/-- Calls that are never undefined, whatever the board: places that exist, and no call that counts on more than that. -/
def Checked : FrameOp → Prop
  | .add p | .remove p | .resize p _ => WellFormed p
  | .move a b | .pswap a b => WellFormed a ∧ WellFormed b
  | .clear => True
  | .swap a b => WellFormed a ∧ WellFormed b ∧ 0 > a.oseq
  | .splice a _ b _ => WellFormed a ∧ WellFormed b ∧ b.seq = 0
  | .shuffle prev cur n => prev ≠ [] ∧ n ≤ prev.length ∧ n ≤ cur.length ∧ (∀ p ∈ prev, WellFormed p) ∧
      ∀ q ∈ cur, q.loc = 0 ∨ WellFormed q ∧ ¬ InPile q.loc

theorem checked_safe {f : Frame} {op : FrameOp} (h : Checked op) : SafeArgs f op := by
  cases op with
  | add p => exact h
  | remove p => exact h
  | resize p n => exact h
  | move a b => exact h
  | pswap a b => exact h
  | clear => trivial
  | swap a b =>
    refine ⟨h.1, h.2.1, ?_⟩
    intro k i ha
    have := h.2.2
    cases ha
    simp at this; omega
  | splice a n b r =>
    refine ⟨h.1, h.2.1, ?_⟩
    intro k1 i k2 j _ hb
    have := h.2.2
    cases hb
    simp at this; omega
  | shuffle prev cur n =>
    obtain ⟨h1, h2, h3, h4, h5⟩ := h
    refine ⟨h4, ?_, h1, h2, h3⟩
    intro q hq
    rcases h5 q hq with h | ⟨h, h'⟩
    · left; simp [Place.isEmpty, locIsEmpty, h]
    · exact .inr ⟨h, (pileLoc_false_iff q).mpr h'⟩

/-- **C84.** A client that checks the places of an event before it parses it never runs into undefined behaviour, on any board
and whatever the places are otherwise. -/
theorem C84_checked (b : PlainBoard) (e : Event) (hb : ¬ UndefinedBeside b e) (hc : ∀ op ∈ callsOf e, Checked op) :
    b.parseEvent e ≠ .error .ub := by
  rw [Ne, C84_event]
  rintro (h | ⟨pre, op, post, g, h1, _, h2⟩)
  · exact hb h
  · exact C18_no_ub_partial g op (checked_safe (hc op (by rw [h1]; simp))) ((C84_call g op).mpr h2)

/-- One event from a hostile server is enough, also on a new board. -/
example : UndefinedBeside PlainBoard.init (.lp 2 .unset) ∧ UndefinedBeside PlainBoard.init (.chainStack (.pop default)) ∧
    (PlainBoard.init.parseEvent (.card 0 (.add [⟨0, 0, 0, 0⟩]))) = .error .ub ∧
    (PlainBoard.init.parseEvent (.card 0 (.shuffle [] []))) = .error .ub ∧
    (PlainBoard.init.parseEvent (.board (.exchange ⟨0, [], [], [⟨⟨0, 3, 0, -1⟩, 1⟩]⟩))) = .error .ub := by
  refine ⟨rfl, rfl, ?_, ?_, ?_⟩
  · exact (C84_event _ _).mpr (.inr ⟨[], _, [], _, rfl, rfl, by
      rw [← C84_call, ← isUb_iff]; decide⟩)
  · exact (C84_event _ _).mpr (.inr ⟨[], _, [], _, rfl, rfl, .inl rfl⟩)
  · exact (C84_event _ _).mpr (.inr ⟨[], _, [], _, rfl, rfl, by
      rw [← C84_call, ← isUb_iff]; decide⟩)

/-! ## The frame that can be undone -/

/-- **C84.** A frame that can be undone is undefined for the same calls, and one more: making a pile shorter by less than half. -/
theorem C84_undoable_call (f : Limbo) (hl : LiveFrame f) (op : FrameOp) : f.step op = .error .ub ↔ Undefined f.base op ∨
    ∃ p n k i, op = .resize p n ∧ At p (.pile k) i ∧ n < (view f.base.layout (.pile k)).length ∧ (view f.base.layout (.pile k)).length < 2 * n := by
  rw [← C84_call]
  obtain ⟨b, o, q, ops⟩ := f
  obtain ⟨h1, h2⟩ := hl
  simp only at h1 h2
  subst h1 h2
  cases op with
  | resize p n =>
    rw [C84_call]
    simp only [Undefined, ← pileLoc_iff, FrameOp.resize.injEq, Limbo.step, Limbo.pileResize, Limbo.advance]
    by_cases hp : p.isPile = true
    · simp only [hp, true_and, Layout.putBad_pile hp, massert_true, bind_ok]
      cases hk : p.pileKey with
      | error e =>
        have hno : ∀ k i, ¬ At p (.pile k) i := fun k i h => by have := h.pileKey; rw [hk] at this; cases this
        simp [hno]
      | ok k =>
        obtain ⟨h1, h2⟩ := pileKey_eq_ok.mp hk
        have hat : At p (.pile k) p.seq := by have := At.pile k p.seq p.oseq; rw [← h1, ← h2] at this; exact this
        have hr : (∃ p' n' k' i, (p = p' ∧ n = n') ∧ At p' (.pile k') i ∧ n' < (view b.layout (.pile k')).length ∧
            (view b.layout (.pile k')).length < 2 * n') ↔ n < (b.layout.pile k).length ∧ (b.layout.pile k).length < 2 * n := by
          constructor
          · rintro ⟨_, _, k', i, ⟨rfl, rfl⟩, h, h3, h4⟩
            have := (At.unique hat h).1
            cases this
            exact ⟨h3, h4⟩
          · rintro ⟨h3, h4⟩
            exact ⟨p, n, k, p.seq, ⟨rfl, rfl⟩, hat, h3, h4⟩
        simp only [reduceCtorEq, false_or, hr]
        simp only [Limbo.currentResize, Limbo.current, Limbo.emplace, if_true, List.length_append, List.length_singleton, ge_iff_le,
          Nat.le_refl, massert_true, bind_ok, guardUb, ne_eq, Nat.add_eq_zero_iff, Nat.one_ne_zero, and_false, not_false_eq_true,
          Nat.add_sub_cancel, List.getElem?_concat_length, orUb, pure_eq_ok]
        by_cases hg : (b.layout.pile k).length < n
        · simp only [if_pos hg]; simp; omega
        · simp only [if_neg hg]
          by_cases hs : n < (b.layout.pile k).length
          · simp only [Limbo.copyOver, Limbo.resizeSlice, guardUb, hs, true_and]
            by_cases hc : n ≤ (b.layout.pile k).length - n
            · have : ((b.layout.pile k).length - ((b.layout.pile k).length - n)) ≤ ((b.layout.pile k).length - n) := by omega
              simp [this]; omega
            · have : ¬ ((b.layout.pile k).length - ((b.layout.pile k).length - n)) ≤ ((b.layout.pile k).length - n) := by omega
              simp [this]; omega
          · simp only [if_neg hs]; simp [hs]
    · simp [hp]
      intro x y h
      exact absurd h.isPile hp
  | add p =>
    simp only [reduceCtorEq, false_and, exists_false, or_false, Limbo.step, Limbo.cardAdd, Limbo.advance, Frame.step, if_true]
    cases b.cardAdd p <;> simp
  | remove p =>
    simp only [reduceCtorEq, false_and, exists_false, or_false, Limbo.step, Limbo.cardRemove, Limbo.advance, Frame.step, Frame.cardRemove]
    cases b.layout.hasCard p with
    | error e => simp
    | ok t =>
      cases t with
      | false => simp [massert]
      | true =>
        simp only [bind_ok, massert_true]
        cases b.layout.cardErase p with
        | error e => simp
        | ok x => simp [Frame.destruct, Limbo.setLayout]
  | move x y =>
    simp only [reduceCtorEq, false_and, exists_false, or_false, Limbo.step, Limbo.cardMove, Frame.step]
    cases b.cardMove x y <;> simp
  | swap x y =>
    simp only [reduceCtorEq, false_and, exists_false, or_false, Limbo.step, Limbo.cardSwap, Frame.step]
    cases b.cardSwap x y <;> simp
  | splice x n y r =>
    simp only [reduceCtorEq, false_and, exists_false, or_false, Limbo.step, Limbo.pileSplice, Frame.step]
    cases b.pileSplice x n y r <;> simp
  | pswap x y =>
    simp only [reduceCtorEq, false_and, exists_false, or_false, Limbo.step, Limbo.pileSwap, Frame.step]
    cases b.pileSwap x y <;> simp
  | shuffle prev cur n =>
    simp only [reduceCtorEq, false_and, exists_false, or_false, Limbo.step, Limbo.cardShuffle, Frame.step]
    cases b.cardShuffle prev cur n <;> simp
  | clear =>
    rw [C84_call]
    simp [Undefined, Limbo.step, Limbo.clear, Limbo.advance, Limbo.currentClear, Limbo.current, Limbo.emplace, guardUb, orUb, massert]

/-- On a pile of five cards: four are kept. -/
example : ∃ f : Limbo, LiveFrame f ∧ f.step (.resize ⟨0, 2, 0, -1⟩ 4) = .error .ub := by
  refine ⟨⟨⟨Layout.empty.setPile ⟨0, .hand⟩ [0, 1, 2, 3, 4], [4, 3, 2, 1, 0], 5⟩, 0, 0, []⟩, ⟨rfl, rfl⟩, ?_⟩
  exact (C84_undoable_call _ ⟨rfl, rfl⟩ _).mpr (.inr ⟨_, _, ⟨0, .hand⟩, 0, rfl, .pile ⟨0, .hand⟩ 0 (-1), by decide, by decide⟩)

/-- Calls that are undefined on a frame that can be undone. -/
def UndefinedUndoable (f : Limbo) (op : FrameOp) : Prop := Undefined f.base op ∨
  ∃ p n k i, op = .resize p n ∧ At p (.pile k) i ∧ n < (view f.base.layout (.pile k)).length ∧ (view f.base.layout (.pile k)).length < 2 * n

/-- Beside the frame; the end of an empty chain aborts here, as every link does. -/
def UndefinedBesideUndoable : Event → Prop
  | .board (.state s) => s.lps.length < 2
  | .lp con _ => con = 2
  | _ => False

theorem undoable_runOps_ub {f : Limbo} {ops : List FrameOp} (hl : LiveFrame f) : runOps f ops = .error .ub ↔
    ∃ pre op post g, ops = pre ++ op :: post ∧ runOps f pre = .ok g ∧ UndefinedUndoable g op := by
  induction ops generalizing f with
  | nil => simp [runOps]
  | cons o ops ih =>
    simp only [runOps, FrameLike.step, bind_eq_error]
    constructor
    · rintro (h | ⟨g, hg, h⟩)
      · exact ⟨[], o, ops, f, rfl, rfl, (C84_undoable_call f hl o).mp h⟩
      · obtain ⟨pre, op, post, g', rfl, h2, h3⟩ := (ih (Limbo.step_log hl hg).1).mp h
        exact ⟨o :: pre, op, post, g', rfl, by simp only [runOps, FrameLike.step, hg, bind_ok, h2], h3⟩
    · rintro ⟨pre, op, post, g, h1, h2, h3⟩
      cases pre with
      | nil =>
        simp only [List.nil_append, List.cons.injEq] at h1
        obtain ⟨rfl, rfl⟩ := h1
        cases h2
        exact .inl ((C84_undoable_call f hl o).mpr h3)
      | cons o' pre =>
        simp only [List.cons_append, List.cons.injEq] at h1
        obtain ⟨rfl, rfl⟩ := h1
        simp only [runOps, FrameLike.step, bind_eq_ok] at h2
        obtain ⟨g1, hg1, h2⟩ := h2
        exact .inr ⟨g1, hg1, (ih (Limbo.step_log hl hg1).1).mpr ⟨pre, op, post, g, rfl, h2, h3⟩⟩

theorem undoable_onFrame_ub {b : UndoBoard} {ops : List FrameOp} : DuelBoard.onFrame b ops = .error .ub ↔ runOps b.frame ops = .error .ub := by
  simp only [DuelBoard.onFrame]
  cases runOps b.frame ops <;> simp

theorem live_get {α : Type} {u : Undoable α} (h : LiveCell u) : ∃ v, u.get = .ok v := by
  unfold LiveCell at h
  have : u.current < u.values.length := by omega
  exact ⟨u.values[u.current], by simp [Undoable.get, orUb, this]⟩

/-- **C84.** Exactly which events are undefined on a board that can be undone. -/
theorem C84_undoable_event (b : UndoBoard) (hl : Live b) (e : Event) : b.parseEvent e = .error .ub ↔ UndefinedBesideUndoable e ∨
    ∃ pre op post g, callsOf e = pre ++ op :: post ∧ runOps b.frame pre = .ok g ∧ UndefinedUndoable g op := by
  rw [← undoable_runOps_ub hl.frame]
  cases e with
  | board e =>
    cases e with
    | unset => simp [DuelBoard.parseEvent, UndefinedBesideUndoable, callsOf, runOps]
    | exchange e => exact (undoable_onFrame_ub (b := b)).trans (by simp only [UndefinedBesideUndoable, false_or]; rfl)
    | state s =>
      by_cases hs : s.lps.length < 2
      · refine iff_of_true ?_ (.inl hs)
        match he : s.lps, hs with
        | [], _ => simp [DuelBoard.parseEvent, DuelBoard.parseState, he, orUb]
        | [x], _ => simp [DuelBoard.parseEvent, DuelBoard.parseState, he, orUb]
      · have h0 : s.lps[0]? = some s.lps[0] := List.getElem?_eq_getElem (by omega)
        have h1 : s.lps[1]? = some s.lps[1] := List.getElem?_eq_getElem (by omega)
        simp only [UndefinedBesideUndoable, hs, false_or, DuelBoard.parseEvent, DuelBoard.parseState, h0, h1, orUb, bind_ok]
        rw [undoable_onFrame_ub]
        split <;> rfl
  | card r e => cases e <;> exact (undoable_onFrame_ub (b := b)).trans (by simp only [UndefinedBesideUndoable, false_or]; rfl)
  | chainStack e => cases e <;> simp [DuelBoard.parseEvent, UndefinedBesideUndoable, callsOf, runOps, Cell.push, Cell.pop, Undoable.unsupported]
  | nextTurn con =>
    obtain ⟨v, hv⟩ := live_get hl.turn
    simp [DuelBoard.parseEvent, UndefinedBesideUndoable, callsOf, runOps, Cell.get, hv]
  | lp con c =>
    have : DuelBoard.lpIdx con = .error .ub ↔ con = 2 := by
      simp only [DuelBoard.lpIdx, bind_eq_error, massert_eq_error, massert_eq_ok, conIdx_ub, reduceCtorEq, and_false, false_or]
      constructor
      · rintro ⟨_, h1, h2⟩; omega
      · rintro rfl; exact ⟨(), by omega, by omega⟩
    simp only [UndefinedBesideUndoable, ← this, DuelBoard.parseEvent, callsOf, runOps, Cell.get]
    cases DuelBoard.lpIdx con with
    | error e => simp
    | ok i =>
      obtain ⟨v, hv⟩ := live_get (hl.lp i)
      simp [hv]
  | nextPhase p => simp [DuelBoard.parseEvent, UndefinedBesideUndoable, callsOf, runOps]
  | pile r e => cases e <;> exact (undoable_onFrame_ub (b := b)).trans (by simp only [UndefinedBesideUndoable, false_or]; rfl)
  | zoneBlock zs => simp [DuelBoard.parseEvent, UndefinedBesideUndoable, callsOf, runOps]
  | finish _ => simp [DuelBoard.parseEvent, UndefinedBesideUndoable, callsOf, runOps]
  | metaInfo _ => simp [DuelBoard.parseEvent, UndefinedBesideUndoable, callsOf, runOps]
  | result _ => simp [DuelBoard.parseEvent, UndefinedBesideUndoable, callsOf, runOps]
  | unset => simp [DuelBoard.parseEvent, UndefinedBesideUndoable, callsOf, runOps]

theorem live_parse {b b' : UndoBoard} {e : Event} (hl : Live b) (h : b.parseEvent e = .ok b') : Live b' := by
  have hc := (parse_cells h ⟨hl.2, hl.3, hl.4, hl.5, hl.6, hl.7⟩).1
  exact ⟨(runOps_log hl.frame (parse_frame h)).1, hc.1, hc.2, hc.3, hc.4, hc.5, hc.6⟩

/-- **C84.** Several events from whatever server, on a board on which nothing is undone: exactly when the first one that fails is
undefined. -/
theorem C84_undoable_events (b : UndoBoard) (hl : Live b) (es : List Event) : b.parseEvents es = .error .ub ↔
    ∃ pre e post b', es = pre ++ e :: post ∧ b.parseEvents pre = .ok b' ∧ (UndefinedBesideUndoable e ∨
      ∃ cs op ds g, callsOf e = cs ++ op :: ds ∧ runOps b'.frame cs = .ok g ∧ UndefinedUndoable g op) := by
  induction es generalizing b with
  | nil => simp [DuelBoard.parseEvents]
  | cons o es ih =>
    simp only [DuelBoard.parseEvents, bind_eq_error]
    constructor
    · rintro (h | ⟨g, hg, h⟩)
      · exact ⟨[], o, es, b, rfl, rfl, (C84_undoable_event b hl o).mp h⟩
      · obtain ⟨pre, op, post, g', rfl, h2, h3⟩ := (ih g (live_parse hl hg)).mp h
        exact ⟨o :: pre, op, post, g', rfl, by simp only [DuelBoard.parseEvents, hg, bind_ok, h2], h3⟩
    · rintro ⟨pre, op, post, g, h1, h2, h3⟩
      cases pre with
      | nil =>
        simp only [List.nil_append, List.cons.injEq] at h1
        obtain ⟨rfl, rfl⟩ := h1
        cases h2
        exact .inl ((C84_undoable_event b hl o).mpr h3)
      | cons o' pre =>
        simp only [List.cons_append, List.cons.injEq] at h1
        obtain ⟨rfl, rfl⟩ := h1
        simp only [DuelBoard.parseEvents, bind_eq_ok] at h2
        obtain ⟨g1, hg1, h2⟩ := h2
        exact .inr ⟨g1, hg1, (ih g1 (live_parse hl hg1)).mpr ⟨pre, op, post, g, rfl, h2, h3⟩⟩

/-- **C84.** With a board that can be undone, checking the places is enough for events that do not make piles longer or shorter. -/
theorem C84_undoable_checked (b : UndoBoard) (hl : Live b) (e : Event) (hb : ¬ UndefinedBesideUndoable e)
    (hc : ∀ op ∈ callsOf e, Checked op ∧ ∀ p n, op ≠ .resize p n) : b.parseEvent e ≠ .error .ub := by
  rw [Ne, C84_undoable_event b hl]
  rintro (h | ⟨pre, op, post, g, h1, _, h2⟩)
  · exact hb h
  · obtain ⟨h3, h4⟩ := hc op (by rw [h1]; simp)
    rcases h2 with h2 | ⟨p, n, _, _, h2, _⟩
    · exact C18_no_ub_partial g.base op (checked_safe h3) ((C84_call g.base op).mpr h2)
    · exact h4 p n h2

/-- Also on a new board: a hand of five cards, then of four. -/
example : Live UndoBoard.init ∧ UndoBoard.init.parseEvents [.board (.exchange ⟨0, [], [], [⟨⟨0, 2, 0, -1⟩, 5⟩]⟩),
    .board (.exchange ⟨0, [], [], [⟨⟨0, 2, 0, -1⟩, 4⟩]⟩)] = .error .ub ∧ UndoBoard.init.parseEvent (.chainStack (.pop default)) = .error .assert := by
  refine ⟨⟨⟨rfl, rfl⟩, rfl, rfl, rfl, fun _ => rfl, rfl, rfl⟩, ?_, rfl⟩
  simp only [← isUb_iff]
  decide +kernel

end Ygo.Props
