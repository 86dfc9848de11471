import Verif.Lemmas.Query
import Verif.Lemmas.Scrub
import Verif.Spec.UndoQuery
import Verif.Props.Undo
import Verif.Props.Query
import Verif.Model.Request

/-!
# Queries can be taken back with what was reported about them (C101)
-/

set_option linter.unusedSimpArgs false

namespace Ygo.Props
open Ygo Ygo.Spec

/-! ## One card -/

/-- The card `u` belongs to the straight run at `v`, whose furthest recorded point is `w`. -/
structure CardSim (u v w : Card Undoable) : Prop where
  single : ∀ f, CellSim (u.single f) (v.single f) (w.single f)
  targets : CellSim u.targets v.targets w.targets
  counters : CellSim u.counters v.counters w.counters

theorem CardSim.refl {c : Card Undoable} (h : LiveCard c) : CardSim c c c :=
  ⟨fun f => .refl (h.single f), .refl h.targets, .refl h.counters⟩

theorem CardSim.eq_of_live {u w : Card Undoable} (h : CardSim u w w) : u = w := by
  cases u; cases w
  have h1 := funext fun f => (h.single f).eq_of_live
  have h2 := h.targets.eq_of_live
  have h3 := h.counters.eq_of_live
  simp only at h1 h2 h3
  rw [h1, h2, h3]

/-- Everything recorded in `v` is recorded in `w`. -/
structure CardLe (v w : Card Undoable) : Prop where
  single : ∀ f, (v.single f).values <+: (w.single f).values
  targets : v.targets.values <+: w.targets.values
  counters : v.counters.values <+: w.counters.values

theorem CardLe.refl (c : Card Undoable) : CardLe c c := ⟨fun _ => List.prefix_refl _, List.prefix_refl _, List.prefix_refl _⟩

theorem CardLe.trans {a b c : Card Undoable} (h : CardLe a b) (k : CardLe b c) : CardLe a c :=
  ⟨fun f => (h.single f).trans (k.single f), h.targets.trans k.targets, h.counters.trans k.counters⟩

theorem parseData_live {useCache : Bool} {d : QueryData} {report : Nat} {c c' : Card Undoable} (hl : LiveCard c)
    (h : c.parseData useCache d = .ok (report, c')) : LiveCard c' ∧ CardLe c c' := by
  obtain ⟨h1, h2, h3, -⟩ := Card.parseData_spec h
  have key : ∀ {α : Type} {u : Undoable α} (a : α), LiveCell u → LiveCell (Cell.set u a) ∧ u.values <+: (Cell.set u a).values :=
    fun a hu => ⟨(CellSim.liveCell_set hu).2, CellSim.prefix_set hu⟩
  have h1 : ∀ f, LiveCell (c'.single f) ∧ (c.single f).values <+: (c'.single f).values := by
    intro f
    rcases h1 f with ⟨_, hk⟩ | ⟨_, hk⟩ | ⟨_, v, _, hk⟩
    · rw [hk]; exact ⟨hl.single f, List.prefix_refl _⟩
    · rw [hk]; exact ⟨hl.single f, List.prefix_refl _⟩
    · rw [hk]; exact key v (hl.single f)
  have h2 : LiveCell c'.targets ∧ c.targets.values <+: c'.targets.values := by
    rw [h2]
    cases d.targets with
    | none => exact ⟨hl.targets, List.prefix_refl _⟩
    | some x => exact key x hl.targets
  have h3 : LiveCell c'.counters ∧ c.counters.values <+: c'.counters.values := by
    rw [h3]
    cases d.counters with
    | none => exact ⟨hl.counters, List.prefix_refl _⟩
    | some x => exact key x hl.counters
  exact ⟨⟨fun f => (h1 f).1, h2.1, h3.1⟩, ⟨fun f => (h1 f).2, h2.2, h3.2⟩⟩

/-- The query again, when it was taken back: the same is reported. -/
theorem CardSim.redo {useCache : Bool} {d : QueryData} {report : Nat} {u v v' w : Card Undoable} (hs : CardSim u v w)
    (h : v.parseData useCache d = .ok (report, v')) (hle : CardLe v' w) :
    ∃ u', u.parseData useCache d = .ok (report, u') ∧ CardSim u' v' w := by
  obtain ⟨⟨report', u'⟩, hu⟩ := Card.parseData_returns (useCache := useCache) (d := d) (c := u) fun f => (hs.single f).get_ok
  obtain ⟨a1, a2, a3, a4⟩ := Card.parseData_spec h
  obtain ⟨b1, b2, b3, b4⟩ := Card.parseData_spec hu
  have hit : ∀ f, Card.Hit useCache d u f ↔ Card.Hit useCache d v f := by
    intro f
    have := (hs.single f).get
    simp only [Card.Hit, Cell.get, this]
  have hr : report' = report := by
    apply Nat.eq_of_testBit_eq
    intro k
    rw [Bool.eq_iff_iff, a4, b4]
    simp only [hit]
  subst hr
  refine ⟨u', hu, ⟨fun f => ?_, ?_, ?_⟩⟩
  · have hp := hle.single f
    rcases a1 f with ⟨hn, hk⟩ | ⟨hh, hk⟩ | ⟨hh, x, hx, hk⟩ <;> rcases b1 f with ⟨hn', hk'⟩ | ⟨hh', hk'⟩ | ⟨hh', x', hx', hk'⟩
    · rw [hk, hk']; exact hs.single f
    · rw [hk, hk']; exact hs.single f
    · rw [hn] at hx'; cases hx'
    · rw [hk, hk']; exact hs.single f
    · rw [hk, hk']; exact hs.single f
    · exact absurd ((hit f).2 hh) hh'
    · rw [hn'] at hx; cases hx
    · exact absurd ((hit f).1 hh') hh
    · rw [hk] at hp
      rw [hk, hk']; exact (hs.single f).redo hp
  · have hp := hle.targets
    rw [a2] at hp ⊢
    rw [b2]
    cases e : d.targets with
    | none => exact hs.targets
    | some x => rw [e] at hp; exact hs.targets.redo hp
  · have hp := hle.counters
    rw [a3] at hp ⊢
    rw [b3]
    cases e : d.counters with
    | none => exact hs.counters
    | some x => rw [e] at hp; exact hs.counters.redo hp

theorem takeSingles_spec {report : Nat} {d : QueryData} {fs : List QField} (hn : fs.Nodup) {c : Card Undoable}
    (hg : ∀ f ∈ fs, (d.single f).isSome = true → report.testBit (flagBit f) = false → (c.single f).current ≠ 0) :
    ∃ c', takeSingles report d fs c = .ok c' ∧ c'.targets = c.targets ∧ c'.counters = c.counters ∧
      (∀ g, g ∉ fs → c'.single g = c.single g) ∧
      ∀ f ∈ fs, c'.single f = if (d.single f).isSome = true ∧ report.testBit (flagBit f) = false then
        ⟨(c.single f).values, (c.single f).current - 1⟩ else c.single f := by
  induction fs generalizing c with
  | nil => exact ⟨c, rfl, rfl, rfl, fun _ _ => rfl, by simp⟩
  | cons f fs ih =>
    rw [List.nodup_cons] at hn
    unfold takeSingles
    by_cases hf : (d.single f).isSome = true ∧ report.testBit (flagBit f) = false
    · have h0 := hg f (List.mem_cons_self ..) hf.1 hf.2
      have hu : (c.single f).undo = .ok ⟨(c.single f).values, (c.single f).current - 1⟩ := by simp [Undoable.undo, massert, h0]
      rw [if_pos hf, hu, bind_ok]
      obtain ⟨c', h1, h2, h3, h4, h5⟩ := ih hn.2 (c := c.setSingle f ⟨(c.single f).values, (c.single f).current - 1⟩) (by
        intro g hg' a b
        have hne : g ≠ f := by rintro rfl; exact hn.1 hg'
        rw [Card.setSingle_other _ _ hne]
        exact hg g (List.mem_cons_of_mem _ hg') a b)
      refine ⟨c', h1, h2, h3, ?_, ?_⟩
      · intro g hg'
        simp only [List.mem_cons, not_or] at hg'
        rw [h4 g hg'.2, Card.setSingle_other _ _ hg'.1]
      · intro g hg'
        rcases List.mem_cons.mp hg' with rfl | hg''
        · rw [h4 g hn.1, Card.setSingle_self, if_pos hf]
        · have hne : g ≠ f := by rintro rfl; exact hn.1 hg''
          rw [h5 g hg'', Card.setSingle_other _ _ hne]
    · rw [if_neg hf]
      obtain ⟨c', h1, h2, h3, h4, h5⟩ := ih hn.2 (c := c) (fun g hg' => hg g (List.mem_cons_of_mem _ hg'))
      refine ⟨c', h1, h2, h3, ?_, ?_⟩
      · intro g hg'
        simp only [List.mem_cons, not_or] at hg'
        exact h4 g hg'.2
      · intro g hg'
        rcases List.mem_cons.mp hg' with rfl | hg''
        · rw [h4 g hn.1, if_neg hf]
        · exact h5 g hg''

/-- The query taken back. -/
theorem CardSim.take {useCache : Bool} {d : QueryData} {report : Nat} {u v v' w : Card Undoable} (hs : CardSim u v' w) (hl : LiveCard v)
    (h : v.parseData useCache d = .ok (report, v')) : ∃ u', takeData report d u = .ok u' ∧ CardSim u' v w := by
  obtain ⟨a1, a2, a3, a4⟩ := Card.parseData_spec h
  have bit : ∀ f, report.testBit (flagBit f) = true ↔ Card.Hit useCache d v f := by
    intro f
    rw [a4]
    constructor
    · rintro ⟨g, hg, hh⟩
      exact C31_bits_differ _ _ hg ▸ hh
    · intro hh; exact ⟨f, rfl, hh⟩
  have set_of : ∀ f, (d.single f).isSome = true → report.testBit (flagBit f) = false →
      ∃ x, v'.single f = (v.single f).set x := by
    intro f h1 h2
    rcases a1 f with ⟨hn, _⟩ | ⟨hh, _⟩ | ⟨_, x, _, hk⟩
    · rw [hn] at h1; cases h1
    · rw [(bit f).2 hh] at h2; cases h2
    · exact ⟨x, hk⟩
  have kept_of : ∀ f, ¬ ((d.single f).isSome = true ∧ report.testBit (flagBit f) = false) → v'.single f = v.single f := by
    intro f hf
    rcases a1 f with ⟨_, hk⟩ | ⟨_, hk⟩ | ⟨hh, x, hx, _⟩
    · exact hk
    · exact hk
    · refine absurd ⟨by rw [hx]; rfl, ?_⟩ hf
      rw [← Bool.not_eq_true, bit]; exact hh
  obtain ⟨c', h1, h2, h3, -, h5⟩ := takeSingles_spec (report := report) (d := d) QField.nodup_all (c := u) (by
    intro f _ p q
    obtain ⟨x, hx⟩ := set_of f p q
    rw [(hs.single f).current, hx]
    exact Nat.succ_ne_zero _)
  have hsingle : ∀ f, CellSim (c'.single f) (v.single f) (w.single f) := by
    intro f
    rw [h5 f f.mem_all]
    by_cases hf : (d.single f).isSome = true ∧ report.testBit (flagBit f) = false
    · rw [if_pos hf]
      obtain ⟨x, hx⟩ := set_of f hf.1 hf.2
      have := hs.single f
      rw [hx] at this
      exact (this.undo (hl.single f)).2
    · rw [if_neg hf, ← kept_of f hf]
      exact hs.single f
  have hc : ∃ x, takeList d.counters.isSome c'.counters = .ok x ∧ CellSim x v.counters w.counters := by
    have := hs.counters
    rw [h3]
    rw [a3] at this
    cases e : d.counters with
    | none => rw [e] at this; exact ⟨_, rfl, this⟩
    | some y => rw [e] at this; exact ⟨_, (this.undo hl.counters).1, (this.undo hl.counters).2⟩
  have ht : ∃ x, takeList d.targets.isSome c'.targets = .ok x ∧ CellSim x v.targets w.targets := by
    have := hs.targets
    rw [h2]
    rw [a2] at this
    cases e : d.targets with
    | none => rw [e] at this; exact ⟨_, rfl, this⟩
    | some y => rw [e] at this; exact ⟨_, (this.undo hl.targets).1, (this.undo hl.targets).2⟩
  obtain ⟨x, hx, sx⟩ := hc
  obtain ⟨y, hy, sy⟩ := ht
  exact ⟨⟨c'.single, y, x⟩, by simp only [takeData, h1, bind_ok, hx, hy]; rfl, ⟨hsingle, sy, sx⟩⟩

/-! ## The straight run -/

/-- Where a query stands in the events, nothing happens to the board. -/
def Note.asEvent : Note → Ygo.Event
  | .event e => e
  | .query .. => .unset

theorem supported_asEvent {b : UndoBoard} {ns : List Note} (h : Supported b (eventsOf ns)) : Supported b (ns.map Note.asEvent) := by
  induction ns generalizing b with
  | nil => trivial
  | cons n ns ih =>
    cases n with
    | event e => exact ⟨h.1, fun b' hb => ih (h.2 b' hb)⟩
    | query c q =>
      refine ⟨trivial, fun b' hb => ?_⟩
      cases hb
      exact ih h

theorem Desk.run_board {k kn : Desk} {ns : List Note} {rs : List Nat} (h : k.run ns = .ok (rs, kn)) :
    k.board.parseEvents (ns.map Note.asEvent) = .ok kn.board := by
  induction ns generalizing k rs with
  | nil => cases h; rfl
  | cons n ns ih =>
    simp only [Desk.run, bind_eq_ok, pure_eq_ok, Except.ok.injEq, Prod.mk.injEq] at h
    obtain ⟨⟨r, k1⟩, h1, ⟨rs', k2⟩, h2, -, rfl⟩ := h
    have ih := ih h2
    simp only [List.map_cons, DuelBoard.parseEvents, bind_eq_ok]
    cases n with
    | event e =>
      simp only [Desk.parse, bind_eq_ok, pure_eq_ok, Except.ok.injEq, Prod.mk.injEq] at h1
      obtain ⟨b1, h1, -, rfl⟩ := h1
      exact ⟨b1, h1, ih⟩
    | query c q =>
      simp only [Desk.parse, bind_eq_ok, pure_eq_ok, Except.ok.injEq, Prod.mk.injEq] at h1
      obtain ⟨x, h1, -, rfl⟩ := h1
      exact ⟨k.board, rfl, ih⟩

/-- The desk after the first `i` notes. -/
def deskAt (k : Desk) (ns : List Note) (i : Nat) : Desk :=
  match k.run (ns.take i) with
  | .ok (_, k') => k'
  | .error _ => k

theorem Desk.run_take {k kn : Desk} {ns : List Note} {rs : List Nat} (h : k.run ns = .ok (rs, kn)) (i : Nat) :
    k.run (ns.take i) = .ok (rs.take i, deskAt k ns i) := by
  have key : ∃ k', k.run (ns.take i) = .ok (rs.take i, k') := by
    induction ns generalizing k rs i with
    | nil => cases h; exact ⟨_, by simp [Desk.run]; rfl⟩
    | cons n ns ih =>
      cases i with
      | zero => exact ⟨k, rfl⟩
      | succ i =>
        simp only [Desk.run, bind_eq_ok, pure_eq_ok, Except.ok.injEq, Prod.mk.injEq] at h
        obtain ⟨⟨r, k1⟩, h1, ⟨rs', k2⟩, h2, rfl, rfl⟩ := h
        obtain ⟨k', h3⟩ := ih h2 i
        exact ⟨k', by simp [Desk.run, h1, h3]⟩
  obtain ⟨k', h⟩ := key
  simp [deskAt, h]

theorem Desk.run_length {k kn : Desk} {ns : List Note} {rs : List Nat} (h : k.run ns = .ok (rs, kn)) : rs.length = ns.length := by
  induction ns generalizing k rs with
  | nil => cases h; rfl
  | cons n ns ih =>
    simp only [Desk.run, bind_eq_ok, pure_eq_ok, Except.ok.injEq, Prod.mk.injEq] at h
    obtain ⟨⟨r, k1⟩, h1, ⟨rs', k2⟩, h2, rfl, rfl⟩ := h
    simp [ih h2]

theorem Desk.run_step {k kn : Desk} {ns : List Note} {rs : List Nat} (h : k.run ns = .ok (rs, kn)) {i : Nat} {n : Note} {r : Nat}
    (hi : ns[i]? = some n) (hr : rs[i]? = some r) : (deskAt k ns i).parse n = .ok (r, deskAt k ns (i + 1)) := by
  induction ns generalizing k rs i with
  | nil => simp at hi
  | cons m ns ih =>
    have h0 := h
    simp only [Desk.run, bind_eq_ok, pure_eq_ok, Except.ok.injEq, Prod.mk.injEq] at h
    obtain ⟨⟨r', k1⟩, h1, ⟨rs', k2⟩, h2, rfl, rfl⟩ := h
    have shift : ∀ j, deskAt k (m :: ns) (j + 1) = deskAt k1 ns j := by
      intro j
      have := run_take h2 j
      revert this
      generalize deskAt k1 ns j = x
      intro this
      simp only [deskAt, List.take_succ_cons, Desk.run, h1, bind_ok, this]
      rfl
    cases i with
    | zero =>
      simp at hi hr
      subst hi hr
      rw [shift]
      exact h1
    | succ i =>
      rw [shift, shift]
      exact ih h2 (by simpa using hi) (by simpa using hr)

theorem parseQuery_ok {V : Type → Type} [Cell V] {useCache : Bool} {l : Layout} {store store' : CardId → Card V} {q : Query} {report : Nat} :
    parseQuery useCache l store q = .ok (report, store') ↔ ∃ c card, l.hasCard q.place = .ok true ∧ l.card q.place = .ok c ∧
      (store c).parseData useCache q.data = .ok (report, card) ∧ store' = fun x => if x = c then card else store x := by
  simp only [parseQuery, bind_eq_ok, pure_eq_ok, Except.ok.injEq, Prod.mk.injEq, massert_eq_ok]
  constructor
  · rintro ⟨b, hb, -, rfl, c, hc, ⟨hits', card⟩, hp, rfl, rfl⟩
    exact ⟨c, card, hb, hc, hp, rfl⟩
  · rintro ⟨c, card, hb, hc, hp, rfl⟩
    exact ⟨true, hb, (), rfl, c, hc, (report, card), hp, rfl, rfl⟩

/-! ## Moving over it -/

/-- The desk `k'` is at position `i` of the run; `j` further notes are recorded. -/
structure DeskSim (k : Desk) (ns : List Note) (k' : Desk) (i j : Nat) : Prop where
  board : Sim (ns.map Note.asEvent) (runBoard k.board (ns.map Note.asEvent)) k'.board i j
  store : ∀ c, CardSim (k'.store c) ((deskAt k ns i).store c) ((deskAt k ns (i + j)).store c)

variable {k kn : Desk} {ns : List Note} {rs : List Nat}

theorem deskAt_board (h : k.run ns = .ok (rs, kn)) (i : Nat) : runBoard k.board (ns.map Note.asEvent) i = (deskAt k ns i).board := by
  have := Desk.run_board (Desk.run_take h i)
  rw [runBoard, ← List.map_take, this]

theorem deskAt_live (h : k.run ns = .ok (rs, kn)) (hl : ∀ c, LiveCard (k.store c)) {i : Nat} (hi : i ≤ ns.length) :
    ∀ c, LiveCard ((deskAt k ns i).store c) := by
  induction i with
  | zero => exact hl
  | succ i ih =>
    have hn : ns[i]? = some ns[i] := List.getElem?_eq_getElem hi
    have hr : rs[i]? = some (rs[i]'(by rw [Desk.run_length h]; exact hi)) := List.getElem?_eq_getElem _
    have hs := Desk.run_step h hn hr
    have ih := ih (by omega)
    revert hs
    generalize ns[i] = n
    intro hs
    cases n with
    | event e =>
      simp only [Desk.parse, bind_eq_ok, pure_eq_ok, Except.ok.injEq, Prod.mk.injEq] at hs
      obtain ⟨b1, -, -, hs⟩ := hs
      rw [← hs]; exact ih
    | query c q =>
      simp only [Desk.parse, bind_eq_ok, pure_eq_ok, Except.ok.injEq, Prod.mk.injEq] at hs
      obtain ⟨⟨r, s⟩, hs, -, hk⟩ := hs
      obtain ⟨c, card, -, -, hp, rfl⟩ := parseQuery_ok.1 hs
      rw [← hk]
      intro x
      by_cases hx : x = c
      · simp only [hx, if_true]; exact (parseData_live (ih c) hp).1
      · simp only [hx, if_false]; exact ih x

theorem deskAt_le (h : k.run ns = .ok (rs, kn)) (hl : ∀ c, LiveCard (k.store c)) {i j : Nat} (hi : i + j ≤ ns.length) :
    ∀ c, CardLe ((deskAt k ns i).store c) ((deskAt k ns (i + j)).store c) := by
  induction j with
  | zero => exact fun c => .refl _
  | succ j ih =>
    have hn : ns[i + j]? = some ns[i + j] := List.getElem?_eq_getElem (by omega)
    have hr : rs[i + j]? = some (rs[i + j]'(by rw [Desk.run_length h]; omega)) := List.getElem?_eq_getElem _
    have hs := Desk.run_step h hn hr
    have ih := ih (by omega)
    have hlive := deskAt_live h hl (i := i + j) (by omega)
    revert hs
    generalize ns[i + j] = n
    intro hs
    cases n with
    | event e =>
      simp only [Desk.parse, bind_eq_ok, pure_eq_ok, Except.ok.injEq, Prod.mk.injEq] at hs
      obtain ⟨b1, -, -, hs⟩ := hs
      rw [show i + (j + 1) = i + j + 1 from rfl, ← hs]; exact ih
    | query c q =>
      simp only [Desk.parse, bind_eq_ok, pure_eq_ok, Except.ok.injEq, Prod.mk.injEq] at hs
      obtain ⟨⟨r, s⟩, hs, -, hk⟩ := hs
      obtain ⟨c, card, -, -, hp, rfl⟩ := parseQuery_ok.1 hs
      rw [show i + (j + 1) = i + j + 1 from rfl, ← hk]
      intro x
      by_cases hx : x = c
      · simp only [hx, if_true]; exact (ih c).trans (parseData_live (hlive c) hp).2
      · simp only [hx, if_false]; exact ih x

theorem asEvent_at {i : Nat} {n : Note} (h : ns[i]? = some n) : (ns.map Note.asEvent)[i]? = some (Note.asEvent n) := by simp [h]

/-- One note forward. -/
theorem DeskSim.forward (h : k.run ns = .ok (rs, kn)) (hr : Run (ns.map Note.asEvent) (runBoard k.board (ns.map Note.asEvent)))
    (hl : ∀ c, LiveCard (k.store c)) {k' : Desk} {i j : Nat} (hs : DeskSim k ns k' i j) {n : Note} {r : Nat} (hi : ns[i]? = some n)
    (hri : rs[i]? = some r) : ∃ k1, k'.parse n = .ok (r, k1) ∧ DeskSim k ns k1 (i + 1) (j - 1) := by
  have hlt : i < ns.length := (List.getElem?_eq_some_iff.mp hi).1
  have hle := hs.board.le
  simp only [List.length_map] at hle
  have hstep := Desk.run_step h hi hri
  have hboard : ∃ b1, k'.board.parseEvent (Note.asEvent n) = .ok b1 ∧
      Sim (ns.map Note.asEvent) (runBoard k.board (ns.map Note.asEvent)) b1 (i + 1) (j - 1) := by
    cases j with
    | zero => exact hr.new (asEvent_at hi) hs.board
    | succ j => exact hr.forth (asEvent_at hi) hs.board
  obtain ⟨b1, hb, sb⟩ := hboard
  cases n with
  | event e =>
    simp only [Desk.parse, bind_eq_ok, pure_eq_ok, Except.ok.injEq, Prod.mk.injEq] at hstep
    obtain ⟨b2, -, rfl, hstep⟩ := hstep
    refine ⟨⟨b1, k'.store⟩, by simp only [Desk.parse, show k'.board.parseEvent e = .ok b1 from hb, bind_ok]; rfl, sb, fun c => ?_⟩
    have hc := hs.store c
    have e1 : (deskAt k ns (i + 1)).store = (deskAt k ns i).store := by rw [← hstep]
    cases j with
    | zero =>
      show CardSim (k'.store c) ((deskAt k ns (i + 1)).store c) ((deskAt k ns (i + 1)).store c)
      rw [e1]; exact hc
    | succ j =>
      rw [show i + 1 + (j + 1 - 1) = i + (j + 1) from by omega, e1]
      exact hc
  | query uc q =>
    simp only [Desk.parse, bind_eq_ok, pure_eq_ok, Except.ok.injEq, Prod.mk.injEq] at hstep
    obtain ⟨⟨r', s⟩, hq, rfl, hk⟩ := hstep
    obtain ⟨c, card, hc1, hc2, hp, rfl⟩ := parseQuery_ok.1 hq
    have hlay : k'.board.frame.base.layout = (deskAt k ns i).board.frame.base.layout := by
      rw [hr.layout hs.board, deskAt_board h]
    have hlive := deskAt_live h hl (i := i) (by omega)
    have hb' : b1 = k'.board := by cases hb; rfl
    subst hb'
    have hcard : ∃ u', (k'.store c).parseData uc q.data = .ok (r', u') ∧
        CardSim u' card ((deskAt k ns (i + 1 + (j - 1))).store c) := by
      cases j with
      | zero =>
        have e2 := (hs.store c).eq_of_live
        have : (deskAt k ns (i + 1 + (0 - 1))).store c = card := by
          show (deskAt k ns (i + 1)).store c = card
          rw [← hk]; simp
        rw [this, e2]
        exact ⟨card, hp, .refl (parseData_live (hlive c) hp).1⟩
      | succ j =>
        rw [show i + 1 + (j + 1 - 1) = i + (j + 1) from by omega]
        refine (hs.store c).redo hp ?_
        have := deskAt_le h hl (i := i + 1) (j := j) (by omega) c
        rw [show i + (j + 1) = i + 1 + j from by omega]
        rw [← hk] at this
        simpa using this
    obtain ⟨u', hu, su⟩ := hcard
    refine ⟨⟨k'.board, fun x => if x = c then u' else k'.store x⟩, ?_, sb, fun x => ?_⟩
    · have : parseQuery uc k'.board.frame.base.layout k'.store q = .ok (r', fun x => if x = c then u' else k'.store x) :=
        parseQuery_ok.2 ⟨c, u', by rw [hlay]; exact hc1, by rw [hlay]; exact hc2, hu, rfl⟩
      simp only [Desk.parse, this, bind_ok]
      rfl
    · by_cases hx : x = c
      · subst hx
        have e1 : (deskAt k ns (i + 1)).store x = card := by rw [← hk]; simp
        simp only [if_true, e1]
        exact su
      · have e1 : (deskAt k ns (i + 1)).store x = (deskAt k ns i).store x := by rw [← hk]; simp [hx]
        simp only [hx, if_false]
        have hc := hs.store x
        cases j with
        | zero =>
          show CardSim (k'.store x) ((deskAt k ns (i + 1)).store x) ((deskAt k ns (i + 1)).store x)
          rw [e1]; exact hc
        | succ j =>
          rw [show i + 1 + (j + 1 - 1) = i + (j + 1) from by omega, e1]
          exact hc

/-- One note back. -/
theorem DeskSim.back (h : k.run ns = .ok (rs, kn)) (hr : Run (ns.map Note.asEvent) (runBoard k.board (ns.map Note.asEvent)))
    (hl : ∀ c, LiveCard (k.store c)) {k' : Desk} {i j : Nat} (hs : DeskSim k ns k' (i + 1) j) {n : Note} {r : Nat} (hi : ns[i]? = some n)
    (hri : rs[i]? = some r) : ∃ k1, k'.undo r n = .ok k1 ∧ DeskSim k ns k1 i (j + 1) := by
  have hle := hs.board.le
  simp only [List.length_map] at hle
  have hij : i + (j + 1) = i + 1 + j := by omega
  have hstep := Desk.run_step h hi hri
  obtain ⟨b1, hb, sb⟩ := hr.back (asEvent_at hi) hs.board
  cases n with
  | event e =>
    simp only [Desk.parse, bind_eq_ok, pure_eq_ok, Except.ok.injEq, Prod.mk.injEq] at hstep
    obtain ⟨b2, -, rfl, hstep⟩ := hstep
    refine ⟨⟨b1, k'.store⟩, by simp only [Desk.undo, show k'.board.undoParseEvent e = .ok b1 from hb, bind_ok]; rfl, sb, fun c => ?_⟩
    have hc := hs.store c
    have e1 : (deskAt k ns (i + 1)).store = (deskAt k ns i).store := by rw [← hstep]
    rw [e1] at hc
    rw [hij]
    exact hc
  | query uc q =>
    simp only [Desk.parse, bind_eq_ok, pure_eq_ok, Except.ok.injEq, Prod.mk.injEq] at hstep
    obtain ⟨⟨r', s⟩, hq, rfl, hk⟩ := hstep
    obtain ⟨c, card, hc1, hc2, hp, rfl⟩ := parseQuery_ok.1 hq
    have hlive := deskAt_live h hl (i := i) (by omega)
    have hb' : b1 = k'.board := by cases hb; rfl
    subst hb'
    have hlay : k'.board.frame.base.layout = (deskAt k ns i).board.frame.base.layout := by
      rw [hr.layout sb, deskAt_board h]
    have e1 : (deskAt k ns (i + 1)).store c = card := by rw [← hk]; simp
    have hcs := hs.store c
    rw [e1] at hcs
    obtain ⟨u', hu, su⟩ := hcs.take (hlive c) hp
    refine ⟨⟨k'.board, fun x => if x = c then u' else k'.store x⟩, ?_, sb, fun x => ?_⟩
    · simp only [Desk.undo, hlay, hc2, bind_ok, hu]; rfl
    · rw [hij]
      by_cases hx : x = c
      · subst hx
        simp only [if_true]
        exact su
      · have e2 : (deskAt k ns (i + 1)).store x = (deskAt k ns i).store x := by rw [← hk]; simp [hx]
        have hc := hs.store x
        rw [e2] at hc
        simp only [hx, if_false]
        exact hc

theorem DeskSim.scrub (h : k.run ns = .ok (rs, kn)) (hr : Run (ns.map Note.asEvent) (runBoard k.board (ns.map Note.asEvent)))
    (hl : ∀ c, LiveCard (k.store c)) (ms : List Move) {k' : Desk} {reports : List Nat} {i j : Nat} (hs : DeskSim k ns k' i j)
    (hi : reports.length = i) (hrep : reports.reverse = rs.take i) :
    ∃ k1 reports' i' j', Desk.scrub ns k' reports ms = .ok (k1, reports') ∧ DeskSim k ns k1 i' j' ∧ reports'.length = i' ∧
      reports'.reverse = rs.take i' := by
  have hlen := Desk.run_length h
  induction ms generalizing k' reports i j with
  | nil => exact ⟨k', reports, i, j, rfl, hs, hi, hrep⟩
  | cons m ms ih =>
    cases m with
    | forward =>
      cases hn : ns[i]? with
      | none => simp only [Desk.scrub, hi, hn]; exact ih hs hi hrep
      | some n =>
        have hlt : i < rs.length := by rw [hlen]; exact (List.getElem?_eq_some_iff.mp hn).1
        have hri : rs[i]? = some rs[i] := List.getElem?_eq_getElem hlt
        obtain ⟨k1, h1, h2⟩ := hs.forward h hr hl hn hri
        simp only [Desk.scrub, hi, hn, h1, bind_ok]
        exact ih h2 (by simp [hi]) (by rw [List.reverse_cons, hrep, List.take_add_one, hri]; rfl)
    | backward =>
      cases reports with
      | nil => simp only [Desk.scrub]; exact ih hs hi hrep
      | cons r reports =>
        subst hi
        have hle := hs.board.le
        simp only [List.length_map, List.length_cons] at hle
        have hlt : reports.length < ns.length := by omega
        have hn : ns[reports.length]? = some ns[reports.length] := List.getElem?_eq_getElem hlt
        have hlt' : reports.length < rs.length := by omega
        have hri : rs[reports.length]? = some rs[reports.length] := List.getElem?_eq_getElem hlt'
        rw [List.length_cons, List.reverse_cons, List.take_add_one, hri] at hrep
        obtain ⟨e1, e2⟩ := List.append_inj' hrep rfl
        simp only [Option.toList_some, List.cons.injEq, and_true] at e2
        obtain ⟨k1, h1, h2⟩ := DeskSim.back h hr hl hs hn hri
        rw [← e2] at h1
        simp only [Desk.scrub, hn, h1, bind_ok]
        exact ih h2 rfl e1

/-- **C101.** A client whose cards have undoable members parses any sequence of queries, with or without the cache, and of events that can be
undone, and keeps what was reported. Then it moves back and forth over them in any way, taking queries back by what was reported about
them. Nothing fails, and at every position the board and all cards show what they showed there on the straight run; queries that are parsed
again report the same again. -/
theorem C101_scrub (hl : Live k.board) (hc : ∀ c, LiveCard (k.store c)) (hs : Supported k.board (eventsOf ns))
    (h : k.run ns = .ok (rs, kn)) (ms : List Move) :
    ∃ k' reports Ki, k.scrub ns [] ms = .ok (k', reports) ∧ reports.length ≤ ns.length ∧
      k.run (ns.take reports.length) = .ok (reports.reverse, Ki) ∧ SameSight k'.board Ki.board ∧
      ∀ c, SameCard (k'.store c) (Ki.store c) := by
  have hr := Run.of_parse hl (supported_asEvent hs) (Desk.run_board h)
  have h0 : DeskSim k ns k 0 0 := ⟨hr.start, fun c => .refl (hc c)⟩
  obtain ⟨k1, reports, i, j, h1, h2, rfl, h4⟩ := h0.scrub h hr hc ms (reports := []) rfl (by simp)
  have hle := h2.board.le
  simp only [List.length_map] at hle
  refine ⟨k1, reports, deskAt k ns reports.length, h1, by omega, ?_, ?_, fun c => ?_⟩
  · rw [h4]; exact Desk.run_take h _
  · have := hr.sight h2.board
    rwa [deskAt_board h] at this
  · have := h2.store c
    exact ⟨fun f => (this.single f).get, this.targets.get, this.counters.get⟩

theorem Desk.scrub_board {k k' : Desk} {ns : List Note} {reports reports' : List Nat} {ms : List Move}
    (h : Desk.scrub ns k reports ms = .ok (k', reports')) :
    Spec.scrub (ns.map Note.asEvent) k.board reports.length ms = .ok (k'.board, reports'.length) := by
  induction ms generalizing k reports with
  | nil => cases h; rfl
  | cons m ms ih =>
    cases m with
    | forward =>
      simp only [Desk.scrub] at h
      simp only [Spec.scrub, List.getElem?_map]
      cases hn : ns[reports.length]? with
      | none => rw [hn] at h; exact ih h
      | some n =>
        simp only [hn, bind_eq_ok] at h
        obtain ⟨⟨r, k1⟩, h1, h2⟩ := h
        simp only [Option.map_some, bind_eq_ok]
        refine ⟨k1.board, ?_, ih h2⟩
        cases n with
        | event e =>
          simp only [Desk.parse, bind_eq_ok, pure_eq_ok, Except.ok.injEq, Prod.mk.injEq] at h1
          obtain ⟨b1, h1, -, rfl⟩ := h1
          exact h1
        | query c q =>
          simp only [Desk.parse, bind_eq_ok, pure_eq_ok, Except.ok.injEq, Prod.mk.injEq] at h1
          obtain ⟨x, h1, -, rfl⟩ := h1
          rfl
    | backward =>
      cases reports with
      | nil => exact ih h
      | cons r reports =>
        simp only [Desk.scrub] at h
        simp only [List.length_cons, Spec.scrub, List.getElem?_map]
        cases hn : ns[reports.length]? with
        | none => rw [hn] at h; exact ih h
        | some n =>
          simp only [hn, bind_eq_ok] at h
          obtain ⟨k1, h1, h2⟩ := h
          simp only [Option.map_some, bind_eq_ok]
          refine ⟨k1.board, ?_, ih h2⟩
          cases n with
          | event e =>
            simp only [Desk.undo, bind_eq_ok, pure_eq_ok, Except.ok.injEq] at h1
            obtain ⟨b1, h1, rfl⟩ := h1
            exact h1
          | query c q =>
            simp only [Desk.undo, bind_eq_ok, pure_eq_ok, Except.ok.injEq] at h1
            obtain ⟨x, h1, y, h2, rfl⟩ := h1
            rfl

theorem supported_eventsOf {b : UndoBoard} {ns : List Note} (h : Supported b (ns.map Note.asEvent)) : Supported b (eventsOf ns) := by
  induction ns generalizing b with
  | nil => trivial
  | cons n ns ih =>
    cases n with
    | event e => exact ⟨h.1, fun b' hb => ih (h.2 b' hb)⟩
    | query c q => exact ih (h.2 b rfl)

/-- **C101 (exactly when).** Queries never are in the way: one can move back and forth over what arrived in every way exactly if the events
among it can be undone. -/
theorem C101_exactly (hl : Live k.board) (hc : ∀ c, LiveCard (k.store c)) (h : k.run ns = .ok (rs, kn)) :
    (∀ ms, ∃ r, k.scrub ns [] ms = .ok r) ↔ Supported k.board (eventsOf ns) := by
  constructor
  · intro hs
    refine supported_eventsOf ((C28_scrub_exactly _ _ _ hl (Desk.run_board h)).1 fun ms => ?_)
    obtain ⟨⟨k', reports⟩, h1⟩ := hs ms
    exact ⟨_, Desk.scrub_board h1⟩
  · intro hs ms
    obtain ⟨k', reports, _, h1, _⟩ := C101_scrub hl hc hs h ms
    exact ⟨_, h1⟩

/-- **C101 (one card).** A query that is taken back from a card by what was reported leaves the card as it was. -/
theorem C101_one_card {useCache : Bool} {d : QueryData} {report : Nat} {c c' : Card Undoable} (hl : LiveCard c)
    (h : c.parseData useCache d = .ok (report, c')) : ∃ c'', takeData report d c' = .ok c'' ∧ SameCard c'' c := by
  obtain ⟨c'', h1, h2⟩ := (CardSim.refl (parseData_live hl h).1).take hl h
  exact ⟨c'', h1, fun f => (h2.single f).get, h2.targets.get, h2.counters.get⟩

/-- A new card with undoable members. -/
def newUndoable : Card Undoable := ⟨fun f => .init f.zero, .init [], .init []⟩

theorem newUndoable_live : LiveCard newUndoable := ⟨fun _ => rfl, rfl, rfl⟩

/-- Gives a code only. -/
def codeIs (n : Nat) : QueryData := QueryData.empty.setSingle .code n

/-- **C101 (reports are needed).** Whoever undoes all members that a query gave, without heeding the report, goes back too far: on a new card
`undo` stops at an assertion, on others an older value appears. -/
theorem C101_reports_needed :
    (do let (_, c) ← newUndoable.parseData true (codeIs 0)
        takeData 0 (codeIs 0) c >>= fun c => (c.single .code).get) = .error .assert ∧
    (do let (_, c) ← newUndoable.parseData true (codeIs 7)
        let (r, c) ← c.parseData true (codeIs 7)
        let back ← takeData r (codeIs 7) c
        let tooFar ← takeData 0 (codeIs 7) c
        return (← (back.single .code).get, ← (tooFar.single .code).get)) = .ok ((7 : Nat), (0 : Nat)) := by
  decide

/-- **C101 (the cache has to stay on or off).** A query that was parsed without the cache and is taken back and parsed again with it may now be a
hit, and then the next query shows the value of the one before: here a code of 5 is not shown when it arrives again. -/
theorem C101_same_cache :
    (do let (r1, c) ← newUndoable.parseData false (codeIs 0)
        let (r2, c) ← c.parseData false (codeIs 5)
        let first ← (c.single .code).get
        let c ← takeData r2 (codeIs 5) c
        let c ← takeData r1 (codeIs 0) c
        let (_, c) ← c.parseData true (codeIs 0)
        let (_, c) ← c.parseData true (codeIs 5)
        return (first, ← (c.single .code).get)) = .ok ((5 : Nat), (0 : Nat)) := by
  decide

/-- **C101 (what was taken back returns).** A query with another value, parsed in place of one that was taken back, does not show its own value
but the one taken back. -/
theorem C101_other_query (n m : Nat) (hn : n ≠ 0) (hm : m ≠ 0) :
    (do let (r, c) ← newUndoable.parseData true (codeIs n)
        let c ← takeData r (codeIs n) c
        let (_, c) ← c.parseData true (codeIs m)
        (c.single .code).get) = .ok n := by
  have h0 : ∀ x : Nat, x ≠ 0 → ¬ 0 = x := fun x h e => h e.symm
  simp [Card.parseData, Card.parseSingles, QField.all, Card.parseSingle, codeIs, QueryData.setSingle, QueryData.empty, newUndoable, Cell.get,
    Undoable.get, Undoable.init, orUb, QField.same, QField.zero, h0 n hn, h0 m hm, Cell.set, Undoable.set, Card.setSingle, takeData,
    takeSingles, takeList, Undoable.undo, massert, flagBit]

/-! ## Examples -/

/-- A duel starts, a card's data comes twice, it moves, its data comes again. -/
def demoNotes : List Note :=
  [.event (.board (.state { turnCounter := 1, lps := [8000, 8000], add := [mz0 0], resize := [⟨deck0 0, 2⟩] })),
   .query true ⟨mz0 0, codeIs 7⟩, .query true ⟨mz0 0, { codeIs 7 with counters := some [] }⟩,
   .event (.card 0 (.move [⟨mz0 0, mz0 1⟩])), .query false ⟨mz0 1, codeIs 7⟩, .query true ⟨mz0 1, codeIs 9⟩]

/-- The reports and codes after moving. -/
def demoDesk (ms : List Move) : Res (List Nat × List Nat) := do
  let (k, rs) ← Desk.scrub demoNotes ⟨UndoBoard.init, fun _ => newUndoable⟩ [] ms
  return (rs, ← (placed (view k.board.frame.base.layout)).mapM fun c => ((k.store c).single .code).get)

example : Live UndoBoard.init := ⟨⟨rfl, rfl⟩, rfl, rfl, rfl, fun _ => rfl, rfl, rfl⟩
example : (Desk.run ⟨UndoBoard.init, fun _ => newUndoable⟩ demoNotes).map (·.1) = .ok [0, 0, 1, 0, 0, 0] := by decide
example : demoDesk (List.replicate 6 .forward) = .ok ([0, 0, 0, 1, 0, 0], [0, 0, 9]) := by decide
example : demoDesk (List.replicate 6 .forward ++ List.replicate 5 .backward) = .ok ([0], [0, 0, 0]) := by decide
example : demoDesk (List.replicate 6 .forward ++ List.replicate 5 .backward ++ List.replicate 4 .forward) = .ok ([0, 0, 1, 0, 0], [0, 0, 7]) := by decide

end Ygo.Props
