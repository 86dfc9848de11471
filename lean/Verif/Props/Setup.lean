import Verif.Spec.Setup
import Verif.Props.Xyz
import Verif.Lemmas.FrameNew

/-!
# Setting the board up

What is on the tracked board after a duel starts, a field is reloaded or players of a team change (C64).
-/

namespace Ygo.Props
open Ygo.Spec Ygo.P

set_option linter.unusedSimpArgs false

/-- What is tracked after a message that is translated to an event. -/
theorem track_event (c : BasicContext) (m : CoreMsg) (hf : m.Fits) (e : Event) (hm : m.meaning = some (.event e)) (more : List UInt8) :
    track c (m.bytes ++ more) = (do let b ← c.board.parseEvent e; return { c with board := b }) := by
  unfold track
  rw [C34_translation c m hf _ hm more]
  show BasicContext.parse c ⟨.event e, []⟩ = _
  unfold BasicContext.parse
  cases hb : c.board.parseEvent e with
  | error e => simp only [hb]; rfl
  | ok b => simp only [hb]; rfl

/-! ## Counting cards -/

theorem add_sizes {f : Frame} (hi : Inv f) {p : Place} {C : Container} (hp : At p C (view f.layout C).length)
    (hs : ∀ k, C = .slot k → view f.layout C = []) :
    ∃ f', f.step (.add p) = .ok f' ∧ Inv f' ∧
      (view f'.layout).sizes = fun C' => if C' = C then (view f.layout).sizes C + 1 else (view f.layout).sizes C' := by
  obtain ⟨l, hl⟩ := Layout.cardInsert_returns (c := f.next) hp ⟨Nat.le_refl _, hs⟩
  have h1 : f.cardAdd p = .ok ({ f with layout := l, owned := f.next :: f.owned, next := f.next + 1 }, f.next) := by
    simp only [Frame.cardAdd, Frame.construct, hl, bind_ok]
    rfl
  have h2 : f.step (.add p) = .ok { f with layout := l, owned := f.next :: f.owned, next := f.next + 1 } := by
    simp only [Frame.step, h1, bind_ok]
    rfl
  refine ⟨_, h2, hi.step h2, ?_⟩
  obtain ⟨_, _, _, C', i, ha, _, hv⟩ := (C07_card_add _ _ _ _).mp h1
  obtain ⟨rfl, rfl⟩ := At.unique hp ha
  funext D
  rw [show (view _).sizes D = (view _ D).length from rfl, hv]
  simp only [Board.put, upd_apply, Board.sizes]
  split
  · rename_i h
    rw [List.length_insertIdx_of_le_length (Nat.le_refl _)]
  · rfl

theorem resize_sizes {f : Frame} (hi : Inv f) {p : Place} {k : PileKey} {i : Nat} (hp : At p (.pile k) i) (n : Nat) :
    ∃ f', f.step (.resize p n) = .ok f' ∧ Inv f' ∧
      (view f'.layout).sizes = fun C => if C = .pile k then n else (view f.layout).sizes C := by
  obtain ⟨f', h⟩ := Frame.pileResize_returns (n := n) hi hp
  obtain ⟨h1, _, _⟩ := Frame.pileResize_at hp h
  have h' : f.step (.resize p n) = .ok f' := h
  refine ⟨f', h', hi.step h', ?_⟩
  funext C
  rw [show (view _).sizes C = (view _ C).length from rfl, h1, upd_apply]
  split
  · simp; omega
  · rfl

theorem resizes_sizes (rs : List (ResizeOp × PileKey)) (h : ∀ r ∈ rs, At r.1.place (.pile r.2) r.1.place.seq) : ∀ {f : Frame}, Inv f →
    ∃ f', runOps f (DuelBoard.resizeOps (rs.map (·.1))) = .ok f' ∧ Inv f' ∧
      (view f'.layout).sizes = rs.foldl (fun s r C => if C = .pile r.2 then r.1.count else s C) (view f.layout).sizes := by
  induction rs with
  | nil => intro f hi; exact ⟨f, rfl, hi, rfl⟩
  | cons r rs ih =>
    intro f hi
    obtain ⟨f1, h1, h2, h3⟩ := resize_sizes hi (h r (by simp)) r.1.count
    obtain ⟨f2, h4, h5, h6⟩ := ih (fun r hr => h r (by simp [hr])) h2
    refine ⟨f2, ?_, h5, ?_⟩
    · simp only [DuelBoard.resizeOps, List.map_cons, runOps, FrameLike.step, h1, bind_ok]
      exact h4
    · rw [h6, h3]; rfl

/-! ## Zones -/

/-- The places of a zone's cards. -/
def cellPlaces (k : ZoneKey) : FieldCell → List Place
  | .empty => []
  | .card _ _ n => zonePlace k :: (List.range n.toNat).map fun (o : Nat) => { zonePlace k with oseq := (o : Int) }

theorem mats_sizes (k : ZoneKey) (n : Nat) : ∀ {f : Frame}, Inv f → ∀ m, (view f.layout (.mats k)).length = m →
    ∃ f', runOps f (((List.range' m n).map fun (o : Nat) => ({ zonePlace k with oseq := (o : Int) } : Place)).map .add) = .ok f' ∧ Inv f' ∧
      (view f'.layout).sizes = fun C => if C = .mats k then m + n else (view f.layout).sizes C := by
  induction n with
  | zero =>
    intro f hi m hm
    refine ⟨f, rfl, hi, ?_⟩
    funext C
    split
    · rename_i h; subst h; exact hm
    · rfl
  | succ n ih =>
    intro f hi m hm
    obtain ⟨f1, h1, h2, h3⟩ := add_sizes hi (p := { zonePlace k with oseq := (m : Int) }) (C := .mats k) (by rw [hm]; exact .mats k m)
      (by intro k h; cases h)
    obtain ⟨f2, h4, h5, h6⟩ := ih h2 (m + 1) (by
      have := congrFun h3 (.mats k)
      rw [if_pos rfl] at this
      exact this.trans (by rw [← hm]; rfl))
    refine ⟨f2, ?_, h5, ?_⟩
    · rw [List.range'_succ]
      simp only [List.map_cons, runOps, FrameLike.step, h1, bind_ok]
      exact h4
    · rw [h6, h3]
      funext C
      by_cases h : C = .mats k
      · simp [h]; omega
      · simp [h]

theorem cell_sizes (k : ZoneKey) (z : FieldCell) {f : Frame} (hi : Inv f) (hs : view f.layout (.slot k) = []) (hm : view f.layout (.mats k) = []) :
    ∃ f', runOps f ((cellPlaces k z).map .add) = .ok f' ∧ Inv f' ∧
      (view f'.layout).sizes = fun C => if C = .slot k then z.cards else if C = .mats k then z.mats else (view f.layout).sizes C := by
  cases z with
  | empty =>
    refine ⟨f, rfl, hi, ?_⟩
    funext C
    split
    · rename_i h; subst h; show (view f.layout _).length = _; rw [hs]; rfl
    · split
      · rename_i h; subst h; show (view f.layout _).length = _; rw [hm]; rfl
      · rfl
  | card mark pos n =>
    obtain ⟨f1, h1, h2, h3⟩ := add_sizes hi (p := zonePlace k) (C := .slot k) (by rw [hs]; exact .slot k (-1) (by decide)) (fun _ _ => hs)
    obtain ⟨f2, h4, h5, h6⟩ := mats_sizes k n.toNat h2 0 (by
      have := congrFun h3 (.mats k)
      rw [if_neg (by simp)] at this
      exact this.trans (by show (view f.layout _).length = _; rw [hm]; rfl))
    refine ⟨f2, ?_, h5, ?_⟩
    · simp only [cellPlaces, List.map_cons, runOps, FrameLike.step, h1, bind_ok]
      rw [List.range_eq_range']
      exact h4
    · rw [h6, h3]
      funext C
      by_cases h : C = .slot k
      · subst h
        simp only [reduceCtorEq, if_false, if_true, FieldCell.cards]
        show (view f.layout _).length + 1 = _
        rw [hs]; rfl
      · by_cases h' : C = .mats k
        · simp [h', FieldCell.mats]
        · simp [h, h']

theorem runOps_append' (f : Frame) (xs ys : List FrameOp) : runOps f (xs ++ ys) = (do let f ← runOps f xs; runOps f ys) := by
  induction xs generalizing f with
  | nil => rfl
  | cons x xs ih =>
    simp only [List.cons_append, runOps]
    cases FrameLike.step f x with
    | error e => rfl
    | ok f => exact ih f

theorem cells_sizes (zs : List FieldCell) : ∀ (key : Nat → ZoneKey) {f : Frame}, Inv f →
    (∀ i j, i < zs.length → j < zs.length → key i = key j → i = j) →
    (∀ i, i < zs.length → view f.layout (.slot (key i)) = [] ∧ view f.layout (.mats (key i)) = []) →
    ∃ f', runOps f (((zs.mapIdx fun i z => cellPlaces (key i) z).flatten).map .add) = .ok f' ∧ Inv f' ∧
      (∀ i z, zs[i]? = some z → (view f'.layout).sizes (.slot (key i)) = z.cards ∧ (view f'.layout).sizes (.mats (key i)) = z.mats) ∧
      (∀ C, (∀ i, i < zs.length → C ≠ .slot (key i) ∧ C ≠ .mats (key i)) → (view f'.layout).sizes C = (view f.layout).sizes C) := by
  induction zs with
  | nil =>
    intro key f hi _ _
    exact ⟨f, rfl, hi, fun i z h => by simp at h, fun _ _ => rfl⟩
  | cons z zs ih =>
    intro key f hi hk he
    obtain ⟨f1, h1, h2, h3⟩ := cell_sizes (key 0) z hi (he 0 (by simp)).1 (he 0 (by simp)).2
    have ne : ∀ i, i < zs.length → key (i + 1) ≠ key 0 := by
      intro i h e
      have := hk (i + 1) 0 (by simpa using h) (by simp) e
      omega
    have none_of : ∀ C, (view f.layout C) = [] → C ≠ .slot (key 0) → C ≠ .mats (key 0) → view f1.layout C = [] := by
      intro C h0 h4 h5
      have := congrFun h3 C
      rw [if_neg h4, if_neg h5] at this
      refine List.eq_nil_of_length_eq_zero (this.trans ?_)
      show (view f.layout C).length = 0
      rw [h0]; rfl
    obtain ⟨f2, h4, h5, h6, h7⟩ := ih (fun i => key (i + 1)) h2
      (fun i j hi hj e => by
        have := hk (i + 1) (j + 1) (by simpa using hi) (by simpa using hj) e
        omega)
      (fun i hi => ⟨none_of _ (he (i + 1) (by simpa using hi)).1 (by simp [ne i hi]) (by simp),
        none_of _ (he (i + 1) (by simpa using hi)).2 (by simp) (by simp [ne i hi])⟩)
    refine ⟨f2, ?_, h5, ?_, ?_⟩
    · rw [List.mapIdx_cons, List.flatten_cons, List.map_append, runOps_append', h1]
      exact h4
    · intro i z' hz
      cases i with
      | zero =>
        cases hz
        rw [h7 _ (fun i hi => ⟨by simp [(ne i hi).symm], by simp⟩), h7 _ (fun i hi => ⟨by simp, by simp [(ne i hi).symm]⟩), h3]
        simp
      | succ i => exact h6 i z' (by simpa using hz)
    · intro C hC
      rw [h7 C (fun i hi => hC (i + 1) (by simpa using hi)), h3]
      have := hC 0 (by simp)
      simp [this]

/-- Zone of a monster slot. -/
def mKey (c : Fin 2) (i : Nat) : ZoneKey := ⟨c, .monster, i % 7, Nat.mod_lt _ (by decide)⟩

/-- Zone of a spell slot. -/
def sKey (c : Fin 2) (i : Nat) : ZoneKey :=
  if h : i < 5 then ⟨c, .spell, i, h⟩ else if i = 5 then ⟨c, .field, 0, by decide⟩ else ⟨c, .pendulum, (i - 6) % 2, Nat.mod_lt _ (by decide)⟩

theorem mKey_inj (c : Fin 2) (i j : Nat) (hi : i < 7) (hj : j < 7) (h : mKey c i = mKey c j) : i = j := by
  have h : i % 7 = j % 7 := congrArg ZoneKey.seq h
  omega

theorem sKey_con (c : Fin 2) (i : Nat) : (sKey c i).con = c := by
  unfold sKey; split
  · rfl
  · split <;> rfl

theorem sKey_loc (c : Fin 2) (i : Nat) : (sKey c i).loc ≠ .monster ∧ (sKey c i).loc ≠ .skill := by
  unfold sKey; split
  · exact ⟨by simp, by simp⟩
  · split <;> exact ⟨by simp, by simp⟩

theorem sKey_inj (c : Fin 2) (i j : Nat) (hi : i < 8) (hj : j < 8) (h : sKey c i = sKey c j) : i = j := by
  have : ∀ c : Fin 2, ∀ i j : Fin 8, sKey c i = sKey c j → i = j := by decide
  have := this c ⟨i, hi⟩ ⟨j, hj⟩ h
  simpa using this

theorem mPlaces (c : Fin 2) (i : Nat) (hi : i < 7) (z : FieldCell) : z.places c.val 4 i = cellPlaces (mKey c i) z := by
  cases z with
  | empty => rfl
  | card mark pos n =>
    have e : i % 7 = i := Nat.mod_eq_of_lt hi
    simp only [FieldCell.places, cellPlaces, zonePlace, mKey, e]
    rfl

theorem sPlaces (c : Fin 2) (i : Nat) (hi : i < 8) (z : FieldCell) (hz : 5 ≤ i → z.mats = 0) :
    z.places c.val 8 i = cellPlaces (sKey c i) z := by
  cases z with
  | empty => rfl
  | card mark pos n =>
    have e : ∀ c : Fin 2, ∀ i : Fin 8, (⟨c.val, (slot 8 i).1, (slot 8 i).2, -1⟩ : Place) = zonePlace (sKey c i) := by decide
    have e1 := e c ⟨i, hi⟩
    simp only [FieldCell.places, cellPlaces]
    rw [show (⟨c.val, (slot 8 i).1, (slot 8 i).2, -1⟩ : Place) = zonePlace (sKey c i) from e1]
    congr 1
    by_cases h5 : 5 ≤ i
    · have : n.toNat = 0 := hz h5
      rw [this]; rfl
    · have e2 : sKey c i = ⟨c, .spell, i, by simp [ZoneLoc.limit]; omega⟩ := by
        unfold sKey
        rw [dif_pos (by omega)]
      rw [e2]
      rfl

theorem mapIdx_congr {α β : Type} {l : List α} {f g : Nat → α → β} (h : ∀ (i : Nat) a, l[i]? = some a → f i a = g i a) :
    l.mapIdx f = l.mapIdx g := by
  apply List.ext_getElem?
  intro i
  rw [List.getElem?_mapIdx, List.getElem?_mapIdx]
  cases hl : l[i]? with
  | none => rfl
  | some a => simp [h i a hl]

/-- Adding the cards of one side to empty zones. -/
theorem side_sizes (c : Fin 2) (s : FieldSide) (hf : s.Fits) (ho : NoOddMaterials s) {f : Frame} (hi : Inv f)
    (he : ∀ k : ZoneKey, k.con = c → view f.layout (.slot k) = [] ∧ view f.layout (.mats k) = []) :
    ∃ f', runOps f ((s.places c.val).map .add) = .ok f' ∧ Inv f' ∧
      (∀ k : ZoneKey, k.con = c → (view f'.layout).sizes (.slot k) = (s.cell k).cards ∧ (view f'.layout).sizes (.mats k) = (s.cell k).mats) ∧
      (∀ k : ZoneKey, k.con ≠ c → (view f'.layout).sizes (.slot k) = (view f.layout).sizes (.slot k) ∧
        (view f'.layout).sizes (.mats k) = (view f.layout).sizes (.mats k)) ∧
      ∀ k, (view f'.layout).sizes (.pile k) = (view f.layout).sizes (.pile k) := by
  obtain ⟨hm, hs, _, _⟩ := hf
  obtain ⟨f1, h1, h2, h3, h4⟩ := cells_sizes s.monsters (mKey c) hi (fun i j hi hj h => mKey_inj c i j (hm ▸ hi) (hm ▸ hj) h)
    (fun i _ => he (mKey c i) rfl)
  have nm : ∀ i k, k = sKey c i → ∀ j, k ≠ mKey c j := by
    rintro i k rfl j h
    have := (sKey_loc c i).1
    rw [h] at this
    exact this rfl
  have nil_of : ∀ C, (view f1.layout).sizes C = (view f.layout).sizes C → view f.layout C = [] → view f1.layout C = [] := by
    intro C h h0
    refine List.eq_nil_of_length_eq_zero (h.trans ?_)
    show (view f.layout C).length = 0
    rw [h0]; rfl
  obtain ⟨f2, g1, g2, g3, g4⟩ := cells_sizes s.spells (sKey c) h2 (fun i j hi hj h => sKey_inj c i j (hs ▸ hi) (hs ▸ hj) h)
    (fun i _ => ⟨nil_of _ (h4 _ fun j _ => ⟨by simpa using nm i _ rfl j, by simp⟩) (he _ (sKey_con c i)).1,
      nil_of _ (h4 _ fun j _ => ⟨by simp, by simpa using nm i _ rfl j⟩) (he _ (sKey_con c i)).2⟩)
  have hM : ∀ i, i < 7 → (view f2.layout).sizes (.slot (mKey c i)) = (s.monsters.getD i .empty).cards ∧
      (view f2.layout).sizes (.mats (mKey c i)) = (s.monsters.getD i .empty).mats := by
    intro i hi'
    have e := List.getElem?_eq_getElem (l := s.monsters) (i := i) (by omega)
    obtain ⟨a, b⟩ := h3 i _ e
    rw [g4 _ (fun j _ => ⟨fun h => nm j _ rfl i (by simpa using h.symm), by simp⟩),
      g4 _ (fun j _ => ⟨by simp, fun h => nm j _ rfl i (by simpa using h.symm)⟩), a, b]
    simp [List.getD, e]
  have hS : ∀ i, i < 8 → (view f2.layout).sizes (.slot (sKey c i)) = (s.spells.getD i .empty).cards ∧
      (view f2.layout).sizes (.mats (sKey c i)) = (s.spells.getD i .empty).mats := by
    intro i hi'
    have e := List.getElem?_eq_getElem (l := s.spells) (i := i) (by omega)
    obtain ⟨a, b⟩ := g3 i _ e
    rw [a, b]
    simp [List.getD, e]
  refine ⟨f2, ?_, g2, ?_, ?_, ?_⟩
  · unfold FieldSide.places
    rw [List.map_append, runOps_append']
    have e1 : (s.monsters.mapIdx fun i z => z.places c.val 4 i) = s.monsters.mapIdx fun i z => cellPlaces (mKey c i) z :=
      mapIdx_congr fun i z hz => mPlaces c i (by have := (List.getElem?_eq_some_iff.mp hz).1; omega) z
    have e2 : (s.spells.mapIdx fun i z => z.places c.val 8 i) = s.spells.mapIdx fun i z => cellPlaces (sKey c i) z :=
      mapIdx_congr fun i z hz => sPlaces c i (by have := (List.getElem?_eq_some_iff.mp hz).1; omega) z (by
        intro h5
        cases z with
        | empty => rfl
        | card mark pos n => rw [ho i mark pos n h5 hz]; rfl)
    rw [e1, e2, h1]
    exact g1
  · intro k hk
    obtain ⟨con, loc, seq, lt⟩ := k
    simp only at hk
    subst hk
    cases loc with
    | monster =>
      have e : (⟨con, .monster, seq, lt⟩ : ZoneKey) = mKey con seq :=
        ZoneKey.ext' rfl rfl (Nat.mod_eq_of_lt lt).symm
      have := hM seq lt
      rw [← e] at this
      exact this
    | spell =>
      have e : (⟨con, .spell, seq, lt⟩ : ZoneKey) = sKey con seq := by unfold sKey; rw [dif_pos (show seq < 5 from lt)]
      have := hS seq (Nat.lt_of_lt_of_le lt (by decide))
      rw [← e] at this
      exact this
    | field =>
      have h0 : seq = 0 := by simp [ZoneLoc.limit] at lt; exact lt
      subst h0
      exact hS 5 (by decide)
    | pendulum =>
      have lt' : seq < 2 := lt
      have e : (⟨con, .pendulum, seq, lt⟩ : ZoneKey) = sKey con (6 + seq) := by
        unfold sKey
        rw [dif_neg (by omega), if_neg (by omega)]
        refine ZoneKey.ext' rfl rfl ?_
        show seq = (6 + seq - 6) % 2
        omega
      have := hS (6 + seq) (by omega)
      rw [← e] at this
      exact this
    | skill =>
      have ns : ∀ j, (⟨con, .skill, seq, lt⟩ : ZoneKey) ≠ sKey con j := by
        intro j h
        have := (sKey_loc con j).2
        rw [← h] at this
        exact this rfl
      have ns' : ∀ j, (⟨con, .skill, seq, lt⟩ : ZoneKey) ≠ mKey con j := by
        intro j h
        have := congrArg ZoneKey.loc h
        cases this
      obtain ⟨a, b⟩ := he ⟨con, .skill, seq, lt⟩ rfl
      rw [g4 _ (fun j _ => ⟨by simpa using ns j, by simp⟩), h4 _ (fun j _ => ⟨by simpa using ns' j, by simp⟩),
        g4 _ (fun j _ => ⟨by simp, by simpa using ns j⟩), h4 _ (fun j _ => ⟨by simp, by simpa using ns' j⟩)]
      exact ⟨congrArg List.length a, congrArg List.length b⟩
  · intro k hk
    have ns : ∀ j, k ≠ sKey c j := by rintro j rfl; exact hk (sKey_con c j)
    have ns' : ∀ j, k ≠ mKey c j := by rintro j rfl; exact hk rfl
    rw [g4 _ (fun j _ => ⟨by simpa using ns j, by simp⟩), h4 _ (fun j _ => ⟨by simpa using ns' j, by simp⟩),
      g4 _ (fun j _ => ⟨by simp, by simpa using ns j⟩), h4 _ (fun j _ => ⟨by simp, by simpa using ns' j⟩)]
    exact ⟨rfl, rfl⟩
  · intro k
    rw [g4 _ (fun j _ => ⟨by simp, by simp⟩), h4 _ (fun j _ => ⟨by simp, by simp⟩)]

/-! ## C64 -/

/-- What the board is after a state event: additions to an empty frame, then pile sizes. -/
theorem state_runs (b : PlainBoard) (s : BoardState) (l0 l1 : Nat) (hl : s.lps = [l0, l1]) {f : Frame}
    (hr : runOps b.frame (DuelBoard.stateOps s) = .ok f) :
    b.parseEvent (.board (.state s)) = .ok
      ⟨f, ⟨s.chains⟩, if 0 ≤ s.turnCounter then ⟨s.turnCounter.toNat⟩ else b.turn, b.turnController, fun i => ⟨if i = 0 then l0 else l1⟩, b.phase,
        b.blockedZones⟩ := by
  simp only [DuelBoard.parseEvent, DuelBoard.parseState, DuelBoard.onFrame, DuelBoard.setLp, hl]
  have e : (fun j : Fin 2 => if j = 1 then (⟨l1⟩ : Plain Nat) else if j = 0 then ⟨l0⟩ else b.lp j) = fun i => ⟨if i = 0 then l0 else l1⟩ := by
    funext i
    match i with
    | 0 => rfl
    | 1 => rfl
  by_cases h : 0 ≤ s.turnCounter
  · simp only [h, if_true, orUb, List.getElem?_cons_zero, List.getElem?_cons_succ, bind_ok, hr, Cell.set, e]
    rfl
  · simp only [h, if_false, orUb, List.getElem?_cons_zero, List.getElem?_cons_succ, bind_ok, hr, Cell.set, e]
    rfl

/-- **C64.** After the message that starts a duel the two decks of both players have the announced sizes, there is no other card,
no chain, the turn is 0 and the life points are the announced ones. -/
theorem C64_start (c : BasicContext) (hr : Reachable c.board.frame) (rule : UInt8) (lp0 lp1 : UInt32) (m0 e0 m1 e1 : UInt16) (more : List UInt8) :
    ∃ f, track c ((CoreMsg.start rule lp0 lp1 m0 e0 m1 e1).bytes ++ more) = .ok { c with board :=
        ⟨f, ⟨[]⟩, ⟨0⟩, c.board.turnController, fun i => ⟨if i = 0 then lp0.toNat else lp1.toNat⟩, c.board.phase, c.board.blockedZones⟩ } ∧
      Owns f ∧ (∀ C, ∀ x ∈ view f.layout C, NotMade c x) ∧ (view f.layout).sizes =
        startSizes (fun i => if i = 0 then m0.toNat else m1.toNat) (fun i => if i = 0 then e0.toNat else e1.toNat) := by
  obtain ⟨g, h1, h2, h3, h4, h5⟩ := hr.inv.clear
  obtain ⟨f, h6, h7, h8⟩ := resizes_sizes
    [(CoreMsg.pileSize 0 1 m0.toNat, ⟨0, .mainDeck⟩), (CoreMsg.pileSize 0 0x40 e0.toNat, ⟨0, .extraDeck⟩),
     (CoreMsg.pileSize 1 1 m1.toNat, ⟨1, .mainDeck⟩), (CoreMsg.pileSize 1 0x40 e1.toNat, ⟨1, .extraDeck⟩)] (by
      intro r hr
      simp only [List.mem_cons, List.not_mem_nil, or_false] at hr
      rcases hr with rfl | rfl | rfl | rfl
      · exact .pile ⟨0, .mainDeck⟩ 0 (-1)
      · exact .pile ⟨0, .extraDeck⟩ 0 (-1)
      · exact .pile ⟨1, .mainDeck⟩ 0 (-1)
      · exact .pile ⟨1, .extraDeck⟩ 0 (-1)) h2
  refine ⟨f, ?_, h7.owns, ?_, ?_⟩
  · rw [track_event c _ (show CoreMsg.Fits (.start rule lp0 lp1 m0 e0 m1 e1) from trivial) _ rfl, state_runs c.board _ lp0.toNat lp1.toNat rfl (f := f) (by
      simp only [DuelBoard.stateOps, List.map_nil, List.cons_append, List.nil_append, runOps, FrameLike.step, Frame.step, h1, bind_ok]
      exact h6)]
    rfl
  · intro C x hx
    have := runOps_all_new h5 h6 h7 C x hx
    rwa [h3] at this
  · rw [h8]
    funext C
    have h0 : (view g.layout).sizes C = 0 := congrArg List.length (h4 C)
    simp only [List.foldl_cons, List.foldl_nil, CoreMsg.pileSize, h0]
    cases C with
    | slot k => simp [startSizes]
    | mats k => simp [startSizes]
    | pile k =>
      obtain ⟨c, l⟩ := k
      match c with
      | 0 => cases l <;> simp [startSizes]
      | 1 => cases l <;> simp [startSizes]

/-- The piles a side sizes. -/
def pilesOf (c : Fin 2) (s : FieldSide) : List (ResizeOp × PileKey) :=
  [(⟨⟨c.val, 1, 0, -1⟩, s.main.toNat⟩, ⟨c, .mainDeck⟩), (⟨⟨c.val, 2, 0, -1⟩, s.hand.toNat⟩, ⟨c, .hand⟩),
   (⟨⟨c.val, 0x10, 0, -1⟩, s.grave.toNat⟩, ⟨c, .graveyard⟩), (⟨⟨c.val, 0x20, 0, -1⟩, s.banished.toNat⟩, ⟨c, .banished⟩),
   (⟨⟨c.val, 0x40, 0, -1⟩, s.extra.toNat⟩, ⟨c, .extraDeck⟩)]

theorem pilesOf_at (c : Fin 2) (s : FieldSide) : ∀ r ∈ pilesOf c s, At r.1.place (.pile r.2) r.1.place.seq := by
  intro r hr
  simp only [pilesOf, List.mem_cons, List.not_mem_nil, or_false] at hr
  rcases hr with rfl | rfl | rfl | rfl | rfl
  · exact .pile ⟨c, .mainDeck⟩ 0 (-1)
  · exact .pile ⟨c, .hand⟩ 0 (-1)
  · exact .pile ⟨c, .graveyard⟩ 0 (-1)
  · exact .pile ⟨c, .banished⟩ 0 (-1)
  · exact .pile ⟨c, .extraDeck⟩ 0 (-1)

/-- **C64.** After a field is reloaded every pile and zone holds as many cards as the message says, with the core's spell slots 5 to 7
being the field and pendulum zones, and life points and chain are as the message says. Cards in field and pendulum zones must have no
materials, see `C45_invalid_place`. -/
theorem C64_reload (c : BasicContext) (hr : Reachable c.board.frame) (flags : UInt32) (s : Fin 2 → FieldSide) (chains : List Link)
    (hf : ∀ i, (s i).Fits) (ho : ∀ i, NoOddMaterials (s i)) (hc : chains.length < 2 ^ 32) (more : List UInt8) :
    ∃ f, track c ((CoreMsg.reloadField flags (s 0) (s 1) chains).bytes ++ more) = .ok { c with board :=
        ⟨f, ⟨chains.map (·.chain)⟩, c.board.turn, c.board.turnController, fun i => ⟨(s i).lp.toNat⟩, c.board.phase, c.board.blockedZones⟩ } ∧
      Owns f ∧ (∀ C, ∀ x ∈ view f.layout C, NotMade c x) ∧ (view f.layout).sizes = reloadSizes s := by
  obtain ⟨g, h1, h2, h3, h4, h5⟩ := hr.inv.clear
  obtain ⟨g0, a1, a2, a3, a4, a5⟩ := side_sizes 0 (s 0) (hf 0) (ho 0) h2 (fun k _ => ⟨h4 _, h4 _⟩)
  obtain ⟨g1, b1, b2, b3, b4, b5⟩ := side_sizes 1 (s 1) (hf 1) (ho 1) a2 (fun k hk => by
    have hk' : k.con ≠ 0 := by rw [hk]; decide
    obtain ⟨x, y⟩ := a4 k hk'
    exact ⟨List.eq_nil_of_length_eq_zero (x.trans (congrArg List.length (h4 _))), List.eq_nil_of_length_eq_zero (y.trans (congrArg List.length (h4 _)))⟩)
  obtain ⟨f, h6, h7, h8⟩ := resizes_sizes (pilesOf 0 (s 0) ++ pilesOf 1 (s 1)) (by
    intro r hr
    rcases List.mem_append.mp hr with h | h
    · exact pilesOf_at 0 _ r h
    · exact pilesOf_at 1 _ r h) b2
  refine ⟨f, ?_, h7.owns, ?_, ?_⟩
  · rw [track_event c _ (show CoreMsg.Fits (.reloadField flags (s 0) (s 1) chains) from ⟨hf 0, hf 1, hc⟩) _ rfl,
      state_runs c.board _ (s 0).lp.toNat (s 1).lp.toNat rfl (f := f) (by
        simp only [DuelBoard.stateOps, List.cons_append, List.map_append, runOps, FrameLike.step, Frame.step, h1, bind_ok]
        rw [runOps_append', runOps_append', show runOps g (List.map FrameOp.add ((s 0).places 0)) = .ok g0 from a1, bind_ok,
          show runOps g0 (List.map FrameOp.add ((s 1).places 1)) = .ok g1 from b1, bind_ok]
        exact h6)]
    have e : (fun i : Fin 2 => (⟨if i = 0 then (s 0).lp.toNat else (s 1).lp.toNat⟩ : Plain Nat)) = fun i => ⟨(s i).lp.toNat⟩ := by
      funext i
      match i with
      | 0 => rfl
      | 1 => rfl
    rw [e]
    rfl
  · intro C x hx
    have : runOps g (List.map FrameOp.add ((s 0).places (0 : Fin 2)) ++ (List.map FrameOp.add ((s 1).places (1 : Fin 2)) ++
        ((pilesOf 0 (s 0) ++ pilesOf 1 (s 1)).map fun r => FrameOp.resize r.1.place r.1.count))) = .ok f := by
      rw [runOps_append', a1, bind_ok, runOps_append', b1, bind_ok]
      exact h6
    have := runOps_all_new h5 this h7 C x hx
    rwa [h3] at this
  · rw [h8]
    funext C
    cases C with
    | slot k =>
      simp only [pilesOf, List.cons_append, List.nil_append, List.foldl_cons, List.foldl_nil, reduceCtorEq, if_false, reloadSizes]
      match hk : k.con with
      | 0 => rw [(b4 k (by rw [hk]; decide)).1, (a3 k hk).1]
      | 1 => rw [(b3 k hk).1]
    | mats k =>
      simp only [pilesOf, List.cons_append, List.nil_append, List.foldl_cons, List.foldl_nil, reduceCtorEq, if_false, reloadSizes]
      match hk : k.con with
      | 0 => rw [(b4 k (by rw [hk]; decide)).2, (a3 k hk).2]
      | 1 => rw [(b3 k hk).2]
    | pile k =>
      obtain ⟨c, l⟩ := k
      simp only [pilesOf, List.cons_append, List.nil_append, List.foldl_cons, List.foldl_nil, reloadSizes]
      match c with
      | 0 => cases l <;> simp [FieldSide.size]
      | 1 => cases l <;> simp [FieldSide.size]

/-- **C64.** After a change of players the player's deck, extra deck and hand have the announced sizes; cards that were there stay as
far as they fit and everything else is as it was. -/
theorem C64_tag_swap (c : BasicContext) (hr : Reachable c.board.frame) (p : Fin 2) (main extraP top : UInt32) (extra hand : List (UInt32 × UInt32))
    (hf : extra.length + hand.length < 2 ^ 32) (more : List UInt8) :
    ∃ f, track c ((CoreMsg.tagSwap (playerByte p) main extraP top extra hand).bytes ++ more) = .ok { c with board := { c.board with frame := f } } ∧
      Owns f ∧ Resized (NotMade c) (boardOf c (.pile ⟨p, .mainDeck⟩)) main.toNat (view f.layout (.pile ⟨p, .mainDeck⟩)) ∧
      Resized (NotMade c) (boardOf c (.pile ⟨p, .extraDeck⟩)) extra.length (view f.layout (.pile ⟨p, .extraDeck⟩)) ∧
      Resized (NotMade c) (boardOf c (.pile ⟨p, .hand⟩)) hand.length (view f.layout (.pile ⟨p, .hand⟩)) ∧
      ∀ C, C ≠ .pile ⟨p, .mainDeck⟩ → C ≠ .pile ⟨p, .extraDeck⟩ → C ≠ .pile ⟨p, .hand⟩ → view f.layout C = boardOf c C := by
  have one : ∀ (f : Frame) (hi : Inv f) (l : PileLoc) (n : Nat), ∃ f', f.step (.resize ⟨p.val, l.code, 0, -1⟩ n) = .ok f' ∧ Inv f' ∧
      (∀ C, C ≠ .pile ⟨p, l⟩ → view f'.layout C = view f.layout C) ∧
      view f'.layout (.pile ⟨p, l⟩) = (view f.layout (.pile ⟨p, l⟩)).take n ++ List.range' f.next (n - (view f.layout (.pile ⟨p, l⟩)).length) := by
    intro f hi l n
    obtain ⟨f', h⟩ := Frame.pileResize_returns (n := n) hi (.pile ⟨p, l⟩ 0 (-1))
    obtain ⟨h1, _, _⟩ := Frame.pileResize_at (.pile ⟨p, l⟩ 0 (-1)) h
    have h' : f.step (.resize ⟨p.val, l.code, 0, -1⟩ n) = .ok f' := h
    have e : view f'.layout (.pile ⟨p, l⟩) = (view f.layout (.pile ⟨p, l⟩)).take n ++
        List.range' f.next (n - (view f.layout (.pile ⟨p, l⟩)).length) := by
      rw [h1, upd_apply, if_pos rfl]; rfl
    refine ⟨f', h', hi.step h', ?_, e⟩
    · intro C hC
      rw [h1, upd_apply, if_neg hC]
  obtain ⟨f1, a1, a2, a4, a5⟩ := one c.board.frame hr.inv .mainDeck main.toNat
  obtain ⟨f2, b1, b2, b4, b5⟩ := one f1 a2 .extraDeck extra.length
  obtain ⟨f3, d1, d2, d4, d5⟩ := one f2 b2 .hand hand.length
  refine ⟨f3, ?_, d2.owns, ?_, ?_, ?_, ?_⟩
  · rw [track_event c _ (show CoreMsg.Fits (.tagSwap (playerByte p) main extraP top extra hand) from hf) _ rfl]
    simp only [playerByte_toNat]
    have : runOps c.board.frame (DuelBoard.exchangeOps { con := p.val, resize := [CoreMsg.pileSize p.val 1 main.toNat, CoreMsg.pileSize p.val 0x40 extra.length,
        CoreMsg.pileSize p.val 2 hand.length] }) = .ok f3 := by
      simp only [DuelBoard.exchangeOps, DuelBoard.resizeOps, List.map_cons, List.map_nil, List.cons_append, List.nil_append, runOps, FrameLike.step]
      rw [show c.board.frame.step (.resize (CoreMsg.pileSize p.val 1 main.toNat).place (CoreMsg.pileSize p.val 1 main.toNat).count) = .ok f1 from a1, bind_ok,
        show f1.step (.resize (CoreMsg.pileSize p.val 0x40 extra.length).place (CoreMsg.pileSize p.val 0x40 extra.length).count) = .ok f2 from b1, bind_ok,
        show f2.step (.resize (CoreMsg.pileSize p.val 2 hand.length).place (CoreMsg.pileSize p.val 2 hand.length).count) = .ok f3 from d1, bind_ok]
    simp only [DuelBoard.parseEvent, DuelBoard.onFrame, this]
    rfl
  · exact ⟨_, by rw [d4 _ (by simp), b4 _ (by simp), a5]; rfl, by simp; rfl, fun x hx => (List.mem_range'_1.mp hx).1⟩
  · exact ⟨_, by rw [d4 _ (by simp), b5, a4 _ (by simp)]; rfl, by simp; rfl,
      fun x hx => Nat.le_trans (step_next a1) (List.mem_range'_1.mp hx).1⟩
  · exact ⟨_, by rw [d5, b4 _ (by simp), a4 _ (by simp)]; rfl, by simp; rfl,
      fun x hx => Nat.le_trans (step_next a1) (Nat.le_trans (step_next b1) (List.mem_range'_1.mp hx).1)⟩
  · intro C h1 h2 h3
    rw [d4 C h3, b4 C h2, a4 C h1]; rfl

/-- A reloaded side: a monster with two materials, a field spell and a pendulum card. -/
def someSide : FieldSide :=
  ⟨8000, [.empty, .card 1 1 2, .empty, .empty, .empty, .empty, .empty],
   [.card 1 8 0, .empty, .empty, .empty, .empty, .card 1 1 0, .empty, .card 1 1 0], 30, 5, 3, 1, 12, 0⟩

example : someSide.Fits ∧ NoOddMaterials someSide := by
  refine ⟨⟨rfl, rfl, by unfold someSide; simp [FieldCell.Fits], by unfold someSide; simp [FieldCell.Fits]⟩, ?_⟩
  intro i mark pos mats h5 h
  match i with
  | 5 | 7 => cases h; rfl
  | 6 => cases h
  | n + 8 => cases h

example : reloadSizes (fun _ => someSide) (.mats ⟨1, .monster, 1, by decide⟩) = 2 ∧
    reloadSizes (fun _ => someSide) (.slot ⟨1, .pendulum, 1, by decide⟩) = 1 ∧
    reloadSizes (fun _ => someSide) (.slot ⟨0, .pendulum, 0, by decide⟩) = 0 ∧ reloadSizes (fun _ => someSide) (.pile ⟨0, .hand⟩) = 5 := by decide
example : Reachable BasicContext.init.board.frame := ⟨[], rfl⟩
example : (track BasicContext.init (CoreMsg.start 0 8000 8000 3 1 2 0).bytes).toOption.map (fun c =>
      (boardOf c (.pile ⟨0, .mainDeck⟩), boardOf c (.pile ⟨0, .extraDeck⟩), boardOf c (.pile ⟨1, .mainDeck⟩), (placed (boardOf c)).length)) =
    some ([0, 1, 2], [3], [4, 5], 6) := by decide +kernel

end Ygo.Props
