import Verif.Lemmas.ReleaseMore
import Verif.Props.FrameSafe
import Verif.Props.Table
import Verif.Spec.Undo
import Verif.Lemmas.Scrub

/-!
# C88: builds without asserts

What the calls of a frame and the events of a board do when `NDEBUG` is defined.
-/

set_option linter.unusedSimpArgs false

namespace Ygo.Props
open Ygo Ygo.Spec

/-! ## Histories -/

/-- **C88.** A call that asserts let pass does the same without them. -/
theorem C88_same (f f' : Frame) (hr : Reachable f) (op : FrameOp) (h : f.step op = .ok f') : (asRaw f).step op = .ok (asRaw f') :=
  hr.inv.step_same h

theorem init_same : asRaw Frame.init = RawFrame.init := rfl

theorem run_same {f f' : Frame} (hi : Inv f) {ops : List FrameOp} (h : f.run ops = .ok f') : (asRaw f).run ops = .ok (asRaw f') := by
  induction ops generalizing f with
  | nil => cases h; rfl
  | cons op ops ih =>
    simp only [Frame.run, RawFrame.run, bind_eq_ok] at h ⊢
    obtain ⟨g, h1, h2⟩ := h
    exact ⟨_, hi.step_same h1, ih (hi.step h1) h2⟩

/-- **C88.** So do all histories of calls. -/
theorem C88_same_history (f : Frame) (ops : List FrameOp) (h : Frame.init.run ops = .ok f) : RawFrame.init.run ops = .ok (asRaw f) :=
  run_same Inv.init h

/-- **C88.** No call stops: it returns or is undefined. -/
theorem C88_no_stop (f : RawFrame) (op : FrameOp) (e : Err) (h : f.step op = .error e) : e = .ub := f.step_only op e h

/-- **C88.** Which calls return, and what they make of the pointers. -/
theorem C88_call (f : RawFrame) (op : FrameOp) (hop : ¬ IsShuffle op) (T : PtrTable) :
    (∃ f', f.step op = .ok f' ∧ rawTable f' = T) ↔ (rawTable f).Step op T := RawFrame.step_table hop

/-- **C88.** Which shuffles of one kind of zone return. -/
theorem C88_shuffle_returns (f : RawFrame) (prev cur : List Place) (n : Nat) (loc : ZoneLoc)
    (hrow : ∀ q ∈ cur, q.isEmpty = false → q.loc = loc.code) :
    (∃ f', f.step (.shuffle prev cur n) = .ok f') ↔ n ≤ 7 ∧ n ≤ prev.length ∧
      ∀ m, m < n → ∃ q, cur[m]? = some q ∧ (q.isEmpty = false → (∃ p, prev[m]? = some p ∧ p.seq < loc.limit) ∧ ∃ k, Names q k) :=
  RawFrame.shuffle_returns hrow

/-- **C88.** A shuffle that returns rearranges zones in a way that does not depend on what lies in them. -/
theorem C88_shuffle_permutes (f f' : RawFrame) (prev cur : List Place) (n : Nat) (h : f.step (.shuffle prev cur n) = .ok f') :
    ∃ π σ : ZoneKey → ZoneKey, (∀ k, σ (π k) = k) ∧ (∀ k, π (σ k) = k) ∧
      ∀ g : RawFrame, g.step (.shuffle prev cur n) = .ok ⟨⟨g.layout.pile, fun k => g.layout.zone (π k)⟩, g.owned, g.next⟩ :=
  RawFrame.shuffle_permutes h

/-! ## Pointers -/

/-- **C88.** Whatever calls were made, no card lies in two places, and every card that lies somewhere is alive. -/
theorem C88_no_dangling (ops : List FrameOp) (f : RawFrame) (h : RawFrame.init.run ops = .ok f) :
    (cardsOn (rawView f.layout)).Nodup ∧ (∀ x ∈ cardsOn (rawView f.layout), x ∈ f.owned) ∧ f.owned.Nodup ∧ ∀ x ∈ f.owned, x < f.next :=
  have hi := PInv.init.run h
  ⟨hi.nodup_on, fun _ hx => hi.on_owned hx, hi.nodup, hi.fresh⟩

theorem mem_iff_pos {l : List CardId} {x : CardId} : x ∈ l ↔ 0 < l.count x := List.count_pos_iff.symm

/-- **C88.** Exactly the cards that are written over are left alive without lying anywhere. -/
theorem C88_lost (ops : List FrameOp) (f f' : RawFrame) (h : RawFrame.init.run ops = .ok f) (op : FrameOp) (h' : f.step op = .ok f') (x : CardId) :
    (x ∈ cardsOn (rawView f.layout) ∧ x ∉ cardsOn (rawView f'.layout) ∧ x ∈ f'.owned) ↔ Overwrites (rawView f.layout) op x := by
  have hi := PInv.init.run h
  have hi' := hi.step h'
  obtain ⟨o, d, h1, h2, h3, h4, h5⟩ := hi.step_counts h' x
  have hc := hi.count x
  have h1' := count_one_le hi.nodup x
  have hn : f.next ≤ x → f.owned.count x = 0 := fun hx => List.count_eq_zero.mpr fun hm => absurd (hi.fresh x hm) (by omega)
  simp only [mem_iff_pos, ← h3]
  have hd : Overwrites (rawView f.layout) op x → d = 0 := by
    intro ho
    rcases Nat.eq_zero_or_pos d with e | e
    · exact e
    · have := h4 e
      cases op <;> simp [Destroys, Overwrites] at this ho
  constructor
  · rintro ⟨a1, a2, a3⟩
    by_cases hx : f.next ≤ x
    · have := hn hx; omega
    · rw [if_neg (by omega)] at h1 h2; omega
  · intro ho
    have := hd (h3.mp ho)
    by_cases hx : f.next ≤ x
    · have := hn hx
      have hov := h3.mp ho
      exfalso
      have hon : x ∈ cardsOn (rawView f.layout) := by
        cases op <;> simp only [Overwrites] at hov
        · obtain ⟨k, i, _, e⟩ := hov; exact mem_cardsOn.mpr ⟨.slot k, by rw [e]; simp⟩
        · obtain ⟨k, i, _, e, _⟩ := hov; exact mem_cardsOn.mpr ⟨.slot k, by rw [e]; simp⟩
      have := List.count_pos_iff.mpr hon
      omega
    · rw [if_neg (by omega)] at h1 h2; omega

/-- **C88.** Such a card is never destroyed and never lies anywhere again, whatever is called later. -/
theorem C88_lost_forever (ops later : List FrameOp) (f f' : RawFrame) (h : RawFrame.init.run ops = .ok f) (h' : f.run later = .ok f') (x : CardId)
    (ho : x ∈ f.owned) (hx : x ∉ cardsOn (rawView f.layout)) : x ∈ f'.owned ∧ x ∉ cardsOn (rawView f'.layout) := by
  have hi := PInv.init.run h
  clear h
  induction later generalizing f with
  | nil => cases h'; exact ⟨ho, hx⟩
  | cons op later ih =>
    simp only [RawFrame.run, bind_eq_ok] at h'
    obtain ⟨g, h1, h2⟩ := h'
    obtain ⟨o, d, a1, a2, a3, a4, a5⟩ := hi.step_counts h1 x
    have b1 := hi.fresh x ho
    have b2 := List.count_eq_zero.mpr hx
    have b3 := List.count_pos_iff.mpr ho
    rw [if_neg (by omega)] at a1 a2
    refine ih g h2 (List.count_pos_iff.mp (by omega)) (List.count_eq_zero.mp (by omega)) (hi.step h1)

/-- **C88.** A card is destroyed exactly when a removal, a resize or a clear takes it away. -/
theorem C88_destroyed (ops : List FrameOp) (f f' : RawFrame) (h : RawFrame.init.run ops = .ok f) (op : FrameOp) (h' : f.step op = .ok f') (x : CardId) :
    (x ∈ f.owned ∧ x ∉ f'.owned) ↔ Destroys op ∧ x ∈ cardsOn (rawView f.layout) ∧ x ∉ cardsOn (rawView f'.layout) := by
  have hi := PInv.init.run h
  obtain ⟨o, d, h1, h2, h3, h4, h5⟩ := hi.step_counts h' x
  have hc := hi.count x
  have h1' := count_one_le hi.nodup x
  have hn : f.next ≤ x → f.owned.count x = 0 := fun hx => List.count_eq_zero.mpr fun hm => absurd (hi.fresh x hm) (by omega)
  simp only [mem_iff_pos]
  constructor
  · rintro ⟨a1, a2⟩
    have hx : ¬ f.next ≤ x := fun hx => by have := hn hx; omega
    rw [if_neg (by omega)] at h1 h2
    have hD := h4 (by omega)
    have : o = 0 := by
      rcases Nat.eq_zero_or_pos o with e | e
      · exact e
      · have := h3.mp e
        cases op <;> simp [Destroys, Overwrites] at hD this
    exact ⟨hD, by omega, by omega⟩
  · rintro ⟨hD, a1, a2⟩
    have hx : ¬ f.next ≤ x := fun hx => by have := hn hx; omega
    rw [if_neg (by omega)] at h1 h2
    have : o = 0 := by
      rcases Nat.eq_zero_or_pos o with e | e
      · exact e
      · have := h3.mp e
        cases op <;> simp [Destroys, Overwrites] at hD this
    omega

/-- **C88.** Where no null pointer lies in a pile or among materials, exactly the swap of an empty slot with such a place puts one there. -/
theorem C88_null (f f' : RawFrame) (op : FrameOp) (hf : Full (rawView f.layout)) (h : f.step op = .ok f') :
    Full (rawView f'.layout) ↔ ¬ SwapsNull (rawView f.layout) op := hf.step_iff h

/-! ## What asserts stop -/

/-- An assertion that fails, or undefined behaviour. -/
def Stops (e : Err) : Prop := e = .assert ∨ e = .ub

theorem orAssert_stops {α : Type} (o : Option α) : Only Stops (orAssert o) := by
  intro e h; cases o <;> cases h; exact .inl rfl
theorem zoneSeqLim_stops (l : Nat) : Only Stops (zoneSeqLim l) := by unfold zoneSeqLim; only
theorem pileKey_stops (p : Place) : Only Stops p.pileKey := by unfold Place.pileKey pileKey; only
theorem zoneKey_stops (p : Place) : Only Stops p.zoneKey := by
  have := zoneSeqLim_stops
  unfold Place.zoneKey zoneKey; only
  exact this _
theorem hasCard_stops (l : Layout) (p : Place) : Only Stops (l.hasCard p) := by
  have h1 := zoneSeqLim_stops
  have h2 := pileKey_stops
  have h3 := zoneKey_stops
  unfold Layout.hasCard
  refine .bind (.massert (.inl rfl) _) fun _ => ?_
  split
  · exact .bind (h2 _) fun _ => .pure _
  · refine .bind (.massert (.inl rfl) _) fun _ => .bind (h1 _) fun _ => .bind (.massert (.inl rfl) _) fun _ => .bind (h3 _) fun _ => ?_
    only
theorem takeAt_stops (p : List CardId) (i : Nat) : Only Stops (takeAt p i) := by unfold takeAt; only
theorem insertAt_stops (p : List CardId) (i : Nat) (c : CardId) : Only Stops (insertAt p i c) := by unfold insertAt; only
theorem swapRefs_stops (l : Layout) (a b : Layout.Ref) : Only Stops (l.swapRefs a b) := by
  have : ∀ r, Only Stops (l.read r) := fun r => by cases r <;> unfold Layout.read <;> only
  unfold Layout.swapRefs
  exact .bind (this a) fun _ => .bind (this b) fun _ => .pure _

macro "stops" : tactic => `(tactic| repeat' (first
  | assumption
  | exact Only.ok _ | exact Only.pure _ | exact Only.ub (.inr rfl) | exact Only.massert (.inl rfl) _ | exact Only.guardUb (.inr rfl) _
  | exact Only.orUb (.inr rfl) _ | exact orAssert_stops _
  | exact pileKey_stops _ | exact zoneKey_stops _ | exact hasCard_stops _ _ | exact takeAt_stops _ _ | exact insertAt_stops _ _ _
  | exact swapRefs_stops _ _ _
  | refine Only.bind ?_ fun _ => ?_
  | split))

theorem add_stops (f : Frame) (p : Place) : Only Stops (f.step (.add p)) := by
  simp only [Frame.step, Frame.cardAdd, Layout.cardInsert]; stops
theorem move_stops (f : Frame) (a b : Place) : Only Stops (f.step (.move a b)) := by
  simp only [Frame.step, Frame.cardMove, Layout.cardMove]; stops
theorem swap_stops (f : Frame) (a b : Place) : Only Stops (f.step (.swap a b)) := by
  simp only [Frame.step, Frame.cardSwap, Layout.cardSwap]; stops

theorem ptrs_get_any {B : Board} {C : Container} {i : Nat} (hi : (∃ k, C = .slot k) → i = 0) :
    (∃ c, (ptrs B C)[i]? = some c) ↔ ((∀ k, C ≠ .slot k) → i < (B C).length) := by
  cases C with
  | slot k => simp [ptrs, ptrsOf, hi ⟨k, rfl⟩]
  | pile k =>
    simp only [ptrs, ptrsOf, List.getElem?_map]
    constructor
    · rintro ⟨c, h⟩ _; have := (List.getElem?_eq_some_iff.mp (by simpa using h : ((B (.pile k)).map some)[i]? = some c)).1; simpa using this
    · intro h; exact ⟨_, by rw [List.getElem?_eq_getElem (h (by simp))]; rfl⟩
  | mats k =>
    simp only [ptrs, ptrsOf, List.getElem?_map]
    constructor
    · rintro ⟨c, h⟩ _; have := (List.getElem?_eq_some_iff.mp (by simpa using h : ((B (.mats k)).map some)[i]? = some c)).1; simpa using this
    · intro h; exact ⟨_, by rw [List.getElem?_eq_getElem (h (by simp))]; rfl⟩

theorem at_slot_zero {p : Place} {C : Container} {i : Nat} (h : At p C i) : (∃ k, C = .slot k) → i = 0 := by
  rintro ⟨k, rfl⟩
  generalize hC : Container.slot k = C at h
  cases h <;> cases hC
  rfl

theorem slot_swappedIndex {C1 C2 : Container} {i : Nat} (h : (∃ k, C1 = .slot k) → i = 0) : (∃ k, C1 = .slot k) → swappedIndex C1 C2 i = 0 := by
  rintro ⟨k, rfl⟩
  exact h ⟨k, rfl⟩

theorem tolerated_aux (f : Frame) (hr : Reachable f) (op : FrameOp) (hop : ¬ IsShuffle op) (e : Err) :
    (f.step op = .error e ∧ (∃ f', (asRaw f).step op = .ok f') → Tolerated (view f.layout) op) ∧
    (Tolerated (view f.layout) op → f.step op = .error .assert ∧ ∃ f', (asRaw f).step op = .ok f') := by
  have hs := view_slot_le f.layout
  have raw : (∃ f', (asRaw f).step op = .ok f') ↔ ∃ T, (rawTable (asRaw f)).Step op T :=
    ⟨fun ⟨f', h⟩ => ⟨_, (C88_call _ op hop _).mp ⟨f', h, rfl⟩⟩, fun ⟨T, h⟩ => by
      obtain ⟨f', h, _⟩ := (C88_call _ op hop _).mpr h; exact ⟨f', h⟩⟩
  have ht : Tidy op := by cases op <;> first | trivial | exact absurd trivial hop
  have deb := C82_call_fails f hr op ht
  have hB : rawView (asRaw f).layout = ptrs (view f.layout) := rawView_asRaw f
  have hT : tableOf f = ⟨view f.layout, f.next⟩ := rfl
  rw [hT] at deb
  rw [raw]
  simp only [rawTable, hB]
  have fails : (∀ T, ¬ (⟨view f.layout, f.next⟩ : Table).Step op T) → Only Stops (f.step op) → f.step op ≠ .error .ub → f.step op = .error .assert := by
    intro h1 h2 h3
    obtain ⟨e, he⟩ := deb.mpr h1
    rcases h2 e he with rfl | rfl
    · exact he
    · exact absurd he h3
  cases op with
  | shuffle p c n => exact absurd trivial hop
  | add p =>
    constructor
    · rintro ⟨h1, T, C, i, ha, hroom, _⟩
      have hno := deb.mp ⟨_, h1⟩
      have hroom := ptrs_room_iff.mp hroom
      cases C with
      | slot k =>
        obtain rfl := at_slot_zero ha ⟨k, rfl⟩
        cases hv : view f.layout (.slot k) with
        | nil => exact absurd ⟨_, _, ha, ⟨by simp, fun _ _ => hv⟩, rfl⟩ (hno _)
        | cons c t =>
          have := hs k
          rw [hv] at this
          cases t with
          | nil => exact ⟨k, c, ha, hv⟩
          | cons d t => simp at this
      | pile k => exact absurd ⟨_, _, ha, ⟨hroom (by simp), by simp⟩, rfl⟩ (hno _)
      | mats k => exact absurd ⟨_, _, ha, ⟨hroom (by simp), by simp⟩, rfl⟩ (hno _)
    · rintro ⟨k, c, ha, hv⟩
      refine ⟨fails ?_ (add_stops f p) ?_, _, _, _, ha, trivial, rfl⟩
      · rintro T ⟨C, i, ha', hf, _⟩
        obtain ⟨rfl, rfl⟩ := At.unique ha ha'
        have : view f.layout (.slot k) = [] := hf.2 k rfl
        rw [hv] at this; cases this
      · rw [Ne, C18_ub_exactly f (.add p) (wellFormed_iff_at.mpr ⟨_, _, ha⟩)]; exact id
  | remove p =>
    refine ⟨?_, False.elim⟩
    rintro ⟨h1, T, C, i, c, ha, hg, _⟩
    have hno := deb.mp ⟨_, h1⟩
    have := (ptrs_get_iff hs).mp hg
    exact hno _ ⟨C, i, ha, (List.getElem?_eq_some_iff.mp this).1, rfl⟩
  | move a b =>
    constructor
    · rintro ⟨h1, T, C1, i, C2, j, c, ha, hb, hg, hroom, _⟩
      have hno := deb.mp ⟨_, h1⟩
      have hg := (ptrs_get_iff hs).mp hg
      rw [← ptrs_take hs hg] at hroom
      have hroom := ptrs_room_iff.mp hroom
      refine ⟨C1, i, C2, j, ha, hb, (List.getElem?_eq_some_iff.mp hg).1, hroom, ?_⟩
      by_cases p1 : PlainPile a C1
      · by_cases p2 : PlainPile b C2
        · by_cases p3 : ∃ k, C2 = .slot k ∧ view f.layout C2 ≠ []
          · exact .inr (.inr (.inl p3))
          · refine .inr (.inr (.inr fun p4 => hno _ ⟨C1, i, C2, j, c, ha, hb, p1, p2, hg, ?_, ?_, p4, rfl⟩))
            · intro k hk
              by_cases e : view f.layout C2 = []
              · exact e
              · exact absurd ⟨k, hk, e⟩ p3
            · cases C2 with
              | slot k => rw [at_slot_zero hb ⟨k, rfl⟩]; omega
              | pile k => exact hroom (by simp)
              | mats k => exact hroom (by simp)
        · exact .inr (.inl p2)
      · exact .inl p1
    · rintro ⟨C1, i, C2, j, ha, hb, hi, hroom, hbad⟩
      have hg := List.getElem?_eq_getElem hi
      refine ⟨fails ?_ (move_stops f a b) ?_, _, C1, i, C2, j, _, ha, hb, (ptrs_get_iff hs).mpr hg, ?_, rfl⟩
      · rintro T ⟨D1, i', D2, j', c', ha', hb', q1, q2, _, q3, _, q4, _⟩
        obtain ⟨rfl, rfl⟩ := At.unique ha ha'
        obtain ⟨rfl, rfl⟩ := At.unique hb hb'
        rcases hbad with h | h | ⟨k, rfl, h⟩ | h
        · exact h q1
        · exact h q2
        · exact h (q3 k rfl)
        · exact h q4
      · rw [Ne, C18_ub_exactly f (.move a b) ⟨wellFormed_iff_at.mpr ⟨_, _, ha⟩, wellFormed_iff_at.mpr ⟨_, _, hb⟩⟩]; exact id
      · show ((ptrs (view f.layout)).take C1 i).Room C2 j
        rw [← ptrs_take hs hg]
        exact ptrs_room_iff.mpr hroom
  | swap a b =>
    constructor
    · rintro ⟨h1, T, C1, i, C2, j, c1, c2, ha, hb, hg1, hg2, _⟩
      have hno := deb.mp ⟨_, h1⟩
      refine ⟨C1, i, C2, j, ha, hb, (ptrs_get_any (slot_swappedIndex (at_slot_zero ha))).mp ⟨c1, hg1⟩,
        (ptrs_get_any (at_slot_zero hb)).mp ⟨c2, hg2⟩, ?_⟩
      by_cases p1 : PlainPile a C1
      · by_cases p2 : PlainPile b C2
        · by_cases p3 : SwapOk (view f.layout) C1 C2
          · by_cases p4 : i < (view f.layout C1).length
            · refine .inr (.inr (.inr (.inr fun p5 => ?_)))
              have e1 : swappedIndex C1 C2 i < (view f.layout C1).length := by
                have := (ptrs_get_any (B := view f.layout) (slot_swappedIndex (C2 := C2) (at_slot_zero ha))).mp ⟨c1, hg1⟩
                cases C1 with
                | slot k => exact p4
                | pile k => exact this (by simp)
                | mats k => exact this (by simp)
              exact hno _ ⟨C1, i, C2, j, _, _, ha, hb, p1, p2, p3, p4, List.getElem?_eq_getElem e1, List.getElem?_eq_getElem p5, rfl⟩
            · exact .inr (.inr (.inr (.inl p4)))
          · exact .inr (.inr (.inl p3))
        · exact .inr (.inl p2)
      · exact .inl p1
    · rintro ⟨C1, i, C2, j, ha, hb, hi, hj, hbad⟩
      obtain ⟨c1, hg1⟩ := (ptrs_get_any (slot_swappedIndex (at_slot_zero ha))).mpr hi
      obtain ⟨c2, hg2⟩ := (ptrs_get_any (at_slot_zero hb)).mpr hj
      refine ⟨fails ?_ (swap_stops f a b) ?_, _, C1, i, C2, j, c1, c2, ha, hb, hg1, hg2, rfl⟩
      · rintro T ⟨D1, i', D2, j', c1', c2', ha', hb', q1, q2, q3, q4, _, q5, _⟩
        obtain ⟨rfl, rfl⟩ := At.unique ha ha'
        obtain ⟨rfl, rfl⟩ := At.unique hb hb'
        rcases hbad with h | h | h | h | h
        · exact h q1
        · exact h q2
        · exact h q3
        · exact h q4
        · exact h (List.getElem?_eq_some_iff.mp q5).1
      · rw [Ne, C18_ub_exactly f (.swap a b) ⟨wellFormed_iff_at.mpr ⟨_, _, ha⟩, wellFormed_iff_at.mpr ⟨_, _, hb⟩⟩]
        rintro ⟨k, i', C, j', ha', _, hlen, hb', _, hC⟩
        obtain ⟨rfl, rfl⟩ := At.unique ha ha'
        obtain ⟨rfl, rfl⟩ := At.unique hb hb'
        have hi := hi (by simp)
        have hk : a.seq = k.seq := by
          generalize hD : Container.mats k = D at ha
          cases ha <;> cases hD
          rfl
        cases C2 with
        | pile k' => exact hC k' rfl
        | slot k' => simp only [swappedIndex] at hi; omega
        | mats k' => simp only [swappedIndex] at hi; omega
  | resize p n =>
    refine ⟨?_, False.elim⟩
    rintro ⟨h1, T, k, i, ha, _, _⟩
    exact deb.mp ⟨_, h1⟩ _ ⟨k, i, ha, rfl⟩
  | splice a n b r =>
    refine ⟨?_, False.elim⟩
    rintro ⟨h1, T, k1, i, k2, j, ha, hb, hl, hj, _⟩
    have hl' : i + n ≤ (view f.layout (.pile k1)).length := by simpa [ptrs, ptrsOf] using hl
    refine deb.mp ⟨_, h1⟩ _ ⟨k1, i, k2, j, ha, hb, hl', ?_, rfl⟩
    have e : (ptrs (view f.layout)).cut (.pile k1) i n (.pile k2) = ((view f.layout).cut (.pile k1) i n (.pile k2)).map some := by
      simp only [PtrBoard.cut, Board.cut, pupd_apply, upd_apply]
      split
      · simp [ptrs, ptrsOf]
      · rfl
    rw [e] at hj
    simpa using hj
  | pswap a b =>
    refine ⟨?_, False.elim⟩
    rintro ⟨h1, T, k1, i, k2, j, ha, hb, _⟩
    exact deb.mp ⟨_, h1⟩ _ ⟨k1, i, k2, j, ha, hb, rfl⟩
  | clear =>
    refine ⟨?_, False.elim⟩
    rintro ⟨h1, T, _⟩
    exact deb.mp ⟨_, h1⟩ _ rfl

/-- **C88.** Exactly which calls an assertion stops that would return without it. -/
theorem C88_tolerated (f : Frame) (hr : Reachable f) (op : FrameOp) (hop : ¬ IsShuffle op) :
    (f.step op = .error .assert ∧ ∃ f', (asRaw f).step op = .ok f') ↔ Tolerated (view f.layout) op :=
  ⟨(tolerated_aux f hr op hop _).1, (tolerated_aux f hr op hop .assert).2⟩

/-! ## Events -/

theorem runOps_same {f f' : Frame} (hi : Inv f) {ops : List FrameOp} (h : runOps f ops = .ok f') : runOps (asRaw f) ops = .ok (asRaw f') := by
  induction ops generalizing f with
  | nil => cases h; rfl
  | cons op ops ih =>
    simp only [runOps, FrameLike.step, bind_eq_ok] at h ⊢
    obtain ⟨g, h1, h2⟩ := h
    exact ⟨_, hi.step_same h1, ih (hi.step h1) h2⟩

theorem Inv.runOps {f f' : Frame} (hi : Inv f) {ops : List FrameOp} (h : runOps f ops = .ok f') : Inv f' := by
  induction ops generalizing f with
  | nil => cases h; exact hi
  | cons op ops ih =>
    simp only [Ygo.runOps, FrameLike.step, bind_eq_ok] at h
    obtain ⟨g, h1, h2⟩ := h
    exact ih (hi.step h1) h2

theorem event_same {b b' : PlainBoard} (hi : Inv b.frame) {e : Event} (h : b.parseEvent e = .ok b') :
    RawBoard.parseEvent (asRawBoard b) e = .ok (asRawBoard b') ∧ Inv b'.frame := by
  have hf := parse_frame h
  refine ⟨?_, Inv.runOps hi hf⟩
  have hg := runOps_same hi hf
  cases e with
  | board e =>
    cases e with
    | unset => cases h; rfl
    | exchange e =>
      simp only [RawBoard.parseEvent, DuelBoard.parseEvent, DuelBoard.onFrame, bind_eq_ok, pure_eq_ok, Except.ok.injEq, frameOps] at h hg ⊢
      obtain ⟨f, h, rfl⟩ := h
      exact ⟨_, hg, rfl⟩
    | state s =>
      simp only [RawBoard.parseEvent, DuelBoard.parseEvent, DuelBoard.parseState, DuelBoard.onFrame, DuelBoard.setLp, bind_eq_ok, pure_eq_ok,
        Except.ok.injEq, frameOps] at h hg ⊢
      obtain ⟨a, ha, c, hc, f, h, rfl⟩ := h
      refine ⟨a, ha, c, hc, asRaw f, ?_, ?_⟩
      · rw [← hg]; split <;> rfl
      · split <;> rfl
  | card r e =>
    simp only [RawBoard.parseEvent, DuelBoard.parseEvent, DuelBoard.onFrame, bind_eq_ok, pure_eq_ok, Except.ok.injEq, frameOps] at h hg ⊢
    obtain ⟨f, h, rfl⟩ := h
    exact ⟨_, hg, rfl⟩
  | pile r e =>
    simp only [RawBoard.parseEvent, DuelBoard.parseEvent, DuelBoard.onFrame, bind_eq_ok, pure_eq_ok, Except.ok.injEq, frameOps] at h hg ⊢
    obtain ⟨f, h, rfl⟩ := h
    exact ⟨_, hg, rfl⟩
  | chainStack e =>
    cases e <;> simp only [RawBoard.parseEvent, DuelBoard.parseEvent, bind_eq_ok, pure_eq_ok, Except.ok.injEq] at h ⊢
    · rw [h]
    · obtain ⟨f, h, rfl⟩ := h; exact ⟨f, h, rfl⟩
    · obtain ⟨f, h, rfl⟩ := h; exact ⟨f, h, rfl⟩
  | nextTurn c =>
    simp only [RawBoard.parseEvent, DuelBoard.parseEvent, bind_eq_ok, pure_eq_ok, Except.ok.injEq] at h ⊢
    obtain ⟨f, h, rfl⟩ := h; exact ⟨f, h, rfl⟩
  | lp con c =>
    simp only [RawBoard.parseEvent, DuelBoard.parseEvent, DuelBoard.lpIdx, DuelBoard.setLp, bind_eq_ok, pure_eq_ok, Except.ok.injEq] at h ⊢
    obtain ⟨i, ⟨_, _, h1⟩, x, h2, rfl⟩ := h
    exact ⟨i, h1, x, h2, rfl⟩
  | nextPhase p => cases h; rfl
  | zoneBlock zs => cases h; rfl
  | finish => cases h; rfl
  | metaInfo => cases h; rfl
  | result => cases h; rfl
  | unset => cases h; rfl

/-- **C88.** An event that asserts let pass does the same without them. -/
theorem C88_same_event (b b' : PlainBoard) (hr : Reachable b.frame) (e : Event) (h : b.parseEvent e = .ok b') :
    RawBoard.parseEvent (asRawBoard b) e = .ok (asRawBoard b') := (event_same hr.inv h).1

/-- **C88.** So do all duels. -/
theorem C88_same_duel (es : List Event) (b : PlainBoard) (h : PlainBoard.init.parseEvents es = .ok b) :
    RawBoard.init.parseEvents es = .ok (asRawBoard b) := by
  have gen : ∀ (es : List Event) (a : PlainBoard), Inv a.frame → a.parseEvents es = .ok b → RawBoard.parseEvents (asRawBoard a) es = .ok (asRawBoard b) := by
    intro es
    induction es with
    | nil => intro a _ h; cases h; rfl
    | cons e es ih =>
      intro a hi h
      simp only [DuelBoard.parseEvents, RawBoard.parseEvents, bind_eq_ok] at h ⊢
      obtain ⟨c, h1, h2⟩ := h
      have := event_same hi h1
      exact ⟨_, this.1, ih c this.2 h2⟩
  exact gen es _ Inv.init h

theorem runOps_only (f : RawFrame) (ops : List FrameOp) : OnlyUb (runOps f ops) := by
  induction ops generalizing f with
  | nil => exact .ok _
  | cons op ops ih => exact .bind (f.step_only op) fun _ => ih _

/-- **C88.** No event stops: it is applied or undefined. -/
theorem C88_no_stop_event (b : RawBoard) (e : Event) (err : Err) (h : RawBoard.parseEvent b e = .error err) : err = .ub := by
  have hrun := runOps_only
  have : OnlyUb (RawBoard.parseEvent b e) := by
    cases e with
    | board e =>
      cases e with
      | unset => exact .ok _
      | exchange e => exact .bind (hrun _ _) fun _ => .pure _
      | state s => exact .bind (.orUb Ygo.isUb _) fun _ => .bind (.orUb Ygo.isUb _) fun _ => .bind (hrun _ _) fun _ => .pure _
    | card r e => exact .bind (hrun _ _) fun _ => .pure _
    | pile r e => exact .bind (hrun _ _) fun _ => .pure _
    | chainStack e =>
      cases e with
      | unset => exact .ok _
      | push c => exact .bind (.ok _) fun _ => .pure _
      | pop c => exact .bind (.bind (.guardUb Ygo.isUb _) fun _ => .pure _) fun _ => .pure _
    | nextTurn c => exact .bind (.ok _) fun _ => .pure _
    | lp con c => exact .bind (.conIdx Ygo.isUb _) fun _ => .bind (.ok _) fun _ => .pure _
    | nextPhase p => exact .ok _
    | zoneBlock zs => exact .ok _
    | finish => exact .ok _
    | metaInfo => exact .ok _
    | result => exact .ok _
    | unset => exact .ok _
  exact this err h

theorem raw_frame {b b' : RawBoard} {e : Event} (h : RawBoard.parseEvent b e = .ok b') : runOps b.frame (frameOps e) = .ok b'.frame := by
  cases e with
  | lp con c =>
    simp only [RawBoard.parseEvent, DuelBoard.setLp, bind_eq_ok, pure_eq_ok, Except.ok.injEq] at h
    obtain ⟨i, _, x, _, rfl⟩ := h
    rfl
  | _ => exact parse_frame (e := _) h

theorem PInv.runOps {f f' : RawFrame} (hi : PInv f) {ops : List FrameOp} (h : runOps f ops = .ok f') : PInv f' := by
  induction ops generalizing f with
  | nil => cases h; exact hi
  | cons op ops ih =>
    simp only [Ygo.runOps, FrameLike.step, bind_eq_ok] at h
    obtain ⟨g, h1, h2⟩ := h
    exact ih (hi.step h1) h2

/-- **C88.** Whatever events were applied, no card lies in two places, and every card that lies somewhere is alive. -/
theorem C88_no_dangling_duel (es : List Event) (b : RawBoard) (h : RawBoard.init.parseEvents es = .ok b) :
    (cardsOn (rawView b.frame.layout)).Nodup ∧ (∀ x ∈ cardsOn (rawView b.frame.layout), x ∈ b.frame.owned) ∧ b.frame.owned.Nodup := by
  have gen : ∀ (es : List Event) (a : RawBoard), PInv a.frame → RawBoard.parseEvents a es = .ok b → PInv b.frame := by
    intro es
    induction es with
    | nil => intro a hi h; cases h; exact hi
    | cons e es ih =>
      intro a hi h
      simp only [RawBoard.parseEvents, bind_eq_ok] at h
      obtain ⟨c, h1, h2⟩ := h
      exact ih c (PInv.runOps hi (raw_frame h1)) h2
  have hi := gen es _ PInv.init h
  exact ⟨hi.nodup_on, fun _ hx => hi.on_owned hx, hi.nodup⟩

/-! ## Examples -/

/-- Places of the examples. -/
def z0 : Place := ⟨0, 4, 0, -1⟩
def z1 : Place := ⟨0, 4, 1, -1⟩
def h0 : Place := ⟨0, 2, 0, -1⟩

/-- Two cards are added at one zone: the first is lost. -/
example : (RawFrame.init.run [.add z0, .add z0]).toOption.map (fun f => (f.owned, cardsOn (rawView f.layout))) = some ([1, 0], [1]) := by decide +kernel
/-- With asserts, the second call stops. -/
example : (match Frame.init.run [.add z0, .add z0] with | .error .assert => true | _ => false) = true := by decide +kernel
/-- It stays lost when the frame is cleared. -/
example : (RawFrame.init.run [.add z0, .add z0, .clear]).toOption.map (fun f => (f.owned, cardsOn (rawView f.layout))) = some ([0], []) := by decide +kernel
/-- A card of the hand is swapped with an empty zone: a null pointer lies in the hand, -/
example : (RawFrame.init.run [.add h0, .swap h0 z0]).toOption.map (fun f => (rawView f.layout (.pile ⟨0, .hand⟩), cardsOn (rawView f.layout))) =
    some ([none], [0]) := by decide +kernel
/-- and clearing the frame is undefined from then on. -/
example : (match RawFrame.init.run [.add h0, .swap h0 z0, .clear] with | .error .ub => true | _ => false) = true := by decide +kernel
/-- A shuffle of nothing is undefined with asserts, and does nothing without. -/
example : (match Frame.init.run [.shuffle [] [] 0] with | .error .ub => true | _ => false) = true ∧
    (match RawFrame.init.run [.shuffle [] [] 0] with | .ok _ => true | _ => false) = true := by decide +kernel
/-- A shuffle of two zones without cards stops with asserts, and exchanges the zones without. -/
example : (RawFrame.init.run [.add z0, .shuffle [z1, z0] [z0, z1] 2]).toOption.map (fun f => ((f.layout.zone ⟨0, .monster, 0, by decide⟩).card,
    (f.layout.zone ⟨0, .monster, 1, by decide⟩).card)) = some (none, some 0) := by decide +kernel

end Ygo.Props
