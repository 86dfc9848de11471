import Verif.Spec.Update
import Verif.Props.Setup
import Verif.Props.Query

/-!
# What is known about cards, end to end (C67)
-/

namespace Ygo.Props
open Ygo.Spec Ygo.P

set_option linter.unusedSimpArgs false

/-- A card is at one position only. -/
theorem position_unique {f : Frame} (hi : Inv f) {C D : Container} {i j : Nat} {x : CardId} (h1 : (view f.layout C)[i]? = some x)
    (h2 : (view f.layout D)[j]? = some x) : C = D ∧ i = j := by
  have hc := hi.count x
  have hle : (placed (view f.layout)).count x ≤ 1 := by
    rw [hc]; exact List.nodup_iff_count.mp hi.nodup x
  have m1 := List.count_pos_iff.mpr (List.mem_of_getElem? h1)
  have m2 := List.count_pos_iff.mpr (List.mem_of_getElem? h2)
  have e1 := count_placed_upd (view f.layout) C [] x
  have e2 := count_placed_upd ((view f.layout).upd C []) D [] x
  by_cases h : C = D
  · subst h
    refine ⟨rfl, ?_⟩
    have hn : (view f.layout C).count x ≤ 1 := by
      simp only [List.count_nil] at e1; omega
    obtain ⟨l1, e3⟩ := List.getElem?_eq_some_iff.mp h1
    obtain ⟨l2, e4⟩ := List.getElem?_eq_some_iff.mp h2
    rcases Nat.lt_trichotomy i j with hij | hij | hij
    · exfalso
      have a := List.count_append (a := x) (l₁ := (view f.layout C).take j) (l₂ := (view f.layout C).drop j)
      rw [List.take_append_drop] at a
      have b : 0 < ((view f.layout C).take j).count x := List.count_pos_iff.mpr (List.mem_of_getElem? (i := i) (by rw [List.getElem?_take_of_lt hij]; exact h1))
      have c : 0 < ((view f.layout C).drop j).count x := List.count_pos_iff.mpr (List.mem_of_getElem? (i := 0) (by rw [List.getElem?_drop]; exact h2))
      omega
    · exact hij
    · exfalso
      have a := List.count_append (a := x) (l₁ := (view f.layout C).take i) (l₂ := (view f.layout C).drop i)
      rw [List.take_append_drop] at a
      have b : 0 < ((view f.layout C).take i).count x := List.count_pos_iff.mpr (List.mem_of_getElem? (i := j) (by rw [List.getElem?_take_of_lt hij]; exact h2))
      have c : 0 < ((view f.layout C).drop i).count x := List.count_pos_iff.mpr (List.mem_of_getElem? (i := 0) (by rw [List.getElem?_drop]; exact h1))
      omega
  · exfalso
    rw [upd_apply, if_neg (fun h' => h h'.symm)] at e2
    simp only [List.count_nil] at e1 e2
    omega

/-! ## Lists of queries -/

theorem parseQueries_append (l : Layout) (xs ys : List Query) (st : CardId → Card Plain) :
    BasicContext.parseQueries l (xs ++ ys) st = (do let st ← BasicContext.parseQueries l xs st; BasicContext.parseQueries l ys st) := by
  induction xs generalizing st with
  | nil => rfl
  | cons q xs ih =>
    simp only [List.cons_append, BasicContext.parseQueries]
    cases parseQuery false l st q with
    | error e => rfl
    | ok x => exact ih x.2

/-- Groups of queries, one for each item, that speak about different cards. -/
theorem parse_groups {α : Type} (l : Layout) (items : List α) : ∀ (f : Nat → α → List Query) (T : Nat → α → CardId → QueryData → Prop)
    (_step : ∀ (i : Nat) a st, items[i]? = some a → ∃ st', BasicContext.parseQueries l (f i a) st = .ok st' ∧
      (∀ x d, T i a x d → Answered Cell.get d (st x) (st' x)) ∧ ∀ x, (∀ d, ¬ T i a x d) → st' x = st x)
    (_disj : ∀ (i j : Nat) a b x d e, items[i]? = some a → items[j]? = some b → T i a x d → T j b x e → i = j) (st : CardId → Card Plain),
    ∃ st', BasicContext.parseQueries l (items.mapIdx f).flatten st = .ok st' ∧
      (∀ (i : Nat) a x d, items[i]? = some a → T i a x d → Answered Cell.get d (st x) (st' x)) ∧
      ∀ x, (∀ (i : Nat) a d, items[i]? = some a → ¬ T i a x d) → st' x = st x := by
  induction items with
  | nil =>
    intro f T _ _ st
    exact ⟨st, rfl, fun i a x d h => by simp at h, fun _ _ => rfl⟩
  | cons a items ih =>
    intro f T hstep hdisj st
    obtain ⟨s1, p1, t1, k1⟩ := hstep 0 a st rfl
    obtain ⟨s2, p2, t2, k2⟩ := ih (fun i => f (i + 1)) (fun i => T (i + 1)) (fun i b s hb => hstep (i + 1) b s (by simpa using hb))
      (fun i j b c x d e hb hc h1 h2 => by
        have := hdisj (i + 1) (j + 1) b c x d e (by simpa using hb) (by simpa using hc) h1 h2
        omega) s1
    refine ⟨s2, ?_, ?_, ?_⟩
    · rw [List.mapIdx_cons, List.flatten_cons, parseQueries_append, p1, bind_ok]
      exact p2
    · intro i b x d hb ht
      cases i with
      | zero =>
        cases hb
        rw [k2 x]
        · exact t1 x d ht
        · intro j b e hb h
          exact absurd (hdisj 0 (j + 1) a b x d e rfl (by simpa using hb) ht h) (by omega)
      | succ i =>
        have hb : items[i]? = some b := by simpa using hb
        have := t2 i b x d hb ht
        rwa [k1 x] at this
        intro e h
        exact absurd (hdisj 0 (i + 1) a b x e d rfl (by simpa using hb) h ht) (by omega)
    · intro x hx
      rw [k2 x fun i b d hb => hx (i + 1) b d (by simpa using hb), k1 x fun d => hx 0 a d rfl]

/-- One query. -/
theorem parse_single (l : Layout) (q : Query) (C : Container) (i : Nat) (ha : At q.place C i) (x : CardId) (hx : (view l C)[i]? = some x)
    (st : CardId → Card Plain) : ∃ st', BasicContext.parseQueries l [q] st = .ok st' ∧ Answered Cell.get q.data (st x) (st' x) ∧
      ∀ y, y ≠ x → st' y = st y := by
  obtain ⟨⟨n, st'⟩, h⟩ := C30_returns false l st q C i ha (List.getElem?_eq_some_iff.mp hx).1
  obtain ⟨y, hy, h1, h2⟩ := C30_parse_query _ _ _ _ _ _ h
  have : l.card q.place = .ok x := Layout.card_eq_ok.mpr ⟨C, i, ha, hx⟩
  rw [this] at hy; cases hy
  exact ⟨st', by simp only [BasicContext.parseQueries, h, bind_ok], h1, h2⟩

/-- The queries for a card and its materials. -/
theorem parse_slot {f : Frame} (hi : Inv f) (p : Place) (ho : p.oseq = -1) (is : List QueryItem) (C : Container) (j : Nat) (ha : At p C j) (x : CardId)
    (hx : (view f.layout C)[j]? = some x) (hm : QueryItem.materials is = [] ∨ ∃ z, C = .slot z ∧ (QueryItem.materials is).length ≤ (view f.layout (.mats z)).length)
    (st : CardId → Card Plain) : ∃ st', BasicContext.parseQueries f.layout (QueryItem.queries p is) st = .ok st' ∧
      Answered Cell.get (QueryItem.data is) (st x) (st' x) ∧
      (∀ z (n : Nat) code y, C = .slot z → (QueryItem.materials is)[n]? = some code → (view f.layout (.mats z))[n]? = some y →
        Answered Cell.get (onlyCode code) (st y) (st' y)) ∧
      ∀ y, y ≠ x → (∀ z (n : Nat) code, C = .slot z → (QueryItem.materials is)[n]? = some code → (view f.layout (.mats z))[n]? ≠ some y) → st' y = st y := by
  obtain ⟨s1, p1, t1, k1⟩ := parse_single f.layout ⟨p, QueryItem.data is⟩ C j ha x hx st
  rcases hm with hm | ⟨z, rfl, hl⟩
  · refine ⟨s1, ?_, t1, ?_, fun y hy _ => k1 y hy⟩
    · unfold QueryItem.queries; rw [hm]; exact p1
    · intro z n code y _ h; rw [hm] at h; cases h
  · have hz : ∀ n : Nat, At { p with oseq := (n : Int) } (.mats z) n := by
      intro n; cases ha; exact .mats z n
    obtain ⟨s2, p2, t2, k2⟩ := parse_groups f.layout (QueryItem.materials is)
      (fun n code => [⟨{ p with oseq := (n : Int) }, onlyCode code⟩])
      (fun n code y d => (view f.layout (.mats z))[n]? = some y ∧ d = onlyCode code) (by
        intro n code st hn
        have hlt : n < (view f.layout (.mats z)).length := Nat.lt_of_lt_of_le (List.getElem?_eq_some_iff.mp hn).1 hl
        obtain ⟨s, q1, q2, q3⟩ := parse_single f.layout ⟨{ p with oseq := (n : Int) }, onlyCode code⟩ (.mats z) n (hz n) _
          (List.getElem?_eq_getElem hlt) st
        refine ⟨s, q1, ?_, ?_⟩
        · rintro y d ⟨h1, rfl⟩
          rw [List.getElem?_eq_getElem hlt] at h1
          cases h1
          exact q2
        · intro y hy
          refine q3 y fun h => hy _ ⟨?_, rfl⟩
          rw [h]; exact List.getElem?_eq_getElem hlt) (by
        rintro a b _ _ y _ _ _ _ ⟨h1, _⟩ ⟨h2, _⟩
        exact (position_unique hi h1 h2).2) s1
    have hne : ∀ (n : Nat) y, (view f.layout (.mats z))[n]? = some y → y ≠ x := by
      rintro n _ h rfl
      have := (position_unique hi h hx).1
      cases this
    refine ⟨s2, ?_, ?_, ?_, ?_⟩
    · have e : QueryItem.queries p is = [⟨p, QueryItem.data is⟩] ++ ((QueryItem.materials is).mapIdx fun n code =>
          [(⟨{ p with oseq := (n : Int) }, onlyCode code⟩ : Query)]).flatten := by
        unfold QueryItem.queries
        rw [List.singleton_append]
        congr 1
        have : ∀ (cs : List Nat) (g : Nat → Nat → Query), cs.mapIdx g = (cs.mapIdx fun n code => [g n code]).flatten := by
          intro cs
          induction cs with
          | nil => intro g; rfl
          | cons c cs ih => intro g; simp only [List.mapIdx_cons, List.flatten_cons, List.singleton_append]; rw [ih]
        exact this _ _
      rw [e, parseQueries_append, p1, bind_ok]
      exact p2
    · rw [k2 x]
      · exact t1
      · rintro n code d _ ⟨h, _⟩
        exact hne n x h rfl
    · rintro z' n code y hz' hc hy
      cases hz'
      have := t2 n code y _ hc ⟨hy, rfl⟩
      rwa [k1 y (hne n y hy)] at this
    · intro y hy h
      rw [k2 y, k1 y hy]
      rintro n code d hc ⟨h1, _⟩
      exact h z n code rfl hc h1

/-! ## C67 -/

theorem row_place (r : Row) (i : Nat) (C : Container) (j : Nat) (h : r.card i = some (C, j)) :
    At ⟨r.con.toNat, (slot r.loc.toNat i).1, (slot r.loc.toNat i).2, -1⟩ C j ∧ ∀ z, C = .slot z ↔ r.zone i = some z := by
  cases r with
  | pile k =>
    cases h
    refine ⟨?_, fun z => ⟨fun h => (by cases h), fun h => (by cases h)⟩⟩
    obtain ⟨c, l⟩ := k
    match c, l with
    | 0, .mainDeck => exact .pile ⟨0, .mainDeck⟩ i (-1)
    | 0, .hand => exact .pile ⟨0, .hand⟩ i (-1)
    | 0, .graveyard => exact .pile ⟨0, .graveyard⟩ i (-1)
    | 0, .banished => exact .pile ⟨0, .banished⟩ i (-1)
    | 0, .extraDeck => exact .pile ⟨0, .extraDeck⟩ i (-1)
    | 1, .mainDeck => exact .pile ⟨1, .mainDeck⟩ i (-1)
    | 1, .hand => exact .pile ⟨1, .hand⟩ i (-1)
    | 1, .graveyard => exact .pile ⟨1, .graveyard⟩ i (-1)
    | 1, .banished => exact .pile ⟨1, .banished⟩ i (-1)
    | 1, .extraDeck => exact .pile ⟨1, .extraDeck⟩ i (-1)
  | monsters c =>
    simp only [Row.card, Option.map_eq_some_iff, Prod.mk.injEq] at h
    obtain ⟨z, hz, rfl, rfl⟩ := h
    refine ⟨?_, fun z' => ⟨fun h => (by cases h; exact hz), fun h => (by rw [hz] at h; cases h; rfl)⟩⟩
    simp only [Row.zone] at hz
    split at hz <;> cases hz
    match c with
    | 0 => exact .slot ⟨0, .monster, i, by assumption⟩ (-1) (by decide)
    | 1 => exact .slot ⟨1, .monster, i, by assumption⟩ (-1) (by decide)
  | spells c =>
    simp only [Row.card, Option.map_eq_some_iff, Prod.mk.injEq] at h
    obtain ⟨z, hz, rfl, rfl⟩ := h
    refine ⟨?_, fun z' => ⟨fun h => (by cases h; exact hz), fun h => (by rw [hz] at h; cases h; rfl)⟩⟩
    have e : ((Row.spells c).con.toNat : Int) = ((c.val : Nat) : Int) := by
      match c with
      | 0 => rfl
      | 1 => rfl
    rw [e]
    simp only [Row.zone] at hz
    split at hz
    · rename_i h
      cases hz
      have : slot (Row.spells c).loc.toNat i = (8, i) := by
        show slot 8 i = _
        simp [slot, h]
      rw [this]
      exact .slot ⟨c, .spell, i, h⟩ (-1) (by decide)
    split at hz
    · rename_i h; cases hz; subst h; rw [show slot (Row.spells c).loc.toNat 5 = (0x100, 0) by show slot 8 5 = _; decide]; exact .slot ⟨c, .field, 0, by decide⟩ (-1) (by decide)
    split at hz
    · rename_i h; cases hz; subst h; rw [show slot (Row.spells c).loc.toNat 6 = (0x200, 0) by show slot 8 6 = _; decide]; exact .slot ⟨c, .pendulum, 0, by decide⟩ (-1) (by decide)
    split at hz
    · rename_i h; cases hz; subst h; rw [show slot (Row.spells c).loc.toNat 7 = (0x200, 1) by show slot 8 7 = _; decide]; exact .slot ⟨c, .pendulum, 1, by decide⟩ (-1) (by decide)
    · cases hz

theorem row_card_inj (r : Row) (i i' : Nat) (C : Container) (j : Nat) (h : r.card i = some (C, j)) (h' : r.card i' = some (C, j)) : i = i' := by
  cases r with
  | pile k => cases h; cases h'; rfl
  | monsters c =>
    simp only [Row.card, Row.zone, Option.map_eq_some_iff, Prod.mk.injEq] at h h'
    obtain ⟨z, hz, rfl, rfl⟩ := h
    obtain ⟨z', hz', e, _⟩ := h'
    cases e
    split at hz <;> cases hz
    split at hz' <;> cases hz'
    rfl
  | spells c =>
    simp only [Row.card, Row.zone, Option.map_eq_some_iff, Prod.mk.injEq] at h h'
    obtain ⟨z, hz, rfl, rfl⟩ := h
    obtain ⟨z', hz', e, _⟩ := h'
    cases e
    repeat' split at hz
    all_goals cases hz
    all_goals repeat' split at hz'
    all_goals first | omega | (cases hz'; omega) | cases hz'

theorem row_zone_card (r : Row) (i : Nat) (z : ZoneKey) (h : r.zone i = some z) : r.card i = some (.slot z, 0) := by
  cases r with
  | pile k => cases h
  | monsters c => simp only [Row.card, h, Option.map_some]
  | spells c => simp only [Row.card, h, Option.map_some]

/-- The queries for one slot. -/
theorem parse_row_slot {f : Frame} (hi : Inv f) (r : Row) (i : Nat) (is : List QueryItem) (hp : RowOnBoard (view f.layout) r i is) (st : CardId → Card Plain) :
    ∃ st', BasicContext.parseQueries f.layout (QueryItem.queries ⟨r.con.toNat, (slot r.loc.toNat i).1, (slot r.loc.toNat i).2, -1⟩ is) st = .ok st' ∧
      (∀ x d, Told (view f.layout) r i is x d → Answered Cell.get d (st x) (st' x)) ∧
      ∀ x, (∀ d, ¬ Told (view f.layout) r i is x d) → st' x = st x := by
  obtain ⟨⟨C, j, hc, hj⟩, hm⟩ := hp
  obtain ⟨ha, hz⟩ := row_place r i C j hc
  have hx : (view f.layout C)[j]? = some (view f.layout C)[j] := List.getElem?_eq_getElem hj
  obtain ⟨s, h1, h2, h3, h4⟩ := parse_slot hi _ rfl is C j ha _ hx (by
    rcases hm with hm | ⟨z, hz', hl⟩
    · exact .inl hm
    · exact .inr ⟨z, (hz z).mpr hz', hl⟩) st
  refine ⟨s, h1, ?_, ?_⟩
  · intro x d ht
    cases ht with
    | card C' j' _ hc' hx' =>
      rw [hc] at hc'; cases hc'
      rw [hx] at hx'; cases hx'
      exact h2
    | material z n code _ hz' hcode hx' => exact h3 z n code x ((hz z).mpr hz') hcode hx'
  · intro x hn
    refine h4 x ?_ ?_
    · rintro rfl
      exact hn _ (.card C j _ hc hx)
    · intro z n code hCz hcode hx'
      exact hn _ (.material z n code x ((hz z).mp hCz) hcode hx')

theorem told_position {B : Board} {r : Row} {i : Nat} {is : List QueryItem} {x : CardId} {d : QueryData} (h : Told B r i is x d) :
    (∃ C j, r.card i = some (C, j) ∧ (B C)[j]? = some x) ∨ ∃ z, r.card i = some (.slot z, 0) ∧ ∃ n : Nat, (B (.mats z))[n]? = some x := by
  cases h with
  | card C j _ hc hx => exact .inl ⟨C, j, hc, hx⟩
  | material z n code _ hz hc hx => exact .inr ⟨z, row_zone_card r i z hz, n, hx⟩

theorem row_card_not_mats (r : Row) (i : Nat) (z : ZoneKey) (j : Nat) : r.card i ≠ some (.mats z, j) := by
  intro h
  cases r <;> simp [Row.card] at h

/-- What is said about slots concerns different cards. -/
theorem told_disjoint {f : Frame} (hi : Inv f) {r : Row} {i j : Nat} {is js : List QueryItem} {x : CardId} {d e : QueryData}
    (h1 : Told (view f.layout) r i is x d) (h2 : Told (view f.layout) r j js x e) : i = j := by
  rcases told_position h1 with ⟨C, a, hc, hx⟩ | ⟨z, hc, n, hx⟩ <;> rcases told_position h2 with ⟨D, b, hd, hy⟩ | ⟨w, hd, m, hy⟩ <;>
    obtain ⟨e1, e2⟩ := position_unique hi hx hy
  · subst e1 e2; exact row_card_inj r i j C a hc hd
  · subst e1; exact absurd hc (row_card_not_mats r i w a)
  · subst e1; exact absurd hd (row_card_not_mats r j z b)
  · cases e1; exact row_card_inj r i j _ _ hc hd

theorem track_queries (c : BasicContext) (m : CoreMsg) (hf : m.Fits) (qs : List Query) (hm : m.meaning = some (.queries qs)) (more : List UInt8) :
    track c (m.bytes ++ more) = (do let st ← BasicContext.parseQueries c.board.frame.layout qs c.store; return { c with store := st }) := by
  unfold track
  rw [C34_translation c m hf _ hm more]
  rfl

/-- **C67.** A message with data about the cards of a location sets exactly what it says: the card in every described slot gets the
values given and keeps the others, its materials get the codes listed, no other card and nothing on the board changes. -/
theorem C67_update_data (c : BasicContext) (hr : Reachable c.board.frame) (r : Row) (slots : List (Option (List QueryItem)))
    (hf : (CoreMsg.updateData r.con r.loc slots).Fits)
    (hp : ∀ (i : Nat) is, slots[i]? = some (some is) → RowOnBoard (boardOf c) r i is) (more : List UInt8) :
    ∃ st, track c ((CoreMsg.updateData r.con r.loc slots).bytes ++ more) = .ok { c with store := st } ∧
      (∀ (i : Nat) is x d, slots[i]? = some (some is) → Told (boardOf c) r i is x d → Answered Cell.get d (c.store x) (st x)) ∧
      ∀ x, (∀ (i : Nat) is d, slots[i]? = some (some is) → ¬ Told (boardOf c) r i is x d) → st x = c.store x := by
  rw [track_queries c _ hf _ rfl]
  obtain ⟨st, h1, h2, h3⟩ := parse_groups c.board.frame.layout slots (fun i o => match o with
      | none => []
      | some is => QueryItem.queries ⟨r.con.toNat, (slot r.loc.toNat i).1, (slot r.loc.toNat i).2, -1⟩ is)
    (fun i o x d => ∃ is, o = some is ∧ Told (boardOf c) r i is x d) (by
      intro i o st hi
      cases o with
      | none =>
        refine ⟨st, rfl, ?_, fun _ _ => rfl⟩
        rintro x d ⟨is, h, _⟩
        cases h
      | some is =>
        obtain ⟨s, p1, p2, p3⟩ := parse_row_slot hr.inv r i is (hp i is hi) st
        refine ⟨s, p1, ?_, ?_⟩
        · rintro x d ⟨_, h, ht⟩
          cases h
          exact p2 x d ht
        · intro x hx
          exact p3 x fun d ht => hx d ⟨is, rfl, ht⟩) (by
      rintro i j _ _ x d e _ _ ⟨_, _, h1⟩ ⟨_, _, h2⟩
      exact told_disjoint hr.inv h1 h2) c.store
  refine ⟨st, ?_, ?_, ?_⟩
  · exact congrArg (fun (z : Res (CardId → Card Plain)) => (do let st ← z; return { c with store := st } : Res BasicContext)) h1
  · intro i is x d hi ht
    exact h2 i _ x d hi ⟨is, rfl, ht⟩
  · intro x hx
    refine h3 x ?_
    rintro i o d hi ⟨is, rfl, ht⟩
    exact hx i is d hi ht

/-- **C67.** So does a message about one card. -/
theorem C67_update_card (c : BasicContext) (hr : Reachable c.board.frame) (r : Row) (seq : UInt8) (is : List QueryItem)
    (hf : ∀ i ∈ is, i.Fits) (hp : RowOnBoard (boardOf c) r seq.toNat is) (more : List UInt8) :
    ∃ st, track c ((CoreMsg.updateCard ⟨r.con, r.loc, seq⟩ is).bytes ++ more) = .ok { c with store := st } ∧
      (∀ x d, Told (boardOf c) r seq.toNat is x d → Answered Cell.get d (c.store x) (st x)) ∧
      ∀ x, (∀ d, ¬ Told (boardOf c) r seq.toNat is x d) → st x = c.store x := by
  have hl : r.loc.toNat % 128 = r.loc.toNat := by
    cases r with
    | pile k => obtain ⟨c, l⟩ := k; cases l <;> rfl
    | monsters c => rfl
    | spells c => rfl
  rw [track_queries c (.updateCard ⟨r.con, r.loc, seq⟩ is) hf _ rfl]
  obtain ⟨st, h1, h2, h3⟩ := parse_row_slot hr.inv r seq.toNat is hp c.store
  refine ⟨st, ?_, h2, h3⟩
  simp only [CardLocS.place, hl]
  rw [h1, bind_ok]; rfl

/-! ### Examples -/

/-- Two monsters, one with two materials, are described. -/
def someSlots : List (Option (List QueryItem)) := [none, some [.code 77, .attack 1500, .overlayCard [5, 6]], none, some [.code 78]]

/-- Cards from the deck go to two monster zones, then two more below the first of them as materials. -/
def someMoves : List CoreMsg :=
  [.start 0 8000 8000 5 1 2 0, .move 0 ⟨0, 1, 4, 0⟩ ⟨0, 4, 1, 1⟩ 0, .move 0 ⟨0, 1, 3, 0⟩ ⟨0, 4, 3, 1⟩ 0, .move 0 ⟨0, 1, 2, 0⟩ ⟨0, 0x84, 1, 0⟩ 0,
   .move 0 ⟨0, 1, 1, 0⟩ ⟨0, 0x84, 1, 1⟩ 0]

example : (trackAll BasicContext.init (someMoves ++ [.updateData 0 4 someSlots])).toOption.map (fun c =>
      ([0, 1, 2, 3, 4, 5, 6, 7].map fun x => (x, ((c.store x).single .code).val, ((c.store x).single .atk).val))) =
    some [(0, 0, 0), (1, 6, 0), (2, 5, 0), (3, 78, 0), (4, 77, 1500), (5, 0, 0), (6, 0, 0), (7, 0, 0)] := by decide +kernel

example : ∀ c, trackAll BasicContext.init someMoves = .ok c → ∀ (i : Nat) is, someSlots[i]? = some (some is) → RowOnBoard (boardOf c) (.monsters 0) i is := by
  intro c h
  have h1 : (trackAll BasicContext.init someMoves).toOption.map (fun c => (boardOf c (.slot ⟨0, .monster, 1, by decide⟩),
      boardOf c (.mats ⟨0, .monster, 1, by decide⟩), boardOf c (.slot ⟨0, .monster, 3, by decide⟩))) = some ([4], [2, 1], [3]) := by decide +kernel
  rw [h] at h1
  simp only [Except.toOption, Option.map_some, Option.some.injEq, Prod.mk.injEq] at h1
  obtain ⟨e1, e2, e3⟩ := h1
  intro i is hi
  match i with
  | 0 => cases hi
  | 1 => cases hi; exact ⟨⟨_, 0, rfl, by rw [e1]; decide⟩, .inr ⟨_, rfl, by rw [e2]; decide⟩⟩
  | 2 => cases hi
  | 3 => cases hi; exact ⟨⟨_, 0, rfl, by rw [e3]; decide⟩, .inl rfl⟩
  | n + 4 => simp [someSlots] at hi

end Ygo.Props
