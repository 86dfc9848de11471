import Verif.Spec.Piled
import Verif.Props.Single
import Verif.Props.Update
import Verif.Props.System

/-!
# What is told about materials of cards in piles (C124)
-/

namespace Ygo.Props
open Ygo Ygo.Spec

theorem answered_code {d : QueryData} {code : Nat} {a b c : Card Plain} (h1 : Answered Cell.get d a b) (h2 : Answered Cell.get (onlyCode code) b c) :
    Answered Cell.get (withCode d code) a c where
  given f v h := by
    by_cases hf : f = .code
    · subst hf
      exact h2.given .code v (by cases h; simp [onlyCode, QueryData.setSingle])
    · have hn : (onlyCode code).single f = none := by simp [onlyCode, QueryData.setSingle, hf]
      rw [h2.kept f hn]
      refine h1.given f v ?_
      cases f <;> first | exact absurd rfl hf | exact h
  kept f h := by
    by_cases hf : f = .code
    · subst hf; cases h
    · have hn : (onlyCode code).single f = none := by simp [onlyCode, QueryData.setSingle, hf]
      rw [h2.kept f hn]
      refine h1.kept f ?_
      cases f <;> first | exact absurd rfl hf | exact h
  targetsGiven v h := by rw [h2.targetsKept rfl]; exact h1.targetsGiven v h
  targetsKept h := by rw [h2.targetsKept rfl]; exact h1.targetsKept h
  countersGiven v h := by rw [h2.countersKept rfl]; exact h1.countersGiven v h
  countersKept h := by rw [h2.countersKept rfl]; exact h1.countersKept h

/-- Codes that are all told about the same card. -/
theorem parse_codes (l : Layout) (C : Container) (i : Nat) (x : CardId) (hx : (view l C)[i]? = some x) (codes : List Nat) :
    ∀ (p : Nat → Place) (_ : ∀ n, At (p n) C i) (st : CardId → Card Plain),
    ∃ st', BasicContext.parseQueries l (codes.mapIdx fun n code => (⟨p n, onlyCode code⟩ : Query)) st = .ok st' ∧
      (∀ code, codes.getLast? = some code → Answered Cell.get (onlyCode code) (st x) (st' x)) ∧ (codes = [] → st' = st) ∧
      ∀ y, y ≠ x → st' y = st y := by
  induction codes with
  | nil => intro p _ st; exact ⟨st, rfl, fun _ h => (by cases h), fun _ => rfl, fun _ _ => rfl⟩
  | cons a codes ih =>
    intro p hp st
    obtain ⟨s1, p1, t1, k1⟩ := parse_single l ⟨p 0, onlyCode a⟩ C i (hp 0) x hx st
    obtain ⟨s2, p2, t2, e2, k2⟩ := ih (fun n => p (n + 1)) (fun n => hp (n + 1)) s1
    refine ⟨s2, ?_, ?_, fun h => (by cases h), fun y hy => by rw [k2 y hy, k1 y hy]⟩
    · rw [List.mapIdx_cons, ← List.singleton_append, parseQueries_append, p1, bind_ok]
      exact p2
    · intro code h
      cases codes with
      | nil =>
        cases h
        rw [e2 rfl]
        exact t1
      | cons b codes =>
        rw [List.getLast?_cons_cons] at h
        have := answered_code t1 (t2 code h)
        have e : withCode (onlyCode a) code = onlyCode code := by
          simp only [withCode, onlyCode, QueryData.setSingle]
          congr 1
          funext f
          cases f <;> simp
        rwa [e] at this

/-- The queries for a card in a pile and its materials are all about that card. -/
theorem parse_piled (l : Layout) (p : Place) (k : PileKey) (i : Nat) (ha : At p (.pile k) i) (x : CardId) (hx : (view l (.pile k))[i]? = some x)
    (is : List QueryItem) (st : CardId → Card Plain) : ∃ st', BasicContext.parseQueries l (QueryItem.queries p is) st = .ok st' ∧
      Answered Cell.get (saidInPile is) (st x) (st' x) ∧ ∀ y, y ≠ x → st' y = st y := by
  obtain ⟨s1, p1, t1, k1⟩ := parse_single l ⟨p, QueryItem.data is⟩ _ i ha x hx st
  obtain ⟨s2, p2, t2, e2, k2⟩ := parse_codes l _ i x hx (QueryItem.materials is) (fun n => { p with oseq := (n : Int) })
    (fun n => by cases ha; exact .pile k i n) s1
  refine ⟨s2, ?_, ?_, fun y hy => by rw [k2 y hy, k1 y hy]⟩
  · rw [QueryItem.queries, ← List.singleton_append, parseQueries_append, p1, bind_ok]
    exact p2
  · unfold saidInPile
    split
    · next h => rw [e2 (List.getLast?_eq_none_iff.mp h)]; exact t1
    · next code h => exact answered_code t1 (t2 code h)

/-- **C124.** Exactly: what a message with data about the cards of a pile does. Each card that it describes is shown as described, except that
its code is the one of the last of its materials, if any are listed. No other card changes, not the materials either. -/
theorem C124_piles_exactly (c : BasicContext) (hr : Reachable c.board.frame) (k : PileKey) (slots : List (Option (List QueryItem)))
    (hf : (CoreMsg.updateData (Row.pile k).con (Row.pile k).loc slots).Fits)
    (hp : ∀ (i : Nat) is, slots[i]? = some (some is) → i < (boardOf c (.pile k)).length) (more : List UInt8) :
    ∃ st, track c ((CoreMsg.updateData (Row.pile k).con (Row.pile k).loc slots).bytes ++ more) = .ok { c with store := st } ∧
      (∀ (i : Nat) is x, slots[i]? = some (some is) → (boardOf c (.pile k))[i]? = some x → Answered Cell.get (saidInPile is) (c.store x) (st x)) ∧
      ∀ x, (∀ (i : Nat) is, slots[i]? = some (some is) → (boardOf c (.pile k))[i]? ≠ some x) → st x = c.store x := by
  rw [track_queries c _ hf _ rfl]
  obtain ⟨st, h1, h2, h3⟩ := parse_groups c.board.frame.layout slots (fun i o => match o with
      | none => []
      | some is => QueryItem.queries ⟨(Row.pile k).con.toNat, (slot (Row.pile k).loc.toNat i).1, (slot (Row.pile k).loc.toNat i).2, -1⟩ is)
    (fun i o x d => ∃ is, o = some is ∧ (boardOf c (.pile k))[i]? = some x ∧ d = saidInPile is) (by
      intro i o st hi
      cases o with
      | none =>
        refine ⟨st, rfl, ?_, fun _ _ => rfl⟩
        rintro x d ⟨is, h, _⟩
        cases h
      | some is =>
        have hx := List.getElem?_eq_getElem (hp i is hi)
        obtain ⟨s, p1, p2, p3⟩ := parse_piled c.board.frame.layout _ k i (row_place (.pile k) i _ _ rfl).1 _ hx is st
        refine ⟨s, p1, ?_, ?_⟩
        · rintro x d ⟨_, h, h', rfl⟩
          cases h
          rw [hx] at h'
          cases h'
          exact p2
        · intro x h
          exact p3 x fun e => h _ ⟨is, rfl, e ▸ hx, rfl⟩) (by
      rintro i j _ _ x d e _ _ ⟨_, _, h1, _⟩ ⟨_, _, h2, _⟩
      exact (position_unique hr.inv h1 h2).2) c.store
  refine ⟨st, ?_, ?_, ?_⟩
  · exact congrArg (fun (z : Res (CardId → Card Plain)) => (do let st ← z; return { c with store := st } : Res BasicContext)) h1
  · intro i is x hi hx
    exact h2 i _ x _ hi ⟨is, rfl, hx, rfl⟩
  · intro x hx
    refine h3 x ?_
    rintro i o d hi ⟨is, rfl, ht, -⟩
    exact hx i is hi ht

theorem track_card (c : BasicContext) (r : Row) (seq : UInt8) (is : List QueryItem) (hf : ∀ i ∈ is, i.Fits) (more : List UInt8) :
    track c ((CoreMsg.updateCard ⟨r.con, r.loc, seq⟩ is).bytes ++ more) = (do
      let st ← BasicContext.parseQueries c.board.frame.layout
        (QueryItem.queries ⟨r.con.toNat, (slot r.loc.toNat seq.toNat).1, (slot r.loc.toNat seq.toNat).2, -1⟩ is) c.store
      return { c with store := st }) := by
  have hl : r.loc.toNat % 128 = r.loc.toNat := by
    cases r with
    | pile k => obtain ⟨c, l⟩ := k; cases l <;> rfl
    | monsters c => rfl
    | spells c => rfl
  rw [track_queries c (.updateCard ⟨r.con, r.loc, seq⟩ is) hf _ rfl]
  simp only [CardLocS.place, hl]

/-- **C124.** Exactly: so does a message about one card of a pile. -/
theorem C124_card_exactly (c : BasicContext) (k : PileKey) (seq : UInt8) (is : List QueryItem) (hf : ∀ i ∈ is, i.Fits) (x : CardId)
    (hx : (boardOf c (.pile k))[seq.toNat]? = some x) (more : List UInt8) :
    ∃ st, track c ((CoreMsg.updateCard ⟨(Row.pile k).con, (Row.pile k).loc, seq⟩ is).bytes ++ more) = .ok { c with store := st } ∧
      Answered Cell.get (saidInPile is) (c.store x) (st x) ∧ ∀ y, y ≠ x → st y = c.store y := by
  rw [track_card c _ seq is hf more]
  obtain ⟨st, h1, h2, h3⟩ := parse_piled c.board.frame.layout _ k seq.toNat (row_place (.pile k) seq.toNat _ _ rfl).1 x hx is c.store
  exact ⟨st, by rw [h1, bind_ok]; rfl, h2, h3⟩

/-- **C124.** The code that is shown is the one that the message gives if and only if the message lists no materials, or the last one has the
same code. -/
theorem C124_code (c c' : BasicContext) (k : PileKey) (seq : UInt8) (is : List QueryItem) (hf : ∀ i ∈ is, i.Fits) (x : CardId)
    (hx : (boardOf c (.pile k))[seq.toNat]? = some x) (more : List UInt8) (code : Nat) (hc : (QueryItem.data is).single .code = some code)
    (h : track c ((CoreMsg.updateCard ⟨(Row.pile k).con, (Row.pile k).loc, seq⟩ is).bytes ++ more) = .ok c') :
    Cell.get ((c'.store x).single .code) = .ok code ↔ ∀ last, (QueryItem.materials is).getLast? = some last → last = code := by
  obtain ⟨st, h1, h2, -⟩ := C124_card_exactly c k seq is hf x hx more
  rw [h] at h1
  cases h1
  dsimp only
  unfold saidInPile at h2
  split at h2
  · next hl => rw [hl]; exact ⟨fun _ _ h => (by cases h), fun _ => h2.given .code code hc⟩
  · next last hl =>
    rw [hl, h2.given .code last rfl]
    constructor
    · rintro h' _ ⟨⟩
      cases h'
      rfl
    · intro h'
      rw [h' last rfl]

/-- **C124.** Everything but the code is shown as the message says. -/
theorem C124_rest_partial (c c' : BasicContext) (k : PileKey) (seq : UInt8) (is : List QueryItem) (hf : ∀ i ∈ is, i.Fits) (x : CardId)
    (hx : (boardOf c (.pile k))[seq.toNat]? = some x) (more : List UInt8)
    (h : track c ((CoreMsg.updateCard ⟨(Row.pile k).con, (Row.pile k).loc, seq⟩ is).bytes ++ more) = .ok c') (f : QField) (hc : f ≠ .code) :
    (∀ v, (QueryItem.data is).single f = some v → Cell.get ((c'.store x).single f) = .ok v) ∧
    ((QueryItem.data is).single f = none → (c'.store x).single f = (c.store x).single f) := by
  obtain ⟨st, h1, h2, -⟩ := C124_card_exactly c k seq is hf x hx more
  rw [h] at h1
  cases h1
  have e : (saidInPile is).single f = (QueryItem.data is).single f := by
    unfold saidInPile
    split
    · rfl
    · cases f <;> first | exact absurd rfl hc | rfl
  exact ⟨fun v hv => h2.given f v (by rw [e]; exact hv), fun hv => h2.kept f (by rw [e]; exact hv)⟩

/-- **C124.** In zones, card and materials are shown as the message says. -/
theorem C124_zones_partial (c : BasicContext) (hr : Reachable c.board.frame) (r : Row) (seq : UInt8) (is : List QueryItem)
    (hf : ∀ i ∈ is, i.Fits) (z : ZoneKey) (hz : r.zone seq.toNat = some z) (x : CardId) (hx : boardOf c (.slot z) = [x])
    (hm : (QueryItem.materials is).length ≤ (boardOf c (.mats z)).length) (more : List UInt8) :
    ∃ st, track c ((CoreMsg.updateCard ⟨r.con, r.loc, seq⟩ is).bytes ++ more) = .ok { c with store := st } ∧
      Answered Cell.get (QueryItem.data is) (c.store x) (st x) ∧
      ∀ (n code : Nat) y, (QueryItem.materials is)[n]? = some code → (boardOf c (.mats z))[n]? = some y → Answered Cell.get (onlyCode code) (c.store y) (st y) := by
  have hc := row_zone_card r _ z hz
  obtain ⟨st, h1, h2, -⟩ := C67_update_card c hr r seq is hf ⟨⟨_, 0, hc, by rw [hx]; exact Nat.one_pos⟩, .inr ⟨z, hz, hm⟩⟩ more
  exact ⟨st, h1, h2 x _ (.card _ 0 x hc (by rw [hx]; rfl)), fun n code y hn hy => h2 y _ (.material z n code y hz hn hy)⟩

/-! ## Which messages are accepted -/

theorem parse_found {l : Layout} {q : Query} {qs : List Query} {st st' : CardId → Card Plain} (h : BasicContext.parseQueries l (q :: qs) st = .ok st') :
    (∃ C i x, At q.place C i ∧ (view l C)[i]? = some x) ∧ ∃ st1, BasicContext.parseQueries l qs st1 = .ok st' := by
  rw [BasicContext.parseQueries, bind_eq_ok] at h
  obtain ⟨⟨n, s1⟩, h1, h2⟩ := h
  obtain ⟨x, hx, -⟩ := C30_parse_query _ _ _ _ _ _ h1
  obtain ⟨C, i, ha, hx⟩ := Layout.card_eq_ok.mp hx
  exact ⟨⟨C, i, x, ha, hx⟩, s1, h2⟩

theorem parse_all_found {l : Layout} {qs : List Query} : ∀ {st st' : CardId → Card Plain}, BasicContext.parseQueries l qs st = .ok st' →
    ∀ q ∈ qs, ∃ C i x, At q.place C i ∧ (view l C)[i]? = some x := by
  induction qs with
  | nil => intro _ _ _ q hq; cases hq
  | cons a qs ih =>
    intro st st' h q hq
    obtain ⟨h1, s, h2⟩ := parse_found h
    rcases List.mem_cons.mp hq with rfl | hq
    · exact h1
    · exact ih h2 q hq

/-- A place in a row that is on the board is the place of a slot. -/
theorem row_place_conv (r : Row) (i : Nat) (C : Container) (j : Nat)
    (h : At ⟨r.con.toNat, (slot r.loc.toNat i).1, (slot r.loc.toNat i).2, -1⟩ C j) : r.card i = some (C, j) := by
  cases hc : r.card i with
  | some x =>
    obtain ⟨h1, h2⟩ := At.unique h (row_place r i x.1 x.2 hc).1
    rw [h1, h2]
  | none =>
    exfalso
    generalize hp : (⟨r.con.toNat, (slot r.loc.toNat i).1, (slot r.loc.toNat i).2, -1⟩ : Place) = p at h
    cases r with
    | pile k => cases hc
    | monsters c =>
      have hi : ¬ i < 7 := by
        intro hi
        simp [Row.card, Row.zone, hi] at hc
      have e : slot (Row.monsters c).loc.toNat i = (4, i) := by
        show slot 4 i = _
        rw [slot, if_neg (by decide)]
      rw [e] at hp
      cases h with
      | pile k s o => obtain ⟨_, l⟩ := k; cases l <;> simp [PileLoc.code] at hp
      | slot k o ho =>
        obtain ⟨_, l, s, hs⟩ := k
        cases l <;> simp [ZoneLoc.code] at hp
        simp only [ZoneLoc.limit] at hs
        omega
      | mats k n => simp at hp <;> omega
    | spells c =>
      have hi : ¬ i < 8 := by
        intro hi
        have : i = 0 ∨ i = 1 ∨ i = 2 ∨ i = 3 ∨ i = 4 ∨ i = 5 ∨ i = 6 ∨ i = 7 := by omega
        rcases this with rfl | rfl | rfl | rfl | rfl | rfl | rfl | rfl <;> simp [Row.card, Row.zone] at hc
      have e : slot (Row.spells c).loc.toNat i = (0x200, i - 6) := by
        have h1 : ¬ i < 5 := by omega
        have h2 : ¬ i = 5 := by omega
        show slot 8 i = _
        rw [slot, if_pos (by decide), if_neg h1, if_neg h2]
      rw [e] at hp
      cases h with
      | pile k s o => obtain ⟨_, l⟩ := k; cases l <;> simp [PileLoc.code] at hp
      | slot k o ho =>
        obtain ⟨_, l, s, hs⟩ := k
        cases l <;> simp [ZoneLoc.code] at hp
        simp only [ZoneLoc.limit] at hs
        omega
      | mats k n => simp at hp <;> omega

/-- **C124.** Exactly which messages about one card are accepted: the card must be there, and in a zone it must have at least as many materials
as the message lists; in a pile, any number may be listed. -/
theorem C124_accepted (c : BasicContext) (hr : Reachable c.board.frame) (r : Row) (seq : UInt8) (is : List QueryItem) (hf : ∀ i ∈ is, i.Fits)
    (more : List UInt8) :
    (∃ c', track c ((CoreMsg.updateCard ⟨r.con, r.loc, seq⟩ is).bytes ++ more) = .ok c') ↔
      (∃ C j, r.card seq.toNat = some (C, j) ∧ j < (boardOf c C).length) ∧
      ∀ z, r.zone seq.toNat = some z → (QueryItem.materials is).length ≤ (boardOf c (.mats z)).length := by
  constructor
  · rintro ⟨c', h⟩
    rw [track_card c r seq is hf more, bind_eq_ok] at h
    obtain ⟨st, h1, -⟩ := h
    have hall := parse_all_found h1
    obtain ⟨C, j, x, ha, hx⟩ := hall _ (List.mem_cons_self ..)
    have hc := row_place_conv r _ C j ha
    refine ⟨⟨C, j, hc, (List.getElem?_eq_some_iff.mp hx).1⟩, fun z hz => ?_⟩
    rcases Nat.eq_zero_or_pos (QueryItem.materials is).length with h0 | h0
    · omega
    have hz' := row_zone_card r _ z hz
    obtain ⟨ha', -⟩ := row_place r _ _ _ hz'
    have hlt : (QueryItem.materials is).length - 1 < (QueryItem.materials is).length := by omega
    obtain ⟨D, i, y, hD, hy⟩ := hall ⟨{ (⟨r.con.toNat, (slot r.loc.toNat seq.toNat).1, (slot r.loc.toNat seq.toNat).2, -1⟩ : Place) with
        oseq := (((QueryItem.materials is).length - 1 : Nat) : Int) }, onlyCode (QueryItem.materials is)[(QueryItem.materials is).length - 1]⟩
      (List.mem_cons_of_mem _ (List.mem_of_getElem? (i := (QueryItem.materials is).length - 1) (by
        rw [List.getElem?_mapIdx, List.getElem?_eq_getElem hlt]
        rfl)))
    have hm : At { (⟨r.con.toNat, (slot r.loc.toNat seq.toNat).1, (slot r.loc.toNat seq.toNat).2, -1⟩ : Place) with
        oseq := (((QueryItem.materials is).length - 1 : Nat) : Int) } (.mats z) ((QueryItem.materials is).length - 1) := by
      generalize (⟨r.con.toNat, (slot r.loc.toNat seq.toNat).1, (slot r.loc.toNat seq.toNat).2, -1⟩ : Place) = p at ha'
      cases ha'
      exact .mats z _
    obtain ⟨rfl, rfl⟩ := At.unique hD hm
    have := (List.getElem?_eq_some_iff.mp hy).1
    show _ ≤ (view c.board.frame.layout (.mats z)).length
    omega
  · rintro ⟨⟨C, j, hc, hj⟩, hm⟩
    cases hz : r.zone seq.toNat with
    | some z =>
      obtain ⟨st, h, -⟩ := C67_update_card c hr r seq is hf ⟨⟨C, j, hc, hj⟩, .inr ⟨z, hz, hm z hz⟩⟩ more
      exact ⟨_, h⟩
    | none =>
      cases r with
      | pile k =>
        cases hc
        obtain ⟨st, h, -⟩ := C124_card_exactly c k seq is hf _ (List.getElem?_eq_getElem hj) more
        exact ⟨_, h⟩
      | monsters c => simp [Row.card, hz] at hc
      | spells c => simp [Row.card, hz] at hc

/-! ## A monster that is about to be summoned -/

/-- Two cards in monster zones become materials of the card in the extra deck, card 5, which the core then describes before it is put into a
zone. -/
def beforeSummon : List CoreMsg :=
  [.start 0 8000 8000 5 1 0 0, .move 0 ⟨0, 1, 4, 0⟩ ⟨0, 4, 1, 1⟩ 0, .move 0 ⟨0, 1, 3, 0⟩ ⟨0, 4, 3, 1⟩ 0, .move 0 ⟨0, 4, 1, 1⟩ ⟨0, 0xC0, 0, 0⟩ 0,
   .move 0 ⟨0, 4, 3, 1⟩ ⟨0, 0xC0, 0, 1⟩ 0, .updateData 0 0x40 [some [.code 500, .attack 2500, .overlayCard [7, 8]]]]

/-- The codes and attacks that a server shows for the first cards, and where the monster is. -/
def serverShows (ms : List CoreMsg) : Option (List (Nat × Int)) :=
  (trackAll BasicContext.init ms).toOption.map fun c => [0, 1, 2, 3, 4, 5].map fun x => (((c.store x).single .code).val, ((c.store x).single .atk).val)

/-- **C124.** The monster is shown with the code of its last material, before and after its arrival, and the materials without any; once it has
arrived, the same message shows all as they are. -/
theorem C124_violated :
    serverShows beforeSummon = some [(0, 0), (0, 0), (0, 0), (0, 0), (0, 0), (8, 2500)] ∧
    serverShows (beforeSummon ++ [.move 0 ⟨0, 0x40, 0, 8⟩ ⟨0, 4, 5, 1⟩ 0]) = some [(0, 0), (0, 0), (0, 0), (0, 0), (0, 0), (8, 2500)] ∧
    serverShows (beforeSummon ++ [.move 0 ⟨0, 0x40, 0, 8⟩ ⟨0, 4, 5, 1⟩ 0,
      .updateData 0 4 [none, none, none, none, none, some [.code 500, .attack 2500, .overlayCard [7, 8]]]]) =
      some [(0, 0), (0, 0), (0, 0), (8, 0), (7, 0), (500, 2500)] := by
  refine ⟨?_, ?_, ?_⟩ <;> decide +kernel

end Ygo.Props
