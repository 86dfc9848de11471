import Verif.Spec.Telling
import Verif.Props.Screen

namespace Ygo.Props
open Ygo Ygo.Spec

set_option linter.unusedSimpArgs false

theorem told_over (d e : QueryData) (c : Card Plain) : (c.told d).told e = c.told (QueryData.over e d) := by
  have h : ∀ {α : Type} (x y : Option α) (z : Plain α), (y.map Plain.mk).getD ((x.map Plain.mk).getD z) = ((y.or x).map Plain.mk).getD z := by
    intro α x y z
    cases y <;> cases x <;> rfl
  simp only [Card.told, QueryData.over, h]

theorem over_comm {d e : QueryData} (h : ¬ QueryData.Clash d e) : QueryData.over d e = QueryData.over e d := by
  have k : ∀ {α : Type} {x y : Option α}, ¬ (x ≠ none ∧ y ≠ none) → x.or y = y.or x := by
    intro α x y h
    cases x with
    | none => simp
    | some a =>
      cases y with
      | none => simp
      | some b => exact absurd ⟨nofun, nofun⟩ h
  simp only [QueryData.Clash, not_or, not_exists] at h
  simp only [QueryData.over, QueryData.mk.injEq]
  exact ⟨funext fun f => k (h.1 f), k h.2.1, k h.2.2⟩

/-- What is known after something was told of the card at a place. -/
def tell (l : Layout) (st : CardId → Card Plain) (q : Query) : CardId → Card Plain :=
  match l.card q.place with
  | .ok x => fun y => if y = x then (st x).told q.data else st y
  | .error _ => st

theorem parseQuery_tell {cache : Bool} {l : Layout} {st : CardId → Card Plain} {q : Query} {x : CardId} (h : l.card q.place = .ok x) :
    ∃ n, parseQuery cache l st q = .ok (n, tell l st q) := by
  obtain ⟨C, i, ha, hx⟩ := Layout.card_eq_ok.mp h
  obtain ⟨n, e⟩ := parseQuery_told (cache := cache) (st := st) ha hx
  exact ⟨n, by rw [e, tell, h]⟩

theorem answer_iff {cache : Bool} {l : Layout} {qs : List Query} {st st' : CardId → Card Plain} :
    Client.answer cache l qs st = .ok st' ↔ (∀ q ∈ qs, ∃ x, l.card q.place = .ok x) ∧ st' = qs.foldl (tell l) st := by
  induction qs generalizing st with
  | nil => simp [Client.answer, eq_comm]
  | cons q qs ih =>
    simp only [Client.answer, bind_eq_ok, List.foldl_cons]
    constructor
    · rintro ⟨⟨n, st1⟩, h1, h2⟩
      obtain ⟨x, hx, _⟩ := C30_parse_query _ _ _ _ _ _ h1
      obtain ⟨n', h3⟩ := parseQuery_tell (cache := cache) (st := st) hx
      rw [h1] at h3
      cases h3
      obtain ⟨h4, h5⟩ := ih.mp h2
      exact ⟨fun q' hq => by rcases List.mem_cons.mp hq with rfl | hq; exacts [⟨x, hx⟩, h4 q' hq], h5⟩
    · rintro ⟨h1, h2⟩
      obtain ⟨x, hx⟩ := h1 q (List.mem_cons_self ..)
      obtain ⟨n, h3⟩ := parseQuery_tell (cache := cache) (st := st) hx
      exact ⟨_, h3, ih.mpr ⟨fun q' hq => h1 q' (List.mem_cons_of_mem _ hq), h2⟩⟩

/-- **C112.** Two queries about one card do what one query does that gives what either gives, the later value where both do. -/
theorem C112_merged (cache : Bool) (l : Layout) (p : Place) (d e : QueryData) (st st' : CardId → Card Plain) :
    Client.answer cache l [⟨p, d⟩, ⟨p, e⟩] st = .ok st' ↔ Client.answer cache l [⟨p, QueryData.over e d⟩] st = .ok st' := by
  rw [answer_iff, answer_iff]
  have : [⟨p, d⟩, ⟨p, e⟩].foldl (tell l) st = [⟨p, QueryData.over e d⟩].foldl (tell l) st := by
    simp only [List.foldl_cons, List.foldl_nil, tell]
    cases l.card p with
    | error x => rfl
    | ok x =>
      funext y
      by_cases h : y = x
      · simp only [h, if_true, told_over]
      · simp only [h, if_false]
  rw [this]
  simp

/-- **C112.** Queries may come in any order, unless two are about the same card and give the same field. -/
theorem C112_any_order (cache : Bool) (l : Layout) (qs qs' : List Query) (hp : qs.Perm qs')
    (hc : ∀ q ∈ qs, ∀ q' ∈ qs, q ≠ q' → l.card q.place = l.card q'.place → ¬ QueryData.Clash q.data q'.data) (st st' : CardId → Card Plain) :
    Client.answer cache l qs st = .ok st' ↔ Client.answer cache l qs' st = .ok st' := by
  rw [answer_iff, answer_iff]
  have : qs.foldl (tell l) st = qs'.foldl (tell l) st := by
    refine hp.foldl_eq' (fun a ha b hb z => ?_) st
    by_cases hab : a = b
    · rw [hab]
    simp only [tell]
    have h := hc a ha b hb hab
    revert h
    cases l.card a.place with
    | error x => intro _; cases l.card b.place <;> rfl
    | ok x =>
      cases l.card b.place with
      | error y => intro _; rfl
      | ok y =>
        intro h
        funext w
        by_cases e : x = y
        · subst e
          by_cases hw : w = x
          · simp only [hw, if_true, told_over, over_comm (h rfl)]
          · simp only [hw, if_false]
        · by_cases hx : w = x
          · subst hx
            simp only [if_true, if_neg e, if_neg (Ne.symm e)]
          · by_cases hy : w = y
            · subst hy
              simp only [if_true, if_neg e, if_neg (Ne.symm e), if_neg hx]
            · simp only [if_neg hx, if_neg hy]
  rw [this]
  simp only [hp.mem_iff]

/-- **C112.** After any queries a card has in each field the value that was given last, or the one it had. -/
theorem C112_last_value (cache : Bool) (l : Layout) (qs : List Query) (st st' : CardId → Card Plain) (h : Client.answer cache l qs st = .ok st') (x : CardId) :
    let about := qs.filter fun q => decide (l.card q.place = .ok x)
    (∀ f, (st' x).single f = ((lastSome (about.map fun q => q.data.single f)).map Plain.mk).getD ((st x).single f)) ∧
    (st' x).targets = ((lastSome (about.map fun q => q.data.targets)).map Plain.mk).getD (st x).targets ∧
    (st' x).counters = ((lastSome (about.map fun q => q.data.counters)).map Plain.mk).getD (st x).counters := by
  obtain ⟨hn, rfl⟩ := answer_iff.mp h
  clear h hn
  have last : ∀ {α : Type} (o : Option α) (os : List (Option α)), lastSome (o :: os) = (lastSome os).or o := by
    intro α o os
    simp only [lastSome, List.reverse_cons, List.findSome?_append]
    cases o <;> rfl
  have h : ∀ {α : Type} (x y : Option α) (z : Plain α), (y.map Plain.mk).getD ((x.map Plain.mk).getD z) = ((y.or x).map Plain.mk).getD z := by
    intro α x y z
    cases y <;> cases x <;> rfl
  induction qs generalizing st with
  | nil => exact ⟨fun _ => rfl, rfl, rfl⟩
  | cons q qs ih =>
    obtain ⟨i1, i2, i3⟩ := ih (st := tell l st q)
    simp only [List.foldl_cons]
    by_cases hq : l.card q.place = .ok x
    · have e : tell l st q x = (st x).told q.data := by simp only [tell, hq, if_true]
      simp only [List.filter_cons, hq, decide_true, if_true, List.map_cons, last, ← h]
      rw [e] at i1 i2 i3
      exact ⟨i1, i2, i3⟩
    · have e : tell l st q x = st x := by
        simp only [tell]
        cases hp : l.card q.place with
        | error y => rfl
        | ok y =>
          have : x ≠ y := fun e => hq (e ▸ hp)
          simp only [if_neg this]
      simp only [List.filter_cons, hq, decide_false, Bool.false_eq_true, if_false]
      rw [e] at i1 i2 i3
      exact ⟨i1, i2, i3⟩

/-- **C112.** Saying the same again changes nothing. -/
theorem C112_again (cache : Bool) (l : Layout) (qs : List Query) (st st' : CardId → Card Plain) :
    Client.answer cache l (qs ++ qs) st = .ok st' ↔ Client.answer cache l qs st = .ok st' := by
  have key : (qs ++ qs).foldl (tell l) st = qs.foldl (tell l) st ∨ ¬ ∀ q ∈ qs, ∃ x, l.card q.place = .ok x := by
    by_cases hc : ∀ q ∈ qs, ∃ x, l.card q.place = .ok x
    · refine .inl (funext fun x => ?_)
      have h1 := C112_last_value cache l qs st _ (answer_iff.mpr ⟨hc, rfl⟩) x
      have h2 := C112_last_value cache l (qs ++ qs) st _ (answer_iff.mpr ⟨fun q hq => hc q ((List.mem_append.mp hq).elim id id), rfl⟩) x
      have dup : ∀ {α : Type} (os : List (Option α)), lastSome (os ++ os) = lastSome os := by
        intro α os
        simp only [lastSome, List.reverse_append, List.findSome?_append, Option.or_self]
      simp only [List.filter_append, List.map_append, dup] at h1 h2
      obtain ⟨a1, a2, a3⟩ := h1
      obtain ⟨b1, b2, b3⟩ := h2
      have e1 := funext fun f => (b1 f).trans (a1 f).symm
      have e2 := b2.trans a2.symm
      have e3 := b3.trans a3.symm
      revert e1 e2 e3
      cases (qs ++ qs).foldl (tell l) st x
      cases qs.foldl (tell l) st x
      rintro ⟨⟩ ⟨⟩ ⟨⟩
      rfl
    · exact .inr hc
  rw [answer_iff, answer_iff]
  rcases key with e | hn
  · rw [e]
    simp only [List.mem_append, or_self]
  · constructor
    · exact fun h => absurd (fun q hq => h.1 q (List.mem_append_left _ hq)) hn
    · exact fun h => absurd h.1 hn

/-! ## Not vacuous -/

/-- A table with two cards in hand. -/
def pair : Layout := Layout.empty.setPile ⟨0, .hand⟩ [4, 6]

def hears (i : Nat) (f : QField) (v : f.Val) : Query := ⟨⟨0, Loc.hand, i, -1⟩, QueryData.empty.setSingle f v⟩

def heard (qs : List Query) : Option (List (Nat × Int)) :=
  (Client.answer true pair qs fun _ => BasicContext.newCard).toOption.map fun st => [4, 6].map fun x => (((st x).single .code).val, ((st x).single .atk).val)

/-- In another order, and with the same field given twice, where the order does matter. -/
example : heard [hears 0 .code (5 : Nat), hears 1 .code (8 : Nat), hears 0 .atk (-1 : Int)] = some [(5, -1), (8, 0)] ∧
    heard [hears 0 .atk (-1 : Int), hears 1 .code (8 : Nat), hears 0 .code (5 : Nat)] = some [(5, -1), (8, 0)] ∧
    heard [hears 0 .code (5 : Nat), hears 0 .code (8 : Nat)] = some [(8, 0), (0, 0)] ∧
    heard [hears 0 .code (8 : Nat), hears 0 .code (5 : Nat)] = some [(5, 0), (0, 0)] := by decide +kernel

example : ¬ QueryData.Clash (hears 0 .code (5 : Nat)).data (hears 0 .atk (-1 : Int)).data := by
  rintro (⟨f, h1, h2⟩ | h | h)
  · cases f <;> first | exact h1 rfl | exact h2 rfl
  · exact h.1 rfl
  · exact h.1 rfl

end Ygo.Props
