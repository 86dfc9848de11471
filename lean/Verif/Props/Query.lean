import Verif.Lemmas.Query
import Verif.Props.Frame

/-!
# Queries (C30, C31)
-/

set_option linter.unusedSimpArgs false

namespace Ygo.Props
open Ygo Ygo.Spec

/-! ## C30 -/

/-- **C30.** When a query is parsed there is a card at its place; that card gets exactly the given values, keeps its other members, and
all other cards keep everything. -/
theorem C30_parse_query (cache : Bool) (l : Layout) (store store' : CardId → Card Plain) (q : Query) (hits : Nat)
    (h : parseQuery cache l store q = .ok (hits, store')) :
    ∃ c, l.card q.place = .ok c ∧ Answered Cell.get q.data (store c) (store' c) ∧ ∀ c', c' ≠ c → store' c' = store c' := by
  simp only [parseQuery, bind_eq_ok, pure_eq_ok, Except.ok.injEq, Prod.mk.injEq] at h
  obtain ⟨_, _, _, _, c, hc, ⟨hits', card⟩, hp, rfl, rfl⟩ := h
  obtain ⟨h1, h2, h3, _⟩ := Card.parseData_spec hp
  refine ⟨c, hc, ?_, fun c' hn => by simp [hn]⟩
  simp only [if_true]
  constructor
  · intro f v hv
    rcases h1 f with ⟨hn, _⟩ | ⟨⟨_, w, hw, hg⟩, hk⟩ | ⟨_, w, hw, hs⟩
    · rw [hn] at hv; cases hv
    · rw [hv] at hw; cases hw
      rw [hk]; exact hg
    · rw [hv] at hw; cases hw
      rw [hs]; rfl
  · intro f hn
    rcases h1 f with ⟨_, hk⟩ | ⟨_, hk⟩ | ⟨_, w, hw, _⟩
    · exact hk
    · exact hk
    · rw [hn] at hw; cases hw
  · intro v hv; rw [h2, hv]; rfl
  · intro hv; rw [h2, hv]
  · intro v hv; rw [h3, hv]; rfl
  · intro hv; rw [h3, hv]

/-- **C30.** A query for a place that holds a card always parses. -/
theorem C30_returns (cache : Bool) (l : Layout) (store : CardId → Card Plain) (q : Query) (C : Container) (i : Nat)
    (ha : At q.place C i) (hi : i < (view l C).length) : ∃ r, parseQuery cache l store q = .ok r := by
  have hh := Layout.hasCard_true ha hi
  have hc : l.card q.place = .ok (view l C)[i] := Layout.card_eq_ok.mpr ⟨C, i, ha, by simp [hi]⟩
  obtain ⟨⟨hits, c⟩, hp⟩ := Card.parseData_returns (useCache := cache) (d := q.data) (c := store (view l C)[i]) fun f => ⟨_, rfl⟩
  exact ⟨_, by simp [parseQuery, hh, hc, hp, massert]; rfl⟩

/-- **C30.** A query for a well-formed place without a card stops at the assertion. -/
theorem C30_no_card (cache : Bool) (l : Layout) (store : CardId → Card Plain) (q : Query) (C : Container) (i : Nat)
    (ha : At q.place C i) (hi : (view l C).length ≤ i) : parseQuery cache l store q = .error .assert := by
  have : ¬ i < (view l C).length := by omega
  simp [parseQuery, Layout.hasCard_at ha, massert, this]

/-- **C30.** The same on undoable cards whose members are at the end of their histories. -/
theorem C30_undoable (cache : Bool) (d : QueryData) (c : Card Undoable) (hl : ∀ f, LiveCell (c.single f)) (ht : LiveCell c.targets)
    (hc : LiveCell c.counters) :
    ∃ hits c', c.parseData cache d = .ok (hits, c') ∧ Answered Cell.get d c c' ∧ (∀ f, LiveCell (c'.single f)) ∧ LiveCell c'.targets ∧
      LiveCell c'.counters := by
  have live_set : ∀ {α : Type} {u : Undoable α} (a : α), LiveCell u → LiveCell (Cell.set u a) := by
    intro α u a h
    unfold LiveCell at h
    simp [Cell.set, Undoable.set, LiveCell, h]
  have hget : ∀ f, ∃ v, Cell.get (c.single f) = .ok v := by
    intro f
    have := hl f
    unfold LiveCell at this
    exact ⟨_, by simp [Cell.get, Undoable.get, orUb]; rw [List.getElem?_eq_getElem (by omega)]⟩
  obtain ⟨⟨hits, c'⟩, hp⟩ := Card.parseData_returns (useCache := cache) (d := d) hget
  obtain ⟨h1, h2, h3, _⟩ := Card.parseData_spec hp
  refine ⟨hits, c', hp, ?_, ?_, ?_, ?_⟩
  · constructor
    · intro f v hv
      rcases h1 f with ⟨hn, _⟩ | ⟨⟨_, w, hw, hg⟩, hk⟩ | ⟨_, w, hw, hs⟩
      · rw [hn] at hv; cases hv
      · rw [hv] at hw; cases hw
        rw [hk]; exact hg
      · rw [hv] at hw; cases hw
        rw [hs]; exact cell_get_set (hl f)
    · intro f hn
      rcases h1 f with ⟨_, hk⟩ | ⟨_, hk⟩ | ⟨_, w, hw, _⟩
      · exact hk
      · exact hk
      · rw [hn] at hw; cases hw
    · intro v hv; rw [h2, hv]; exact cell_get_set ht
    · intro hv; rw [h2, hv]
    · intro v hv; rw [h3, hv]; exact cell_get_set hc
    · intro hv; rw [h3, hv]
  · intro f
    rcases h1 f with ⟨_, hk⟩ | ⟨_, hk⟩ | ⟨_, w, hw, hs⟩
    · rw [hk]; exact hl f
    · rw [hk]; exact hl f
    · rw [hs]; exact live_set w (hl f)
  · rw [h2]; cases d.targets with
    | none => exact ht
    | some x => exact live_set x ht
  · rw [h3]; cases d.counters with
    | none => exact hc
    | some x => exact live_set x hc

/-! ## C31 -/

/-- **C31.** With the cache, the reported bits are exactly those of the given single-valued fields that were already equal. -/
theorem C31_hits (l : Layout) (store store' : CardId → Card Plain) (q : Query) (hits : Nat)
    (h : parseQuery true l store q = .ok (hits, store')) (c : CardId) (hc : l.card q.place = .ok c) (k : Nat) :
    hits.testBit k = true ↔ ∃ f, flagBit f = k ∧ q.data.single f = some ((store c).single f).val := by
  simp only [parseQuery, bind_eq_ok, pure_eq_ok, Except.ok.injEq, Prod.mk.injEq] at h
  obtain ⟨_, _, _, _, c', hc', ⟨hits', card⟩, hp, rfl, rfl⟩ := h
  rw [hc'] at hc; cases hc
  rw [(Card.parseData_spec hp).2.2.2]
  constructor
  · rintro ⟨f, hk, _, v, hv, hg⟩
    cases hg
    exact ⟨f, hk, hv⟩
  · rintro ⟨f, hk, hv⟩
    exact ⟨f, hk, rfl, _, hv, rfl⟩

/-- **C31.** Different fields have different bits, so the report tells which fields were hit. -/
theorem C31_bits_differ (f g : QField) (h : flagBit f = flagBit g) : f = g := by
  revert h
  cases f <;> cases g <;> decide

/-- **C31.** Without the cache nothing is reported. -/
theorem C31_no_cache_no_hits (l : Layout) (store store' : CardId → Card Plain) (q : Query) (hits : Nat)
    (h : parseQuery false l store q = .ok (hits, store')) : hits = 0 := by
  simp only [parseQuery, bind_eq_ok, pure_eq_ok, Except.ok.injEq, Prod.mk.injEq] at h
  obtain ⟨_, _, _, _, c', hc', ⟨hits', card⟩, hp, rfl, rfl⟩ := h
  apply Nat.eq_of_testBit_eq
  intro k
  have := (Card.parseData_spec hp).2.2.2 k
  rw [Nat.zero_testBit, ← Bool.not_eq_true, this]
  rintro ⟨f, _, hh, _⟩
  cases hh

/-- **C31.** The cache does not change the resulting cards. -/
theorem C31_cache_harmless (l : Layout) (store s1 s2 : CardId → Card Plain) (q : Query) (h1 h2 : Nat)
    (e1 : parseQuery true l store q = .ok (h1, s1)) (e2 : parseQuery false l store q = .ok (h2, s2)) : s1 = s2 := by
  obtain ⟨c, hc, a1, k1⟩ := C30_parse_query true l store s1 q h1 e1
  obtain ⟨c', hc', a2, k2⟩ := C30_parse_query false l store s2 q h2 e2
  rw [hc] at hc'; cases hc'
  funext x
  by_cases hx : x = c
  · subst hx
    have ext : ∀ {α : Type} {a b : Plain α} {v : α}, Cell.get a = .ok v → Cell.get b = .ok v → a = b := by
      intro α a b v ha hb
      cases a; cases b; cases ha; cases hb; rfl
    have hs : (s1 x).single = (s2 x).single := by
      funext f
      cases hf : q.data.single f with
      | none => rw [a1.kept f hf, a2.kept f hf]
      | some v => exact ext (a1.given f v hf) (a2.given f v hf)
    have ht : (s1 x).targets = (s2 x).targets := by
      cases hf : q.data.targets with
      | none => rw [a1.targetsKept hf, a2.targetsKept hf]
      | some v => exact ext (a1.targetsGiven v hf) (a2.targetsGiven v hf)
    have hk : (s1 x).counters = (s2 x).counters := by
      cases hf : q.data.counters with
      | none => rw [a1.countersKept hf, a2.countersKept hf]
      | some v => exact ext (a1.countersGiven v hf) (a2.countersGiven v hf)
    cases h1 : s1 x; cases h2 : s2 x
    simp only [h1, h2] at hs ht hk
    simp [hs, ht, hk]
  · rw [k1 x hx, k2 x hx]

/-- **C31.** Repeating a query hits every given single-valued field, and nothing else. -/
theorem C31_repeat_hits_all (cache : Bool) (l : Layout) (store s1 s2 : CardId → Card Plain) (q : Query) (h1 h2 : Nat)
    (e1 : parseQuery cache l store q = .ok (h1, s1)) (e2 : parseQuery true l s1 q = .ok (h2, s2)) (k : Nat) :
    h2.testBit k = true ↔ ∃ f, flagBit f = k ∧ (q.data.single f).isSome = true := by
  obtain ⟨c, hc, a1, _⟩ := C30_parse_query cache l store s1 q h1 e1
  rw [C31_hits l s1 s2 q h2 e2 c hc]
  constructor
  · rintro ⟨f, hk, hv⟩; exact ⟨f, hk, by simp [hv]⟩
  · rintro ⟨f, hk, hv⟩
    obtain ⟨v, hv⟩ := Option.isSome_iff_exists.mp hv
    refine ⟨f, hk, ?_⟩
    have := a1.given f v hv
    cases hx : (s1 c).single f
    rw [hx] at this
    cases this
    simp [hv]

/-- A new card (card.hpp:53). -/
def newCard : Card Plain := ⟨fun f => ⟨f.zero⟩, ⟨[]⟩, ⟨[]⟩⟩

/-- A query with an attack value, a level that is already right and targets, for the monster of the demo board. -/
def demoQuery : Query where
  place := mz0 0
  data := {
    single := fun f => match f with
      | .atk => some (2500 : Int)
      | .level => some (0 : Int)
      | _ => none
    targets := some [mz0 1]
    counters := none }

example : (demo.bind fun f => (parseQuery true f.layout (fun _ => newCard) demoQuery).bind fun r =>
    (parseQuery true f.layout r.2 demoQuery).bind fun r2 => (f.layout.card (mz0 0)).map fun c =>
      (r.1, r2.1, ((r2.2 c).single .atk).val, ((r2.2 c).single .code).val, (r2.2 c).targets.val)) =
    .ok (0x10, 0x110, (2500 : Int), 0, [mz0 1]) := by decide

end Ygo.Props
