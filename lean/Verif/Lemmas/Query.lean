import Verif.Model.Query
import Verif.Spec.Query
import Verif.Props.Place
import Verif.Lemmas.History

/-!
# Lemmas about queries
-/

set_option linter.unusedSimpArgs false

namespace Ygo
open Ygo.Spec

theorem QField.mem_all (f : QField) : f ∈ QField.all := by cases f <;> decide
theorem QField.nodup_all : QField.all.Nodup := by decide
theorem QField.flag_bit (f : QField) : f.flag = 2 ^ flagBit f := by cases f <;> decide

theorem QField.same_iff (f : QField) (x y : f.Val) : f.same x y = true ↔ x = y := by
  cases f
  case equippedTo =>
    show Place.eqv x y = true ↔ x = y
    rw [Ygo.Props.C04_eq_is_field_equality]
    cases x; cases y; simp
  all_goals exact decide_eq_true_iff

theorem or_flag_testBit (h : Nat) (f : QField) (k : Nat) : (h ||| f.flag).testBit k = true ↔ h.testBit k = true ∨ flagBit f = k := by
  rw [Nat.testBit_or, QField.flag_bit, Nat.testBit_two_pow]
  simp

namespace Card
variable {V : Type → Type} [Cell V]

omit [Cell V] in
theorem setSingle_self (c : Card V) (f : QField) (v : V f.Val) : (c.setSingle f v).single f = v := by simp [setSingle]
omit [Cell V] in
theorem setSingle_other (c : Card V) {f g : QField} (v : V f.Val) (h : g ≠ f) : (c.setSingle f v).single g = c.single g := by
  simp [setSingle, h]

/-- The field is present and already equal, with the cache on. -/
def Hit (useCache : Bool) (d : QueryData) (c : Card V) (f : QField) : Prop :=
  useCache = true ∧ ∃ v, d.single f = some v ∧ Cell.get (c.single f) = .ok v

/-- What happens to one member. -/
def Upd (useCache : Bool) (d : QueryData) (c c' : Card V) (f : QField) : Prop :=
  (d.single f = none ∧ c'.single f = c.single f) ∨
  (Hit useCache d c f ∧ c'.single f = c.single f) ∨
  (¬ Hit useCache d c f ∧ ∃ v, d.single f = some v ∧ c'.single f = Cell.set (c.single f) v)

theorem parseSingle_spec {useCache : Bool} {d : QueryData} {f : QField} {hits hits' : Nat} {c c' : Card V}
    (h : c.parseSingle useCache d f hits = .ok (hits', c')) :
    Upd useCache d c c' f ∧ (∀ g, g ≠ f → c'.single g = c.single g) ∧ c'.targets = c.targets ∧ c'.counters = c.counters ∧
      ∀ k, hits'.testBit k = true ↔ hits.testBit k = true ∨ (flagBit f = k ∧ Hit useCache d c f) := by
  unfold parseSingle at h
  cases hd : d.single f with
  | none =>
    simp [hd] at h
    obtain ⟨rfl, rfl⟩ := h
    refine ⟨.inl ⟨hd, rfl⟩, fun _ _ => rfl, rfl, rfl, fun k => ?_⟩
    simp [Hit, hd]
  | some qv =>
    simp only [hd] at h
    cases useCache with
    | false =>
      simp at h
      obtain ⟨rfl, rfl⟩ := h
      refine ⟨.inr (.inr ⟨by simp [Hit], qv, hd, setSingle_self ..⟩), fun g hg => setSingle_other _ _ hg, rfl, rfl, fun k => ?_⟩
      simp [Hit]
    | true =>
      simp only [if_true, bind_eq_ok] at h
      obtain ⟨cur, hc, h⟩ := h
      by_cases hs : f.same cur qv = true
      · simp [hs] at h
        obtain ⟨rfl, rfl⟩ := h
        have hs := (QField.same_iff ..).mp hs
        subst hs
        have hh : Hit true d c f := ⟨rfl, cur, hd, hc⟩
        refine ⟨.inr (.inl ⟨hh, rfl⟩), fun _ _ => rfl, rfl, rfl, fun k => ?_⟩
        rw [or_flag_testBit]; simp [hh]
      · simp [hs] at h
        obtain ⟨rfl, rfl⟩ := h
        have hh : ¬ Hit true d c f := by
          rintro ⟨_, v, h1, h2⟩
          rw [hd] at h1; cases h1
          rw [hc] at h2; cases h2
          exact hs ((QField.same_iff ..).mpr rfl)
        refine ⟨.inr (.inr ⟨hh, qv, hd, setSingle_self ..⟩), fun g hg => setSingle_other _ _ hg, rfl, rfl, fun k => ?_⟩
        simp [hh]

theorem Hit.congr {useCache : Bool} {d : QueryData} {c c' : Card V} {f : QField} (h : c'.single f = c.single f) :
    Hit useCache d c' f ↔ Hit useCache d c f := by simp [Hit, h]

theorem parseSingles_spec {useCache : Bool} {d : QueryData} {fs : List QField} {hits hits' : Nat} {c c' : Card V} (hn : fs.Nodup)
    (h : parseSingles useCache d fs hits c = .ok (hits', c')) :
    (∀ f ∈ fs, Upd useCache d c c' f) ∧ (∀ g, g ∉ fs → c'.single g = c.single g) ∧ c'.targets = c.targets ∧ c'.counters = c.counters ∧
      ∀ k, hits'.testBit k = true ↔ hits.testBit k = true ∨ ∃ f ∈ fs, flagBit f = k ∧ Hit useCache d c f := by
  induction fs generalizing hits c with
  | nil =>
    simp [parseSingles] at h
    obtain ⟨rfl, rfl⟩ := h
    simp
  | cons f fs ih =>
    simp only [parseSingles, bind_eq_ok] at h
    obtain ⟨⟨h1, c1⟩, hs, h⟩ := h
    rw [List.nodup_cons] at hn
    obtain ⟨a1, a2, a3, a4, a5⟩ := parseSingle_spec hs
    obtain ⟨b1, b2, b3, b4, b5⟩ := ih hn.2 h
    refine ⟨?_, ?_, b3.trans a3, b4.trans a4, ?_⟩
    · intro g hg
      rcases List.mem_cons.mp hg with rfl | hg'
      · have := b2 g hn.1
        simpa only [Upd, this] using a1
      · have hne : g ≠ f := by rintro rfl; exact hn.1 hg'
        have := b1 g hg'
        simp only [Upd, a2 g hne, Hit.congr (a2 g hne)] at this
        exact this
    · intro g hg
      simp only [List.mem_cons, not_or] at hg
      rw [b2 g hg.2, a2 g hg.1]
    · intro k
      rw [b5, a5]
      constructor
      · rintro ((h | h) | ⟨g, hg, hk, hh⟩)
        · exact .inl h
        · exact .inr ⟨f, List.mem_cons_self .., h⟩
        · have hne : g ≠ f := by rintro rfl; exact hn.1 hg
          exact .inr ⟨g, List.mem_cons_of_mem _ hg, hk, (Hit.congr (a2 g hne)).mp hh⟩
      · rintro (h | ⟨g, hg, hk, hh⟩)
        · exact .inl (.inl h)
        · rcases List.mem_cons.mp hg with rfl | hg'
          · exact .inl (.inr ⟨hk, hh⟩)
          · have hne : g ≠ f := by rintro rfl; exact hn.1 hg'
            exact .inr ⟨g, hg', hk, (Hit.congr (a2 g hne)).mpr hh⟩

/-- What `parseData` does to a card. -/
theorem parseData_spec {useCache : Bool} {d : QueryData} {hits : Nat} {c c' : Card V} (h : c.parseData useCache d = .ok (hits, c')) :
    (∀ f, Upd useCache d c c' f) ∧
      c'.targets = (match d.targets with | none => c.targets | some x => Cell.set c.targets x) ∧
      c'.counters = (match d.counters with | none => c.counters | some x => Cell.set c.counters x) ∧
      ∀ k, hits.testBit k = true ↔ ∃ f, flagBit f = k ∧ Hit useCache d c f := by
  simp only [parseData, bind_eq_ok, pure_eq_ok, Except.ok.injEq, Prod.mk.injEq] at h
  obtain ⟨⟨h1, c1⟩, hs, rfl, rfl⟩ := h
  obtain ⟨a1, a2, a3, a4, a5⟩ := parseSingles_spec QField.nodup_all hs
  refine ⟨?_, ?_, ?_, ?_⟩
  · intro f
    have := a1 f f.mem_all
    cases d.counters <;> cases d.targets <;> exact this
  · cases d.counters <;> cases d.targets <;> simp [a3]
  · cases d.counters <;> cases d.targets <;> simp [a4]
  · intro k
    rw [a5]
    simp [QField.mem_all]

theorem parseSingles_returns {useCache : Bool} {d : QueryData} {fs : List QField} {hits : Nat} {c : Card V} (hn : fs.Nodup)
    (hg : ∀ f ∈ fs, ∃ v, Cell.get (c.single f) = .ok v) : ∃ r, parseSingles useCache d fs hits c = .ok r := by
  induction fs generalizing hits c with
  | nil => exact ⟨_, rfl⟩
  | cons f fs ih =>
    have h1 : ∃ r, c.parseSingle useCache d f hits = .ok r := by
      unfold parseSingle
      obtain ⟨v, hv⟩ := hg f (List.mem_cons_self ..)
      cases d.single f with
      | none => exact ⟨_, rfl⟩
      | some qv =>
        cases useCache
        · exact ⟨_, rfl⟩
        · simp only [if_true, hv, bind_ok]
          by_cases hs : f.same v qv = true <;> simp [hs]
    obtain ⟨⟨h', c1⟩, h1⟩ := h1
    rw [List.nodup_cons] at hn
    obtain ⟨r, h2⟩ := ih (hits := h') (c := c1) hn.2 (by
      intro g hg'
      have hne : g ≠ f := by rintro rfl; exact hn.1 hg'
      rw [(parseSingle_spec h1).2.1 g hne]
      exact hg g (List.mem_cons_of_mem _ hg'))
    exact ⟨r, by simp [parseSingles, h1, h2]⟩

theorem parseData_returns {useCache : Bool} {d : QueryData} {c : Card V} (hg : ∀ f, ∃ v, Cell.get (c.single f) = .ok v) :
    ∃ r, c.parseData useCache d = .ok r := by
  obtain ⟨⟨h, c1⟩, h1⟩ := parseSingles_returns (useCache := useCache) (d := d) (hits := 0) QField.nodup_all (fun f _ => hg f)
  unfold parseData
  rw [h1]
  exact ⟨_, rfl⟩

end Card
end Ygo
