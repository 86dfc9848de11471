import Verif.Spec.Hostile
import Verif.Lemmas.FrameSafe
import Verif.Props.FrameSafe
import Verif.Props.Move

set_option linter.unusedSimpArgs false

/-!
# Undefined accesses
-/

namespace Ygo
open Ygo.Spec Ygo.Props

theorem conIdx_ub {c : Int} : conIdx c = .error .ub ↔ ¬ (c = 0 ∨ c = 1) := by
  unfold conIdx; repeat' split
  all_goals simp_all

theorem noRow_iff {loc : Nat} : NoRow loc ↔ loc ≠ 4 ∧ loc ≠ 8 ∧ loc ≠ 0x100 ∧ loc ≠ 0x200 ∧ loc ≠ 0x400 := by
  simp [NoRow, zoneLocs, forall_and]

theorem zoneLocs_iff {loc n : Nat} : (loc, n) ∈ zoneLocs ↔ zoneSeqLim loc = .ok n := by
  simp only [zoneLocs, zoneSeqLim, List.mem_cons, List.not_mem_nil, Prod.mk.injEq, or_false]
  repeat' split
  all_goals simp_all [eq_comm]

theorem noRow_lim {loc : Nat} : NoRow loc ↔ zoneSeqLim loc = .error .ub := by
  simp only [noRow_iff, zoneSeqLim]
  repeat' split
  all_goals simp_all

theorem zoneSeqLim_cases (loc : Nat) : (∃ n, zoneSeqLim loc = .ok n) ∨ NoRow loc := by
  rw [noRow_lim]; simp only [zoneSeqLim]
  repeat' split
  all_goals simp

theorem locIsZone_row {loc n : Nat} (h : (loc, n) ∈ zoneLocs) : locIsZone loc = true ∧ locIsPile loc = false ∧ locIsEmpty loc = false := by
  simp only [zoneLocs, List.mem_cons, List.not_mem_nil, Prod.mk.injEq, or_false] at h
  rcases h with ⟨rfl, _⟩ | ⟨rfl, _⟩ | ⟨rfl, _⟩ | ⟨rfl, _⟩ | ⟨rfl, _⟩ <;> decide

theorem zoneKey_ub {c : Int} {loc s : Nat} : Ygo.zoneKey c loc s = .error .ub ↔
    c ≤ 1 ∧ (NoRow loc ∨ ((∃ n, (loc, n) ∈ zoneLocs ∧ s < n) ∧ c < 0)) := by
  by_cases hc : c ≤ 1
  · simp only [hc, true_and]
    rcases zoneSeqLim_cases loc with ⟨n, hn⟩ | hr
    · have hno : ¬ NoRow loc := fun h => h n (zoneLocs_iff.mpr hn)
      have hz := (locIsZone_row (zoneLocs_iff.mpr hn)).1
      have hex : (∃ n, (loc, n) ∈ zoneLocs ∧ s < n) ↔ s < n := by
        constructor
        · rintro ⟨m, hm, h⟩
          have := zoneLocs_iff.mp hm; rw [hn] at this; cases this; exact h
        · intro h; exact ⟨n, zoneLocs_iff.mpr hn, h⟩
      simp only [hno, false_or, hex]
      by_cases hs : s < n
      · simp only [hs, true_and]
        by_cases h0 : c < 0
        · simp only [h0, iff_true]
          have hci : conIdx c = .error .ub := conIdx_ub.mpr (by omega)
          simp only [Ygo.zoneKey, massert_true hc, bind_ok, hn, massert_true hs, massert_true hz, zoneAt, hci, bind_error]
          repeat' split
          all_goals rfl
        · simp only [h0, iff_false]
          have : WellFormed ⟨c, loc, s, -1⟩ := .zone c loc n s (-1) (by omega) (zoneLocs_iff.mpr hn) hs
          have hk := Layout.zoneKey_noUb (wellFormed_iff_at.mp this) (locIsZone_row (zoneLocs_iff.mpr hn)).2.1
          exact hk
      · simp [hs, Ygo.zoneKey, hc, hn, massert]
    · have := noRow_lim.mp hr
      simp [Ygo.zoneKey, hc, this, massert, hr]
  · simp [hc, Ygo.zoneKey, massert]

theorem pileKey_ub {p : Place} (hp : p.isPile = true) : p.pileKey = .error .ub ↔ p.con ≤ 1 ∧ ¬ WellFormed p := by
  constructor
  · intro h
    refine ⟨?_, ?_⟩
    · refine Classical.byContradiction fun hc => ?_
      simp [Place.pileKey, Ygo.pileKey, massert, hc] at h
    · intro hw
      exact Layout.pileKey_noUb (wellFormed_iff_at.mp hw) hp h
  · rintro ⟨hc, hw⟩
    have hp' : locIsPile p.loc = true := hp
    have hl : ∀ l ∈ pileLocs, p.loc = l → conIdx p.con = .error .ub := by
      intro l hl e
      refine conIdx_ub.mpr fun h => hw ?_
      have := WellFormed.pile p.con p.loc p.seq p.oseq h (e ▸ hl)
      exact this
    simp only [Place.pileKey, Ygo.pileKey, massert_true hc, massert_true hp', bind_ok]
    repeat' split
    · rw [hl 0x1 (by decide) (by assumption)]; rfl
    · rw [hl 0x2 (by decide) (by assumption)]; rfl
    · rw [hl 0x10 (by decide) (by assumption)]; rfl
    · rw [hl 0x20 (by decide) (by assumption)]; rfl
    · rw [hl 0x40 (by decide) (by assumption)]; rfl
    · rfl

theorem onField_iff (p : Place) : p.isZone = true ↔ OnField p.loc := (C05_classification_bits p.loc).2

namespace Layout

theorem hasCard_ub {l : Layout} {p : Place} : l.hasCard p = .error .ub ↔ LookBad p := by
  by_cases he : p.isEmpty = true
  · have h0 : p.loc = 0 := by simpa [Place.isEmpty, locIsEmpty] using he
    simp [hasCard, he, massert, LookBad, InPile, OnField, h0]
  · have he' : p.isEmpty = false := by simpa using he
    by_cases hp : p.isPile = true
    · have := (pileLoc_iff p).mp hp
      simp [hasCard, he', massert, hp, LookBad, this, pileKey_ub hp]
    · have hp' : p.isPile = false := by simpa using hp
      have hnp := (pileLoc_false_iff p).mp hp'
      simp only [LookBad, hnp, not_false_eq_true, false_and, true_and, false_or, ← onField_iff]
      by_cases hz : p.isZone = true
      · simp only [hasCard, massert_true he', bind_ok, hp', massert_true hz, hz, true_and]
        rcases zoneSeqLim_cases p.loc with ⟨n, hn⟩ | hr
        · have hno : ¬ NoRow p.loc := fun h => h n (zoneLocs_iff.mpr hn)
          simp only [hn, bind_ok, hno, false_or]
          have hex : (∃ n, (p.loc, n) ∈ zoneLocs ∧ p.seq < n) ↔ p.seq < n := by
            constructor
            · rintro ⟨m, hm, h⟩
              have := zoneLocs_iff.mp hm; rw [hn] at this; cases this; exact h
            · intro h; exact ⟨n, zoneLocs_iff.mpr hn, h⟩
          simp only [BeforeFirst, hex]
          by_cases hs : p.seq < n
          · simp only [massert_true hs, bind_ok, hs, true_and]
            have hk : p.zoneKey = .error .ub ↔ p.con < 0 := by
              simp only [Place.zoneKey, zoneKey_ub, hno, false_or, hex, hs, true_and]; omega
            rw [← hk]
            cases p.zoneKey with
            | ok k => simp; split <;> simp
            | error e => simp
          · simp [hs, massert]
        · simp [hr, noRow_lim.mp hr]
      · simp [hasCard, he', hp', hz, massert]

/-- How a place that cannot be used fails. -/
theorem key_ub {p : Place} : PutBad p ↔ (p.isPile = true ∧ p.pileKey = .error .ub) ∨ (p.isPile = false ∧ p.zoneKey = .error .ub) := by
  by_cases hp : p.isPile = true
  · have := (pileLoc_iff p).mp hp
    simp [PutBad, hp, this, pileKey_ub hp]
  · have hp' : p.isPile = false := by simpa using hp
    have hnp := (pileLoc_false_iff p).mp hp'
    simp [PutBad, hp', hnp, Place.zoneKey, zoneKey_ub, BeforeFirst]

theorem putBad_pile {p : Place} (hp : p.isPile = true) : PutBad p ↔ p.pileKey = .error .ub := by simp [key_ub, hp]
theorem putBad_zone {p : Place} (hp : p.isPile = false) : PutBad p ↔ p.zoneKey = .error .ub := by simp [key_ub, hp]

theorem putBad_not_at {p : Place} {C : Container} {i : Nat} (h : At p C i) : ¬ PutBad p := by
  rw [key_ub]
  cases h <;> simp

theorem hasCard_occupied {l : Layout} {p : Place} : l.hasCard p = .ok true ↔ Occupied (view l) p := by
  rw [hasCard_eq_ok]; simp [Occupied]

theorem cardInsert_ub {l : Layout} {p : Place} {c : CardId} : l.cardInsert p c = .error .ub ↔ PutBad p := by
  by_cases hp : p.isPile = true
  · rw [putBad_pile hp]
    simp only [cardInsert, hp, if_true]
    cases p.pileKey with
    | error e => simp
    | ok k => simp [insertAt]
  · have hp' : p.isPile = false := by simpa using hp
    rw [putBad_zone hp']
    simp only [cardInsert, hp', Bool.false_eq_true, if_false]
    cases p.zoneKey with
    | error e => simp
    | ok k => simp only [bind_ok]; split <;> simp [insertAt]

theorem cardMove_ub {l : Layout} {a b : Place} : l.cardMove a b = .error .ub ↔ LookBad a ∨
    (Occupied (view l) a ∧ (a.isPile = true → a.oseq < 0) ∧ (b.isPile = true → b.oseq < 0) ∧ PutBad b) := by
  rw [← hasCard_ub (l := l)]
  cases hh : l.hasCard a with
  | error e => 
    have : ¬ Occupied (view l) a := by rw [← hasCard_occupied, hh]; simp
    simp [cardMove, hh, this]
  | ok t =>
    cases t with
    | false =>
      have : ¬ Occupied (view l) a := by rw [← hasCard_occupied, hh]; simp
      simp [cardMove, hh, this, massert]
    | true =>
      have ho : Occupied (view l) a := hasCard_occupied.mp hh
      simp only [ho, true_and, reduceCtorEq, false_or]
      by_cases hpa : a.isPile = true → a.oseq < 0
      · by_cases hpb : b.isPile = true → b.oseq < 0
        · obtain ⟨C, i, ha, hi⟩ := ho
          refine Iff.trans ?_ (show PutBad b ↔ _ from ⟨fun h => ⟨hpa, hpb, h⟩, fun h => h.2.2⟩)
          by_cases hw : WellFormed b
          · have h1 : NoUb (l.cardMove a b) := cardMove_noUb (wellFormed_iff_at.mpr ⟨C, i, ha⟩) hw
            obtain ⟨D, j, hb⟩ := wellFormed_iff_at.mp hw
            have := putBad_not_at hb
            simp only [this, iff_false]
            exact h1
          · have bad : ∀ k : PileKey, b.isPile = true → b.pileKey ≠ .ok k := by
              intro k _ hk
              obtain ⟨h1, h2⟩ := pileKey_eq_ok.mp hk
              apply hw
              rw [wellFormed_iff_at]
              exact ⟨_, _, by have := At.pile k b.seq b.oseq; rw [← h1, ← h2] at this; exact this⟩
            have bad' : ∀ k : ZoneKey, b.zoneKey ≠ .ok k := by
              intro k hk
              apply hw
              rw [wellFormed_iff_at]
              exact at_exists_zone hk
            simp only [cardMove, hh, bind_ok, massert_true rfl, massert_true hpa, massert_true hpb]
            have hc := getElem?_some_of_lt hi
            obtain ⟨c, hc⟩ := hc
            by_cases hp : b.isPile = true
            · rw [putBad_pile hp]
              cases hk : b.pileKey with
              | ok k => exact absurd hk (bad k hp)
              | error e =>
                cases ha with
                | pile k1 s1 o1 =>
                  simp [hp]
                | slot k1 o1 h1 =>
                  simp [hp, h1]
                | mats k1 m =>
                  have hm : ¬ ((i : Int) < 0) := by omega
                  have : i < (l.zone k1).materials.length := hi
                  simp [hp, hm, takeAt, this, massert, orUb]
            · have hp' : b.isPile = false := by simpa using hp
              rw [putBad_zone hp']
              cases hk : b.zoneKey with
              | ok k => exact absurd hk (bad' k)
              | error e =>
                cases ha with
                | pile k1 s1 o1 =>
                  have : i < (l.pile k1).length := hi
                  simp [hp', takeAt, this, massert, orUb]
                | slot k1 o1 h1 => simp [hp', h1]
                | mats k1 m => simp [hp']
        · refine iff_of_false ?_ (fun h => hpb h.2.1)
          simp [cardMove, hh, massert_true hpa, massert_false hpb, massert_true (p := true = true) rfl]
      · refine iff_of_false ?_ (fun h => hpa h.1)
        simp [cardMove, hh, massert_false hpa, massert_true (p := true = true) rfl]

theorem shuffleSeqs_ub {l : Layout} {n : Nat} {ps : List Place} : l.shuffleSeqs n ps = .error .ub ↔
    ∃ m, m < n ∧ (∀ p ∈ ps.take m, Occupied (view l) p) ∧ ∀ (p : Place), ps[m]? = some p → LookBad p := by
  induction n generalizing ps with
  | zero => simp [shuffleSeqs]
  | succ n ih =>
    cases ps with
    | nil =>
      simp only [shuffleSeqs, ub_eq, true_iff]
      exact ⟨0, by omega, by simp, by simp⟩
    | cons p ps =>
      have zero : LookBad p → ∃ m, m < n + 1 ∧ (∀ q ∈ (p :: ps).take m, Occupied (view l) q) ∧ ∀ (q : Place), (p :: ps)[m]? = some q → LookBad q := by
        intro h
        refine ⟨0, by omega, by simp, ?_⟩
        intro q hq; simp at hq; subst hq; exact h
      cases hh : l.hasCard p with
      | error e =>
        have hn : ¬ Occupied (view l) p := by rw [← hasCard_occupied, hh]; simp
        simp only [shuffleSeqs, hh, bind_error]
        constructor
        · intro h
          exact zero (by rw [← hasCard_ub (l := l), hh]; exact congrArg Except.error (by simpa using h))
        · rintro ⟨m, h1, h2, h3⟩
          cases m with
          | zero =>
            have := h3 p (by simp)
            rw [← hasCard_ub (l := l), hh] at this
            simpa using this
          | succ m => exact absurd (h2 p (by simp)) hn
      | ok t =>
        have hl : ¬ LookBad p := by rw [← hasCard_ub (l := l), hh]; simp
        cases t with
        | false =>
          have hn : ¬ Occupied (view l) p := by rw [← hasCard_occupied, hh]; simp
          simp only [shuffleSeqs, hh, bind_ok]
          refine iff_of_false (by simp [massert]) ?_
          rintro ⟨m, h1, h2, h3⟩
          cases m with
          | zero => exact hl (h3 p (by simp))
          | succ m => exact absurd (h2 p (by simp)) hn
        | true =>
          have ho : Occupied (view l) p := hasCard_occupied.mp hh
          have : l.shuffleSeqs (n + 1) (p :: ps) = .error .ub ↔ l.shuffleSeqs n ps = .error .ub := by
            simp only [shuffleSeqs, hh, bind_ok, massert_true (p := true = true) rfl]
            cases l.shuffleSeqs n ps <;> simp
          rw [this, ih]
          constructor
          · rintro ⟨m, h1, h2, h3⟩
            refine ⟨m + 1, by omega, ?_, ?_⟩
            · intro q hq
              simp only [List.take_succ_cons, List.mem_cons] at hq
              rcases hq with rfl | hq
              · exact ho
              · exact h2 q hq
            · intro q hq; exact h3 q (by simpa using hq)
          · rintro ⟨m, h1, h2, h3⟩
            cases m with
            | zero => exact absurd (h3 p (by simp)) hl
            | succ m =>
              exact ⟨m, by omega, fun q hq => h2 q (by simp [hq]), fun q hq => h3 q (by simpa using hq)⟩

/-- One place of a shuffle, in a row of the first player: it goes through if the row has the position tracked. -/
theorem shuffleOne {l : Layout} {i loc si : Nat} {seqs : List Nat} (h0 : loc ≠ 0) (hsi : seqs[i]? = some si) :
    (∃ l', shuffleLoop 1 i [⟨0, loc, 0, -1⟩] seqs l = .ok l') ↔ ∃ n, (loc, n) ∈ zoneLocs ∧ si < n := by
  have he : Place.isEmpty ⟨0, loc, 0, -1⟩ = false := by simpa [Place.isEmpty, locIsEmpty] using h0
  simp only [shuffleLoop, he, hsi, orUb, bind_ok, Bool.false_eq_true, if_false]
  constructor
  · rintro ⟨l', h⟩
    simp only [bind_eq_ok] at h
    obtain ⟨k1, h1, _⟩ := h
    obtain ⟨_, h2, h3⟩ := zoneKey_eq_ok.mp h1
    refine ⟨k1.loc.limit, ?_, ?_⟩
    · rw [h2]; cases k1.loc <;> simp [zoneLocs, ZoneLoc.code, ZoneLoc.limit]
    · rw [h3]; exact k1.lt
  · rintro ⟨n, h1, h2⟩
    have : ∃ z : ZoneLoc, loc = z.code ∧ n = z.limit := by
      simp only [zoneLocs, List.mem_cons, List.not_mem_nil, Prod.mk.injEq, or_false] at h1
      rcases h1 with h | h | h | h | h
      · exact ⟨.monster, h⟩
      · exact ⟨.spell, h⟩
      · exact ⟨.field, h⟩
      · exact ⟨.pendulum, h⟩
      · exact ⟨.skill, h⟩
    obtain ⟨z, rfl, rfl⟩ := this
    have e1 : Ygo.zoneKey 0 z.code si = .ok ⟨0, z, si, h2⟩ := zoneKey_eq_ok.mpr ⟨rfl, rfl, rfl⟩
    have hz : 0 < z.limit := by cases z <;> decide
    have e2 : Place.zoneKey ⟨0, z.code, 0, -1⟩ = .ok ⟨0, z, 0, hz⟩ := zoneKey_eq_ok.mpr ⟨rfl, rfl, rfl⟩
    exact ⟨_, by rw [e1, bind_ok, e2]; rfl⟩

/-- What the place after the shuffle with number `m` does. -/
def NewBad (go : Nat → List Place → Prop) (cur : List Place) (m : Nat) : Prop :=
  go m cur ∧ ∀ (q : Place), cur[m]? = some q → q.loc ≠ 0 ∧ q.con ≤ 1 ∧
    (NoRow q.loc ∨ (q.con < 0 ∧ go (m + 1) (cur.take m ++ [⟨0, q.loc, 0, -1⟩])))

theorem shuffleLoop_undefined {n i : Nat} {ps : List Place} {seqs : List Nat} {l : Layout} (hs : i + n ≤ seqs.length) :
    shuffleLoop n i ps seqs l = .error .ub ↔
      ∃ m, m < n ∧ NewBad (fun m ps => ∃ l', shuffleLoop m i ps seqs l = .ok l') ps m := by
  induction n generalizing i ps seqs l with
  | zero => simp [shuffleLoop]
  | succ n ih =>
    cases ps with
    | nil =>
      simp only [shuffleLoop, ub_eq, true_iff]
      exact ⟨0, by omega, ⟨l, rfl⟩, by simp⟩
    | cons p ps =>
      have ih' := fun i seqs l hs => ih (i := i) (ps := ps) (seqs := seqs) (l := l) hs
      -- the first place goes through
      have later : ∀ {seqs' l'}, ¬ NewBad (fun m ps => ∃ l', shuffleLoop m i ps seqs l = .ok l') (p :: ps) 0 →
          (∀ k qs, shuffleLoop (k + 1) i (p :: qs) seqs l = shuffleLoop k (i + 1) qs seqs' l') → i + 1 + n ≤ seqs'.length →
          (shuffleLoop (n + 1) i (p :: ps) seqs l = .error .ub ↔
            ∃ m, m < n + 1 ∧ NewBad (fun m ps => ∃ l', shuffleLoop m i ps seqs l = .ok l') (p :: ps) m) := by
        intro seqs' l' h0 hk hlen
        rw [hk n ps, ih' _ _ _ hlen]
        have conv : ∀ m, NewBad (fun m ps => ∃ l', shuffleLoop m i ps seqs l = .ok l') (p :: ps) (m + 1) ↔
            NewBad (fun m ps => ∃ l'', shuffleLoop m (i + 1) ps seqs' l' = .ok l'') ps m := by
          intro m
          simp only [NewBad, hk, List.take_succ_cons, List.cons_append, List.getElem?_cons_succ]
        constructor
        · rintro ⟨m, hm, h⟩
          exact ⟨m + 1, by omega, (conv m).mpr h⟩
        · rintro ⟨m, hm, h⟩
          cases m with
          | zero => exact absurd h h0
          | succ m => exact ⟨m, by omega, (conv m).mp h⟩
      by_cases he : p.isEmpty = true
      · have hl0 : p.loc = 0 := by simpa [Place.isEmpty, locIsEmpty] using he
        refine later (seqs' := seqs) (l' := l) ?_ ?_ (by omega)
        · rintro ⟨_, h⟩
          exact (h p (by simp)).1 hl0
        · intro k qs; simp [shuffleLoop, he]
      · have he' : p.isEmpty = false := by simpa using he
        have hl0 : p.loc ≠ 0 := by simpa [Place.isEmpty, locIsEmpty] using he
        have hsi : seqs[i]? = some seqs[i] := List.getElem?_eq_getElem (by omega)
        generalize seqs[i] = si at hsi
        have first : NewBad (fun m ps => ∃ l', shuffleLoop m i ps seqs l = .ok l') (p :: ps) 0 ↔ Ygo.zoneKey p.con p.loc si = .error .ub := by
          rw [zoneKey_ub, ← shuffleOne (l := l) hl0 hsi]
          simp only [NewBad, List.getElem?_cons_zero, Option.some.injEq, List.take_zero, List.nil_append]
          constructor
          · rintro ⟨_, h⟩
            obtain ⟨_, h1, h2⟩ := h p rfl
            exact ⟨h1, h2.imp id fun h => ⟨h.2, h.1⟩⟩
          · rintro ⟨h1, h2⟩
            exact ⟨⟨l, rfl⟩, fun q hq => hq ▸ ⟨hl0, h1, h2.imp id fun h => ⟨h.2, h.1⟩⟩⟩
        have fails : ∀ (e : Err), (∀ k qs, shuffleLoop (k + 1) i (p :: qs) seqs l = .error e) →
            (∃ m, m < n + 1 ∧ NewBad (fun m ps => ∃ l', shuffleLoop m i ps seqs l = .ok l') (p :: ps) m) →
            NewBad (fun m ps => ∃ l', shuffleLoop m i ps seqs l = .ok l') (p :: ps) 0 := by
          rintro e hk ⟨m, _, h⟩
          cases m with
          | zero => exact h
          | succ m =>
            obtain ⟨l', hl'⟩ := h.1
            rw [hk] at hl'; cases hl'
        cases h1 : Ygo.zoneKey p.con p.loc si with
        | error e =>
          have hk : ∀ k qs, shuffleLoop (k + 1) i (p :: qs) seqs l = .error e := by
            intro k qs; simp [shuffleLoop, he', hsi, orUb, h1]
          rw [hk]
          constructor
          · intro h
            refine ⟨0, by omega, first.mpr ?_⟩
            rw [h1]; simpa using h
          · intro h
            have := first.mp (fails e hk h)
            rw [h1] at this; simpa using this
        | ok k1 =>
          have h0 : ¬ NewBad (fun m ps => ∃ l', shuffleLoop m i ps seqs l = .ok l') (p :: ps) 0 := by
            rw [first, h1]; simp
          cases h2 : p.zoneKey with
          | error e =>
            have hk : ∀ k qs, shuffleLoop (k + 1) i (p :: qs) seqs l = .error e := by
              intro k qs; simp [shuffleLoop, he', hsi, orUb, h1, h2]
            rw [hk]
            refine iff_of_false ?_ (fun h => h0 (fails e hk h))
            intro h
            cases h
            -- the controller and the row were fine before
            obtain ⟨a1, a2, _⟩ := zoneKey_eq_ok.mp h1
            obtain ⟨_, h⟩ := zoneKey_ub.mp h2
            rcases h with h | ⟨_, h⟩
            · rw [a2] at h
              exact h k1.loc.limit (by cases k1.loc <;> simp [zoneLocs, ZoneLoc.code, ZoneLoc.limit])
            · omega
          | ok k2 =>
            refine later (seqs' := (replaceFirst p.seq si seqs).set i p.seq) (l' := l.swapZones k1 k2) h0 ?_ ?_
            · intro k qs; simp [shuffleLoop, he', hsi, orUb, h1, h2]
            · simp [length_replaceFirst]; omega

end Layout
end Ygo
