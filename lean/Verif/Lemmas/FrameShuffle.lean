import Verif.Lemmas.FrameOwn

set_option linter.unusedSimpArgs false

namespace Ygo
open Ygo.Spec
namespace Layout

theorem replaceFirst_get {seq si : Nat} {seqs : List Nat} (hn : seqs.Nodup) (j : Nat) :
    (replaceFirst seq si seqs)[j]? = seqs[j]?.map fun x => if x = seq then si else x := by
  induction seqs generalizing j with
  | nil => simp [replaceFirst]
  | cons a t ih =>
    rw [List.nodup_cons] at hn
    simp only [replaceFirst]
    split
    · rename_i h
      cases j with
      | zero => simp [h]
      | succ j => simp [ih hn.2]
    · rename_i h
      have h : a = seq := by simpa using h
      subst h
      cases j with
      | zero => simp
      | succ j =>
        simp
        cases hj : t[j]? with
        | none => simp
        | some b =>
          have : b ≠ a := by rintro rfl; exact hn.1 (List.mem_of_getElem? hj)
          simp [this]

/-- Transposition of two sequence numbers. -/
def transp (a b x : Nat) : Nat := if x = b then a else if x = a then b else x

theorem transp_inv (a b x : Nat) : transp a b (transp a b x) = x := by
  unfold transp; split <;> (try split) <;> (try split) <;> simp_all

theorem update_eq_map {s si i : Nat} {seqs : List Nat} (hn : seqs.Nodup) (hi : seqs[i]? = some si) :
    (replaceFirst s si seqs).set i s = seqs.map (transp si s) := by
  apply List.ext_getElem?
  intro j
  rw [List.getElem?_set, List.getElem?_map, replaceFirst_get hn]
  by_cases e : i = j
  · subst e
    have hl : i < (replaceFirst s si seqs).length := by
      have h := replaceFirst_get (seq := s) (si := si) hn i
      rw [hi] at h
      exact lt_of_getElem?_some h
    simp [hi, hl, transp]
    intro h; exact h.symm
  · simp only [e, if_false]
    cases hj : seqs[j]? with
    | none => rfl
    | some x =>
      have : x ≠ si := by
        rintro rfl
        exact e ((List.getElem?_inj (lt_of_getElem?_some hi) hn).mp (hi.trans hj.symm))
      simp [transp, this]

/-- Transposition of two zones. -/
def transpKey (k1 k2 k : ZoneKey) : ZoneKey := if k = k2 then k1 else if k = k1 then k2 else k

theorem transpKey_inv (k1 k2 k : ZoneKey) : transpKey k1 k2 (transpKey k1 k2 k) = k := by
  unfold transpKey; split <;> (try split) <;> (try split) <;> simp_all

theorem zone_swapZones (l : Layout) (k1 k2 k : ZoneKey) :
    (l.swapZones k1 k2).zone (transpKey k1 k2 k) = l.zone k := by
  simp only [swapZones, zone_setZone, transpKey]
  by_cases h1 : k = k1 <;> by_cases h2 : k = k2 <;> simp [h1, h2]
  rintro rfl; simp_all

/-- Sequence numbers of the non-empty ones among the given places. -/
def usedSeqs (ps : List Place) : List Nat := (ps.filter fun p => !p.isEmpty).map (·.seq)

theorem usedSeqs_cons_empty {p : Place} {ps : List Place} (h : p.isEmpty = true) : usedSeqs (p :: ps) = usedSeqs ps := by
  simp [usedSeqs, h]

theorem usedSeqs_cons {p : Place} {ps : List Place} (h : p.isEmpty = false) :
    usedSeqs (p :: ps) = p.seq :: usedSeqs ps := by
  simp [usedSeqs, h]

theorem shuffleLoop_spec (c : Fin 2) (loc : ZoneLoc) {n i : Nat} {ps : List Place} {seqs : List Nat} {l l' : Layout}
    (h : shuffleLoop n i ps seqs l = .ok l') (hn : seqs.Nodup)
    (hrow : ∀ q ∈ ps.take n, q.isEmpty = false → q.con = c.val ∧ q.loc = loc.code)
    (hcur : (usedSeqs (ps.take n)).Nodup) :
    ∃ T U : ZoneKey → ZoneKey, (∀ k, U (T k) = k) ∧ (∀ k, T (U k) = k) ∧ l'.pile = l.pile ∧
      (∀ k, l'.zone (T k) = l.zone k) ∧
      (∀ k, (T k).con = k.con ∧ (T k).loc = k.loc) ∧
      (∀ k, ¬ (k.con = c ∧ k.loc = loc) → T k = k) ∧
      (∀ k, k.seq ∉ seqs → k.seq ∉ usedSeqs (ps.take n) → T k = k) ∧
      (∀ k j, j < i → seqs[j]? = some k.seq → k.seq ∉ usedSeqs (ps.take n) → T k = k) ∧
      (∀ k j q, k.con = c → k.loc = loc → j < n → ps[j]? = some q → q.isEmpty = false → seqs[i + j]? = some k.seq →
        (T k).seq = q.seq) := by
  induction n generalizing i ps seqs l with
  | zero =>
    simp only [shuffleLoop, Except.ok.injEq] at h; subst h
    refine ⟨id, id, ?_⟩
    simp
  | succ n ih =>
    cases ps with
    | nil => simp [shuffleLoop] at h
    | cons p ps =>
      simp only [shuffleLoop] at h
      simp only [List.take_succ_cons] at hrow hcur ⊢
      split at h
      · rename_i he
        rw [usedSeqs_cons_empty he] at hcur ⊢
        obtain ⟨T, U, a1, a2, a3, a4, a5, a6, a7, a8, a9⟩ :=
          ih h hn (fun q hq => hrow q (List.mem_cons_of_mem _ hq)) hcur
        refine ⟨T, U, a1, a2, a3, a4, a5, a6, a7, fun k j hj => a8 k j (by omega), ?_⟩
        intro k j q hkc hkl hj hq hqe hs
        cases j with
        | zero => simp at hq; subst hq; rw [he] at hqe; cases hqe
        | succ j => exact a9 k j q hkc hkl (by omega) (by simpa using hq) hqe (by rw [← hs]; congr 1; omega)
      · rename_i he
        have he : p.isEmpty = false := by simpa using he
        rw [usedSeqs_cons he] at hcur ⊢
        rw [List.nodup_cons] at hcur
        simp only [bind_eq_ok, orUb_eq_ok] at h
        obtain ⟨si, hsi, k1, hk1, k2, hk2, h⟩ := h
        obtain ⟨hpc, hpl⟩ := hrow p (List.mem_cons_self ..) he
        obtain ⟨b1, b2, b3⟩ := zoneKey_eq_ok.mp hk1
        obtain ⟨d1, d2, d3⟩ := zoneKey_eq_ok.mp hk2
        have c1 : k1.con = c := by apply con_inj; rw [← b1, hpc]
        have c2 : k2.con = c := by apply con_inj; rw [← d1, hpc]
        have l1 : k1.loc = loc := by apply ZoneLoc.code_inj.mp; rw [← b2, hpl]
        have l2 : k2.loc = loc := by apply ZoneLoc.code_inj.mp; rw [← d2, hpl]
        rw [update_eq_map hn hsi] at h
        have hn' : (seqs.map (transp si p.seq)).Nodup := by
          rw [List.Nodup, List.pairwise_map]
          refine List.Pairwise.imp ?_ hn
          intro a b hab e
          apply hab
          rw [← transp_inv si p.seq a, e, transp_inv]
        obtain ⟨T, U, a1, a2, a3, a4, a5, a6, a7, a8, a9⟩ :=
          ih h hn' (fun q hq => hrow q (List.mem_cons_of_mem _ hq)) hcur.2
        have tcl : ∀ k, (transpKey k1 k2 k).con = k.con ∧ (transpKey k1 k2 k).loc = k.loc := by
          intro k; unfold transpKey
          by_cases e2 : k = k2
          · simp [e2, c1, c2, l1, l2]
          · by_cases e1 : k = k1 <;> simp [e1, e2, c1, c2, l1, l2]
            split
            · rename_i e; subst e; exact ⟨c1, l1⟩
            · exact ⟨c2, l2⟩
        have tseq : ∀ k, k.con = c → k.loc = loc → (transpKey k1 k2 k).seq = transp si p.seq k.seq := by
          intro k hc hl; unfold transpKey transp
          by_cases e2 : k = k2
          · simp [e2, ← d3, ← b3]
          · have : k.seq ≠ p.seq := fun e => e2 (ZoneKey.ext' (hc.trans c2.symm) (hl.trans l2.symm) (e.trans d3))
            by_cases e1 : k = k1
            · subst e1
              rw [if_neg e2, if_pos rfl, if_neg this, if_pos b3.symm, d3]
            · have : k.seq ≠ si := fun e => e1 (ZoneKey.ext' (hc.trans c1.symm) (hl.trans l1.symm) (e.trans b3))
              rw [if_neg e2, if_neg e1, if_neg ‹k.seq ≠ p.seq›, if_neg this]
        have tfix : ∀ k, k.seq ≠ si → k.seq ≠ p.seq → transpKey k1 k2 k = k := by
          intro k h1 h2; unfold transpKey
          rw [if_neg (by rintro rfl; exact h2 d3.symm), if_neg (by rintro rfl; exact h1 b3.symm)]
        refine ⟨fun k => T (transpKey k1 k2 k), fun k => transpKey k1 k2 (U k), ?_, ?_, ?_, ?_, ?_, ?_, ?_, ?_, ?_⟩
        · intro k; simp only [a1, transpKey_inv]
        · intro k; simp only [transpKey_inv, a2]
        · rw [a3]; rfl
        · intro k; simp only [a4, zone_swapZones]
        · intro k; exact ⟨(a5 _).1.trans (tcl k).1, (a5 _).2.trans (tcl k).2⟩
        · intro k hk
          have : transpKey k1 k2 k = k := by
            unfold transpKey
            rw [if_neg (by rintro rfl; exact hk ⟨c2, l2⟩), if_neg (by rintro rfl; exact hk ⟨c1, l1⟩)]
          simp only [this]; exact a6 k hk
        · intro k h1 h2
          simp only [List.mem_cons, not_or] at h2
          have h3 : k.seq ≠ si := by rintro e; exact h1 (e ▸ List.mem_of_getElem? hsi)
          simp only [tfix k h3 h2.1]
          apply a7 k _ h2.2
          intro hm
          obtain ⟨x, hx, ex⟩ := List.mem_map.mp hm
          unfold transp at ex
          split at ex
          · exact h3 ex.symm
          · split at ex
            · exact h2.1 ex.symm
            · exact h1 (ex ▸ hx)
        · intro k j hj hs h2
          simp only [List.mem_cons, not_or] at h2
          have h3 : k.seq ≠ si := by
            rintro e
            have := (List.getElem?_inj (lt_of_getElem?_some hs) hn).mp (hs.trans (e ▸ hsi.symm))
            omega
          simp only [tfix k h3 h2.1]
          apply a8 k j (by omega) _ h2.2
          rw [List.getElem?_map, hs]
          simp [transp, h3, h2.1]
        · intro k j q hkc hkl hj hq hqe hs
          cases j with
          | zero =>
            simp at hq hs; subst hq
            rw [hsi] at hs; simp only [Option.some.injEq] at hs
            have e : (transpKey k1 k2 k).seq = p.seq := by
              rw [tseq k hkc hkl, ← hs]; unfold transp; split <;> simp_all
            show (T (transpKey k1 k2 k)).seq = p.seq
            rw [a8 (transpKey k1 k2 k) i (by omega) _ (by rw [e]; exact hcur.1), e]
            rw [List.getElem?_map, hsi, tseq k hkc hkl, hs]; rfl
          | succ j =>
            refine a9 (transpKey k1 k2 k) j q ((tcl k).1.trans hkc) ((tcl k).2.trans hkl) (by omega) (by simpa using hq) hqe ?_
            rw [List.getElem?_map, tseq k hkc hkl, show i + 1 + j = i + (j + 1) by omega, hs]; rfl

theorem shuffleSeqs_eq_ok {l : Layout} {n : Nat} {ps : List Place} {seqs : List Nat} (h : l.shuffleSeqs n ps = .ok seqs) :
    n ≤ ps.length ∧ seqs = (ps.take n).map (·.seq) := by
  induction n generalizing ps seqs with
  | zero => simp only [shuffleSeqs, Except.ok.injEq] at h; subst h; simp
  | succ n ih =>
    cases ps with
    | nil => simp [shuffleSeqs] at h
    | cons p ps =>
      simp only [shuffleSeqs, bind_eq_ok, pure_eq_ok, Except.ok.injEq] at h
      obtain ⟨_, _, _, _, r, hr, rfl⟩ := h
      obtain ⟨h1, rfl⟩ := ih hr
      simp; omega

theorem shuffleSeqs_returns {l : Layout} {n : Nat} {ps : List Place} (hn : n ≤ ps.length)
    (h : ∀ p ∈ ps.take n, l.hasCard p = .ok true) : l.shuffleSeqs n ps = .ok ((ps.take n).map (·.seq)) := by
  induction n generalizing ps with
  | zero => rfl
  | succ n ih =>
    cases ps with
    | nil => simp at hn
    | cons p ps =>
      have h1 := h p (by simp)
      have h2 := ih (ps := ps) (by simpa using hn) (fun q hq => h q (by simp [hq]))
      simp only [shuffleSeqs, h1, h2]
      rfl

theorem mem_replaceFirst {a b x : Nat} {l : List Nat} (h : x ∈ replaceFirst a b l) : x = b ∨ x ∈ l := by
  induction l with
  | nil => simp [replaceFirst] at h
  | cons y l ih =>
    simp only [replaceFirst] at h
    split at h
    · rcases List.mem_cons.mp h with h | h
      · exact .inr (by simp [h])
      · rcases ih h with h | h
        · exact .inl h
        · exact .inr (by simp [h])
    · rcases List.mem_cons.mp h with h | h
      · exact .inl h
      · exact .inr (by simp [h])

theorem length_replaceFirst (a b : Nat) (l : List Nat) : (replaceFirst a b l).length = l.length := by
  induction l with
  | nil => rfl
  | cons y l ih =>
    simp only [replaceFirst]
    split
    · simp [ih]
    · simp

/-- The second loop returns when all sequences are those of zones in one row. -/
theorem shuffleLoop_returns (c : Fin 2) (loc : ZoneLoc) {n i : Nat} {ps : List Place} {seqs : List Nat} (l : Layout) (hn : n ≤ ps.length)
    (hl : i + n ≤ seqs.length) (hs : ∀ s ∈ seqs, s < loc.limit)
    (hp : ∀ p ∈ ps.take n, p.isEmpty = false → p.con = c.val ∧ p.loc = loc.code ∧ p.seq < loc.limit) :
    ∃ l', shuffleLoop n i ps seqs l = .ok l' := by
  induction n generalizing i ps seqs l with
  | zero => exact ⟨l, rfl⟩
  | succ n ih =>
    cases ps with
    | nil => simp at hn
    | cons p ps =>
      have hn' : n ≤ ps.length := by simpa using hn
      have hp' : ∀ q ∈ ps.take n, q.isEmpty = false → q.con = c.val ∧ q.loc = loc.code ∧ q.seq < loc.limit := fun q hq => hp q (by simp [hq])
      cases he : p.isEmpty with
      | true =>
        obtain ⟨l', h⟩ := ih (i := i + 1) (seqs := seqs) l hn' (by omega) hs hp'
        exact ⟨l', by simp only [shuffleLoop, he, if_true]; exact h⟩
      | false =>
        obtain ⟨h1, h2, h3⟩ := hp p (by simp) he
        have hi : i < seqs.length := by omega
        have hsi := hs _ (List.getElem_mem hi)
        obtain ⟨l', h⟩ := ih (i := i + 1) (seqs := (replaceFirst p.seq seqs[i] seqs).set i p.seq)
          (l.swapZones ⟨c, loc, seqs[i], hsi⟩ ⟨c, loc, p.seq, h3⟩) hn' (by rw [List.length_set, length_replaceFirst]; omega) (by
            intro s hm
            rcases List.mem_or_eq_of_mem_set hm with hm | rfl
            · rcases mem_replaceFirst hm with rfl | hm
              · exact hsi
              · exact hs s hm
            · exact h3) hp'
        refine ⟨l', ?_⟩
        have k1 : Ygo.zoneKey p.con p.loc seqs[i] = .ok ⟨c, loc, seqs[i], hsi⟩ := zoneKey_eq_ok.mpr ⟨h1, h2, rfl⟩
        have k2 : p.zoneKey = .ok ⟨c, loc, p.seq, h3⟩ := zoneKey_eq_ok.mpr ⟨h1, h2, rfl⟩
        simp only [shuffleLoop, he, List.getElem?_eq_getElem hi]
        show (do let k1 ← Ygo.zoneKey p.con p.loc seqs[i]; let k2 ← p.zoneKey; shuffleLoop n (i+1) ps _ (l.swapZones k1 k2)) = _
        rw [k1, k2]
        exact h

end Layout
end Ygo
