import Verif.Lemmas.FrameInverse

set_option linter.unusedSimpArgs false

namespace Ygo
open Ygo.Spec

/-- The call does not reach undefined behaviour. -/
def NoUb {α : Type} (r : Res α) : Prop := r ≠ .error .ub

section
variable {α β : Type}
@[simp] theorem noUb_ok (a : α) : NoUb (.ok a : Res α) := by simp [NoUb]
@[simp] theorem noUb_assert : NoUb (.error .assert : Res α) := by simp [NoUb]
@[simp] theorem noUb_ub : ¬ NoUb (.error .ub : Res α) := by simp [NoUb]
@[simp] theorem noUb_bind {x : Res α} {f : α → Res β} : NoUb (x >>= f) ↔ NoUb x ∧ ∀ a, x = .ok a → NoUb (f a) := by
  cases x with
  | ok a => simp [NoUb]
  | error e => cases e <;> simp [NoUb]
@[simp] theorem noUb_massert {p : Prop} [Decidable p] : NoUb (massert p) := by
  unfold massert; split <;> simp
@[simp] theorem noUb_guardUb {p : Prop} [Decidable p] : NoUb (guardUb p) ↔ p := by
  unfold guardUb; split <;> simp [*]
@[simp] theorem noUb_orUb {o : Option α} : NoUb (orUb o) ↔ o.isSome := by
  cases o <;> simp [orUb]
@[simp] theorem noUb_orAssert {o : Option α} : NoUb (orAssert o) := by
  cases o <;> simp [orAssert]
end

theorem wellFormed_iff_at {p : Place} : WellFormed p ↔ ∃ C i, At p C i := by
  constructor
  · intro h
    cases h with
    | pile c l s o hc hl =>
      have : ∃ k : PileKey, c = k.con.val ∧ l = k.loc.code := by
        simp only [pileLocs, List.mem_cons, List.not_mem_nil, or_false] at hl
        rcases hc with rfl | rfl <;> rcases hl with rfl | rfl | rfl | rfl | rfl
        · exact ⟨⟨0, .mainDeck⟩, rfl, rfl⟩
        · exact ⟨⟨0, .hand⟩, rfl, rfl⟩
        · exact ⟨⟨0, .graveyard⟩, rfl, rfl⟩
        · exact ⟨⟨0, .banished⟩, rfl, rfl⟩
        · exact ⟨⟨0, .extraDeck⟩, rfl, rfl⟩
        · exact ⟨⟨1, .mainDeck⟩, rfl, rfl⟩
        · exact ⟨⟨1, .hand⟩, rfl, rfl⟩
        · exact ⟨⟨1, .graveyard⟩, rfl, rfl⟩
        · exact ⟨⟨1, .banished⟩, rfl, rfl⟩
        · exact ⟨⟨1, .extraDeck⟩, rfl, rfl⟩
      obtain ⟨k, rfl, rfl⟩ := this
      exact ⟨_, _, .pile k s o⟩
    | zone c l n s o hc hl hs =>
      have : ∃ k : ZoneKey, c = k.con.val ∧ l = k.loc.code ∧ s = k.seq := by
        simp only [zoneLocs, List.mem_cons, List.not_mem_nil, or_false, Prod.mk.injEq] at hl
        rcases hc with rfl | rfl <;> rcases hl with ⟨rfl, rfl⟩ | ⟨rfl, rfl⟩ | ⟨rfl, rfl⟩ | ⟨rfl, rfl⟩ | ⟨rfl, rfl⟩
        · exact ⟨⟨0, .monster, s, hs⟩, rfl, rfl, rfl⟩
        · exact ⟨⟨0, .spell, s, hs⟩, rfl, rfl, rfl⟩
        · exact ⟨⟨0, .field, s, hs⟩, rfl, rfl, rfl⟩
        · exact ⟨⟨0, .pendulum, s, hs⟩, rfl, rfl, rfl⟩
        · exact ⟨⟨0, .skill, s, hs⟩, rfl, rfl, rfl⟩
        · exact ⟨⟨1, .monster, s, hs⟩, rfl, rfl, rfl⟩
        · exact ⟨⟨1, .spell, s, hs⟩, rfl, rfl, rfl⟩
        · exact ⟨⟨1, .field, s, hs⟩, rfl, rfl, rfl⟩
        · exact ⟨⟨1, .pendulum, s, hs⟩, rfl, rfl, rfl⟩
        · exact ⟨⟨1, .skill, s, hs⟩, rfl, rfl, rfl⟩
      obtain ⟨k, rfl, rfl, rfl⟩ := this
      exact Layout.at_exists_zone (Place.zoneKey_mk k o)
  · rintro ⟨C, i, h⟩
    have hcon : ∀ c : Fin 2, ((c.val : Nat) : Int) = 0 ∨ ((c.val : Nat) : Int) = 1 := by intro c; omega
    have hz : ∀ k : ZoneKey, (k.loc.code, k.loc.limit) ∈ zoneLocs := by
      intro k; cases k.loc <;> simp [zoneLocs, ZoneLoc.code, ZoneLoc.limit]
    cases h with
    | pile k s o => exact .pile _ _ _ _ (hcon _) (by cases k.loc <;> simp [pileLocs, PileLoc.code])
    | slot k o h => exact .zone _ _ _ _ _ (hcon _) (hz k) k.lt
    | mats k n => exact .zone _ _ _ _ _ (hcon _) (hz k) k.lt

namespace Layout

theorem hasCard_noUb {l : Layout} {p : Place} (h : WellFormed p) : NoUb (l.hasCard p) := by
  obtain ⟨C, i, h⟩ := wellFormed_iff_at.mp h
  rw [hasCard_at h]; simp

theorem takeAt_noUb {p : List CardId} {i : Nat} : NoUb (takeAt p i) := by
  simp [takeAt]

theorem insertAt_noUb {p : List CardId} {i : Nat} {c : CardId} : NoUb (insertAt p i c) := by
  simp [insertAt]

theorem zoneKey_noUb {p : Place} (h : ∃ C i, At p C i) (hp : p.isPile = false) : NoUb p.zoneKey := by
  obtain ⟨C, i, h⟩ := h
  cases h with
  | pile k s o => simp at hp
  | slot k o h => simp
  | mats k n => simp

theorem pileKey_noUb {p : Place} (h : ∃ C i, At p C i) (hp : p.isPile = true) : NoUb p.pileKey := by
  obtain ⟨C, i, h⟩ := h
  cases h with
  | pile k s o => simp
  | slot k o h => simp at hp
  | mats k n => simp at hp

theorem cardInsert_noUb {l : Layout} {p : Place} {c : CardId} (h : WellFormed p) : NoUb (l.cardInsert p c) := by
  obtain ⟨C, i, h⟩ := wellFormed_iff_at.mp h
  cases h with
  | pile k s o => simp [cardInsert, insertAt_noUb]
  | slot k o ho => simp [cardInsert, ho]
  | mats k n => simp [cardInsert, insertAt_noUb]; split <;> simp [insertAt_noUb]

theorem cardErase_noUb {l : Layout} {p : Place} (h : l.hasCard p = .ok true) : NoUb (l.cardErase p) := by
  obtain ⟨C, i, ha, hi⟩ := hasCard_eq_ok.mp h
  have hi : i < (view l C).length := by simpa using hi
  obtain ⟨c, hc⟩ := getElem?_some_of_lt hi
  have : ∃ l', view l' = (view l).take C i := by
    cases ha with
    | pile k s o => exact ⟨l.setPile k ((l.pile k).eraseIdx i), by simp [view_setPile, Board.take]⟩
    | slot k o h =>
      refine ⟨l.setCard k none, ?_⟩
      cases hz : (l.zone k).card <;> simp [hz, view_setCard, Board.take]
    | mats k n => exact ⟨l.setMats k ((l.zone k).materials.eraseIdx i), by simp [view_setMats, Board.take]⟩
  obtain ⟨l', hv⟩ := this
  rw [cardErase_eq_ok.mpr ⟨C, i, ha, hc, hv⟩]; simp

theorem cardMove_noUb {l : Layout} {a b : Place} (ha : WellFormed a) (hb : WellFormed b) : NoUb (l.cardMove a b) := by
  obtain ⟨C1, i, ha⟩ := wellFormed_iff_at.mp ha
  obtain ⟨C2, j, hb⟩ := wellFormed_iff_at.mp hb
  simp only [cardMove, hasCard_at ha]
  cases ha with
  | pile k1 s1 o1 =>
    cases hb with
    | pile k2 s2 o2 => simp [takeAt_noUb, insertAt_noUb]
    | slot k2 o2 h2 => simp [takeAt_noUb, insertAt_noUb, h2]
    | mats k2 n => simp [takeAt_noUb, insertAt_noUb]; split <;> simp [insertAt_noUb]
  | slot k1 o1 h1 =>
    cases hb with
    | pile k2 s2 o2 => simp [takeAt_noUb, insertAt_noUb, h1]
    | slot k2 o2 h2 =>
      simp [takeAt_noUb, insertAt_noUb, h1, h2]
      intro h _ _
      cases hz : (l.zone k1).card <;> simp [hz] at h ⊢
    | mats k2 n => simp [takeAt_noUb, insertAt_noUb, h1]; split <;> simp [insertAt_noUb] <;> omega
  | mats k1 m =>
    have hm : ¬ ((i : Int) < 0) := by omega
    cases hb with
    | pile k2 s2 o2 => simp [takeAt_noUb, insertAt_noUb, hm]
    | slot k2 o2 h2 => simp [takeAt_noUb, insertAt_noUb, hm, h2]
    | mats k2 n => simp [takeAt_noUb, insertAt_noUb, hm]; split <;> simp [takeAt_noUb, insertAt_noUb] <;> omega

theorem swapRefs_noUb {l : Layout} {a b : Ref} (h1 : a.idx < (view l a.cont).length) (h2 : b.idx < (view l b.cont).length) :
    NoUb (l.swapRefs a b) := by
  obtain ⟨c1, h1⟩ := getElem?_some_of_lt h1
  obtain ⟨c2, h2⟩ := getElem?_some_of_lt h2
  simp [swapRefs, read_eq_ok.mpr h1, read_eq_ok.mpr h2]

theorem cardSwap_noUb {l : Layout} {a b : Place} {C1 C2 : Container} {i j : Nat} (ha : At a C1 i) (hb : At b C2 j)
    (hp : i < (view l C1).length → swapPos a C1 C2 i < (view l C1).length) : NoUb (l.cardSwap a b) := by
  by_cases hi : i < (view l C1).length
  · by_cases hj : j < (view l C2).length
    · have hp := hp hi
      cases ha with
      | pile k1 s1 o1 =>
        cases hb with
        | pile k2 s2 o2 => simp [cardSwap, swapRefs_noUb (a := .pile k1 i) (b := .pile k2 j) hi hj, hasCard_at (At.pile _ _ _)]
        | slot k2 o2 h2 => simp [cardSwap, h2, swapRefs_noUb (a := .pile k1 i) (b := .card k2) hi hj, hasCard_at (At.pile _ _ _), hasCard_at (At.slot _ _ h2)]
        | mats k2 n =>
          have hn : ¬ ((j : Int) < 0) := by omega
          simp [cardSwap, hn, swapRefs_noUb (a := .pile k1 i) (b := .mat k2 j) hi hj, hasCard_at (At.pile _ _ _), hasCard_at (At.mats _ _)]
      | slot k1 o1 h1 =>
        cases hb with
        | pile k2 s2 o2 => simp [cardSwap, h1, swapRefs_noUb (a := .card k1) (b := .pile k2 j) hi hj, hasCard_at (At.pile _ _ _), hasCard_at (At.slot _ _ h1)]
        | slot k2 o2 h2 => simp [cardSwap, h1, h2, swapRefs_noUb (a := .card k1) (b := .card k2) hi hj, hasCard_at (At.slot _ _ h1), hasCard_at (At.slot _ _ h2)]
        | mats k2 n =>
          have hn : ¬ ((j : Int) < 0) := by omega
          simp [cardSwap, h1, hn, swapRefs_noUb (a := .card k1) (b := .mat k2 j) hi hj, hasCard_at (At.slot _ _ h1), hasCard_at (At.mats _ _)]
      | mats k1 m =>
        have hm : ¬ ((i : Int) < 0) := by omega
        cases hb with
        | pile k2 s2 o2 => simp [cardSwap, hm, swapRefs_noUb (a := .mat k1 i) (b := .pile k2 j) hi hj, hasCard_at (At.pile _ _ _), hasCard_at (At.mats _ _)]
        | slot k2 o2 h2 =>
          simp only [swapPos] at hp
          simp [cardSwap, hm, h2, swapRefs_noUb (a := .mat k1 _) (b := .card k2) hp hj, hasCard_at (At.slot _ _ h2), hasCard_at (At.mats _ _)]
        | mats k2 n =>
          simp only [swapPos] at hp
          have hn : ¬ ((j : Int) < 0) := by omega
          simp [cardSwap, hm, hn, swapRefs_noUb (a := .mat k1 _) (b := .mat k2 j) hp hj, hasCard_at (At.mats _ _)]
    · simp [cardSwap, hasCard_at ha, hasCard_at hb, hj]
  · simp [cardSwap, hasCard_at ha, hi]

theorem pileSplice_noUb {l : Layout} {a b : Place} {n : Nat} {rev : Bool} (ha : WellFormed a) (hb : WellFormed b)
    (hj : ∀ k1 k2 i j, At a (.pile k1) i → At b (.pile k2) j → j ≤ ((view l).cut (.pile k1) i n (.pile k2)).length) :
    NoUb (l.pileSplice a n b rev) := by
  obtain ⟨C1, i, ha⟩ := wellFormed_iff_at.mp ha
  obtain ⟨C2, j, hb⟩ := wellFormed_iff_at.mp hb
  cases ha with
  | pile k1 s1 o1 =>
    cases hb with
    | pile k2 s2 o2 =>
      have := hj k1 k2 _ _ (.pile k1 i o1) (.pile k2 j o2)
      simp only [pileSplice, noUb_bind, noUb_massert, true_and, massert_eq_ok, noUb_guardUb, pure_eq_ok, noUb_ok, implies_true, and_true,
        Place.pileKey_mk]
      intro _ _ _ _ k e
      cases e
      intro _ _ k e; cases e
      rw [← view_pile, view_setPile]; exact this
    | slot k2 o2 h2 => simp [pileSplice]
    | mats k2 n => simp [pileSplice]
  | slot k1 o1 h1 => simp [pileSplice]
  | mats k1 m => simp [pileSplice]

theorem pileSwap_noUb {l : Layout} {a b : Place} (ha : WellFormed a) (hb : WellFormed b) : NoUb (l.pileSwap a b) := by
  obtain ⟨C1, i, ha⟩ := wellFormed_iff_at.mp ha
  obtain ⟨C2, j, hb⟩ := wellFormed_iff_at.mp hb
  cases ha <;> cases hb <;> simp [pileSwap]

theorem shuffleSeqs_noUb {l : Layout} {n : Nat} {ps : List Place} (h : ∀ p ∈ ps, WellFormed p) (hn : n ≤ ps.length) :
    NoUb (l.shuffleSeqs n ps) := by
  induction n generalizing ps with
  | zero => simp [shuffleSeqs]
  | succ n ih =>
    cases ps with
    | nil => simp at hn
    | cons p ps =>
      simp [shuffleSeqs, hasCard_noUb (h p (List.mem_cons_self ..))]
      intro _
      exact ih (fun q hq => h q (List.mem_cons_of_mem _ hq)) (by simpa using hn)

/-- A sequence number past the row of a zone location is caught by an assert. -/
theorem zoneKey_seq_noUb {p : Place} (h : WellFormed p) (hp : p.isPile = false) (s : Nat) :
    NoUb (Ygo.zoneKey p.con p.loc s) := by
  obtain ⟨C, i, h⟩ := wellFormed_iff_at.mp h
  have hzone : ∀ k : ZoneKey, NoUb (Ygo.zoneKey (k.con.val : Nat) k.loc.code s) := by
    intro k
    by_cases hs : s < k.loc.limit
    · rw [zoneKey_eq_ok (k := ⟨k.con, k.loc, s, hs⟩) |>.mpr ⟨rfl, rfl, rfl⟩]; simp
    · simp [Ygo.zoneKey, hs, massert_true (con_le_one k.con)]
  cases h with
  | pile k s' o => simp at hp
  | slot k o h => exact hzone k
  | mats k n => exact hzone k

theorem shuffleLoop_noUb {n i : Nat} {ps : List Place} {seqs : List Nat} {l : Layout}
    (h : ∀ p ∈ ps, p.isEmpty = true ∨ WellFormed p ∧ p.isPile = false) (hn : n ≤ ps.length) (hs : i + n ≤ seqs.length) :
    NoUb (shuffleLoop n i ps seqs l) := by
  induction n generalizing i ps seqs l with
  | zero => simp [shuffleLoop]
  | succ n ih =>
    cases ps with
    | nil => simp at hn
    | cons p ps =>
      have ih' := fun i seqs l hs => ih (i := i) (seqs := seqs) (l := l) (fun q hq => h q (List.mem_cons_of_mem _ hq)) (by simpa using hn) hs
      simp only [shuffleLoop]
      split
      · exact ih' _ _ _ (by omega)
      · rename_i he
        rcases h p (List.mem_cons_self ..) with h' | ⟨hw, hp⟩
        · exact absurd h' he
        · simp only [noUb_bind, noUb_orUb]
          refine ⟨by simp; omega, ?_⟩
          intro si _
          refine ⟨zoneKey_seq_noUb hw hp si, ?_⟩
          intro k1 _
          refine ⟨zoneKey_seq_noUb hw hp p.seq, ?_⟩
          intro k2 _
          exact ih' _ _ _ (by simp [length_replaceFirst]; omega)

theorem cardShuffle_noUb {l : Layout} {prev cur : List Place} {n : Nat}
    (h1 : ∀ p ∈ prev, WellFormed p) (h2 : ∀ p ∈ cur, p.isEmpty = true ∨ WellFormed p ∧ p.isPile = false)
    (h0 : prev ≠ []) (hn1 : n ≤ prev.length) (hn2 : n ≤ cur.length) : NoUb (l.cardShuffle prev cur n) := by
  simp only [cardShuffle, noUb_bind, noUb_massert, noUb_orUb, true_and, noUb_guardUb, massert_eq_ok]
  refine ⟨?_, ?_⟩
  · cases prev with
    | nil => exact absurd rfl h0
    | cons => simp
  intro _ _ _ _ _ h7
  refine ⟨h7, ?_⟩
  intro _ _
  refine ⟨shuffleSeqs_noUb h1 hn1, ?_⟩
  intro seqs hs
  obtain ⟨_, rfl⟩ := shuffleSeqs_eq_ok hs
  exact shuffleLoop_noUb h2 hn2 (by simp; omega)

end Layout

namespace Frame

theorem destruct_noUb {f : Frame} {c : CardId} : NoUb (f.destruct c) := by
  simp [destruct]

theorem destructCards_noUb {cs : List CardId} {f : Frame} : NoUb (destructCards cs f) := by
  induction cs generalizing f with
  | nil => simp [destructCards]
  | cons c cs ih => simp [destructCards, destruct_noUb, ih]

theorem clear_noUb {f : Frame} : NoUb f.clear := by
  have hp : ∀ ks f, NoUb (clearPiles ks f) := by
    intro ks
    induction ks with
    | nil => intro f; simp [clearPiles]
    | cons k ks ih => intro f; simp [clearPiles, destructCards_noUb, ih]
  have hz : ∀ ks f, NoUb (clearZones ks f) := by
    intro ks
    induction ks with
    | nil => intro f; simp [clearZones]
    | cons k ks ih => intro f; simp only [clearZones, noUb_bind, destructCards_noUb, ih, implies_true, and_true]
  unfold clear
  rw [noUb_bind]
  exact ⟨hp _ _, fun a _ => hz _ _⟩

theorem shrinkPile_noUb {k : PileKey} {n : Nat} {f : Frame} (h : n ≤ (f.layout.pile k).length) :
    NoUb (shrinkPile k n f) := by
  induction n generalizing f with
  | zero => simp [shrinkPile]
  | succ n ih =>
    have hne : f.layout.pile k ≠ [] := by intro e; rw [e] at h; simp at h
    simp only [shrinkPile, noUb_bind, noUb_orUb, destruct_noUb, true_and]
    refine ⟨by simp [hne], ?_⟩
    intro c _ g hg
    obtain ⟨_, rfl⟩ := destruct_eq_ok.mp hg
    apply ih
    simp; omega

theorem pileResize_noUb {f : Frame} {p : Place} {n : Nat} (h : WellFormed p) : NoUb (f.pileResize p n) := by
  obtain ⟨C, i, h⟩ := wellFormed_iff_at.mp h
  cases h with
  | pile k s o =>
    simp only [pileResize, massert_true (Place.isPile_pile _ _ _ _), Place.pileKey_mk, bind_ok]
    split
    · simp
    · split
      · exact shrinkPile_noUb (by omega)
      · simp
  | slot k o h => simp [pileResize]
  | mats k n => simp [pileResize]

theorem shrinkPile_returns {k : PileKey} {n : Nat} {f : Frame} (h : Inv f) (hn : n ≤ (f.layout.pile k).length) :
    ∃ g, shrinkPile k n f = .ok g := by
  induction n generalizing f with
  | zero => exact ⟨f, rfl⟩
  | succ n ih =>
    have hne : f.layout.pile k ≠ [] := by intro e; rw [e] at hn; simp at hn
    have hc := List.getLast?_eq_some_getLast hne
    generalize hcc : (f.layout.pile k).getLast hne = c at hc
    have happ : f.layout.pile k = (f.layout.pile k).dropLast ++ [c] := by
      rw [← hcc]; exact (List.dropLast_concat_getLast hne).symm
    have hm : c ∈ f.owned := h.mem_owned (C := .pile k) (by rw [view_pile, happ]; simp)
    have hi : Inv { layout := f.layout.setPile k (f.layout.pile k).dropLast, owned := f.owned.erase c, next := f.next } := by
      refine ⟨fun x => ?_, h.nodup.erase c, fun x hx => h.fresh x (List.mem_of_mem_erase hx)⟩
      have a := count_placed_upd (view f.layout) (.pile k) (f.layout.pile k).dropLast x
      have b := h.count x
      have e : (f.layout.pile k).count x = (f.layout.pile k).dropLast.count x + [c].count x := by
        conv => lhs; rw [happ]
        rw [List.count_append]
      rw [view_pile] at a
      simp only [view_setPile, count_erase1]
      omega
    obtain ⟨g, hg⟩ := ih hi (by simp; omega)
    refine ⟨g, ?_⟩
    simp only [shrinkPile, hc, orUb, bind_ok, destruct_eq_ok.mpr ⟨hm, rfl⟩]
    exact hg

theorem pileResize_returns {f : Frame} {p : Place} {n : Nat} {k : PileKey} {i : Nat} (h : Inv f) (hp : At p (.pile k) i) :
    ∃ g, f.pileResize p n = .ok g := by
  simp only [pileResize, massert_true hp.isPile, hp.pileKey, bind_ok]
  split
  · exact ⟨_, rfl⟩
  · split
    · exact shrinkPile_returns h (by omega)
    · exact ⟨_, rfl⟩

end Frame
end Ygo
