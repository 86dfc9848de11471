import Verif.Lemmas.Frame

namespace Ygo
open Ygo.Spec

/-! ## Inverting `At` -/

theorem pile_ne_zone_code (a : PileLoc) (b : ZoneLoc) : a.code ≠ b.code := by
  intro h
  have := locIsPile_pile a
  rw [h, locIsPile_zone] at this
  cases this

theorem PileKey.ext' {a b : PileKey} (h1 : a.con = b.con) (h2 : a.loc = b.loc) : a = b := by
  cases a; cases b; simp_all

theorem ZoneKey.ext' {a b : ZoneKey} (h1 : a.con = b.con) (h2 : a.loc = b.loc) (h3 : a.seq = b.seq) : a = b := by
  cases a; cases b; simp_all

theorem con_inj {a b : Fin 2} (h : ((a.val : Nat) : Int) = ((b.val : Nat) : Int)) : a = b := by
  apply Fin.ext; omega

@[simp] theorem at_pile_iff {k : PileKey} {s : Nat} {o : Int} {C : Container} {i : Nat} :
    At ⟨(k.con.val : Nat), k.loc.code, s, o⟩ C i ↔ C = .pile k ∧ i = s := by
  constructor
  · intro h
    generalize hp : (⟨(k.con.val : Nat), k.loc.code, s, o⟩ : Place) = p at h
    cases h with
    | pile k' s' o' =>
      injection hp with h1 h2 h3 h4
      exact ⟨by rw [PileKey.ext' (con_inj h1) (PileLoc.code_inj.mp h2)], h3.symm⟩
    | slot k' o' ho => injection hp with h1 h2; exact absurd h2 (pile_ne_zone_code _ _)
    | mats k' n => injection hp with h1 h2; exact absurd h2 (pile_ne_zone_code _ _)
  · rintro ⟨rfl, rfl⟩; exact .pile k _ o

@[simp] theorem at_zone_iff {k : ZoneKey} {o : Int} {C : Container} {i : Nat} :
    At ⟨(k.con.val : Nat), k.loc.code, k.seq, o⟩ C i ↔
      (o < 0 ∧ C = .slot k ∧ i = 0) ∨ (0 ≤ o ∧ C = .mats k ∧ i = o.toNat) := by
  constructor
  · intro h
    generalize hp : (⟨(k.con.val : Nat), k.loc.code, k.seq, o⟩ : Place) = p at h
    cases h with
    | pile k' s' o' => injection hp with h1 h2; exact absurd h2.symm (pile_ne_zone_code _ _)
    | slot k' o' ho =>
      injection hp with h1 h2 h3 h4
      left
      exact ⟨by omega, by rw [ZoneKey.ext' (con_inj h1) (ZoneLoc.code_inj.mp h2) h3], rfl⟩
    | mats k' n =>
      injection hp with h1 h2 h3 h4
      right
      exact ⟨by omega, by rw [ZoneKey.ext' (con_inj h1) (ZoneLoc.code_inj.mp h2) h3], by omega⟩
  · rintro (⟨h, rfl, rfl⟩ | ⟨h, rfl, rfl⟩)
    · exact .slot k o h
    · have : o = ((o.toNat : Nat) : Int) := by omega
      conv => arg 1; rw [this]
      exact .mats k o.toNat

theorem not_at_of_pile_error {p : Place} {e : Err} (h1 : p.isPile = true) (h2 : p.pileKey = .error e)
    (C : Container) (i : Nat) : ¬ At p C i := by
  intro h
  cases h with
  | pile k s o => rw [Place.pileKey_mk] at h2; cases h2
  | slot k o ho => simp at h1
  | mats k n => simp at h1

theorem not_at_of_zone_error {p : Place} {e : Err} (h1 : p.isPile = false) (h2 : p.zoneKey = .error e)
    (C : Container) (i : Nat) : ¬ At p C i := by
  intro h
  cases h with
  | pile k s o => simp at h1
  | slot k o ho => rw [Place.zoneKey_mk] at h2; cases h2
  | mats k n => rw [Place.zoneKey_mk] at h2; cases h2

theorem At.unique {p : Place} {C C' : Container} {i i' : Nat} (h : At p C i) (h' : At p C' i') : C = C' ∧ i = i' := by
  cases h with
  | pile k s o => simp at h'; exact ⟨h'.1.symm, h'.2.symm⟩
  | slot k o ho =>
    rw [at_zone_iff] at h'
    rcases h' with ⟨_, rfl, rfl⟩ | ⟨h0, _⟩
    · exact ⟨rfl, rfl⟩
    · omega
  | mats k n =>
    rw [at_zone_iff] at h'
    rcases h' with ⟨h0, _⟩ | ⟨_, rfl, rfl⟩
    · omega
    · exact ⟨rfl, by omega⟩

theorem zoneSeqLim_key (k : ZoneKey) : zoneSeqLim k.loc.code = .ok k.loc.limit := zoneSeqLim_zone _

@[simp] theorem takeAt_eq_ok {p q : List CardId} {i : Nat} {c : CardId} :
    takeAt p i = .ok (c, q) ↔ p[i]? = some c ∧ q = p.eraseIdx i := by
  simp only [takeAt, bind_eq_ok, massert_eq_ok, orUb_eq_ok, pure_eq_ok, Except.ok.injEq, Prod.mk.injEq]
  constructor
  · rintro ⟨_, _, a, h, rfl, rfl⟩; exact ⟨h, rfl⟩
  · rintro ⟨h, rfl⟩; exact ⟨(), lt_of_getElem?_some h, c, h, rfl, rfl⟩

theorem takeAt_ok {p : List CardId} {i : Nat} {c : CardId} (h : p[i]? = some c) :
    takeAt p i = .ok (c, p.eraseIdx i) := takeAt_eq_ok.mpr ⟨h, rfl⟩

@[simp] theorem insertAt_eq_ok {p q : List CardId} {i : Nat} {c : CardId} :
    insertAt p i c = .ok q ↔ i ≤ p.length ∧ q = p.insertIdx i c := by
  simp only [insertAt, bind_eq_ok, massert_eq_ok, pure_eq_ok, Except.ok.injEq]
  constructor
  · rintro ⟨_, h, rfl⟩; exact ⟨h, rfl⟩
  · rintro ⟨h, rfl⟩; exact ⟨(), h, rfl⟩

theorem insertAt_ok {p : List CardId} {i : Nat} (c : CardId) (h : i ≤ p.length) :
    insertAt p i c = .ok (p.insertIdx i c) := insertAt_eq_ok.mpr ⟨h, rfl⟩

theorem insertAt_err {p : List CardId} {i : Nat} (c : CardId) (h : ¬ i ≤ p.length) :
    insertAt p i c = .error .assert := by simp [insertAt, massert_false h]

/-! ## Observers -/

namespace Layout

theorem hasCard_at {l : Layout} {p : Place} {C : Container} {i : Nat} (h : At p C i) :
    l.hasCard p = .ok (decide (i < (view l C).length)) := by
  cases h with
  | pile k s o => simp [hasCard]
  | slot k o ho =>
    simp [hasCard, massert_true k.lt, ho]
    cases (l.zone k).card <;> simp
  | mats k n =>
    simp [hasCard, massert_true k.lt]
    omega

theorem hasCard_eq_ok {l : Layout} {p : Place} {b : Bool} :
    l.hasCard p = .ok b ↔ ∃ C i, At p C i ∧ b = decide (i < (view l C).length) := by
  constructor
  · intro h
    have : ∃ C i, At p C i := by
      rcases p.cases with ⟨k, s, o, rfl⟩ | ⟨k, o, rfl⟩ | ⟨h1, e, h2⟩ | ⟨h1, e, h2⟩
      · exact ⟨_, _, .pile k s o⟩
      · by_cases ho : o < 0
        · exact ⟨.slot k, 0, by simp [ho]⟩
        · exact ⟨.mats k, o.toNat, by simp; omega⟩
      · simp [hasCard, h1, h2] at h
      · simp [hasCard, h1, h2] at h
    obtain ⟨C, i, hat⟩ := this
    rw [hasCard_at hat] at h
    cases h
    exact ⟨C, i, hat, rfl⟩
  · rintro ⟨C, i, hat, rfl⟩; exact hasCard_at hat

theorem hasCard_true {l : Layout} {p : Place} {C : Container} {i : Nat} (h : At p C i) (hi : i < (view l C).length) :
    l.hasCard p = .ok true := by
  rw [hasCard_at h]; simp [hi]

theorem card_eq_ok {l : Layout} {p : Place} {c : CardId} :
    l.card p = .ok c ↔ ∃ C i, At p C i ∧ (view l C)[i]? = some c := by
  constructor
  · intro h
    rcases p.cases with ⟨k, s, o, rfl⟩ | ⟨k, o, rfl⟩ | ⟨h1, e, h2⟩ | ⟨h1, e, h2⟩
    · simp [card] at h
      exact ⟨_, _, .pile k s o, h.2⟩
    · by_cases ho : o < 0
      · simp [card, ho] at h
        exact ⟨.slot k, 0, by simp [ho], by simp [h.2]⟩
      · simp [card, ho] at h
        exact ⟨.mats k, o.toNat, by simp; omega, h.2⟩
    · simp [card, hasCard, h1, h2] at h
    · simp [card, hasCard, h1, h2] at h
  · rintro ⟨C, i, hat, hc⟩
    have hh := hasCard_true hat (lt_of_getElem?_some hc)
    cases hat with
    | pile k s o => simp [card, hh]; exact hc
    | slot k o ho =>
      simp [card, hh, ho]
      cases hz : (l.zone k).card <;> simp [hz] at hc ⊢
      exact hc
    | mats k n =>
      simp [card, hh]
      rw [if_neg (by omega)]; simpa using hc

/-! ## Insertion and removal -/

theorem cardInsert_eq_ok {l l' : Layout} {p : Place} {c : CardId} :
    l.cardInsert p c = .ok l' ↔
      ∃ C i, At p C i ∧ Fits (view l) C i ∧ view l' = (view l).put C i c := by
  constructor
  · intro h
    rcases p.cases with ⟨k, s, o, rfl⟩ | ⟨k, o, rfl⟩ | ⟨h1, e, h2⟩ | ⟨h1, e, h2⟩
    · simp [cardInsert] at h
      obtain ⟨_, ⟨h1, rfl⟩, rfl⟩ := h
      exact ⟨_, _, .pile k s o, ⟨h1, by simp⟩, by simp [view_setPile, Board.put]⟩
    · by_cases ho : o < 0
      · simp [cardInsert, ho] at h
        obtain ⟨h1, rfl⟩ := h
        refine ⟨.slot k, 0, by simp [ho], ⟨by simp, by simp [h1]⟩, by simp [view_setCard, Board.put, h1]⟩
      · simp [cardInsert, ho] at h
        obtain ⟨_, ⟨h1, rfl⟩, rfl⟩ := h
        exact ⟨.mats k, o.toNat, by simp; omega, ⟨by simp; omega, by simp⟩, by simp [view_setMats, Board.put]⟩
    · simp [cardInsert, h1, h2] at h
    · simp [cardInsert, h1, h2] at h
  · rintro ⟨C, i, hat, ⟨hf1, hf2⟩, hv⟩
    cases hat with
    | pile k s o =>
      simp at hf1
      simp [cardInsert, insertAt_ok c hf1]
      apply view_inj; rw [hv]; simp [view_setPile, Board.put]
    | slot k o ho =>
      have h0 : (l.zone k).card = none := by simpa using hf2 k rfl
      simp [cardInsert, ho, h0]
      apply view_inj; rw [hv]; simp [view_setCard, Board.put, h0]
    | mats k n =>
      simp at hf1
      simp [cardInsert]
      rw [if_neg (by omega)]
      simp [insertAt_ok c hf1]
      apply view_inj; rw [hv]; simp [view_setMats, Board.put]

theorem cardErase_eq_ok {l l' : Layout} {p : Place} {c : CardId} :
    l.cardErase p = .ok (c, l') ↔
      ∃ C i, At p C i ∧ (view l C)[i]? = some c ∧ view l' = (view l).take C i := by
  constructor
  · intro h
    rcases p.cases with ⟨k, s, o, rfl⟩ | ⟨k, o, rfl⟩ | ⟨h1, e, h2⟩ | ⟨h1, e, h2⟩
    · simp [cardErase] at h
      obtain ⟨a, h1, rfl, rfl⟩ := h
      exact ⟨_, _, .pile k s o, h1, by simp [view_setPile, Board.take]⟩
    · by_cases ho : o < 0
      · simp [cardErase, ho] at h
        obtain ⟨a, h1, rfl, rfl⟩ := h
        refine ⟨.slot k, 0, by simp [ho], by simp [h1], by simp [view_setCard, Board.take, h1]⟩
      · simp [cardErase, ho] at h
        obtain ⟨a, b, ⟨h1, rfl⟩, rfl, rfl⟩ := h
        exact ⟨.mats k, o.toNat, by simp; omega, h1, by simp [view_setMats, Board.take]⟩
    · simp [cardErase, h1, h2] at h
    · simp [cardErase, h1, h2] at h
  · rintro ⟨C, i, hat, hc, hv⟩
    cases hat with
    | pile k s o =>
      simp at hc
      simp [cardErase, hc, orUb]
      apply view_inj; rw [hv]; simp [view_setPile, Board.take]
    | slot k o ho =>
      cases hz : (l.zone k).card <;> simp [hz] at hc
      subst hc
      simp [cardErase, ho, hz, orUb]
      apply view_inj; rw [hv]; simp [view_setCard, Board.take, hz]
    | mats k n =>
      have hlt := lt_of_getElem?_some hc
      simp at hc hlt
      simp [cardErase]
      rw [if_neg (by omega)]
      simp [takeAt_ok hc]
      apply view_inj; rw [hv]; simp [view_setMats, Board.take]

end Layout
end Ygo
