import Verif.Spec.Table
import Verif.Lemmas.FrameShuffle
import Verif.Props.Frame

set_option linter.unusedSimpArgs false

namespace Ygo
open Ygo.Spec Ygo.Props

/-! ## Boards that are layouts -/

/-- The layout that shows a board. -/
def layoutOf (B : Board) : Layout := ⟨fun k => B (.pile k), fun k => ⟨(B (.slot k)).head?, B (.mats k)⟩⟩

theorem view_layoutOf {B : Board} (h : ∀ k, (B (.slot k)).length ≤ 1) : view (layoutOf B) = B := by
  funext C
  cases C with
  | pile k => rfl
  | mats k => rfl
  | slot k =>
    have := h k
    simp only [view, layoutOf]
    cases e : B (.slot k) with
    | nil => rfl
    | cons a t =>
      rw [e] at this
      have : t = [] := List.eq_nil_of_length_eq_zero (by simpa using this)
      simp [this]

theorem view_slot_le (l : Layout) (k : ZoneKey) : (view l (.slot k)).length ≤ 1 := by
  simp only [view]; cases (l.zone k).card <;> simp

/-! ## Shuffling -/

namespace Layout

theorem exchanged_row {c : Fin 2} {loc : ZoneLoc} {k1 k2 k : ZoneKey} (h1 : k1.con = c ∧ k1.loc = loc) (h2 : k2.con = c ∧ k2.loc = loc)
    (hk : k.con = c ∧ k.loc = loc) :
    ((exchanged k1 k2 k).con = c ∧ (exchanged k1 k2 k).loc = loc) ∧ (exchanged k1 k2 k).seq = transp k1.seq k2.seq k.seq := by
  unfold exchanged transp
  by_cases e2 : k = k2
  · simp [e2, h1]
  · have n2 : k.seq ≠ k2.seq := fun e => e2 (ZoneKey.ext' (hk.1.trans h2.1.symm) (hk.2.trans h2.2.symm) e)
    by_cases e1 : k = k1
    · subst e1; rw [if_neg e2, if_pos rfl, if_neg n2, if_pos rfl]; exact ⟨h2, rfl⟩
    · have n1 : k.seq ≠ k1.seq := fun e => e1 (ZoneKey.ext' (hk.1.trans h1.1.symm) (hk.2.trans h1.2.symm) e)
      rw [if_neg e2, if_neg e1, if_neg n2, if_neg n1]; exact ⟨hk, rfl⟩

theorem names_unique {p : Place} {k k' : ZoneKey} (h : Names p k) (h' : Names p k') : k = k' :=
  ZoneKey.ext' (con_inj (h.1.symm.trans h'.1)) (ZoneLoc.code_inj.mp (h.2.1.symm.trans h'.2.1)) (h.2.2.symm.trans h'.2.2)

theorem names_not_empty {p : Place} {k : ZoneKey} (h : Names p k) : p.isEmpty = false := by
  obtain ⟨_, h, _⟩ := h
  simp only [Place.isEmpty, h]
  cases k.loc <;> decide

theorem names_row {p : Place} {k : ZoneKey} {c : Fin 2} {loc : ZoneLoc} (h : Names p k) (hr : p.con = c.val ∧ p.loc = loc.code) :
    k.con = c ∧ k.loc = loc :=
  ⟨con_inj (h.1.symm.trans hr.1), ZoneLoc.code_inj.mp (h.2.1.symm.trans hr.2)⟩

/-- The second loop deals the zones out. -/
theorem shuffleLoop_deal (c : Fin 2) (loc : ZoneLoc) {B : Board} {n i : Nat} {prev cur : List Place} {seqs : List Nat}
    {zs : List (ZoneKey × Option ZoneKey)} {now : ZoneKey → ZoneKey} (l : Layout) (hd : Dealt B prev cur n zs) (hn : seqs.Nodup)
    (hp : ∀ q ∈ cur, q.isEmpty = false → q.con = c.val ∧ q.loc = loc.code)
    (hs : ∀ j p k, j < n → prev[j]? = some p → Names p k → ((now k).con = c ∧ (now k).loc = loc) ∧ seqs[i + j]? = some (now k).seq) :
    ∃ l', shuffleLoop n i cur seqs l = .ok l' ∧ view l' = (view l).deal now zs := by
  induction n generalizing i prev cur seqs zs now l with
  | zero => cases prev <;> cases cur <;> (simp only [Dealt] at hd; subst hd; exact ⟨l, rfl, rfl⟩)
  | succ n ih =>
    cases prev with
    | nil => simp [Dealt] at hd
    | cons p prev =>
    cases cur with
    | nil => simp [Dealt] at hd
    | cons q cur =>
      simp only [Dealt] at hd
      obtain ⟨k, t, rest, rfl, ⟨hk, _⟩, ht, hd⟩ := hd
      have hp' : ∀ q ∈ cur, q.isEmpty = false → q.con = c.val ∧ q.loc = loc.code := fun q hq => hp q (by simp [hq])
      cases t with
      | none =>
        simp only [NamesOr] at ht
        obtain ⟨l', h1, h2⟩ := ih (i := i + 1) (now := now) l hd hn hp' (fun j p k hj hp hk => by
          have := hs (j + 1) p k (by omega) (by simpa using hp) hk
          rw [show i + 1 + j = i + (j + 1) by omega]; exact this)
        refine ⟨l', ?_, h2⟩
        simp only [shuffleLoop, ht, if_true]; exact h1
      | some t =>
        simp only [NamesOr] at ht
        have he := names_not_empty ht
        have rt := names_row ht (hp q (by simp) he)
        obtain ⟨rk, sk⟩ := hs 0 p k (by omega) rfl hk
        have sk : seqs[i]? = some (now k).seq := sk
        have hq : q.seq = t.seq := ht.2.2
        have hn' : (seqs.map (transp (now k).seq t.seq)).Nodup := by
          rw [List.Nodup, List.pairwise_map]
          refine List.Pairwise.imp ?_ hn
          intro a b hab e
          apply hab
          rw [← transp_inv (now k).seq t.seq a, e, transp_inv]
        obtain ⟨l', h1, h2⟩ := ih (i := i + 1) (now := fun x => exchanged (now k) t (now x)) (seqs := seqs.map (transp (now k).seq t.seq))
          (l.swapZones (now k) t) hd hn' hp' (fun j p' k' hj hp hk' => by
            obtain ⟨r, s⟩ := hs (j + 1) p' k' (by omega) (by simpa using hp) hk'
            obtain ⟨e1, e2⟩ := exchanged_row rk rt r
            refine ⟨e1, ?_⟩
            rw [List.getElem?_map, show i + 1 + j = i + (j + 1) by omega, s, e2]; rfl)
        refine ⟨l', ?_, by rw [h2, view_swapZones]; rfl⟩
        have k1 : Ygo.zoneKey q.con q.loc (now k).seq = .ok (now k) :=
          zoneKey_eq_ok.mpr ⟨by rw [ht.1, rk.1, rt.1], by rw [ht.2.1, rk.2, rt.2], rfl⟩
        have k2 : q.zoneKey = .ok t := zoneKey_eq_ok.mpr ht
        simp only [shuffleLoop, he, sk]
        show (do let k1 ← Ygo.zoneKey q.con q.loc (now k).seq; let k2 ← q.zoneKey; shuffleLoop n (i+1) cur _ (l.swapZones k1 k2)) = _
        rw [k1, k2]
        show shuffleLoop n (i+1) cur _ (l.swapZones (now k) t) = _
        rw [hq, update_eq_map hn sk]
        exact h1

/-- If the second loop returns, each current place is a zone or nothing. -/
theorem shuffleLoop_names {n i : Nat} {cur : List Place} {seqs : List Nat} {l l' : Layout} (h : shuffleLoop n i cur seqs l = .ok l') :
    ∃ ts : List (Option ZoneKey), ts.length = n ∧ n ≤ cur.length ∧ ∀ (j : Nat) q t, cur[j]? = some q → ts[j]? = some t → NamesOr q t := by
  induction n generalizing i cur seqs l with
  | zero => exact ⟨[], rfl, by omega, by simp⟩
  | succ n ih =>
    cases cur with
    | nil => simp [shuffleLoop] at h
    | cons q cur =>
      simp only [shuffleLoop] at h
      split at h
      · rename_i he
        obtain ⟨ts, h1, h2, h3⟩ := ih h
        refine ⟨none :: ts, by simp [h1], by simp; omega, ?_⟩
        intro j q' t hq ht
        cases j with
        | zero => simp at hq ht; subst hq ht; exact he
        | succ j => exact h3 j q' t (by simpa using hq) (by simpa using ht)
      · simp only [bind_eq_ok] at h
        obtain ⟨si, _, k1, _, k2, hk2, h⟩ := h
        obtain ⟨ts, h1, h2, h3⟩ := ih h
        refine ⟨some k2 :: ts, by simp [h1], by simp; omega, ?_⟩
        intro j q' t hq ht
        cases j with
        | zero => simp at hq ht; subst hq ht; exact zoneKey_eq_ok.mp hk2
        | succ j => exact h3 j q' t (by simpa using hq) (by simpa using ht)

/-- A place in a row of zones with a card. -/
theorem shows1_of_row {l : Layout} {p : Place} {c : Fin 2} {loc : ZoneLoc} (hr : p.con = c.val ∧ p.loc = loc.code)
    (h : l.hasCard p = .ok true) : ∃ k, Shows1 (view l) p k := by
  obtain ⟨C, i, ha, hi⟩ := hasCard_eq_ok.mp h
  have hi : i < (view l C).length := by simpa using hi
  have : ∃ k, Names p k := by
    cases ha with
    | pile k s o => exact absurd hr.2 (pile_ne_zone_code _ _)
    | slot k o h => exact ⟨k, rfl, rfl, rfl⟩
    | mats k m => exact ⟨k, rfl, rfl, rfl⟩
  obtain ⟨k, hk⟩ := this
  exact ⟨k, hk, C, i, ha, hi⟩

theorem shuffleSeqs_shows {l : Layout} {n : Nat} {ps : List Place} {seqs : List Nat} {c : Fin 2} {loc : ZoneLoc} (h : l.shuffleSeqs n ps = .ok seqs)
    (hr : ∀ p ∈ ps, p.con = c.val ∧ p.loc = loc.code) :
    ∃ ks : List ZoneKey, ks.length = n ∧ n ≤ ps.length ∧ ∀ (j : Nat) p k, ps[j]? = some p → ks[j]? = some k → Shows1 (view l) p k := by
  induction n generalizing ps seqs with
  | zero => exact ⟨[], rfl, by omega, by simp⟩
  | succ n ih =>
    cases ps with
    | nil => simp [shuffleSeqs] at h
    | cons p ps =>
      simp only [shuffleSeqs, bind_eq_ok, pure_eq_ok, Except.ok.injEq, massert_eq_ok] at h
      obtain ⟨b, hb, _, rfl, r, hrs, _⟩ := h
      obtain ⟨ks, h1, h2, h3⟩ := ih hrs (fun q hq => hr q (by simp [hq]))
      obtain ⟨k, hk⟩ := shows1_of_row (hr p (by simp)) hb
      refine ⟨k :: ks, by simp [h1], by simp; omega, ?_⟩
      intro j p' k' hp hk'
      cases j with
      | zero => simp at hp hk'; subst hp hk'; exact hk
      | succ j => exact h3 j p' k' (by simpa using hp) (by simpa using hk')

theorem dealt_of {B : Board} {n : Nat} {prev cur : List Place} {ks : List ZoneKey} {ts : List (Option ZoneKey)} (h1 : ks.length = n) (h2 : ts.length = n)
    (h3 : n ≤ prev.length) (h4 : n ≤ cur.length) (h5 : ∀ (j : Nat) p k, prev[j]? = some p → ks[j]? = some k → Shows1 B p k)
    (h6 : ∀ (j : Nat) q t, cur[j]? = some q → ts[j]? = some t → NamesOr q t) : Dealt B prev cur n (ks.zip ts) := by
  induction n generalizing prev cur ks ts with
  | zero =>
    have := List.eq_nil_of_length_eq_zero h1; subst this
    cases prev <;> cases cur <;> simp [Dealt]
  | succ n ih =>
    cases prev with
    | nil => simp at h3
    | cons p prev =>
    cases cur with
    | nil => simp at h4
    | cons q cur =>
    cases ks with
    | nil => simp at h1
    | cons k ks =>
    cases ts with
    | nil => simp at h2
    | cons t ts =>
      simp only [Dealt]
      exact ⟨k, t, ks.zip ts, rfl, h5 0 p k rfl rfl, h6 0 q t rfl rfl,
        ih (by simpa using h1) (by simpa using h2) (by simpa using h3) (by simpa using h4)
          (fun j p k hp hk => h5 (j + 1) p k (by simpa using hp) (by simpa using hk))
          (fun j q t hp hk => h6 (j + 1) q t (by simpa using hp) (by simpa using hk))⟩

theorem dealt_shows {B : Board} {n : Nat} {prev cur : List Place} {zs : List (ZoneKey × Option ZoneKey)} (h : Dealt B prev cur n zs) :
    n ≤ prev.length ∧ ∀ p ∈ prev.take n, ∃ k, Shows1 B p k := by
  induction n generalizing prev cur zs with
  | zero => simp
  | succ n ih =>
    cases prev with
    | nil => simp [Dealt] at h
    | cons p prev =>
    cases cur with
    | nil => simp [Dealt] at h
    | cons q cur =>
      simp only [Dealt] at h
      obtain ⟨k, t, rest, rfl, hk, _, hd⟩ := h
      obtain ⟨h1, h2⟩ := ih hd
      refine ⟨by simp; omega, ?_⟩
      intro p' hp'
      rw [List.take_succ_cons, List.mem_cons] at hp'
      rcases hp' with rfl | hp'
      · exact ⟨k, hk⟩
      · exact h2 p' hp'

/-- `card_shuffle` within a row, exactly. -/
theorem cardShuffle_iff {l : Layout} {prev cur : List Place} {n : Nat} (ht : Tidy (.shuffle prev cur n)) (B' : Board) :
    (∃ l', l.cardShuffle prev cur n = .ok l' ∧ view l' = B') ↔
      prev ≠ [] ∧ n ≤ 7 ∧ ∃ zs, Dealt (view l) prev cur n zs ∧ B' = (view l).deal id zs := by
  obtain ⟨c, loc, hrow, hcur, hnod⟩ := ht
  have main : ∀ zs, Dealt (view l) prev cur n zs → prev ≠ [] → n ≤ 7 →
      ∃ l', l.cardShuffle prev cur n = .ok l' ∧ view l' = (view l).deal id zs := by
    intro zs hd hne hn
    obtain ⟨d1, d2⟩ := dealt_shows hd
    have h1 := shuffleSeqs_returns (l := l) d1 fun p hp => by
      obtain ⟨k, _, C, i, ha, hi⟩ := d2 p hp
      exact hasCard_true ha hi
    obtain ⟨l', h2, h3⟩ := shuffleLoop_deal (now := id) c loc (i := 0) (seqs := (prev.take n).map (·.seq)) l hd hnod hcur
      (fun j p k hj hp hk => by
        refine ⟨names_row hk (hrow p (List.mem_of_getElem? hp)), ?_⟩
        rw [Nat.zero_add, List.getElem?_map, List.getElem?_take, if_pos hj, hp]
        simp [hk.2.2])
    refine ⟨l', ?_, h3⟩
    obtain ⟨p, ps, rfl⟩ := List.exists_cons_of_ne_nil hne
    have hp : p.isPile = false := by
      simp only [Place.isPile, (hrow p (by simp)).2]; cases loc <;> decide
    rw [cardShuffle, List.head?_cons]
    show (do massert (p.isPile = false); massert (n ≤ 7); guardUb (n ≤ 7); let seqs ← l.shuffleSeqs n (p :: ps); shuffleLoop n 0 cur seqs l) = _
    rw [massert_true hp, massert_true hn, h1, guardUb, if_pos hn]
    exact h2
  constructor
  · rintro ⟨l', h, rfl⟩
    have h0 := h
    simp only [cardShuffle, bind_eq_ok, massert_eq_ok, orUb_eq_ok] at h
    obtain ⟨p0, h1, _, _, _, hn, _, _, seqs, hs, h⟩ := h
    have hne : prev ≠ [] := by rintro rfl; simp at h1
    obtain ⟨ks, a1, a2, a3⟩ := shuffleSeqs_shows hs hrow
    obtain ⟨ts, b1, b2, b3⟩ := shuffleLoop_names h
    have hd := dealt_of a1 b1 a2 b2 a3 b3
    obtain ⟨l2, e1, e2⟩ := main _ hd hne hn
    rw [h0] at e1; cases e1
    exact ⟨hne, hn, _, hd, e2⟩
  · rintro ⟨hne, hn, zs, hd, rfl⟩
    exact main zs hd hne hn

end Layout

/-! ## One call -/

theorem eq_tableOf {f : Frame} {T : Table} : tableOf f = T ↔ view f.layout = T.board ∧ f.next = T.next := by
  cases T; simp [tableOf]

theorem slot_le_upd {B : Board} (h : ∀ k, (B (.slot k)).length ≤ 1) {C : Container} {v : List CardId} (hv : ∀ k, C = .slot k → v.length ≤ 1) (k : ZoneKey) :
    ((B.upd C v) (.slot k)).length ≤ 1 := by
  simp only [Board.upd]
  split
  · rename_i e; exact hv k e.symm
  · exact h k

theorem slot_le_put {B : Board} (h : ∀ k, (B (.slot k)).length ≤ 1) {C : Container} {i : Nat} {c : CardId} (hv : ∀ k, C = .slot k → B C = []) (k : ZoneKey) :
    ((B.put C i c) (.slot k)).length ≤ 1 := by
  refine slot_le_upd h (fun k hk => ?_) k
  rw [hv k hk]
  cases i <;> simp [List.insertIdx]

theorem slot_le_take {B : Board} (h : ∀ k, (B (.slot k)).length ≤ 1) {C : Container} {i : Nat} (k : ZoneKey) :
    ((B.take C i) (.slot k)).length ≤ 1 := by
  refine slot_le_upd h (fun k hk => ?_) k
  have := h k
  rw [hk, List.length_eraseIdx]; split <;> omega

theorem slot_le_carry {B : Board} (h : ∀ k, (B (.slot k)).length ≤ 1) {C1 C2 : Container} (k : ZoneKey) :
    ((B.carry C1 C2) (.slot k)).length ≤ 1 := by
  cases C1 <;> cases C2 <;>
    first | exact h k | exact slot_le_upd (slot_le_upd h (fun _ e => by cases e)) (fun _ e => by cases e) k

theorem slot_le_swapMats {B : Board} (h : ∀ k, (B (.slot k)).length ≤ 1) {C1 C2 : Container} (k : ZoneKey) :
    ((B.swapMats C1 C2) (.slot k)).length ≤ 1 := by
  cases C1 <;> cases C2 <;>
    first | exact h k | exact slot_le_upd (slot_le_upd h (fun _ e => by cases e)) (fun _ e => by cases e) k

theorem slot_le_exchange {B : Board} (h : ∀ k, (B (.slot k)).length ≤ 1) {C1 C2 : Container} {i j : Nat} {c1 c2 : CardId} (k : ZoneKey) :
    ((B.exchange C1 i C2 j c1 c2) (.slot k)).length ≤ 1 := by
  have h1 : ∀ k, ((B.upd C1 ((B C1).set i c2)) (.slot k)).length ≤ 1 :=
    slot_le_upd h (fun k e => by rw [e, List.length_set]; exact h k)
  exact slot_le_upd h1 (fun k e => by rw [e, List.length_set]; exact h1 k) k

/-- The frame whose layout is this board. -/
def Frame.with (f : Frame) (B : Board) : Frame := { f with layout := layoutOf B }

theorem Inv.step_iff {f : Frame} (hi : Inv f) (op : FrameOp) (ht : Tidy op) (T' : Table) :
    (∃ f', f.step op = .ok f' ∧ tableOf f' = T') ↔ (tableOf f).Step op T' := by
  have hs := view_slot_le f.layout
  cases op with
  | add p =>
    simp only [Frame.step, Table.Step, bind_eq_ok, pure_eq_ok, Except.ok.injEq, Prod.exists]
    constructor
    · rintro ⟨f', ⟨g, c, h, rfl⟩, rfl⟩
      obtain ⟨rfl, h2, h3, C, i, ha, hf, hv⟩ := (C07_card_add f p g c).mp h
      exact ⟨C, i, ha, hf, eq_tableOf.mpr ⟨hv, h2⟩⟩
    · rintro ⟨C, i, ha, hf, rfl⟩
      have hv := view_layoutOf (slot_le_put (i := i) (c := f.next) hs hf.2)
      exact ⟨⟨layoutOf _, f.next :: f.owned, f.next + 1⟩, ⟨_, f.next, (C07_card_add f p _ _).mpr ⟨rfl, rfl, rfl, C, i, ha, hf, hv⟩, rfl⟩,
        eq_tableOf.mpr ⟨hv, rfl⟩⟩
  | remove p =>
    simp only [Frame.step, Table.Step]
    constructor
    · rintro ⟨f', h, rfl⟩
      obtain ⟨C, i, c, ha, hc, _, hv, _, hn⟩ := Frame.cardRemove_eq_ok.mp h
      exact ⟨C, i, ha, lt_of_getElem?_some hc, eq_tableOf.mpr ⟨hv, hn⟩⟩
    · rintro ⟨C, i, ha, hlt, rfl⟩
      have hc : (view f.layout C)[i]? = some (view f.layout C)[i] := List.getElem?_eq_getElem hlt
      have hv := view_layoutOf (slot_le_take (C := C) (i := i) hs)
      exact ⟨⟨layoutOf _, f.owned.erase _, f.next⟩,
        Frame.cardRemove_eq_ok.mpr ⟨C, i, _, ha, hc, hi.mem_owned (List.mem_of_getElem? hc), hv, rfl, rfl⟩, eq_tableOf.mpr ⟨hv, rfl⟩⟩
  | move a b =>
    simp only [Frame.step, Table.Step, bind_eq_ok, pure_eq_ok, Except.ok.injEq, Prod.exists]
    constructor
    · rintro ⟨f', ⟨g, c, h, rfl⟩, rfl⟩
      obtain ⟨_, h2, C1, i, C2, j, h3, h4, h5, h6, h7, h8, h9, h10, hv⟩ := (C09_card_move f g a b c).mp h
      exact ⟨C1, i, C2, j, c, h3, h4, h5, h6, h7, h8, h9, h10, eq_tableOf.mpr ⟨hv, h2⟩⟩
    · rintro ⟨C1, i, C2, j, c, h3, h4, h5, h6, h7, h8, h9, h10, rfl⟩
      have h8' : ∀ k, C2 = .slot k → ((view f.layout).take C1 i) C2 = [] := by
        intro k hk
        simp only [Board.take, upd_apply]
        split
        · rename_i e; rw [← e, show view f.layout C2 = [] from h8 k hk]; simp
        · exact h8 k hk
      have hv := view_layoutOf (slot_le_carry (C1 := C1) (C2 := C2) (slot_le_put (i := j) (c := c) (slot_le_take hs) h8'))
      exact ⟨f.with _, ⟨f.with _, c, (C09_card_move f (f.with _) a b c).mpr ⟨rfl, rfl, C1, i, C2, j, h3, h4, h5, h6, h7, h8, h9, h10, hv⟩, rfl⟩,
        eq_tableOf.mpr ⟨hv, rfl⟩⟩
  | shuffle prev cur n =>
    simp only [Frame.step, Frame.cardShuffle, Table.Step, bind_eq_ok, pure_eq_ok, Except.ok.injEq]
    constructor
    · rintro ⟨f', ⟨l, h, rfl⟩, rfl⟩
      obtain ⟨h1, h2, zs, h3, h4⟩ := (Layout.cardShuffle_iff ht (view l)).mp ⟨l, h, rfl⟩
      exact ⟨h1, h2, zs, h3, eq_tableOf.mpr ⟨h4, rfl⟩⟩
    · rintro ⟨h1, h2, zs, h3, rfl⟩
      obtain ⟨l, h, hv⟩ := (Layout.cardShuffle_iff ht _).mpr ⟨h1, h2, zs, h3, rfl⟩
      exact ⟨{ f with layout := l }, ⟨l, h, rfl⟩, eq_tableOf.mpr ⟨hv, rfl⟩⟩
  | swap a b =>
    simp only [Frame.step, Table.Step]
    constructor
    · rintro ⟨f', h, rfl⟩
      have h0 := h
      simp only [Frame.cardSwap, bind_eq_ok] at h0
      obtain ⟨l, hl, _⟩ := h0
      obtain ⟨⟨C1, i, ha⟩, C2, j, hb⟩ := Layout.cardSwap_places hl
      obtain ⟨_, h2, h3, h4, h5, h6, c1, c2, h7, h8, hv⟩ := (C11_card_swap_exactly f f' a b C1 C2 i j ha hb).mp h
      exact ⟨C1, i, C2, j, c1, c2, ha, hb, h3, h4, h5, h6, h7, h8, eq_tableOf.mpr ⟨hv, h2⟩⟩
    · rintro ⟨C1, i, C2, j, c1, c2, ha, hb, h3, h4, h5, h6, h7, h8, rfl⟩
      have hv := view_layoutOf (slot_le_swapMats (C1 := C1) (C2 := C2) (slot_le_exchange (C1 := C1) (C2 := C2) (i := swappedIndex C1 C2 i) (j := j) (c1 := c1) (c2 := c2) hs))
      exact ⟨f.with _, (C11_card_swap_exactly f _ a b C1 C2 i j ha hb).mpr ⟨rfl, rfl, h3, h4, h5, h6, c1, c2, h7, h8, hv⟩, eq_tableOf.mpr ⟨hv, rfl⟩⟩
  | resize p n =>
    simp only [Frame.step, Table.Step]
    constructor
    · rintro ⟨f', h, rfl⟩
      obtain ⟨k, hk⟩ := Frame.pileResize_place h
      obtain ⟨hv, _, hn⟩ := Frame.pileResize_at hk h
      exact ⟨k, _, hk, eq_tableOf.mpr ⟨hv, hn⟩⟩
    · rintro ⟨k, i, hk, rfl⟩
      obtain ⟨f', h⟩ := Frame.pileResize_returns (n := n) hi hk
      obtain ⟨hv, _, hn⟩ := Frame.pileResize_at hk h
      exact ⟨f', h, eq_tableOf.mpr ⟨hv, hn⟩⟩
  | splice a n b rev =>
    simp only [Frame.step, Table.Step]
    constructor
    · rintro ⟨f', h, rfl⟩
      obtain ⟨_, h2, k1, i, k2, j, h3, h4, h5, h6, hv⟩ := (C14_pile_splice f f' a b n rev).mp h
      exact ⟨k1, i, k2, j, h3, h4, h5, h6, eq_tableOf.mpr ⟨hv, h2⟩⟩
    · rintro ⟨k1, i, k2, j, h3, h4, h5, h6, rfl⟩
      have hv : view (layoutOf (((view f.layout).cut (.pile k1) i n).paste (.pile k2) j ((view f.layout).block (.pile k1) i n rev))) = _ :=
        view_layoutOf (slot_le_upd (slot_le_upd hs (fun _ e => by cases e)) (fun _ e => by cases e))
      exact ⟨f.with _, (C14_pile_splice f _ a b n rev).mpr ⟨rfl, rfl, k1, i, k2, j, h3, h4, h5, h6, hv⟩, eq_tableOf.mpr ⟨hv, rfl⟩⟩
  | pswap a b =>
    simp only [Frame.step, Frame.pileSwap, Table.Step, bind_eq_ok, pure_eq_ok, Except.ok.injEq]
    constructor
    · rintro ⟨f', ⟨l, h, rfl⟩, rfl⟩
      obtain ⟨k1, i, k2, j, h1, h2, hv⟩ := Layout.pileSwap_eq_ok.mp h
      exact ⟨k1, i, k2, j, h1, h2, eq_tableOf.mpr ⟨hv, rfl⟩⟩
    · rintro ⟨k1, i, k2, j, h1, h2, rfl⟩
      have hv : view (layoutOf ((view f.layout).swapAll (.pile k1) (.pile k2))) = _ :=
        view_layoutOf (slot_le_upd (slot_le_upd hs (fun _ e => by cases e)) (fun _ e => by cases e))
      exact ⟨f.with _, ⟨_, Layout.pileSwap_eq_ok.mpr ⟨k1, i, k2, j, h1, h2, hv⟩, rfl⟩, eq_tableOf.mpr ⟨hv, rfl⟩⟩
  | clear =>
    simp only [Frame.step, Table.Step]
    obtain ⟨g, h1, _, h2, h3, _⟩ := hi.clear
    constructor
    · rintro ⟨f', h, rfl⟩
      rw [h1] at h; cases h
      exact eq_tableOf.mpr ⟨funext h3, h2⟩
    · rintro rfl
      exact ⟨g, h1, eq_tableOf.mpr ⟨funext h3, h2⟩⟩

theorem Inv.steps_iff {f : Frame} (hi : Inv f) (ops : List FrameOp) (ht : ∀ op ∈ ops, Tidy op) (T' : Table) :
    (∃ f', runOps f ops = .ok f' ∧ tableOf f' = T') ↔ (tableOf f).Steps ops T' := by
  induction ops generalizing f with
  | nil =>
    constructor
    · rintro ⟨f', h, rfl⟩; cases h; exact .nil _
    · intro h; cases h; exact ⟨f, rfl, rfl⟩
  | cons op ops ih =>
    have hop := ht op (by simp)
    have hops : ∀ op ∈ ops, Tidy op := fun o ho => ht o (by simp [ho])
    simp only [runOps, bind_eq_ok]
    constructor
    · rintro ⟨f', ⟨g, h1, h2⟩, rfl⟩
      exact .cons ((hi.step_iff op hop _).mp ⟨g, h1, rfl⟩) ((ih (hi.step h1) hops).mp ⟨f', h2, rfl⟩)
    · intro h
      cases h with
      | cons h t =>
        obtain ⟨g, h1, rfl⟩ := (hi.step_iff op hop _).mpr h
        obtain ⟨f', h2, rfl⟩ := (ih (hi.step h1) hops).mpr t
        exact ⟨f', ⟨g, h1, h2⟩, rfl⟩

end Ygo
