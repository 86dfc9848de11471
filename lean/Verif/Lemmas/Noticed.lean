import Verif.Spec.Noticed
import Verif.Lemmas.Table

/-!
# Tables with enough cards
-/

namespace Ygo
open Spec

theorem _root_.Ygo.Spec.EnoughIn.refl (C : Container) (a : Nat) : EnoughIn C a a := by cases C <;> simp [EnoughIn]

theorem _root_.Ygo.Spec.EnoughIn.le {C : Container} {a b : Nat} (h : EnoughIn C a b) : a ≤ b := by cases C <;> simp only [EnoughIn] at h <;> omega

theorem _root_.Ygo.Spec.EnoughIn.add {C : Container} {a b : Nat} (h : EnoughIn C a b) (n : Nat) : EnoughIn C (a + n) (b + n) := by
  cases C <;> simp only [EnoughIn] at h ⊢ <;> omega

theorem _root_.Ygo.Spec.EnoughIn.sub {C : Container} {a b : Nat} (h : EnoughIn C a b) (n : Nat) : EnoughIn C (a - n) (b - n) := by
  cases C <;> simp only [EnoughIn] at h ⊢ <;> omega

theorem _root_.Ygo.Spec.Enough.refl (B : Board) : Enough B B := fun C => .refl C _

theorem _root_.Ygo.Spec.Enough.upd {B' B : Board} (h : Enough B' B) {C : Container} {v' v : List CardId} (hv : EnoughIn C v'.length v.length) :
    Enough (B'.upd C v') (B.upd C v) := by
  intro D
  by_cases hD : D = C
  · subst hD; simpa [Board.upd] using hv
  · simpa [Board.upd, hD] using h D

theorem _root_.Ygo.Spec.Enough.nil_slot {B' B : Board} (h : Enough B' B) {k : ZoneKey} : B' (.slot k) = [] ↔ B (.slot k) = [] := by
  have := h (.slot k)
  simp only [EnoughIn] at this
  rw [← List.length_eq_zero_iff, ← List.length_eq_zero_iff, this]

theorem _root_.Ygo.Spec.Enough.nil_mats {B' B : Board} (h : Enough B' B) {k : ZoneKey} : B' (.mats k) = [] ↔ B (.mats k) = [] := by
  have := h (.mats k)
  simp only [EnoughIn] at this
  rw [← List.length_eq_zero_iff, ← List.length_eq_zero_iff, this]

theorem _root_.Ygo.Spec.Enough.mats {B' B : Board} (h : Enough B' B) (k : ZoneKey) : (B' (.mats k)).length = (B (.mats k)).length := h (.mats k)

theorem _root_.Ygo.Spec.Enough.take {B' B : Board} (h : Enough B' B) {C : Container} {i : Nat} (hi : i < (B' C).length) : Enough (B'.take C i) (B.take C i) := by
  have hi2 : i < (B C).length := Nat.lt_of_lt_of_le hi (h C).le
  refine h.upd ?_
  rw [List.length_eraseIdx_of_lt hi, List.length_eraseIdx_of_lt hi2]
  exact (h C).sub 1

theorem _root_.Ygo.Spec.Enough.put {B' B : Board} (h : Enough B' B) {C : Container} {i : Nat} (hi : i ≤ (B' C).length) (c' c : CardId) :
    Enough (B'.put C i c') (B.put C i c) := by
  have hi2 : i ≤ (B C).length := Nat.le_trans hi (h C).le
  refine h.upd ?_
  rw [List.length_insertIdx_of_le_length hi, List.length_insertIdx_of_le_length hi2]
  exact (h C).add 1

theorem _root_.Ygo.Spec.Enough.carry {B' B : Board} (h : Enough B' B) (C1 C2 : Container) : Enough (B'.carry C1 C2) (B.carry C1 C2) := by
  unfold Board.carry
  split
  · next k1 k2 => exact (h.upd (C := .mats k2) (h.mats k1)).upd (C := .mats k1) (v' := []) (v := []) rfl
  · exact h

theorem _root_.Ygo.Spec.Enough.exchange {B' B : Board} (h : Enough B' B) (C1 C2 : Container) (i j : Nat) (c1 c2 d1 d2 : CardId) :
    Enough (B'.exchange C1 i C2 j c1 c2) (B.exchange C1 i C2 j d1 d2) := by
  have h1 : Enough (B'.upd C1 ((B' C1).set i c2)) (B.upd C1 ((B C1).set i d2)) := h.upd (by simpa using h C1)
  exact h1.upd (by simpa using h1 C2)

theorem _root_.Ygo.Spec.Enough.swapMats {B' B : Board} (h : Enough B' B) (C1 C2 : Container) : Enough (B'.swapMats C1 C2) (B.swapMats C1 C2) := by
  unfold Board.swapMats
  split
  · next k1 k2 => exact (h.upd (C := .mats k1) (h.mats k2)).upd (C := .mats k2) (h.mats k1)
  · exact h

theorem _root_.Ygo.Spec.Enough.carryOk {B' B : Board} (h : Enough B' B) {C1 C2 : Container} (hc : CarryOk B' C1 C2) : CarryOk B C1 C2 := by
  cases C1 <;> cases C2 <;> first | trivial | exact h.nil_mats.mp hc

theorem _root_.Ygo.Spec.Enough.swapOk {B' B : Board} (h : Enough B' B) {C1 C2 : Container} (hc : SwapOk B' C1 C2) : SwapOk B C1 C2 := by
  cases C1 <;> cases C2 <;> first | trivial | exact h.nil_mats.mp hc

theorem cut_length {B : Board} {C : Container} {i n : Nat} (h : i + n ≤ (B C).length) : (B.cut C i n C).length = (B C).length - n := by
  simp only [Board.cut, Board.upd, if_pos, List.length_append, List.length_take, List.length_drop]
  omega

theorem _root_.Ygo.Spec.Enough.cut {B' B : Board} (h : Enough B' B) {C : Container} {i n : Nat} (hi : i + n ≤ (B' C).length) : Enough (B'.cut C i n) (B.cut C i n) := by
  have hi2 : i + n ≤ (B C).length := Nat.le_trans hi (h C).le
  intro D
  by_cases hD : D = C
  · subst hD
    rw [cut_length hi, cut_length hi2]
    exact (h D).sub n
  · simpa [Board.cut, Board.upd, hD] using h D

theorem block_length {B : Board} {C : Container} {i n : Nat} {rev : Bool} (h : i + n ≤ (B C).length) : (B.block C i n rev).length = n := by
  unfold Board.block
  split <;> simp only [List.length_reverse, List.length_take, List.length_drop] <;> omega

theorem _root_.Ygo.Spec.Enough.paste {B' B : Board} (h : Enough B' B) {C : Container} {j : Nat} (hj : j ≤ (B' C).length) {v' v : List CardId} (hv : v'.length = v.length) :
    Enough (B'.paste C j v') (B.paste C j v) := by
  have hj2 : j ≤ (B C).length := Nat.le_trans hj (h C).le
  refine h.upd ?_
  have e : ∀ (l w : List CardId), j ≤ l.length → (l.take j ++ w ++ l.drop j).length = l.length + w.length := by
    intro l w hl
    simp only [List.length_append, List.length_take, List.length_drop]
    omega
  rw [e _ _ hj, e _ _ hj2, hv]
  exact (h C).add _

theorem _root_.Ygo.Spec.Enough.swapPiles {B' B : Board} (h : Enough B' B) (k1 k2 : PileKey) :
    Enough (B'.swapAll (.pile k1) (.pile k2)) (B.swapAll (.pile k1) (.pile k2)) :=
  (h.upd (C := .pile k1) (h (.pile k2))).upd (C := .pile k2) (h (.pile k1))

theorem get_some {l : List CardId} {i : Nat} (h : i < l.length) : ∃ c, l[i]? = some c := ⟨l[i], List.getElem?_eq_getElem h⟩

theorem lt_of_get {l : List CardId} {i : Nat} {c : CardId} (h : l[i]? = some c) : i < l.length := (List.getElem?_eq_some_iff.mp h).1

/-- A call that can be made on a table can be made on one with enough cards, and leaves enough. -/
theorem table_enough {T' T U' : Table} {op : FrameOp} (hs : ∀ p c n, op ≠ .shuffle p c n) (h : Enough T'.board T.board) (hu : T'.Step op U') :
    ∃ U, T.Step op U ∧ Enough U'.board U.board := by
  cases op with
  | add p =>
    obtain ⟨C, i, ha, ⟨hf, hf'⟩, rfl⟩ := hu
    refine ⟨_, ⟨C, i, ha, ⟨Nat.le_trans hf (h C).le, ?_⟩, rfl⟩, h.put hf _ _⟩
    rintro k rfl
    exact h.nil_slot.mp (hf' k rfl)
  | remove p =>
    obtain ⟨C, i, ha, hf, rfl⟩ := hu
    exact ⟨_, ⟨C, i, ha, Nat.lt_of_lt_of_le hf (h C).le, rfl⟩, h.take hf⟩
  | move a b =>
    obtain ⟨C1, i, C2, j, c, ha, hb, pa, pb, hc, hn, hj, hk, rfl⟩ := hu
    have hi := lt_of_get hc
    obtain ⟨d, hd⟩ := get_some (Nat.lt_of_lt_of_le hi (h C1).le)
    have ht := h.take hi
    refine ⟨_, ⟨C1, i, C2, j, d, ha, hb, pa, pb, hd, ?_, Nat.le_trans hj (ht C2).le, h.carryOk hk, rfl⟩, (ht.put hj _ _).carry _ _⟩
    rintro k rfl
    exact h.nil_slot.mp (hn k rfl)
  | shuffle p c n => exact absurd rfl (hs p c n)
  | swap a b =>
    obtain ⟨C1, i, C2, j, c1, c2, ha, hb, pa, pb, hk, hi, h1, h2, rfl⟩ := hu
    obtain ⟨d1, e1⟩ := get_some (Nat.lt_of_lt_of_le (lt_of_get h1) (h C1).le)
    obtain ⟨d2, e2⟩ := get_some (Nat.lt_of_lt_of_le (lt_of_get h2) (h C2).le)
    exact ⟨_, ⟨C1, i, C2, j, d1, d2, ha, hb, pa, pb, h.swapOk hk, Nat.lt_of_lt_of_le hi (h C1).le, e1, e2, rfl⟩, (h.exchange _ _ _ _ _ _ _ _).swapMats _ _⟩
  | resize p n =>
    obtain ⟨k, i, ha, rfl⟩ := hu
    refine ⟨_, ⟨k, i, ha, rfl⟩, h.upd ?_⟩
    simp only [EnoughIn, List.length_append, List.length_take, List.length_range']
    omega
  | splice a n b rev =>
    obtain ⟨k1, i, k2, j, ha, hb, hi, hj, rfl⟩ := hu
    have hi2 := Nat.le_trans hi (h (.pile k1)).le
    have hc := h.cut hi
    exact ⟨_, ⟨k1, i, k2, j, ha, hb, hi2, Nat.le_trans hj (hc (.pile k2)).le, rfl⟩, hc.paste hj (by rw [block_length hi, block_length hi2])⟩
  | pswap a b =>
    obtain ⟨k1, i, k2, j, ha, hb, rfl⟩ := hu
    exact ⟨_, ⟨k1, i, k2, j, ha, hb, rfl⟩, h.swapPiles k1 k2⟩
  | clear =>
    cases hu
    exact ⟨_, rfl, fun C => .refl C _⟩

theorem _root_.Ygo.Spec.Enough.hasCard {l' l : Layout} (h : Enough (view l') (view l)) {p : Place} (hp : l'.hasCard p = .ok true) : l.hasCard p = .ok true := by
  obtain ⟨C, i, ha, hi⟩ := Layout.hasCard_eq_ok.mp hp
  have hi := of_decide_eq_true hi.symm
  exact Layout.hasCard_eq_ok.mpr ⟨C, i, ha, (decide_eq_true (Nat.lt_of_lt_of_le hi (h C).le)).symm⟩

theorem _root_.Ygo.Spec.Enough.shuffleSeqs {l' l : Layout} (h : Enough (view l') (view l)) : ∀ (n : Nat) (ps : List Place) (seqs : List Nat),
    l'.shuffleSeqs n ps = .ok seqs → l.shuffleSeqs n ps = .ok seqs := by
  intro n
  induction n with
  | zero => intro ps seqs hs; cases ps <;> exact hs
  | succ n ih =>
    intro ps seqs hs
    cases ps with
    | nil => cases hs
    | cons p ps =>
      simp only [Layout.shuffleSeqs, bind_eq_ok, pure_eq_ok, Except.ok.injEq, massert_eq_ok] at hs ⊢
      obtain ⟨b, hb, _, hm, rest, hr, rfl⟩ := hs
      subst hm
      exact ⟨true, h.hasCard hb, (), rfl, rest, ih ps rest hr, rfl⟩

theorem _root_.Ygo.Spec.Enough.swapZones {l' l : Layout} (h : Enough (view l') (view l)) (k1 k2 : ZoneKey) : Enough (view (l'.swapZones k1 k2)) (view (l.swapZones k1 k2)) := by
  have hs : ∀ k, (l'.zone k).card.toList.length = (l.zone k).card.toList.length := fun k => h (.slot k)
  have hm : ∀ k, (l'.zone k).materials.length = (l.zone k).materials.length := fun k => h (.mats k)
  intro C
  cases C with
  | pile k => exact h (.pile k)
  | slot k =>
    show ((l'.swapZones k1 k2).zone k).card.toList.length = ((l.swapZones k1 k2).zone k).card.toList.length
    simp only [Layout.swapZones, Layout.setZone]
    split
    · exact hs _
    · split <;> exact hs _
  | mats k =>
    show ((l'.swapZones k1 k2).zone k).materials.length = ((l.swapZones k1 k2).zone k).materials.length
    simp only [Layout.swapZones, Layout.setZone]
    split
    · exact hm _
    · split <;> exact hm _

theorem _root_.Ygo.Spec.Enough.shuffleLoop : ∀ (n i : Nat) (ps : List Place) (seqs : List Nat) (l' l m' : Layout), Enough (view l') (view l) →
    Layout.shuffleLoop n i ps seqs l' = .ok m' → ∃ m, Layout.shuffleLoop n i ps seqs l = .ok m ∧ Enough (view m') (view m) := by
  intro n
  induction n with
  | zero => intro i ps seqs l' l m' h hs; cases ps <;> (cases hs; exact ⟨l, rfl, h⟩)
  | succ n ih =>
    intro i ps seqs l' l m' h hs
    cases ps with
    | nil => cases hs
    | cons p ps =>
      rw [Layout.shuffleLoop] at hs ⊢
      split at hs
      · next he => rw [if_pos he]; exact ih _ _ _ _ _ _ h hs
      · next he =>
        rw [if_neg he]
        simp only [bind_eq_ok] at hs ⊢
        obtain ⟨si, h1, k1, h2, k2, h3, h4⟩ := hs
        obtain ⟨m, h5, h6⟩ := ih _ _ _ _ _ _ (h.swapZones k1 k2) h4
        exact ⟨m, ⟨si, h1, k1, h2, k2, h3, h5⟩, h6⟩

/-- The same for frames, with shuffles. -/
theorem step_enough {f' f g' : Frame} {op : FrameOp} (hi' : Inv f') (hi : Inv f) (h : Enough (view f'.layout) (view f.layout)) (hg : f'.step op = .ok g') :
    ∃ g, f.step op = .ok g ∧ Enough (view g'.layout) (view g.layout) := by
  by_cases hs : ∃ p c n, op = .shuffle p c n
  · obtain ⟨p, c, n, rfl⟩ := hs
    simp only [Frame.step, Frame.cardShuffle, Layout.cardShuffle, bind_eq_ok, pure_eq_ok, Except.ok.injEq] at hg ⊢
    obtain ⟨m', ⟨p0, h1, u1, h2, u2, h3, u3, h4, seqs, h5, h6⟩, rfl⟩ := hg
    obtain ⟨m, h7, h8⟩ := Enough.shuffleLoop _ _ _ _ _ _ _ h h6
    exact ⟨_, ⟨m, ⟨p0, h1, u1, h2, u2, h3, u3, h4, seqs, h.shuffleSeqs _ _ _ h5, h7⟩, rfl⟩, h8⟩
  · have hs' : ∀ p c n, op ≠ .shuffle p c n := fun p c n e => hs ⟨p, c, n, e⟩
    have ht : Tidy op := by cases op <;> first | trivial | exact absurd rfl (hs' _ _ _)
    obtain ⟨U, h1, h2⟩ := table_enough (T := tableOf f) hs' h ((hi'.step_iff op ht _).mp ⟨g', hg, rfl⟩)
    obtain ⟨g, h3, rfl⟩ := (hi.step_iff op ht _).mpr h1
    exact ⟨g, h3, h2⟩

end Ygo
