import Verif.Spec.Apart
import Verif.Props.Table
import Mathlib.Data.List.InsertIdx

/-!
# C105: the order of events that have nothing to do with each other
-/

namespace Ygo.Props
open Ygo Ygo.Spec

/-! ### Boards that agree up to the names of cards -/

/-- On some containers the same cards with other names. -/
private def Agree (R : Container → Prop) (ρ : CardId → CardId) (B B' : Board) : Prop := ∀ C, R C → B' C = (B C).map ρ

private theorem Agree.upd {R : Container → Prop} {ρ : CardId → CardId} {B B' : Board} (h : Agree R ρ B B') (C : Container) (v : List CardId) :
    Agree R ρ (B.upd C v) (B'.upd C (v.map ρ)) := by
  intro D hD
  simp only [Board.upd]
  split
  · rfl
  · exact h D hD

private theorem Agree.put {R : Container → Prop} {ρ : CardId → CardId} {B B' : Board} (h : Agree R ρ B B') {C : Container} (hC : R C) (i : Nat)
    (c : CardId) : Agree R ρ (B.put C i c) (B'.put C i (ρ c)) := by
  unfold Board.put
  rw [h C hC, ← List.map_insertIdx]
  exact h.upd _ _

private theorem Agree.take {R : Container → Prop} {ρ : CardId → CardId} {B B' : Board} (h : Agree R ρ B B') {C : Container} (hC : R C) (i : Nat) :
    Agree R ρ (B.take C i) (B'.take C i) := by
  unfold Board.take
  rw [h C hC, List.eraseIdx_map]
  exact h.upd _ _

/-- A part of the board with each zone's card and materials together. -/
private def Whole (R : Container → Prop) : Prop := ∀ k, R (.slot k) ↔ R (.mats k)

private theorem Agree.carry {R : Container → Prop} (hR : Whole R) {ρ : CardId → CardId} {B B' : Board} (h : Agree R ρ B B') {C1 C2 : Container}
    (h1 : R C1) : Agree R ρ (B.carry C1 C2) (B'.carry C1 C2) := by
  cases C1 <;> cases C2 <;> try exact h
  rename_i k1 k2
  simp only [Board.carry]
  rw [h _ ((hR k1).mp h1)]
  exact (h.upd _ _).upd _ []

private theorem Agree.exchange {R : Container → Prop} {ρ : CardId → CardId} {B B' : Board} (h : Agree R ρ B B') {C1 C2 : Container}
    (h1 : R C1) (h2 : R C2) (i j : Nat) (c1 c2 : CardId) : Agree R ρ (B.exchange C1 i C2 j c1 c2) (B'.exchange C1 i C2 j (ρ c1) (ρ c2)) := by
  unfold Board.exchange
  have : Agree R ρ (B.upd C1 ((B C1).set i c2)) (B'.upd C1 ((B' C1).set i (ρ c2))) := by
    rw [h C1 h1, ← List.map_set]
    exact h.upd _ _
  simp only
  rw [this C2 h2, ← List.map_set]
  exact this.upd _ _

private theorem Agree.swapAll {R : Container → Prop} {ρ : CardId → CardId} {B B' : Board} (h : Agree R ρ B B') {C1 C2 : Container}
    (h1 : R C1) (h2 : R C2) : Agree R ρ (B.swapAll C1 C2) (B'.swapAll C1 C2) := by
  unfold Board.swapAll
  rw [h C1 h1, h C2 h2]
  exact (h.upd _ _).upd _ _

private theorem Agree.swapMats {R : Container → Prop} (hR : Whole R) {ρ : CardId → CardId} {B B' : Board} (h : Agree R ρ B B') {C1 C2 : Container}
    (h1 : R C1) (h2 : R C2) : Agree R ρ (B.swapMats C1 C2) (B'.swapMats C1 C2) := by
  cases C1 <;> cases C2 <;> try exact h
  rename_i k1 k2
  exact h.swapAll ((hR k1).mp h1) ((hR k2).mp h2)

private theorem Agree.cut {R : Container → Prop} {ρ : CardId → CardId} {B B' : Board} (h : Agree R ρ B B') {C : Container} (hC : R C) (i n : Nat) :
    Agree R ρ (B.cut C i n) (B'.cut C i n) := by
  unfold Board.cut
  rw [h C hC, ← List.map_take, ← List.map_drop, ← List.map_append]
  exact h.upd _ _

private theorem Agree.paste {R : Container → Prop} {ρ : CardId → CardId} {B B' : Board} (h : Agree R ρ B B') {C : Container} (hC : R C) (i : Nat)
    (v : List CardId) : Agree R ρ (B.paste C i v) (B'.paste C i (v.map ρ)) := by
  unfold Board.paste
  rw [h C hC, ← List.map_take, ← List.map_drop, ← List.map_append, ← List.map_append]
  exact h.upd _ _

private theorem Agree.block {R : Container → Prop} {ρ : CardId → CardId} {B B' : Board} (h : Agree R ρ B B') {C : Container} (hC : R C) (i n : Nat)
    (rev : Bool) : B'.block C i n rev = (B.block C i n rev).map ρ := by
  unfold Board.block
  rw [h C hC]
  split <;> simp [List.map_take, List.map_drop]

private theorem Agree.length {R : Container → Prop} {ρ : CardId → CardId} {B B' : Board} (h : Agree R ρ B B') {C : Container} (hC : R C) :
    (B' C).length = (B C).length := by rw [h C hC, List.length_map]

private theorem Agree.nil {R : Container → Prop} {ρ : CardId → CardId} {B B' : Board} (h : Agree R ρ B B') {C : Container} (hC : R C) :
    B' C = [] ↔ B C = [] := by rw [h C hC, List.map_eq_nil_iff]

private theorem Agree.swapZones {R : Container → Prop} (hR : Whole R) {ρ : CardId → CardId} {B B' : Board} (h : Agree R ρ B B') {k1 k2 : ZoneKey}
    (h1 : R (.slot k1)) (h2 : R (.slot k2)) : Agree R ρ (B.swapZones k1 k2) (B'.swapZones k1 k2) :=
  (h.swapAll h1 h2).swapAll ((hR k1).mp h1) ((hR k2).mp h2)

private theorem Agree.deal {R : Container → Prop} (hR : Whole R) {ρ : CardId → CardId} : ∀ (zs : List (ZoneKey × Option ZoneKey)) (B B' : Board)
    (now : ZoneKey → ZoneKey), Agree R ρ B B' → (∀ k, R (.slot k) → R (.slot (now k))) →
    (∀ z ∈ zs, R (.slot z.1) ∧ ∀ t, z.2 = some t → R (.slot t)) → Agree R ρ (B.deal now zs) (B'.deal now zs) := by
  intro zs
  induction zs with
  | nil => intro B B' now h _ _; exact h
  | cons z zs ih =>
    intro B B' now h hn hz
    have hz' : ∀ z ∈ zs, R (.slot z.1) ∧ ∀ t, z.2 = some t → R (.slot t) := fun x hx => hz x (by simp [hx])
    obtain ⟨k, o⟩ := z
    obtain ⟨hk, ht⟩ := hz (k, o) (by simp)
    cases o with
    | none => exact ih B B' now h hn hz'
    | some t =>
      have ht := ht t rfl
      refine ih _ _ _ (h.swapZones hR (hn k hk) ht) ?_ hz'
      intro x hx
      unfold exchanged
      split
      · exact hn k hk
      · split
        · exact ht
        · exact hn x hx

/-! ### What is not touched -/

private theorem at_reaches {p : Place} {C : Container} {i : Nat} (h : At p C i) : Reaches p C := by
  cases h <;> simp [Reaches, Names]

private theorem touches_whole (op : FrameOp) : Whole (Touches op) := fun _ => Iff.rfl

private theorem names_reach {p : Place} {k : ZoneKey} (h : Names p k) : Reaches p (.slot k) := h

private theorem dealt_mem {B : Board} : ∀ (n : Nat) (prev cur : List Place) (zs : List (ZoneKey × Option ZoneKey)), Dealt B prev cur n zs →
    ∀ z ∈ zs, (∃ p ∈ prev, Names p z.1) ∧ ∀ t, z.2 = some t → ∃ q ∈ cur, Names q t := by
  intro n
  induction n with
  | zero =>
    intro prev cur zs h z hz
    cases prev <;> cases cur <;> (simp only [Dealt] at h; subst h; cases hz)
  | succ n ih =>
    intro prev cur zs h z hz
    cases prev with
    | nil => simp [Dealt] at h
    | cons p prev =>
    cases cur with
    | nil => simp [Dealt] at h
    | cons q cur =>
      simp only [Dealt] at h
      obtain ⟨k, t, rest, rfl, hk, ht, hd⟩ := h
      rcases List.mem_cons.mp hz with rfl | hz
      · refine ⟨⟨p, by simp, hk.1⟩, ?_⟩
        rintro t rfl
        exact ⟨q, by simp, ht⟩
      · obtain ⟨⟨p', hp', h1⟩, h2⟩ := ih prev cur rest hd z hz
        refine ⟨⟨p', by simp [hp'], h1⟩, fun t ht => ?_⟩
        obtain ⟨q', hq', h3⟩ := h2 t ht
        exact ⟨q', by simp [hq'], h3⟩

private theorem upd_out {B : Board} {C D : Container} {v : List CardId} (h : D ≠ C) : B.upd C v D = B D := by simp [Board.upd, h]

private theorem carry_out {R : Container → Prop} (hR : Whole R) {B : Board} {C1 C2 D : Container} (h1 : R C1) (h2 : R C2) (hD : ¬ R D) :
    B.carry C1 C2 D = B D := by
  cases C1 <;> cases C2 <;> try rfl
  rename_i k1 k2
  have := (hR k1).mp h1
  have := (hR k2).mp h2
  simp only [Board.carry]
  rw [upd_out (by rintro rfl; contradiction), upd_out (by rintro rfl; contradiction)]

private theorem swapAll_out {R : Container → Prop} {B : Board} {C1 C2 D : Container} (h1 : R C1) (h2 : R C2) (hD : ¬ R D) :
    B.swapAll C1 C2 D = B D := by
  unfold Board.swapAll
  rw [upd_out (by rintro rfl; contradiction), upd_out (by rintro rfl; contradiction)]

private theorem swapMats_out {R : Container → Prop} (hR : Whole R) {B : Board} {C1 C2 D : Container} (h1 : R C1) (h2 : R C2) (hD : ¬ R D) :
    B.swapMats C1 C2 D = B D := by
  cases C1 <;> cases C2 <;> try rfl
  rename_i k1 k2
  exact swapAll_out ((hR k1).mp h1) ((hR k2).mp h2) hD

private theorem deal_out {R : Container → Prop} (hR : Whole R) {D : Container} (hD : ¬ R D) : ∀ (zs : List (ZoneKey × Option ZoneKey)) (B : Board)
    (now : ZoneKey → ZoneKey), (∀ k, R (.slot k) → R (.slot (now k))) →
    (∀ z ∈ zs, R (.slot z.1) ∧ ∀ t, z.2 = some t → R (.slot t)) → B.deal now zs D = B D := by
  intro zs
  induction zs with
  | nil => intro B now _ _; rfl
  | cons z zs ih =>
    intro B now hn hz
    have hz' : ∀ z ∈ zs, R (.slot z.1) ∧ ∀ t, z.2 = some t → R (.slot t) := fun x hx => hz x (by simp [hx])
    obtain ⟨k, o⟩ := z
    obtain ⟨hk, ht⟩ := hz (k, o) (by simp)
    cases o with
    | none => exact ih B now hn hz'
    | some t =>
      have ht := ht t rfl
      simp only [Board.deal]
      rw [ih _ _ ?_ hz']
      · unfold Board.swapZones
        rw [swapAll_out ((hR _).mp (hn k hk)) ((hR t).mp ht) hD, swapAll_out (hn k hk) ht hD]
      · intro x hx
        unfold exchanged
        split
        · exact hn k hk
        · split
          · exact ht
          · exact hn x hx

/-- A call leaves alone what it does not touch, and names are only handed out. -/
private theorem step_out {T T1 : Table} {op : FrameOp} (h : T.Step op T1) :
    (∀ C, ¬ Touches op C → T1.board C = T.board C) ∧ T.next ≤ T1.next := by
  have hR := touches_whole op
  have t1 : ∀ {p : Place} {C : Container} {i : Nat}, p ∈ placesOf op → At p C i → Touches op C := fun hp ha => .inr ⟨_, hp, at_reaches ha⟩
  cases op with
  | add p =>
    obtain ⟨C, i, ha, _, rfl⟩ := h
    have hC := t1 (by simp [placesOf]) ha
    exact ⟨fun D hD => upd_out (by rintro rfl; contradiction), Nat.le_succ _⟩
  | remove p =>
    obtain ⟨C, i, ha, _, rfl⟩ := h
    have hC := t1 (by simp [placesOf]) ha
    exact ⟨fun D hD => upd_out (by rintro rfl; contradiction), Nat.le_refl _⟩
  | move a b =>
    obtain ⟨C1, i, C2, j, c, ha, hb, _, _, _, _, _, _, rfl⟩ := h
    have h1 := t1 (by simp [placesOf]) ha
    have h2 := t1 (by simp [placesOf]) hb
    refine ⟨fun D hD => ?_, Nat.le_refl _⟩
    show Board.carry _ C1 C2 D = _
    rw [carry_out hR h1 h2 hD, Board.put, upd_out (by rintro rfl; contradiction), Board.take, upd_out (by rintro rfl; contradiction)]
  | shuffle prev cur n =>
    obtain ⟨_, _, zs, hd, rfl⟩ := h
    refine ⟨fun D hD => deal_out hR hD zs _ id (fun _ h => h) ?_, Nat.le_refl _⟩
    intro z hz
    obtain ⟨⟨p, hp, h1⟩, h2⟩ := dealt_mem n prev cur zs hd z hz
    refine ⟨.inr ⟨p, by simp [placesOf, hp], h1⟩, fun t ht => ?_⟩
    obtain ⟨q, hq, h3⟩ := h2 t ht
    exact .inr ⟨q, by simp [placesOf, hq], h3⟩
  | swap a b =>
    obtain ⟨C1, i, C2, j, c1, c2, ha, hb, _, _, _, _, _, _, rfl⟩ := h
    have h1 := t1 (by simp [placesOf]) ha
    have h2 := t1 (by simp [placesOf]) hb
    refine ⟨fun D hD => ?_, Nat.le_refl _⟩
    show Board.swapMats _ C1 C2 D = _
    rw [swapMats_out hR h1 h2 hD]
    show Board.upd (Board.upd _ _ _) _ _ _ = _
    rw [upd_out (by rintro rfl; contradiction), upd_out (by rintro rfl; contradiction)]
  | resize p n =>
    obtain ⟨k, i, ha, rfl⟩ := h
    have hC := t1 (by simp [placesOf]) ha
    exact ⟨fun D hD => upd_out (by rintro rfl; contradiction), Nat.le_add_right _ _⟩
  | splice a n b rev =>
    obtain ⟨k1, i, k2, j, ha, hb, _, _, rfl⟩ := h
    have h1 := t1 (by simp [placesOf]) ha
    have h2 := t1 (by simp [placesOf]) hb
    refine ⟨fun D hD => ?_, Nat.le_refl _⟩
    show Board.upd _ _ _ _ = _
    rw [upd_out (by rintro rfl; contradiction), Board.cut, upd_out (by rintro rfl; contradiction)]
  | pswap a b =>
    obtain ⟨k1, i, k2, j, ha, hb, rfl⟩ := h
    exact ⟨fun D hD => swapAll_out (t1 (by simp [placesOf]) ha) (t1 (by simp [placesOf]) hb) hD, Nat.le_refl _⟩
  | clear =>
    cases h
    exact ⟨fun D hD => absurd (.inl rfl) hD, Nat.le_refl _⟩

/-! ### What matters for a call -/

/-- For a call only matters what it touches, whatever the cards are called; new cards get the next names. -/
private theorem step_agree {T T1 T' : Table} {op : FrameOp} {R : Container → Prop} (hR : Whole R) (hop : ∀ C, Touches op C → R C)
    {ρ : CardId → CardId} (h : T.Step op T1) (ha : Agree R ρ T.board T'.board) (hn : ∀ i, ρ (T.next + i) = T'.next + i) :
    ∃ T1', T'.Step op T1' ∧ Agree R ρ T1.board T1'.board ∧ ∀ i, ρ (T1.next + i) = T1'.next + i := by
  have t1 : ∀ {p : Place} {C : Container} {i : Nat}, p ∈ placesOf op → At p C i → R C := fun hp ha => hop _ (.inr ⟨_, hp, at_reaches ha⟩)
  cases op with
  | add p =>
    obtain ⟨C, i, hp, hf, rfl⟩ := h
    have hC := t1 (by simp [placesOf]) hp
    refine ⟨_, ⟨C, i, hp, ⟨by rw [ha.length hC]; exact hf.1, fun k hk => (ha.nil hC).mpr (hf.2 k hk)⟩, rfl⟩, ?_, ?_⟩
    · have := ha.put hC i T.next
      rwa [show ρ T.next = T'.next from hn 0] at this
    · intro i
      have := hn (1 + i)
      simpa [Nat.add_assoc] using this
  | remove p =>
    obtain ⟨C, i, hp, hf, rfl⟩ := h
    have hC := t1 (by simp [placesOf]) hp
    exact ⟨_, ⟨C, i, hp, by rw [ha.length hC]; exact hf, rfl⟩, ha.take hC i, hn⟩
  | move a b =>
    obtain ⟨C1, i, C2, j, c, h1, h2, p1, p2, hc, he, hj, hk, rfl⟩ := h
    have r1 := t1 (by simp [placesOf]) h1
    have r2 := t1 (by simp [placesOf]) h2
    refine ⟨_, ⟨C1, i, C2, j, ρ c, h1, h2, p1, p2, ?_, fun k hk => (ha.nil r2).mpr (he k hk), ?_, ?_, rfl⟩, ?_, hn⟩
    · rw [ha C1 r1, List.getElem?_map, hc]; rfl
    · rw [(ha.take r1 i).length r2]; exact hj
    · cases C1 <;> cases C2 <;> try exact hk
      exact (ha.nil ((hR _).mp r2)).mpr hk
    · exact ((ha.take r1 i).put r2 j c).carry hR r1
  | shuffle prev cur n =>
    obtain ⟨h1, h2, zs, hd, rfl⟩ := h
    have hz : ∀ z ∈ zs, R (.slot z.1) ∧ ∀ t, z.2 = some t → R (.slot t) := by
      intro z hz
      obtain ⟨⟨p, hp, h1⟩, h2⟩ := dealt_mem n prev cur zs hd z hz
      refine ⟨hop _ (.inr ⟨p, by simp [placesOf, hp], h1⟩), fun t ht => ?_⟩
      obtain ⟨q, hq, h3⟩ := h2 t ht
      exact hop _ (.inr ⟨q, by simp [placesOf, hq], h3⟩)
    refine ⟨_, ⟨h1, h2, zs, ?_, rfl⟩, ha.deal hR zs _ _ id (fun _ h => h) hz, hn⟩
    have key : ∀ (n : Nat) (prev' cur' : List Place) (zs : List (ZoneKey × Option ZoneKey)), (∀ p ∈ prev', p ∈ prev) → Dealt T.board prev' cur' n zs →
        Dealt T'.board prev' cur' n zs := by
      intro n
      induction n with
      | zero => intro prev' cur' zs _ h; cases prev' <;> cases cur' <;> exact h
      | succ n ih =>
        intro prev' cur' zs hp h
        cases prev' with
        | nil => simp [Dealt] at h
        | cons p prev' =>
        cases cur' with
        | nil => simp [Dealt] at h
        | cons q cur' =>
          simp only [Dealt] at h ⊢
          obtain ⟨k, t, rest, rfl, ⟨hk, C, i, hC, hi⟩, ht, hd⟩ := h
          refine ⟨k, t, rest, rfl, ⟨hk, C, i, hC, ?_⟩, ht, ih prev' cur' rest (fun p h => hp p (by simp [h])) hd⟩
          rw [ha.length (t1 (by simp [placesOf, hp p]) hC)]
          exact hi
    exact key n prev cur zs (fun _ h => h) hd
  | swap a b =>
    obtain ⟨C1, i, C2, j, c1, c2, h1, h2, p1, p2, hs, hi, hc1, hc2, rfl⟩ := h
    have r1 := t1 (by simp [placesOf]) h1
    have r2 := t1 (by simp [placesOf]) h2
    refine ⟨_, ⟨C1, i, C2, j, ρ c1, ρ c2, h1, h2, p1, p2, ?_, by rw [ha.length r1]; exact hi, ?_, ?_, rfl⟩, ?_, hn⟩
    · cases C1 <;> cases C2 <;> first
        | exact hs
        | exact (ha.nil ((hR _).mp r1)).mpr hs
        | exact (ha.nil ((hR _).mp r2)).mpr hs
    · rw [ha C1 r1, List.getElem?_map, hc1]; rfl
    · rw [ha C2 r2, List.getElem?_map, hc2]; rfl
    · exact (ha.exchange r1 r2 _ j c1 c2).swapMats hR r1 r2
  | resize p n =>
    obtain ⟨k, i, hp, rfl⟩ := h
    have hC := t1 (by simp [placesOf]) hp
    refine ⟨_, ⟨k, i, hp, rfl⟩, ?_, ?_⟩
    · have e : ∀ m, (List.range' T.next m).map ρ = List.range' T'.next m := by
        intro m
        apply List.ext_getElem
        · simp
        · intro i h1 h2
          simp [hn]
      rw [ha.length hC, ha _ hC, ← List.map_take, ← e, ← List.map_append]
      exact ha.upd _ _
    · intro i
      show ρ (T.next + _ + i) = T'.next + _ + i
      rw [ha.length hC, Nat.add_assoc, hn, Nat.add_assoc]
  | splice a n b rev =>
    obtain ⟨k1, i, k2, j, h1, h2, hl, hj, rfl⟩ := h
    have r1 := t1 (by simp [placesOf]) h1
    have r2 := t1 (by simp [placesOf]) h2
    refine ⟨_, ⟨k1, i, k2, j, h1, h2, by rw [ha.length r1]; exact hl, by rw [(ha.cut r1 i n).length r2]; exact hj, rfl⟩, ?_, hn⟩
    rw [ha.block r1]
    exact (ha.cut r1 i n).paste r2 j _
  | pswap a b =>
    obtain ⟨k1, i, k2, j, h1, h2, rfl⟩ := h
    exact ⟨_, ⟨k1, i, k2, j, h1, h2, rfl⟩, ha.swapAll (t1 (by simp [placesOf]) h1) (t1 (by simp [placesOf]) h2), hn⟩
  | clear =>
    cases h
    exact ⟨_, rfl, fun _ _ => rfl, hn⟩

/-! ### Several calls -/

private def TouchesAny (ops : List FrameOp) (C : Container) : Prop := ∃ op ∈ ops, Touches op C

private theorem touchesAny_whole (ops : List FrameOp) : Whole (TouchesAny ops) := fun _ => Iff.rfl

private theorem steps_out {T T1 : Table} {ops : List FrameOp} (h : T.Steps ops T1) :
    (∀ C, ¬ TouchesAny ops C → T1.board C = T.board C) ∧ T.next ≤ T1.next := by
  induction h with
  | nil => exact ⟨fun _ _ => rfl, Nat.le_refl _⟩
  | cons h _ ih =>
    obtain ⟨h1, h2⟩ := step_out h
    refine ⟨fun C hC => ?_, Nat.le_trans h2 ih.2⟩
    rw [ih.1 C fun ⟨op, ho, ht⟩ => hC ⟨op, by simp [ho], ht⟩, h1 C fun ht => hC ⟨_, by simp, ht⟩]

private theorem steps_agree {R : Container → Prop} (hR : Whole R) {ρ : CardId → CardId} {T T1 : Table} {ops : List FrameOp} (h : T.Steps ops T1) :
    ∀ T' : Table, (∀ C, TouchesAny ops C → R C) → Agree R ρ T.board T'.board → (∀ i, ρ (T.next + i) = T'.next + i) →
    ∃ T1', T'.Steps ops T1' ∧ Agree R ρ T1.board T1'.board ∧ ∀ i, ρ (T1.next + i) = T1'.next + i := by
  induction h with
  | nil => intro T' _ ha hn; exact ⟨T', .nil _, ha, hn⟩
  | cons h _ ih =>
    intro T' hop ha hn
    obtain ⟨T1', h1, h2, h3⟩ := step_agree hR (fun C hC => hop C ⟨_, by simp, hC⟩) h ha hn
    obtain ⟨T2', h4, h5, h6⟩ := ih T1' (fun C ⟨op, ho, ht⟩ => hop C ⟨op, by simp [ho], ht⟩) h2 h3
    exact ⟨T2', .cons h1 h4, h5, h6⟩

/-- Only cards that were handed out are on the table. -/
private def Fresh (T : Table) : Prop := ∀ C, ∀ x ∈ T.board C, x < T.next

private theorem map_same' {ρ : CardId → CardId} {l : List CardId} (h : ∀ x ∈ l, ρ x = x) : l.map ρ = l := by
  conv_rhs => rw [← List.map_id l]
  exact List.map_congr_left h

/-- The names of two blocks of new cards are exchanged. -/
private def blocks (n n1 n2 : Nat) (x : CardId) : CardId :=
  if x < n then x else if x < n1 then x + (n2 - n1) else if x < n2 then x - (n1 - n) else x

private theorem blocks_back {n n1 n2 : Nat} (h : n ≤ n1) (h' : n1 ≤ n2) (x : CardId) : blocks n (n + (n2 - n1)) n2 (blocks n n1 n2 x) = x := by
  unfold blocks
  show (_ : Nat) = _
  split <;> (try split) <;> (try split) <;> (try split) <;> (try split) <;> (try split) <;> omega

private theorem steps_swap {T T1 T2 : Table} {ops ops' : List FrameOp} (h1 : T.Steps ops T1) (h2 : T1.Steps ops' T2)
    (hd : ∀ C, ¬ (TouchesAny ops C ∧ TouchesAny ops' C)) (f : Fresh T) (f1 : Fresh T1) (f2 : Fresh T2) :
    ∃ T1' T2' σ, T.Steps ops' T1' ∧ T1'.Steps ops T2' ∧ T2'.next = T2.next ∧ Renames T.next σ ∧ (∀ x, T2.next ≤ x → σ x = x) ∧
      ∀ C, T2'.board C = (T2.board C).map σ := by
  obtain ⟨o1, n1⟩ := steps_out h1
  obtain ⟨o2, n2⟩ := steps_out h2
  -- the second part first
  obtain ⟨T1', s2, a2, e2⟩ := steps_agree (touchesAny_whole ops')
    (ρ := fun x => if x < T.next then x else if x < T1.next then x + (T2.next - T1.next) else x - (T1.next - T.next)) h2 T
    (fun _ h => h) (fun C hC => by
      rw [o1 C fun h => hd C ⟨h, hC⟩]
      exact (map_same' fun x hx => by simp [f C x hx]).symm)
    (fun i => by
      have a : ¬ T1.next + i < T.next := by omega
      have b : ¬ T1.next + i < T1.next := by omega
      simp only [if_neg a, if_neg b]
      show (_ : Nat) = _
      omega)
  have o2' := steps_out s2
  have en : T1'.next = T.next + (T2.next - T1.next) := by
    have := e2 0
    have a : ¬ T2.next + 0 < T.next := by omega
    have b : ¬ T2.next + 0 < T1.next := by omega
    simp only [if_neg a, if_neg b] at this
    have this : (T2.next + 0 - (T1.next - T.next) : Nat) = T1'.next + 0 := this
    omega
  -- then the first
  obtain ⟨T2', s1, a1, e1⟩ := steps_agree (touchesAny_whole ops) (ρ := fun x => if x < T.next then x else x + (T2.next - T1.next)) h1 T1'
    (fun _ h => h) (fun C hC => by
      rw [o2'.1 C fun h => hd C ⟨hC, h⟩]
      exact (map_same' fun x hx => by simp [f C x hx]).symm)
    (fun i => by
      have a : ¬ T.next + i < T.next := by omega
      simp only [if_neg a]
      show (_ : Nat) = _
      omega)
  have en' : T2'.next = T2.next := by
    have := e1 0
    have a : ¬ T1.next + 0 < T.next := by omega
    simp only [if_neg a] at this
    have this : (T1.next + 0 + (T2.next - T1.next) : Nat) = T2'.next + 0 := this
    omega
  have o1' := steps_out s1
  refine ⟨T1', T2', blocks T.next T1.next T2.next, s2, s1, en', ⟨⟨blocks T.next (T.next + (T2.next - T1.next)) T2.next, ?_, ?_⟩, ?_⟩, ?_, ?_⟩
  · exact blocks_back n1 n2
  · intro x
    have := blocks_back (n := T.next) (n1 := T.next + (T2.next - T1.next)) (n2 := T2.next) (by omega) (by omega) x
    rwa [show T.next + (T2.next - (T.next + (T2.next - T1.next))) = T1.next by omega] at this
  · intro x hx
    simp [blocks, hx]
  · intro x hx
    have a : ¬ x < T.next := by omega
    have b : ¬ x < T1.next := by omega
    have c : ¬ x < T2.next := by omega
    simp [blocks, a, b, c]
  · intro C
    by_cases hC : TouchesAny ops C
    · have hC' : ¬ TouchesAny ops' C := fun h => hd C ⟨hC, h⟩
      rw [a1 C hC, o2 C hC']
      apply List.map_congr_left
      intro x hx
      have := f1 C x hx
      simp [blocks, this]
    · rw [o1'.1 C hC]
      by_cases hC' : TouchesAny ops' C
      · rw [a2 C hC']
        apply List.map_congr_left
        intro x hx
        have := f2 C x hx
        simp [blocks, this]
      · rw [o2'.1 C hC', o2 C hC', o1 C hC]
        exact (map_same' fun x hx => by simp [blocks, f C x hx]).symm

/-! ### Values beside the table -/

private theorem beside_table (G : Game) (T : Table) (e : Event) : ({ G with table := T } : Game).beside e = (G.beside e).map ({ · with table := T }) := by
  cases e with
  | board e =>
    cases e with
    | state s =>
      simp only [Game.beside]
      split <;> rfl
    | _ => rfl
  | chainStack e =>
    cases e with
    | pop x =>
      simp only [Game.beside]
      split <;> rfl
    | _ => rfl
  | lp con c =>
    simp only [Game.beside]
    split
    · rfl
    · split <;> rfl
  | _ => rfl

private theorem beside_keeps {G H : Game} {e : Event} (h : G.beside e = some H) : H.table = G.table := by
  have := beside_table G G.table e
  rw [h] at this
  simp only [Option.map_some, Option.some.injEq] at this
  rw [this]

/-- Two games have the same value. -/
private def SameValue (G H : Game) : Value → Prop
  | .chain => G.chain = H.chain
  | .turn => G.turn = H.turn ∧ G.turnPlayer = H.turnPlayer
  | .lp i => G.lp i = H.lp i
  | .phase => G.phase = H.phase
  | .blocked => G.blocked = H.blocked

private theorem SameValue.refl (G : Game) (v : Value) : SameValue G G v := by cases v <;> simp [SameValue]

private theorem SameValue.symm {G H : Game} {v : Value} (h : SameValue G H v) : SameValue H G v := by
  cases v <;> simp_all [SameValue]

private theorem SameValue.trans {G H K : Game} {v : Value} (h : SameValue G H v) (h' : SameValue H K v) : SameValue G K v := by
  cases v <;> simp_all [SameValue]

private theorem SameValue.all {G H : Game} (h : ∀ v, SameValue G H v) (ht : G.table = H.table) : G = H := by
  have h1 := h .chain
  have h2 := h .turn
  have h3 := fun i => h (.lp i)
  have h4 := h .phase
  have h5 := h .blocked
  obtain ⟨t, c, n, p, l, ph, b⟩ := G
  obtain ⟨t', c', n', p', l', ph', b'⟩ := H
  simp only [SameValue] at h1 h2 h3 h4 h5 ht
  obtain ⟨h2, h2'⟩ := h2
  have := funext h3
  subst h1 h2 h2' h4 h5 ht this
  rfl

/-- What an event does to the values beside the table only depends on those it is about, and changes no others. -/
private theorem beside_local {G H G' : Game} {e : Event} (h : G.beside e = some H) (hs : ∀ v ∈ valuesOf e, SameValue G G' v) :
    ∃ H', G'.beside e = some H' ∧ (∀ v ∈ valuesOf e, SameValue H H' v) ∧ ∀ v, v ∉ valuesOf e → SameValue G' H' v := by
  have inert : ∀ (G H : Game), some G = some H → H = G := fun _ _ h => by cases h; rfl
  cases e with
  | board e =>
    cases e with
    | state s =>
      simp only [Game.beside] at h ⊢
      split at h
      · cases h
        refine ⟨_, rfl, ?_, ?_⟩
        · intro v hv
          have := hs v hv
          simp only [valuesOf, List.mem_cons, List.not_mem_nil, or_false] at hv
          rcases hv with rfl | rfl | rfl | rfl
          · rfl
          · obtain ⟨t1, t2⟩ := this
            exact ⟨by simp only [t1], t2⟩
          · rfl
          · rfl
        · intro v hv
          cases v with
          | lp i =>
            match i with
            | 0 => simp [valuesOf] at hv
            | 1 => simp [valuesOf] at hv
          | phase => rfl
          | blocked => rfl
          | chain => simp [valuesOf] at hv
          | turn => simp [valuesOf] at hv
      · cases h
    | _ => exact ⟨_, rfl, fun v hv => by simp [valuesOf] at hv, fun v _ => SameValue.refl _ v⟩
  | chainStack e =>
    have hc : G.chain = G'.chain := hs .chain (by simp [valuesOf])
    cases e with
    | unset =>
      cases h
      refine ⟨_, rfl, fun v hv => hs v hv, fun v _ => SameValue.refl _ v⟩
    | push c =>
      cases h
      refine ⟨_, rfl, ?_, ?_⟩
      · intro v hv
        simp only [valuesOf, List.mem_singleton] at hv
        subst hv
        show G.chain ++ [c] = G'.chain ++ [c]
        rw [hc]
      · intro v hv
        cases v <;> first
          | (simp [SameValue]; done)
          | exact absurd (by simp [valuesOf]) hv
    | pop x =>
      simp only [Game.beside, ← hc] at h ⊢
      split at h
      · cases h
      · rename_i hn
        cases h
        rw [if_neg hn]
        refine ⟨_, rfl, ?_, ?_⟩
        · intro v hv
          simp only [valuesOf, List.mem_singleton] at hv
          subst hv
          rfl
        · intro v hv
          cases v <;> first
            | (simp [SameValue]; done)
            | exact absurd (by simp [valuesOf]) hv
  | nextTurn con =>
    cases h
    have ht : G.turn = G'.turn := (hs .turn (by simp [valuesOf])).1
    refine ⟨_, rfl, ?_, ?_⟩
    · intro v hv
      simp only [valuesOf, List.mem_singleton] at hv
      subst hv
      exact ⟨by simp only [ht], rfl⟩
    · intro v hv
      cases v <;> first
        | (simp [SameValue]; done)
        | exact absurd (by simp [valuesOf]) hv
  | lp con c =>
    simp only [Game.beside] at h ⊢
    by_cases h0 : con = 0
    · have hl : G.lp 0 = G'.lp 0 := hs (.lp 0) (by simp [valuesOf, h0])
      rw [if_pos h0] at h ⊢
      cases h
      refine ⟨_, rfl, ?_, ?_⟩
      · intro v hv
        simp only [valuesOf, if_pos h0, List.mem_singleton] at hv
        subst hv
        show lpChanged _ _ = lpChanged _ _
        rw [hl]
      · intro v hv
        simp only [valuesOf, if_pos h0, List.mem_singleton] at hv
        cases v <;> try simp [SameValue]
        rename_i i
        intro hi
        exact absurd (by rw [hi]) hv
    · rw [if_neg h0] at h ⊢
      have hl : G.lp 1 = G'.lp 1 := hs (.lp 1) (by simp [valuesOf, h0])
      split at h
      · rename_i h1
        rw [if_pos h1]
        cases h
        refine ⟨_, rfl, ?_, ?_⟩
        · intro v hv
          simp only [valuesOf, if_neg h0, List.mem_singleton] at hv
          subst hv
          show lpChanged _ _ = lpChanged _ _
          rw [hl]
        · intro v hv
          simp only [valuesOf, if_neg h0, List.mem_singleton] at hv
          cases v <;> try simp [SameValue]
          rename_i i
          intro hi
          exact absurd (by rw [hi]) hv
      · cases h
  | nextPhase p =>
    cases h
    refine ⟨_, rfl, ?_, ?_⟩
    · intro v hv
      simp only [valuesOf, List.mem_singleton] at hv
      subst hv
      rfl
    · intro v hv
      cases v <;> first
        | (simp [SameValue]; done)
        | exact absurd (by simp [valuesOf]) hv
  | zoneBlock zs =>
    cases h
    refine ⟨_, rfl, ?_, ?_⟩
    · intro v hv
      simp only [valuesOf, List.mem_singleton] at hv
      subst hv
      rfl
    · intro v hv
      cases v <;> first
        | (simp [SameValue]; done)
        | exact absurd (by simp [valuesOf]) hv
  | _ => exact ⟨_, rfl, fun v hv => by simp [valuesOf] at hv, fun v _ => SameValue.refl _ v⟩

private theorem beside_swap {G H K : Game} {e e' : Event} (h1 : G.beside e = some H) (h2 : H.beside e' = some K)
    (hd : ∀ v ∈ valuesOf e, v ∉ valuesOf e') : ∃ H', G.beside e' = some H' ∧ H'.beside e = some K := by
  obtain ⟨_, x1, _, k1⟩ := beside_local h1 (fun v _ => SameValue.refl G v)
  rw [h1] at x1; cases x1
  obtain ⟨_, x2, _, k2⟩ := beside_local h2 (fun v _ => SameValue.refl H v)
  rw [h2] at x2; cases x2
  obtain ⟨H', a1, a2, a3⟩ := beside_local (G' := G) h2 (fun v hv => (k1 v fun h => hd v h hv).symm)
  obtain ⟨K', b1, b2, b3⟩ := beside_local (G' := H') h1 (fun v hv => a3 v (hd v hv))
  refine ⟨H', a1, ?_⟩
  rw [b1]
  congr 1
  refine SameValue.all (fun v => ?_) ?_
  · by_cases hv : v ∈ valuesOf e
    · exact (b2 v hv).symm.trans (k2 v (hd v hv))
    · by_cases hv' : v ∈ valuesOf e'
      · exact (b3 v hv).symm.trans (a2 v hv').symm
      · exact (b3 v hv).symm.trans ((a3 v hv').symm.trans ((k1 v hv).trans (k2 v hv')))
  · rw [beside_keeps b1, beside_keeps a1, beside_keeps h2, beside_keeps h1]

/-! ### Events -/

private theorem happens_swap {G G1 G2 : Game} {e e' : Event} (h1 : G.Happens e G1) (h2 : G1.Happens e' G2) (hd : Apart e e')
    (f : Fresh G.table) (f1 : Fresh G1.table) (f2 : Fresh G2.table) :
    ∃ G1' σ, G.Happens e' G1' ∧ G1'.Happens e (G2.renamed σ) ∧ Renames G.table.next σ ∧ ∀ x, G2.table.next ≤ x → σ x = x := by
  obtain ⟨H, T1, b1, s1, rfl⟩ := h1
  obtain ⟨K, T2, b2, s2, rfl⟩ := h2
  obtain ⟨T1', T2', σ, s2', s1', en, hσ, hσ', hB⟩ := steps_swap s1 s2
    (fun C ⟨⟨op, ho, ht⟩, op', ho', ht'⟩ => hd.1 op ho op' ho' C ⟨ht, ht'⟩) f f1 f2
  rw [beside_table] at b2
  obtain ⟨K0, b3, rfl⟩ := Option.map_eq_some_iff.mp b2
  obtain ⟨H', b1', b2'⟩ := beside_swap b1 b3 hd.2
  refine ⟨{ H' with table := T1' }, σ, ⟨H', T1', b1', s2', rfl⟩, ⟨{ K0 with table := T1' }, T2', ?_, s1', ?_⟩, hσ, hσ'⟩
  · rw [beside_table, b2']
    rfl
  · simp only [Game.renamed]
    congr 1
    obtain ⟨B, n⟩ := T2'
    have en : n = T2.next := en
    have : B = fun C => (T2.board C).map σ := funext hB
    rw [en, this]

private theorem story_renamed {σ : CardId → CardId} {G G1 : Game} {es : List Event} (h : G.Story es G1) (hσ : ∀ x, G.table.next ≤ x → σ x = x) :
    (G.renamed σ).Story es (G1.renamed σ) := by
  induction h with
  | nil => exact .nil _
  | cons h _ ih =>
    obtain ⟨H, T, b, s, rfl⟩ := h
    have o := steps_out s
    obtain ⟨T', s', a, e⟩ := steps_agree (R := fun _ => True) (fun _ => Iff.rfl) (ρ := σ) s (Game.renamed _ σ).table (fun _ _ => trivial)
      (fun _ _ => rfl) (fun i => hσ _ (Nat.le_add_right _ _))
    refine .cons (G1 := Game.renamed { H with table := T } σ) ?_ (ih fun x hx => hσ x (Nat.le_trans o.2 hx))
    refine ⟨H.renamed σ, T', ?_, s', ?_⟩
    · unfold Game.renamed
      rw [beside_table, b, Option.map_some, beside_keeps b]
    · simp only [Game.renamed]
      congr 1
      obtain ⟨B, n⟩ := T'
      have e := e 0
      rw [hσ (T.next + 0) o.2] at e
      have e : T.next + 0 = n + 0 := e
      have : B = fun C => (T.board C).map σ := funext fun C => a C trivial
      rw [this]
      congr 1

private theorem fresh_of {f : Frame} (hi : Inv f) : Fresh (tableOf f) := fun C x hx => by
  have h1 : x ∈ placed (view f.layout) := mem_placed.mpr ⟨C, hx⟩
  exact hi.fresh x ((hi.owns.perm.mem_iff).mp h1)

private theorem renames_trans {n : CardId} {σ τ : CardId → CardId} (h : Renames n σ) (h' : Renames n τ) : Renames n (τ ∘ σ) := by
  obtain ⟨⟨σ', a, b⟩, c⟩ := h
  obtain ⟨⟨τ', a', b'⟩, c'⟩ := h'
  exact ⟨⟨σ' ∘ τ', fun x => by simp [a, a'], fun x => by simp [b, b']⟩, fun x hx => by simp [c x hx, c' x hx]⟩

private theorem renames_mono {n m : CardId} {σ : CardId → CardId} (h : Renames m σ) (hn : n ≤ m) : Renames n σ :=
  ⟨h.1, fun x hx => h.2 x (Nat.lt_of_lt_of_le hx hn)⟩

private theorem renamed_renamed (G : Game) (σ τ : CardId → CardId) : (G.renamed σ).renamed τ = G.renamed (τ ∘ σ) := by
  simp only [Game.renamed, List.map_map]

private theorem renamed_id {G : Game} {σ : CardId → CardId} (h : ∀ x, σ x = x) : G.renamed σ = G := by
  have : σ = id := funext h
  subst this
  simp only [Game.renamed, List.map_id]

private theorem story_append {G G2 : Game} {es es' : List Event} : G.Story (es ++ es') G2 ↔ ∃ G1, G.Story es G1 ∧ G1.Story es' G2 := by
  induction es generalizing G with
  | nil =>
    refine ⟨fun h => ⟨G, .nil _, h⟩, ?_⟩
    rintro ⟨_, h, h'⟩
    cases h; exact h'
  | cons e es ih =>
    constructor
    · intro h
      cases h with
      | cons h t =>
        obtain ⟨G1, a, b⟩ := ih.mp t
        exact ⟨G1, .cons h a, b⟩
    · rintro ⟨G1, h, h'⟩
      cases h with
      | cons h t => exact .cons h (ih.mpr ⟨G1, t, h'⟩)

private theorem story_next {G G1 : Game} {es : List Event} (h : G.Story es G1) : G.table.next ≤ G1.table.next := by
  induction h with
  | nil => exact Nat.le_refl _
  | cons h _ ih =>
    obtain ⟨H, T, _, s, rfl⟩ := h
    exact Nat.le_trans (steps_out s).2 ih

private theorem ReachablePlain.story {es : List Event} {b b' : PlainBoard} (hr : ReachablePlain b) (h : b.parseEvents es = .ok b') : ReachablePlain b' := by
  induction es generalizing b with
  | nil => cases h; exact hr
  | cons e es ih =>
    simp only [DuelBoard.parseEvents, bind_eq_ok] at h
    obtain ⟨b1, h1, h2⟩ := h
    exact ih (hr.next h1) h2

private theorem story_fresh {b : PlainBoard} (hr : ReachablePlain b) {es : List Event} (ht : ∀ e ∈ es, TidyEvent e) {G : Game}
    (h : (gameOf b).Story es G) : Fresh G.table := by
  obtain ⟨b', h1, rfl⟩ := (story_iff G es b ht hr).mpr h
  exact fresh_of (hr.story h1).inv

theorem _root_.Ygo.Spec.Apart.symm {e e' : Event} (h : Apart e e') : Apart e' e :=
  ⟨fun op ho op' ho' C ⟨a, b⟩ => h.1 op' ho' op ho C ⟨b, a⟩, fun v hv hv' => h.2 v hv' hv⟩

theorem _root_.Ygo.Spec.Reordered.symm {es es' : List Event} (h : Reordered es es') : Reordered es' es := by
  induction h with
  | refl => exact .refl _
  | swap pre e e' post h => exact .swap pre e' e post h.symm
  | trans _ _ ih1 ih2 => exact .trans ih2 ih1

theorem _root_.Ygo.Spec.Reordered.mem {es es' : List Event} (h : Reordered es es') (e : Event) : e ∈ es' ↔ e ∈ es := by
  induction h with
  | refl => exact Iff.rfl
  | swap pre a b post _ => simp only [List.mem_append, List.mem_cons]; tauto
  | trans _ _ ih1 ih2 => exact ih2.trans ih1

private theorem story_reordered {b : PlainBoard} (hr : ReachablePlain b) {es es' : List Event} (hR : Reordered es es') :
    (∀ e ∈ es, TidyEvent e) → ∀ {G : Game}, (gameOf b).Story es G →
      ∃ σ, (gameOf b).Story es' (G.renamed σ) ∧ Renames b.frame.next σ ∧ ∀ x, G.table.next ≤ x → σ x = x := by
  induction hR with
  | refl =>
    intro _ G h
    exact ⟨id, by rw [renamed_id (σ := id) fun _ => rfl]; exact h, ⟨⟨id, fun _ => rfl, fun _ => rfl⟩, fun _ _ => rfl⟩, fun _ _ => rfl⟩
  | swap pre e e' post hd =>
    intro ht G h
    obtain ⟨G1, h1, h2⟩ := story_append.mp h
    cases h2 with
    | cons s1 t =>
      rename_i G2
      cases t with
      | cons s2 t =>
        rename_i G3
        have f1 : Fresh G1.table := story_fresh hr (fun x hx => ht x (by simp [hx])) h1
        have f2 : Fresh G2.table := story_fresh hr (es := pre ++ [e]) (fun x hx => ht x (by simp at hx ⊢; tauto))
          (story_append.mpr ⟨G1, h1, .cons s1 (.nil _)⟩)
        have f3 : Fresh G3.table := story_fresh hr (es := pre ++ [e, e']) (fun x hx => ht x (by simp at hx ⊢; tauto))
          (story_append.mpr ⟨G1, h1, .cons s1 (.cons s2 (.nil _))⟩)
        obtain ⟨G2', σ, a1, a2, a3, a4⟩ := happens_swap s1 s2 hd f1 f2 f3
        exact ⟨σ, story_append.mpr ⟨G1, h1, .cons a1 (.cons a2 (story_renamed t a4))⟩, renames_mono a3 (story_next h1),
          fun x hx => a4 x (Nat.le_trans (story_next t) hx)⟩
  | trans hA hB ih1 ih2 =>
    intro ht G h
    obtain ⟨σ, s1, r1, n1⟩ := ih1 ht h
    obtain ⟨τ, s2, r2, n2⟩ := ih2 (fun e he => ht e ((hA.mem e).mp he)) s1
    refine ⟨τ ∘ σ, by rw [← renamed_renamed]; exact s2, renames_trans r1 r2, fun x hx => ?_⟩
    show τ (σ x) = x
    rw [n1 x hx]
    exact n2 x hx

private theorem steps_append {T T2 : Table} {ops ops' : List FrameOp} :
    T.Steps (ops ++ ops') T2 ↔ ∃ T1, T.Steps ops T1 ∧ T1.Steps ops' T2 := by
  induction ops generalizing T with
  | nil =>
    refine ⟨fun h => ⟨T, .nil _, h⟩, ?_⟩
    rintro ⟨_, h, h'⟩
    cases h; exact h'
  | cons e es ih =>
    constructor
    · intro h
      cases h with
      | cons h t =>
        obtain ⟨G1, a, b⟩ := ih.mp t
        exact ⟨G1, .cons h a, b⟩
    · rintro ⟨G1, h, h'⟩
      cases h with
      | cons h t => exact .cons h (ih.mpr ⟨G1, t, h'⟩)

/-! ### C105 -/

theorem calls_swap {f f' : Frame} (hi : Inv f) {ops ops' : List FrameOp} (ht : ∀ op ∈ ops ++ ops', Tidy op)
    (hd : ∀ op ∈ ops, ∀ op' ∈ ops', ∀ C, ¬ (Touches op C ∧ Touches op' C)) (h : f.run (ops ++ ops') = .ok f') :
    ∃ f'' σ, f.run (ops' ++ ops) = .ok f'' ∧ Renames f.next σ ∧ f''.next = f'.next ∧
      ∀ C, view f''.layout C = (view f'.layout C).map σ := by
  have t1 : ∀ op ∈ ops, Tidy op := fun op ho => ht op (by simp [ho])
  obtain ⟨T1, s1, s2⟩ := steps_append.mp ((hi.steps_iff _ ht _).mp ⟨f', by rw [← run_eq_runOps]; exact h, rfl⟩)
  obtain ⟨f1, h1, rfl⟩ := (hi.steps_iff ops t1 _).mpr s1
  rw [← run_eq_runOps] at h1
  obtain ⟨T1', T2', σ, s2', s1', en, hσ, _, hB⟩ := steps_swap s1 s2
    (fun C ⟨⟨op, ho, a⟩, op', ho', a'⟩ => hd op ho op' ho' C ⟨a, a'⟩) (fresh_of hi) (fresh_of (hi.run h1)) (fresh_of (hi.run h))
  obtain ⟨f2, h2, rfl⟩ := (hi.steps_iff (ops' ++ ops) (fun op ho => ht op (by simp at ho ⊢; tauto)) _).mpr (steps_append.mpr ⟨T1', s2', s1'⟩)
  exact ⟨f2, σ, by rw [run_eq_runOps]; exact h2, hσ, en, hB⟩

/-- **C105.** Calls that name different piles and zones can be made in either order, and lead to the same table but for the names of new cards. -/
theorem C105_calls (f f' : Frame) (hr : Reachable f) (ops ops' : List FrameOp) (ht : ∀ op ∈ ops ++ ops', Tidy op)
    (hd : ∀ op ∈ ops, ∀ op' ∈ ops', ∀ C, ¬ (Touches op C ∧ Touches op' C)) (h : f.run (ops ++ ops') = .ok f') :
    ∃ f'' σ, f.run (ops' ++ ops) = .ok f'' ∧ Renames f.next σ ∧ f''.next = f'.next ∧
      ∀ C, view f''.layout C = (view f'.layout C).map σ := calls_swap hr.inv ht hd h

/-- **C105.** Events that have nothing to do with each other can be told in any order: from every board, the one sequence is parsed exactly if
the other is, … -/
theorem C105_parsed (b : PlainBoard) (hr : ReachablePlain b) (es es' : List Event) (ht : ∀ e ∈ es, TidyEvent e) (hR : Reordered es es') :
    (∃ b1, b.parseEvents es = .ok b1) ↔ ∃ b1, b.parseEvents es' = .ok b1 := by
  constructor
  · rintro ⟨b1, h⟩
    obtain ⟨σ, s, _⟩ := story_reordered hr hR ht ((story_iff _ es b ht hr).mp ⟨b1, h, rfl⟩)
    obtain ⟨b2, h2, _⟩ := (story_iff _ es' b (fun e he => ht e ((hR.mem e).mp he)) hr).mpr s
    exact ⟨b2, h2⟩
  · rintro ⟨b1, h⟩
    have ht' : ∀ e ∈ es', TidyEvent e := fun e he => ht e ((hR.mem e).mp he)
    obtain ⟨σ, s, _⟩ := story_reordered hr hR.symm ht' ((story_iff _ es' b ht' hr).mp ⟨b1, h, rfl⟩)
    obtain ⟨b2, h2, _⟩ := (story_iff _ es b ht hr).mpr s
    exact ⟨b2, h2⟩

/-- **C105.** … and the games they lead to are the same but for the names of cards that are new. -/
theorem C105_events (b b1 b2 : PlainBoard) (hr : ReachablePlain b) (es es' : List Event) (ht : ∀ e ∈ es, TidyEvent e) (hR : Reordered es es')
    (h1 : b.parseEvents es = .ok b1) (h2 : b.parseEvents es' = .ok b2) :
    ∃ σ, Renames b.frame.next σ ∧ gameOf b2 = (gameOf b1).renamed σ := by
  obtain ⟨σ, s, r, _⟩ := story_reordered hr hR ht ((story_iff _ es b ht hr).mp ⟨b1, h1, rfl⟩)
  obtain ⟨b3, h3, e3⟩ := (story_iff _ es' b (fun e he => ht e ((hR.mem e).mp he)) hr).mpr s
  rw [h2] at h3; cases h3
  exact ⟨σ, r, e3⟩

/-- **C105.** If no cards are new, the games are the same. -/
theorem C105_same (b b1 b2 : PlainBoard) (hr : ReachablePlain b) (es es' : List Event) (ht : ∀ e ∈ es, TidyEvent e) (hR : Reordered es es')
    (hn : b1.frame.next = b.frame.next) (h1 : b.parseEvents es = .ok b1) (h2 : b.parseEvents es' = .ok b2) : gameOf b2 = gameOf b1 := by
  obtain ⟨σ, s, r, n⟩ := story_reordered hr hR ht ((story_iff _ es b ht hr).mp ⟨b1, h1, rfl⟩)
  obtain ⟨b3, h3, e3⟩ := (story_iff _ es' b (fun e he => ht e ((hR.mem e).mp he)) hr).mpr s
  rw [h2] at h3; cases h3
  rw [e3]
  refine renamed_id fun x => ?_
  by_cases hx : x < b.frame.next
  · exact r.2 x hx
  · exact n x (by show b1.frame.next ≤ x; omega)

/-- **C105.** In every case each pile and zone holds as many cards, and everything beside the table is the same. -/
theorem C105_shape (b b1 b2 : PlainBoard) (hr : ReachablePlain b) (es es' : List Event) (ht : ∀ e ∈ es, TidyEvent e) (hR : Reordered es es')
    (h1 : b.parseEvents es = .ok b1) (h2 : b.parseEvents es' = .ok b2) :
    (∀ C, (view b2.frame.layout C).length = (view b1.frame.layout C).length) ∧ b2.chainStack.val = b1.chainStack.val ∧ b2.turn.val = b1.turn.val ∧
      b2.turnController.val = b1.turnController.val ∧ (∀ i, (b2.lp i).val = (b1.lp i).val) ∧ b2.phase.val = b1.phase.val ∧
      b2.blockedZones.val = b1.blockedZones.val := by
  obtain ⟨σ, _, e⟩ := C105_events b b1 b2 hr es es' ht hR h1 h2
  have ht := congrArg (fun G => G.table.board) e
  refine ⟨fun C => ?_, congrArg Game.chain e, congrArg Game.turn e, congrArg Game.turnPlayer e, fun i => congrFun (congrArg Game.lp e) i,
    congrArg Game.phase e, congrArg Game.blocked e⟩
  have : view b2.frame.layout C = (view b1.frame.layout C).map σ := congrFun ht C
  rw [this, List.length_map]

/-- **C105.** Clients whose boards can be undone see the same game. -/
theorem C105_undoable (es es' : List Event) (ht : ∀ e ∈ es, TidyEvent e) (hR : Reordered es es') (u u' : UndoBoard)
    (h : UndoBoard.init.parseEvents es = .ok u) (h' : UndoBoard.init.parseEvents es' = .ok u') :
    (∃ σ, Renames 0 σ ∧ ∀ C, view u'.frame.base.layout C = (view u.frame.base.layout C).map σ) ∧ u'.chainStack.get = u.chainStack.get ∧
      u'.turn.get = u.turn.get ∧ u'.turnController.get = u.turnController.get ∧ (∀ i, (u'.lp i).get = (u.lp i).get) ∧
      u'.phase.get = u.phase.get ∧ u'.blockedZones.get = u.blockedZones.get := by
  obtain ⟨p, h1, h2⟩ := C58_same_as_plain es u h
  obtain ⟨p', h1', h2'⟩ := C58_same_as_plain es' u' h'
  obtain ⟨σ, r, e⟩ := C105_events PlainBoard.init p p' ⟨[], rfl⟩ es es' ht hR h1 h1'
  obtain ⟨_, s⟩ := C105_shape PlainBoard.init p p' ⟨[], rfl⟩ es es' ht hR h1 h1'
  obtain ⟨s1, s2, s3, s4, s5, s6⟩ := s
  refine ⟨⟨σ, r, fun C => ?_⟩, ?_, ?_, ?_, fun i => ?_, ?_, ?_⟩
  · rw [h2.layout, h2'.layout]
    exact congrFun (congrArg (fun G => G.table.board) e) C
  · rw [h2.chainStack, h2'.chainStack]; exact congrArg _ s1
  · rw [h2.turn, h2'.turn]; exact congrArg _ s2
  · rw [h2.turnController, h2'.turnController]; exact congrArg _ s3
  · rw [h2.lp i, h2'.lp i]; exact congrArg _ (s4 i)
  · rw [h2.phase, h2'.phase]; exact congrArg _ s5
  · rw [h2.blockedZones, h2'.blockedZones]; exact congrArg _ s6

/-- One player plays a card from the hand while the other draws, loses life points, and the phase changes. -/
def besides : List Event :=
  [.card 0 (.move [⟨⟨0, 0x2, 0, -1⟩, ⟨0, 0x4, 0, -1⟩⟩]), .pile 0 (.splice [⟨⟨1, 0x1, 4, -1⟩, 1, ⟨1, 0x2, 0, -1⟩, false⟩]), .lp 1 (.damage 500),
   .nextPhase 4]

private theorem apart_of {e e' : Event} {cs cs' : List FrameOp} (h : callsOf e = cs) (h' : callsOf e' = cs') (hc : FrameOp.clear ∉ cs)
    (hc' : FrameOp.clear ∉ cs') (hp : ∀ op ∈ cs, ∀ op' ∈ cs', ∀ p ∈ placesOf op, ∀ q ∈ placesOf op', p.con ≠ q.con ∨ p.loc ≠ q.loc)
    (hv : ∀ v ∈ valuesOf e, v ∉ valuesOf e') : Apart e e' := by
  subst h h'
  refine ⟨?_, hv⟩
  rintro op ho op' ho' C ⟨t, t'⟩
  rcases t with rfl | ⟨p, hp1, r⟩
  · exact hc ho
  rcases t' with rfl | ⟨q, hq1, r'⟩
  · exact hc' ho'
  have := hp op ho op' ho' p hp1 q hq1
  cases C <;> simp only [Reaches, Names] at r r'
  all_goals
    rcases this with n | n
    · exact n (by rw [r.1, r'.1])
    · first
      | exact n (by rw [r.2, r'.2])
      | exact n (by rw [r.2.1, r'.2.1])

/-- Any two of these events have nothing to do with each other; here their order is turned around. -/
example : Reordered besides besides.reverse := by
  have a : ∀ e ∈ besides, ∀ e' ∈ besides, e ≠ e' → Apart e e' := by
    intro e he e' he' hn
    simp only [besides, List.mem_cons, List.not_mem_nil, or_false] at he he'
    rcases he with rfl | rfl | rfl | rfl <;> rcases he' with rfl | rfl | rfl | rfl <;> first
      | exact absurd rfl hn
      | exact apart_of rfl rfl (by simp [callsOf]) (by simp [callsOf]) (by simp [callsOf, placesOf]) (by simp [valuesOf])
  have m : ∀ (pre post : List Event) (e e' : Event), e ∈ besides → e' ∈ besides → e ≠ e' →
      Reordered (pre ++ e :: e' :: post) (pre ++ e' :: e :: post) := fun pre post e e' h h' hn => .swap pre e e' post (a e h e' h' hn)
  let e1 : Event := .card 0 (.move [⟨⟨0, 0x2, 0, -1⟩, ⟨0, 0x4, 0, -1⟩⟩])
  let e2 : Event := .pile 0 (.splice [⟨⟨1, 0x1, 4, -1⟩, 1, ⟨1, 0x2, 0, -1⟩, false⟩])
  let e3 : Event := .lp 1 (.damage 500)
  let e4 : Event := .nextPhase 4
  show Reordered [e1, e2, e3, e4] [e4, e3, e2, e1]
  refine .trans (m [] [e3, e4] e1 e2 (by simp [besides, e1]) (by simp [besides, e2]) (by simp [e1, e2])) ?_
  refine .trans (m [e2] [e4] e1 e3 (by simp [besides, e1]) (by simp [besides, e3]) (by simp [e1, e3])) ?_
  refine .trans (m [e2, e3] [] e1 e4 (by simp [besides, e1]) (by simp [besides, e4]) (by simp [e1, e4])) ?_
  refine .trans (m [] [e4, e1] e2 e3 (by simp [besides, e2]) (by simp [besides, e3]) (by simp [e2, e3])) ?_
  refine .trans (m [e3] [e1] e2 e4 (by simp [besides, e2]) (by simp [besides, e4]) (by simp [e2, e4])) ?_
  exact m [] [e2, e1] e3 e4 (by simp [besides, e3]) (by simp [besides, e4]) (by simp [e3, e4])

/-- A new duel, as in `smallDuel`, up to the first draw. -/
private def opening : List Event := smallDuel.take 3

example : (do let b ← PlainBoard.init.parseEvents opening; let b1 ← b.parseEvents besides; let b2 ← b.parseEvents besides.reverse
              pure ((b1.frame.next, b1.lp 1 |>.val, b1.phase.val, view b1.frame.layout (.slot ⟨0, .monster, 0, by decide⟩), view b1.frame.layout (.pile ⟨1, .hand⟩)),
                (b2.frame.next, b2.lp 1 |>.val, b2.phase.val, view b2.frame.layout (.slot ⟨0, .monster, 0, by decide⟩), view b2.frame.layout (.pile ⟨1, .hand⟩))) :
      Res _) = .ok ((10, 7500, 4, [3], [9]), (10, 7500, 4, [3], [9])) := rfl

/-- New cards get their names in the order they come: the names differ if cards are added in another order. -/
example : (do let b1 ← PlainBoard.init.parseEvents [.card 0 (.add [⟨0, 0x1, 0, -1⟩, ⟨0, 0x1, 1, -1⟩]), .card 0 (.add [⟨1, 0x1, 0, -1⟩])]
              let b2 ← PlainBoard.init.parseEvents [.card 0 (.add [⟨1, 0x1, 0, -1⟩]), .card 0 (.add [⟨0, 0x1, 0, -1⟩, ⟨0, 0x1, 1, -1⟩])]
              pure ((view b1.frame.layout (.pile ⟨0, .mainDeck⟩), view b1.frame.layout (.pile ⟨1, .mainDeck⟩)),
                (view b2.frame.layout (.pile ⟨0, .mainDeck⟩), view b2.frame.layout (.pile ⟨1, .mainDeck⟩))) : Res _)
    = .ok (([0, 1], [2]), ([1, 2], [0])) := rfl

/-- **C105.** Events about the same pile cannot be exchanged. -/
theorem C105_only_apart : ∃ (b b1 b2 : PlainBoard) (e e' : Event), ReachablePlain b ∧ TidyEvent e ∧ TidyEvent e' ∧ b.parseEvents [e, e'] = .ok b1 ∧
    b.parseEvents [e', e] = .ok b2 ∧ ¬ Apart e e' ∧ b1.frame.next = b.frame.next ∧ gameOf b2 ≠ gameOf b1 := by
  obtain ⟨b, hb⟩ : ∃ b, PlainBoard.init.parseEvents opening = .ok b := ⟨_, rfl⟩
  let e : Event := .card 0 (.move [⟨⟨0, 0x2, 0, -1⟩, ⟨0, 0x4, 0, -1⟩⟩])
  let e' : Event := .card 0 (.move [⟨⟨0, 0x2, 0, -1⟩, ⟨0, 0x4, 1, -1⟩⟩])
  obtain ⟨b1, h1⟩ : ∃ b1, b.parseEvents [e, e'] = .ok b1 := by cases hb; exact ⟨_, rfl⟩
  obtain ⟨b2, h2⟩ : ∃ b2, b.parseEvents [e', e] = .ok b2 := by cases hb; exact ⟨_, rfl⟩
  refine ⟨b, b1, b2, e, e', ⟨_, hb⟩, ?_, ?_, h1, h2, ?_, ?_, ?_⟩
  · intro op ho
    simp only [e, callsOf, List.map_cons, List.map_nil, List.mem_singleton] at ho
    subst ho; trivial
  · intro op ho
    simp only [e', callsOf, List.map_cons, List.map_nil, List.mem_singleton] at ho
    subst ho; trivial
  · rintro ⟨h, _⟩
    exact h (.move ⟨0, 0x2, 0, -1⟩ ⟨0, 0x4, 0, -1⟩) (by simp [e, callsOf]) (.move ⟨0, 0x2, 0, -1⟩ ⟨0, 0x4, 1, -1⟩) (by simp [e', callsOf])
      (.pile ⟨0, .hand⟩) ⟨.inr ⟨⟨0, 0x2, 0, -1⟩, by simp [placesOf], rfl, rfl⟩, .inr ⟨⟨0, 0x2, 0, -1⟩, by simp [placesOf], rfl, rfl⟩⟩
  · cases hb; cases h1; rfl
  · intro h
    have := congrArg (fun G => G.table.board (.slot ⟨0, .monster, 0, by decide⟩)) h
    cases hb; cases h1; cases h2
    revert this
    decide

end Ygo.Props
