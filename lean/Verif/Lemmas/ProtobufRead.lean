import Verif.Lemmas.Protobuf

/-!
# Reading any bytes
-/

set_option linter.unusedSimpArgs false

namespace Ygo.Pb
open Ygo Ygo.Spec

variable {M : Type} {S : M → List (Field M)}

/-! ## What readers take -/

theorem readVarint_append {k : Nat} : ∀ {bs r : List Nat} {n : Nat} (c : List Nat), readVarint k bs = some (n, r) →
    readVarint k (bs ++ c) = some (n, r ++ c) ∧ r.length < bs.length ∧ ∃ p, bs = p ++ r := by
  induction k with
  | zero => intro bs r n c h; simp [readVarint] at h
  | succ k ih =>
    intro bs r n c h
    cases bs with
    | nil => simp [readVarint] at h
    | cons b bs =>
      simp only [readVarint, List.cons_append] at h ⊢
      split at h
      · rename_i hb
        simp at h
        obtain ⟨rfl, rfl⟩ := h
        exact ⟨by rw [if_pos hb], by simp, [b], rfl⟩
      · rename_i hb
        cases hr : readVarint k bs with
        | none => simp [hr] at h
        | some x =>
          obtain ⟨n', r'⟩ := x
          simp [hr] at h
          obtain ⟨rfl, rfl⟩ := h
          obtain ⟨h1, h2, p, h3⟩ := ih c hr
          refine ⟨?_, by simp; omega, b :: p, by rw [h3]; rfl⟩
          rw [if_neg hb, h1]; rfl

theorem readU64_append {bs r : List Nat} {n : Nat} (c : List Nat) (h : readU64 bs = some (n, r)) :
    readU64 (bs ++ c) = some (n, r ++ c) ∧ r.length < bs.length ∧ ∃ p, bs = p ++ r := by
  unfold readU64 at h ⊢
  cases hr : readVarint 10 bs with
  | none => simp [hr] at h
  | some x =>
    obtain ⟨n', r'⟩ := x
    simp [hr] at h
    obtain ⟨rfl, rfl⟩ := h
    obtain ⟨h1, h2, h3⟩ := readVarint_append c hr
    exact ⟨by rw [h1]; rfl, h2, h3⟩

theorem readTag_append {bs r : List Nat} {n : Nat} (c : List Nat) (h : readTag bs = some (n, r)) :
    readTag (bs ++ c) = some (n, r ++ c) ∧ r.length < bs.length ∧ ∃ p, bs = p ++ r := by
  unfold readTag at h ⊢
  cases hr : readVarint 5 bs with
  | none => simp [hr] at h
  | some x =>
    obtain ⟨n', r'⟩ := x
    simp [hr] at h
    obtain ⟨rfl, rfl⟩ := h
    obtain ⟨h1, h2, h3⟩ := readVarint_append c hr
    exact ⟨by rw [h1]; rfl, h2, h3⟩

theorem readBlock_append {bs r p : List Nat} (c : List Nat) (h : readBlock bs = some (p, r)) :
    readBlock (bs ++ c) = some (p, r ++ c) ∧ p.length + r.length < bs.length ∧ ∃ q, bs = q ++ (p ++ r) := by
  unfold readBlock at h ⊢
  cases hr : readVarint 5 bs with
  | none => simp [hr] at h
  | some x =>
    obtain ⟨n', r'⟩ := x
    simp only [hr, Option.bind_eq_bind, Option.bind_some] at h
    split at h
    · rename_i hn
      simp at h
      obtain ⟨rfl, rfl⟩ := h
      obtain ⟨h1, h2, q, h3⟩ := readVarint_append c hr
      refine ⟨?_, by simp; omega, q, by rw [List.take_append_drop]; exact h3⟩
      rw [h1]
      simp only [Option.bind_eq_bind, Option.bind_some]
      rw [if_pos ⟨hn.1, by simp; omega⟩, List.take_append_of_le_length hn.2, List.drop_append_of_le_length hn.2]
      rfl
    · simp at h

theorem drop_rest {n : Nat} {bs : List Nat} (c : List Nat) (h : n ≤ bs.length) :
    n ≤ (bs ++ c).length ∧ (bs ++ c).drop n = bs.drop n ++ c ∧ (bs.drop n).length ≤ bs.length ∧ ∃ p, bs = p ++ bs.drop n :=
  ⟨by simp; omega, List.drop_append_of_le_length h, by simp, bs.take n, (List.take_append_drop n bs).symm⟩

theorem skipGroups_append {d : Nat} : ∀ {fuel : Nat} {gs bs r : List Nat} (c : List Nat) (k : Nat), skipGroups d fuel gs bs = some r → fuel ≤ k →
    skipGroups d k gs (bs ++ c) = some (r ++ c) ∧ r.length ≤ bs.length ∧ ∃ p, bs = p ++ r := by
  intro fuel
  induction fuel with
  | zero =>
    intro gs bs r c k h _
    cases gs with
    | nil =>
      simp [skipGroups] at h
      subst h
      exact ⟨by cases k <;> simp [skipGroups], Nat.le_refl _, [], rfl⟩
    | cons g gs => simp [skipGroups] at h
  | succ fuel ih =>
    intro gs bs r c k h hk
    cases gs with
    | nil =>
      simp [skipGroups] at h
      subst h
      exact ⟨by cases k <;> simp [skipGroups], Nat.le_refl _, [], rfl⟩
    | cons g gs =>
      obtain ⟨k, rfl⟩ : ∃ i, k = i + 1 := ⟨k - 1, by omega⟩
      simp only [skipGroups, Option.bind_eq_bind] at h ⊢
      cases ht : readTag bs with
      | none => simp [ht] at h
      | some x =>
        obtain ⟨t, bs1⟩ := x
        obtain ⟨t1, t2, p, t3⟩ := readTag_append c ht
        simp only [ht, Option.bind_some] at h
        simp only [t1, Option.bind_some]
        have fin : ∀ {bs' : List Nat}, (∃ q, bs1 = q ++ bs') → (∃ q, bs' = q ++ r) → r.length ≤ bs'.length → bs'.length ≤ bs1.length →
            r.length ≤ bs.length ∧ ∃ q, bs = q ++ r := by
          rintro bs' ⟨q1, e1⟩ ⟨q2, e2⟩ l1 l2
          exact ⟨by omega, p ++ (q1 ++ q2), by rw [t3, e1, e2]; simp⟩
        split at h
        · simp at h
        · rename_i h0
          rw [if_neg h0]
          split at h
          · rename_i hw
            cases hv : readVarint 10 bs1 with
            | none => simp [hv] at h
            | some y =>
              obtain ⟨n, bs2⟩ := y
              obtain ⟨v1, v2, v3⟩ := readVarint_append c hv
              simp only [hv, Option.bind_some] at h
              obtain ⟨i1, i2, i3⟩ := ih c k h (by omega)
              simp only [hw, v1, Option.bind_some]
              exact ⟨i1, fin v3 i3 i2 (by omega)⟩
          · rename_i hw
            split at h
            · rename_i hl
              obtain ⟨d1, d2, d3, d4⟩ := drop_rest c hl
              obtain ⟨i1, i2, i3⟩ := ih c k h (by omega)
              simp only [hw, if_pos d1, d2]
              exact ⟨i1, fin d4 i3 i2 d3⟩
            · simp at h
          · rename_i hw
            cases hv : readBlock bs1 with
            | none => simp [hv] at h
            | some y =>
              obtain ⟨n, bs2⟩ := y
              obtain ⟨v1, v2, q, v3⟩ := readBlock_append c hv
              simp only [hv, Option.bind_some] at h
              obtain ⟨i1, i2, i3⟩ := ih c k h (by omega)
              simp only [hw, v1, Option.bind_some]
              exact ⟨i1, fin ⟨q ++ n, by rw [v3]; simp⟩ i3 i2 (by omega)⟩
          · rename_i hw
            split at h
            · rename_i hd
              obtain ⟨i1, i2, i3⟩ := ih c k h (by omega)
              simp only [hw, if_pos hd]
              exact ⟨i1, fin ⟨[], rfl⟩ i3 i2 (Nat.le_refl _)⟩
            · simp at h
          · rename_i hw
            split at h
            · rename_i hg
              obtain ⟨i1, i2, i3⟩ := ih c k h (by omega)
              simp only [hw, if_pos hg]
              exact ⟨i1, fin ⟨[], rfl⟩ i3 i2 (Nat.le_refl _)⟩
            · simp at h
          · rename_i hw
            split at h
            · rename_i hl
              obtain ⟨d1, d2, d3, d4⟩ := drop_rest c hl
              obtain ⟨i1, i2, i3⟩ := ih c k h (by omega)
              simp only [hw, if_pos d1, d2]
              exact ⟨i1, fin d4 i3 i2 d3⟩
            · simp at h
          · simp at h

theorem skip_append {d num w : Nat} {bs r : List Nat} (c : List Nat) (h : skip d num w bs = some r) :
    skip d num w (bs ++ c) = some (r ++ c) ∧ r.length ≤ bs.length ∧ ∃ p, bs = p ++ r := by
  unfold skip at h ⊢
  split at h
  · cases hv : readVarint 10 bs with
    | none => simp [hv] at h
    | some y =>
      obtain ⟨n, bs2⟩ := y
      obtain ⟨v1, v2, v3⟩ := readVarint_append c hv
      simp [hv] at h
      subst h
      simp only [v1]
      exact ⟨by simp, by omega, v3⟩
  · split at h
    · rename_i hl
      obtain ⟨d1, d2, d3, d4⟩ := drop_rest c hl
      simp at h
      subst h
      simp only [if_pos d1, d2]
      exact ⟨trivial, d3, d4⟩
    · simp at h
  · cases hv : readBlock bs with
    | none => simp [hv] at h
    | some y =>
      obtain ⟨n, bs2⟩ := y
      obtain ⟨v1, v2, q, v3⟩ := readBlock_append c hv
      simp [hv] at h
      subst h
      simp only [v1]
      exact ⟨by simp, by omega, q ++ n, by rw [v3]; simp⟩
  · split at h
    · rename_i hd
      simp only [if_pos hd]
      exact skipGroups_append c _ h (by simp)
    · simp at h
  · split at h
    · rename_i hl
      obtain ⟨d1, d2, d3, d4⟩ := drop_rest c hl
      simp at h
      subst h
      simp only [if_pos d1, d2]
      exact ⟨trivial, d3, d4⟩
    · simp at h
  · simp at h

/-- A record that is read is read in the same way when more follows and more inner messages can be read. -/
theorem record_append {d : Nat} {inner inner' : M → List Nat → Obj → Option Obj} {m : M} {bs r : List Nat} {o o' : Obj} (c : List Nat)
    (h : record S d inner m bs o = some (r, o'))
    (hi : ∀ m p o x, p.length < bs.length → (∀ b ∈ p, b ∈ bs) → inner m p o = some x → inner' m p o = some x) :
    record S d inner' m (bs ++ c) o = some (r ++ c, o') ∧ r.length < bs.length ∧ ∃ p, bs = p ++ r := by
  unfold record at h ⊢
  cases ht : readTag bs with
  | none => simp [ht] at h
  | some x =>
    obtain ⟨t, bs1⟩ := x
    obtain ⟨t1, t2, p, t3⟩ := readTag_append c ht
    simp only [ht, Option.bind_eq_bind, Option.bind_some] at h
    simp only [t1, Option.bind_eq_bind, Option.bind_some]
    have hskip : ∀ {r : List Nat} {o' : Obj}, ((skip d (t / 8) (t % 8) bs1).bind fun bs => some (bs, o)) = some (r, o') →
        ((skip d (t / 8) (t % 8) (bs1 ++ c)).bind fun bs => some (bs, o)) = some (r ++ c, o') ∧ r.length < bs.length ∧ ∃ p, bs = p ++ r := by
      intro r o' h
      cases hs : skip d (t / 8) (t % 8) bs1 with
      | none => simp [hs] at h
      | some y =>
        simp [hs] at h
        obtain ⟨rfl, rfl⟩ := h
        obtain ⟨s1, s2, q, s3⟩ := skip_append c hs
        exact ⟨by rw [s1]; rfl, by omega, p ++ q, by rw [t3, s3]; simp⟩
    split at h
    · simp at h
    rename_i h0
    rw [if_neg h0]
    cases hf : (S m).find? fun f => f.num == t / 8 with
    | none =>
      simp only [hf] at h ⊢
      exact hskip h
    | some f =>
      simp only [hf] at h ⊢
      split at h
      · rename_i s hty hw
        try simp only [hty, hw]
        cases hv : readU64 bs1 with
        | none => simp [hv] at h
        | some y =>
          obtain ⟨n, bs2⟩ := y
          obtain ⟨v1, v2, q, v3⟩ := readU64_append c hv
          simp [hv] at h
          obtain ⟨rfl, rfl⟩ := h
          exact ⟨by rw [v1]; rfl, by omega, p ++ q, by rw [t3, v3]; simp⟩
      · rename_i s hty hw
        try simp only [hty, hw]
        split at h
        · rename_i hl
          rw [if_pos hl]
          cases hv : readBlock bs1 with
          | none => simp [hv] at h
          | some y =>
            obtain ⟨n, bs2⟩ := y
            obtain ⟨v1, v2, q, v3⟩ := readBlock_append c hv
            simp only [hv, Option.bind_some] at h
            cases hp : readPacked s n.length n with
            | none => simp [hp] at h
            | some vs =>
              simp [hp] at h
              obtain ⟨rfl, rfl⟩ := h
              refine ⟨?_, by omega, p ++ (q ++ n), by rw [t3, v3]; simp⟩
              simp only [v1, Option.bind_some, hp]
              rfl
        · rename_i hl
          rw [if_neg hl]
          have := hskip h
          simp only [hw] at this
          exact this
      · rename_i hty hw
        try simp only [hty, hw]
        cases hv : readBlock bs1 with
        | none => simp [hv] at h
        | some y =>
          obtain ⟨n, bs2⟩ := y
          obtain ⟨v1, v2, q, v3⟩ := readBlock_append c hv
          simp only [hv, Option.bind_some] at h
          cases hp : readText n with
          | none => simp [hp] at h
          | some s =>
            simp [hp] at h
            obtain ⟨rfl, rfl⟩ := h
            refine ⟨?_, by omega, p ++ (q ++ n), by rw [t3, v3]; simp⟩
            simp only [v1, Option.bind_some, hp]
            rfl
      · rename_i hty hw
        try simp only [hty, hw]
        cases hv : readBlock bs1 with
        | none => simp [hv] at h
        | some y =>
          obtain ⟨n, bs2⟩ := y
          obtain ⟨v1, v2, q, v3⟩ := readBlock_append c hv
          simp [hv] at h
          obtain ⟨rfl, rfl⟩ := h
          refine ⟨?_, by omega, p ++ (q ++ n), by rw [t3, v3]; simp⟩
          simp only [v1, Option.bind_some]
          rfl
      · rename_i m' hty hw
        try simp only [hty, hw]
        cases hv : readBlock bs1 with
        | none => simp [hv] at h
        | some y =>
          obtain ⟨n, bs2⟩ := y
          obtain ⟨v1, v2, q, v3⟩ := readBlock_append c hv
          simp only [hv, Option.bind_some] at h
          cases hp : inner m' n (o.within f) with
          | none => simp [hp] at h
          | some s =>
            simp [hp] at h
            obtain ⟨rfl, rfl⟩ := h
            refine ⟨?_, by omega, p ++ (q ++ n), by rw [t3, v3]; simp⟩
            have := hi m' n _ _ (by omega) (by intro b hb; rw [t3, v3]; simp [hb]) hp
            simp only [v1, Option.bind_some, this]
            rfl
      · rename_i hno1 hno2 hno3 hno4 hno5
        exact hskip (by simpa using h)

/-! ## Fuel and concatenation -/

theorem deeper_some {k k' d : Nat} {m : M} {bs : List Nat} {o x : Obj}
    (h : merge S k (d - 1) m bs o = some x → merge S k' (d - 1) m bs o = some x) (hx : deeper S k d m bs o = some x) :
    deeper S k' d m bs o = some x := by
  unfold deeper at hx ⊢
  split at hx
  · rename_i hd
    rw [if_pos hd]
    exact h hx
  · cases hx

theorem deeper_holds {k d : Nat} {m : M} {bs : List Nat} {o x : Obj} {P : Prop}
    (h : merge S k (d - 1) m bs o = some x → P) (hx : deeper S k d m bs o = some x) : P := by
  unfold deeper at hx
  split at hx
  · exact h hx
  · cases hx

theorem merge_some : ∀ {fuel d : Nat} {m : M} {bs : List Nat} {o x : Obj}, merge S fuel d m bs o = some x →
    ∀ k, bs.length ≤ k → merge S k d m bs o = some x := by
  intro fuel
  induction fuel with
  | zero =>
    intro d m bs o x h k _
    cases bs with
    | nil => rw [merge_nil] at h ⊢; exact h
    | cons b bs => simp [merge] at h
  | succ fuel ih =>
    intro d m bs o x h k hk
    cases bs with
    | nil => rw [merge_nil] at h ⊢; exact h
    | cons b bs =>
      obtain ⟨k, rfl⟩ : ∃ i, k = i + 1 := ⟨k - 1, by simp at hk; omega⟩
      rw [merge_cons] at h ⊢
      · cases hr : record S d (deeper S fuel d) m (b :: bs) o with
        | none => simp [hr] at h
        | some y =>
          obtain ⟨r, o'⟩ := y
          simp only [hr, Option.bind_eq_bind, Option.bind_some] at h
          obtain ⟨h1, h2, _⟩ := record_append (inner' := deeper S k d) [] hr
            (fun m p o x hp _ hx => deeper_some (fun h => ih h k (by simp at hp hk; omega)) hx)
          simp only [List.append_nil] at h1
          rw [h1]
          exact ih h k (by simp at h2 hk; omega)

/-- More fuel than bytes makes no difference. -/
theorem merge_fuel {k k' d : Nat} {m : M} {bs : List Nat} {o : Obj} (h : bs.length ≤ k) (h' : bs.length ≤ k') :
    merge S k d m bs o = merge S k' d m bs o := by
  cases h1 : merge S k d m bs o with
  | some x => exact (merge_some h1 k' h').symm
  | none =>
    cases h2 : merge S k' d m bs o with
    | none => rfl
    | some x => rw [merge_some h2 k h] at h1; exact h1.symm

theorem merge_append : ∀ {fuel d : Nat} {m : M} {a : List Nat} {o o' : Obj}, merge S fuel d m a o = some o' →
    ∀ b k, (a ++ b).length ≤ k → merge S k d m (a ++ b) o = merge S b.length d m b o' := by
  intro fuel
  induction fuel with
  | zero =>
    intro d m a o o' h b k hk
    cases a with
    | nil => rw [merge_nil] at h; cases h; exact merge_fuel (by simpa using hk) (Nat.le_refl _)
    | cons b bs => simp [merge] at h
  | succ fuel ih =>
    intro d m a o o' h b k hk
    cases a with
    | nil => rw [merge_nil] at h; cases h; exact merge_fuel (by simpa using hk) (Nat.le_refl _)
    | cons c cs =>
      obtain ⟨k, rfl⟩ : ∃ i, k = i + 1 := ⟨k - 1, by simp at hk; omega⟩
      rw [merge_cons] at h
      · cases hr : record S d (deeper S fuel d) m (c :: cs) o with
        | none => simp [hr] at h
        | some y =>
          obtain ⟨r, o1⟩ := y
          simp only [hr, Option.bind_eq_bind, Option.bind_some] at h
          obtain ⟨h1, h2, _⟩ := record_append (inner' := deeper S k d) b hr
            (fun m p o x hp _ hx => deeper_some (fun h => merge_some h k (by simp at hp hk; omega)) hx)
          rw [List.cons_append, merge_cons, ← List.cons_append, h1]
          exact ih h b k (by simp at h2 hk ⊢; omega)

/-! ## What is read is as described -/

theorem hasType_empty (m : M) : HasType S (.msg m) (.msg Obj.empty) := by
  refine .msg (by simp [Obj.empty]) ?_ (by simp [Obj.empty]) (fun _ _ => rfl)
  intro f _
  cases f.label
  · exact .inl rfl
  · exact .inl rfl
  · trivial

theorem hasType_put (hS : Described S) {m : M} {o : Obj} {f : Field M} {v : Val} (hf : f ∈ S m) (ho : HasType S (.msg m) (.msg o))
    (hv : HasType S f.ty v) : HasType S (.msg m) (.msg (o.put (S m) f v)) := by
  have uniq : ∀ f' ∈ S m, f'.num = f.num → f' = f := by
    intro f' hf' e
    have h1 := find_field hS hf
    have h2 := find_field hS hf'
    rw [e, h1] at h2
    cases h2; rfl
  cases ho with
  | msg c1 c2 c3 c4 =>
  have hother : ∀ n, n ≠ f.num → (o.put (S m) f v) n = o n ∨ (o.put (S m) f v) n = [] := by
    intro n hn
    unfold Obj.put
    cases hl : f.label <;> simp only [if_neg hn]
    · exact .inl trivial
    · split
      · exact .inr rfl
      · exact .inl rfl
    · exact .inl trivial
  refine .msg ?_ ?_ ?_ ?_
  · intro f' hf' w hw
    by_cases e : f'.num = f.num
    · have e' := uniq f' hf' e
      subst e'
      unfold Obj.put at hw
      cases hl : f'.label <;> simp only [hl, if_true] at hw
      · split at hw
        · simp at hw
        · simp at hw; subst hw; exact hv
      · simp at hw; subst hw; exact hv
      · rcases List.mem_append.mp hw with hw | hw
        · exact c1 f' hf' w hw
        · simp at hw; subst hw; exact hv
    · rcases hother _ e with h | h
      · rw [h] at hw; exact c1 f' hf' w hw
      · rw [h] at hw; simp at hw
  · intro f' hf'
    by_cases e : f'.num = f.num
    · have e' := uniq f' hf' e
      subst e'
      unfold Obj.put
      cases hl : f'.label <;> simp only [LabelHolds, if_true]
      · cases hz : v.isZero
        · exact .inr ⟨v, by simp, hz⟩
        · exact .inl (by simp)
      · exact .inr ⟨v, rfl⟩
    · rcases hother _ e with h | h
      · rw [h]; exact c2 f' hf'
      · rw [h]
        cases f'.label
        · exact .inl rfl
        · exact .inl rfl
        · trivial
  · intro f1 h1 f2 h2 g l1 l2 n1 n2
    have key : ∀ f' ∈ S m, f'.label = .oneof g → f'.num ≠ f.num → (o.put (S m) f v) f'.num ≠ [] → f.label ≠ .oneof g ∧ o f'.num ≠ [] := by
      intro f' hf' hl hne hn
      constructor
      · intro hlf
        apply hn
        unfold Obj.put
        simp only [hlf, if_neg hne]
        rw [if_pos]
        exact List.any_eq_true.mpr ⟨f', hf', by simp [hl]⟩
      · rcases hother _ hne with h | h
        · rw [h] at hn; exact hn
        · exact absurd h hn
    by_cases e1 : f1.num = f.num
    · by_cases e2 : f2.num = f.num
      · rw [e1, e2]
      · have e' := uniq f1 h1 e1
        subst e'
        exact absurd l1 (key f2 h2 l2 e2 n2).1
    · by_cases e2 : f2.num = f.num
      · have e' := uniq f2 h2 e2
        subst e'
        exact absurd l2 (key f1 h1 l1 e1 n1).1
      · exact c3 f1 h1 f2 h2 g l1 l2 (key f1 h1 l1 e1 n1).2 (key f2 h2 l2 e2 n2).2
  · intro n hn
    rcases hother n (fun e => hn f hf e.symm) with h | h
    · rw [h]; exact c4 n hn
    · exact h

theorem hasType_putAll (hS : Described S) {m : M} {o : Obj} {f : Field M} {vs : List Val} (hf : f ∈ S m) (hl : f.label = .rep)
    (ho : HasType S (.msg m) (.msg o)) (hv : ∀ v ∈ vs, HasType S f.ty v) : HasType S (.msg m) (.msg (o.putAll f vs)) := by
  induction vs generalizing o with
  | nil =>
    have : o.putAll f [] = o := by funext n; simp [Obj.putAll]
    rw [this]; exact ho
  | cons v vs ih =>
    have : o.putAll f (v :: vs) = (o.put (S m) f v).putAll f vs := by
      funext n
      simp only [Obj.putAll, Obj.put, hl]
      split <;> simp
    rw [this]
    exact ih (hasType_put hS hf ho (hv v (by simp))) (fun v hv' => hv v (by simp [hv']))

theorem hasType_within {m m' : M} {o : Obj} {f : Field M} (hf : f ∈ S m) (ht : f.ty = .msg m') (ho : HasType S (.msg m) (.msg o)) :
    HasType S (.msg m') (.msg (o.within f)) := by
  unfold Obj.within
  split
  · exact hasType_empty m'
  · rename_i o' he _
    cases ho with
    | msg c1 c2 c3 c4 =>
    have := c1 f hf (.msg o') (by rw [he]; simp)
    rw [ht] at this
    exact this
  · exact hasType_empty m'

theorem readPacked_holds {s : Scalar} : ∀ {fuel : Nat} {bs : List Nat} {vs : List Val}, readPacked s fuel bs = some vs →
    ∀ v ∈ vs, HasType S (.num s) v := by
  intro fuel
  induction fuel with
  | zero =>
    intro bs vs h
    cases bs with
    | nil => simp [readPacked] at h; subst h; simp
    | cons b bs => simp [readPacked] at h
  | succ fuel ih =>
    intro bs vs h
    cases bs with
    | nil => simp [readPacked] at h; subst h; simp
    | cons b bs =>
      rw [readPacked] at h
      · cases hv : readU64 (b :: bs) with
        | none => simp [hv] at h
        | some x =>
          obtain ⟨n, r⟩ := x
          simp only [hv, Option.bind_eq_bind, Option.bind_some] at h
          cases hr : readPacked s fuel r with
          | none => simp [hr] at h
          | some ws =>
            simp [hr] at h
            subst h
            intro v hv'
            rcases List.mem_cons.mp hv' with rfl | hv'
            · exact .num (scalar_holds_decode (readU64_lt hv))
            · exact ih hr v hv'
      · simp

theorem record_holds (hS : Described S) {d : Nat} {inner : M → List Nat → Obj → Option Obj} {m : M} {bs r : List Nat} {o o' : Obj}
    (hb : ∀ b ∈ bs, b < 256) (ho : HasType S (.msg m) (.msg o)) (h : record S d inner m bs o = some (r, o'))
    (hi : ∀ m p o x, p.length < bs.length → (∀ b ∈ p, b < 256) → HasType S (.msg m) (.msg o) → inner m p o = some x →
      HasType S (.msg m) (.msg x)) : HasType S (.msg m) (.msg o') := by
  unfold record at h
  cases ht : readTag bs with
  | none => simp [ht] at h
  | some x =>
    obtain ⟨t, bs1⟩ := x
    obtain ⟨t1, t2, p, t3⟩ := readTag_append [] ht
    simp only [ht, Option.bind_eq_bind, Option.bind_some] at h
    have hskip : ∀ {w : Nat}, ((skip d (t / 8) w bs1).bind fun bs => some (bs, o)) = some (r, o') → HasType S (.msg m) (.msg o') := by
      intro w h
      cases hs : skip d (t / 8) w bs1 with
      | none => simp [hs] at h
      | some y =>
        simp [hs] at h
        rw [← h.2]; exact ho
    split at h
    · simp at h
    cases hf : (S m).find? fun f => f.num == t / 8 with
    | none =>
      simp only [hf] at h
      exact hskip h
    | some f =>
      have hfm := List.mem_of_find?_eq_some hf
      simp only [hf] at h
      split at h
      · rename_i s hty hw
        cases hv : readU64 bs1 with
        | none => simp [hv] at h
        | some y =>
          obtain ⟨n, bs2⟩ := y
          simp [hv] at h
          rw [← h.2]
          exact hasType_put hS hfm ho (by rw [hty]; exact .num (scalar_holds_decode (readU64_lt hv)))
      · rename_i s hty hw
        split at h
        · rename_i hl
          cases hv : readBlock bs1 with
          | none => simp [hv] at h
          | some y =>
            obtain ⟨n, bs2⟩ := y
            simp only [hv, Option.bind_some] at h
            cases hp : readPacked s n.length n with
            | none => simp [hp] at h
            | some vs =>
              simp [hp] at h
              rw [← h.2]
              exact hasType_putAll hS hfm hl ho (by rw [hty]; exact readPacked_holds hp)
        · exact hskip h
      · rename_i hty hw
        cases hv : readBlock bs1 with
        | none => simp [hv] at h
        | some y =>
          obtain ⟨n, bs2⟩ := y
          simp only [hv, Option.bind_some] at h
          cases hp : readText n with
          | none => simp [hp] at h
          | some s =>
            simp [hp] at h
            rw [← h.2]
            exact hasType_put hS hfm ho (by rw [hty]; exact .text)
      · rename_i hty hw
        cases hv : readBlock bs1 with
        | none => simp [hv] at h
        | some y =>
          obtain ⟨n, bs2⟩ := y
          obtain ⟨v1, v2, q, v3⟩ := readBlock_append [] hv
          simp [hv] at h
          rw [← h.2]
          exact hasType_put hS hfm ho (by rw [hty]; exact .blob fun b hb' => hb b (by rw [t3, v3]; simp [hb']))
      · rename_i m' hty hw
        cases hv : readBlock bs1 with
        | none => simp [hv] at h
        | some y =>
          obtain ⟨n, bs2⟩ := y
          obtain ⟨v1, v2, q, v3⟩ := readBlock_append [] hv
          simp only [hv, Option.bind_some] at h
          cases hp : inner m' n (o.within f) with
          | none => simp [hp] at h
          | some s =>
            simp [hp] at h
            rw [← h.2]
            refine hasType_put hS hfm ho ?_
            rw [hty]
            exact hi m' n _ _ (by omega) (fun b hb' => hb b (by rw [t3, v3]; simp [hb'])) (hasType_within hfm hty ho) hp
      · exact hskip (by simpa using h)

theorem merge_holds (hS : Described S) : ∀ {fuel d : Nat} {m : M} {bs : List Nat} {o x : Obj}, (∀ b ∈ bs, b < 256) →
    HasType S (.msg m) (.msg o) → merge S fuel d m bs o = some x → HasType S (.msg m) (.msg x) := by
  intro fuel
  induction fuel with
  | zero =>
    intro d m bs o x hb ho h
    cases bs with
    | nil => rw [merge_nil] at h; cases h; exact ho
    | cons b bs => simp [merge] at h
  | succ fuel ih =>
    intro d m bs o x hb ho h
    cases bs with
    | nil => rw [merge_nil] at h; cases h; exact ho
    | cons b bs =>
      rw [merge_cons] at h
      · cases hr : record S d (deeper S fuel d) m (b :: bs) o with
        | none => simp [hr] at h
        | some y =>
          obtain ⟨r, o'⟩ := y
          simp only [hr, Option.bind_eq_bind, Option.bind_some] at h
          obtain ⟨_, _, p, h3⟩ := record_append (inner' := deeper S fuel d) [] hr (fun _ _ _ _ _ _ hx => hx)
          have ho' := record_holds hS hb ho hr (fun m p o x _ hp ho hx => deeper_holds (fun h => ih hp ho h) hx)
          exact ih (fun b hb' => hb b (by rw [h3]; simp [hb'])) ho' h

/-- Whatever is read is as described. -/
theorem read_holds (hS : Described S) {m : M} {bs : List Nat} {o : Obj} (hb : ∀ b ∈ bs, b < 256) (h : read S m bs = some o) :
    HasType S (.msg m) (.msg o) := merge_holds hS hb (hasType_empty m) h

/-- Bytes written one after the other are merged. -/
theorem read_append {m : M} {a : List Nat} {o : Obj} (h : read S m a = some o) (b : List Nat) :
    read S m (a ++ b) = merge S b.length maxDepth m b o := merge_append h b _ (Nat.le_refl _)

/-- Bytes that add nothing to any message can be inserted after every record. -/
theorem read_insert {m : M} {a u : List Nat} {o : Obj} (h : read S m a = some o) (hu : ∀ o, merge S u.length maxDepth m u o = some o)
    (b : List Nat) : read S m (a ++ u ++ b) = read S m (a ++ b) := by
  rw [read_append h b]
  have : read S m (a ++ u) = some o := by rw [read_append h u, hu]
  rw [read_append this b]

theorem merge_one {d : Nat} {m : M} {bs : List Nat} {o : Obj} (hne : bs ≠ []) (h : ∀ inner, record S d inner m bs o = some ([], o)) :
    merge S bs.length d m bs o = some o := by
  have hpos := List.length_pos_iff.mpr hne
  obtain ⟨k, hk⟩ : ∃ i, bs.length = i + 1 := ⟨bs.length - 1, by omega⟩
  have := merge_step (S := S) (fuel := k) (d := d) (a := bs) (rest := []) (m := m) (o := o) (o' := o) hne (by rw [List.append_nil]; exact h _)
  rw [List.append_nil, merge_nil] at this
  rw [hk]; exact this

/-- Records with unknown numbers. -/
theorem merge_unknown {d : Nat} {m : M} {num : Nat} (h0 : 0 < num) (h1 : num < 2 ^ 29) (hn : ∀ f ∈ S m, f.num ≠ num) :
    (∀ n o, n < 2 ^ 64 → merge S (varint (8 * num) ++ varint n).length d m (varint (8 * num) ++ varint n) o = some o) ∧
    (∀ p o, p.length < 2 ^ 31 - 16 → merge S (block num p).length d m (block num p) o = some o) := by
  have hf : (S m).find? (fun f => f.num == num) = none := by
    rw [List.find?_eq_none]
    intro f hf
    simpa using hn f hf
  constructor
  · intro n o hlt
    refine merge_one (by simp [varint_ne_nil]) ?_
    intro inner
    unfold record
    rw [readTag_varint (by omega)]
    have e1 : (8 * num) / 8 = num := by omega
    have e2 : (8 * num) % 8 = 0 := by omega
    simp only [Option.bind_eq_bind, Option.bind_some]
    rw [e1, e2, if_neg (by omega), hf]
    have := readVarint_varintIn (k := 10) (j := 10) (n := n) (rest := []) (by omega) (by omega) (by omega) (by omega)
    rw [List.append_nil] at this
    simp only [skip, varint, this, Option.bind_eq_bind, Option.bind_some]
    rfl
  · intro p o hl
    refine merge_one (by simp [block, varint_ne_nil]) ?_
    intro inner
    unfold record block
    rw [List.append_assoc, readTag_varint (by omega)]
    have e1 : (8 * num + 2) / 8 = num := by omega
    have e2 : (8 * num + 2) % 8 = 2 := by omega
    simp only [Option.bind_eq_bind, Option.bind_some]
    rw [e1, e2, if_neg (by omega), hf]
    have := readBlock_varint (p := p) (rest := []) hl
    rw [List.append_nil] at this
    simp only [skip, this, Option.bind_eq_bind, Option.bind_some]
    rfl

end Ygo.Pb
