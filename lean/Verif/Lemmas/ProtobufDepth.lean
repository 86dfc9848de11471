import Verif.Lemmas.ProtobufRead

/-!
# How deep messages may be nested
-/

set_option linter.unusedSimpArgs false

namespace Ygo.Pb
open Ygo Ygo.Spec

variable {M : Type} {S : M → List (Field M)}

/-! ## Groups -/

/-- Every group that is open takes a byte to close. With a higher limit nothing is skipped that a lower one refuses, unless there are
enough bytes to close them all. -/
theorem skipGroups_depth {d d' : Nat} : ∀ {fuel : Nat} {gs bs r : List Nat}, skipGroups d fuel gs bs = some r →
    gs.length + r.length ≤ bs.length ∧
    ((d ≤ d' ∨ (gs.length ≤ d' ∧ gs.length + bs.length ≤ 2 * d' + 1)) → skipGroups d' fuel gs bs = some r) := by
  intro fuel
  induction fuel with
  | zero =>
    intro gs bs r h
    cases gs with
    | nil => simp [skipGroups] at h ⊢; subst h; simp
    | cons g gs => simp [skipGroups] at h
  | succ fuel ih =>
    intro gs bs r h
    cases gs with
    | nil => simp [skipGroups] at h ⊢; subst h; simp
    | cons g gs =>
      simp only [skipGroups, Option.bind_eq_bind] at h ⊢
      cases ht : readTag bs with
      | none => simp [ht] at h
      | some x =>
        obtain ⟨t, bs1⟩ := x
        obtain ⟨_, t2, _⟩ := readTag_append [] ht
        simp only [ht, Option.bind_some] at h ⊢
        split at h
        · simp at h
        · rename_i h0
          rw [if_neg h0]
          split at h
          · rename_i hw
            cases hv : readVarint 10 bs1 with
            | none => simp [hv] at h
            | some y =>
              obtain ⟨n, bs2⟩ := y
              obtain ⟨_, v2, _⟩ := readVarint_append [] hv
              simp only [hv, Option.bind_some] at h
              obtain ⟨i1, i2⟩ := ih h
              simp only [hw, Option.bind_some]
              simp only [List.length_cons] at i1 i2 ⊢
              exact ⟨by omega, fun hd => i2 (by omega)⟩
          · rename_i hw
            split at h
            · rename_i hl
              obtain ⟨i1, i2⟩ := ih h
              simp only [hw, if_pos hl]
              simp only [List.length_cons, List.length_drop] at i1 i2 ⊢
              exact ⟨by omega, fun hd => i2 (by omega)⟩
            · simp at h
          · rename_i hw
            cases hv : readBlock bs1 with
            | none => simp [hv] at h
            | some y =>
              obtain ⟨n, bs2⟩ := y
              obtain ⟨_, v2, _⟩ := readBlock_append [] hv
              simp only [hv, Option.bind_some] at h
              obtain ⟨i1, i2⟩ := ih h
              simp only [hw, Option.bind_some]
              simp only [List.length_cons] at i1 i2 ⊢
              exact ⟨by omega, fun hd => i2 (by omega)⟩
          · rename_i hw
            split at h
            · rename_i hd
              obtain ⟨i1, i2⟩ := ih h
              simp only [List.length_cons] at i1 i2 ⊢
              refine ⟨by omega, fun hd' => ?_⟩
              rw [if_pos (by omega)]
              exact i2 (by omega)
            · simp at h
          · rename_i hw
            split at h
            · rename_i hg
              obtain ⟨i1, i2⟩ := ih h
              simp only [hw, if_pos hg]
              simp only [List.length_cons] at i1 i2 ⊢
              exact ⟨by omega, fun hd => i2 (by omega)⟩
            · simp at h
          · rename_i hw
            split at h
            · rename_i hl
              obtain ⟨i1, i2⟩ := ih h
              simp only [hw, if_pos hl]
              simp only [List.length_cons, List.length_drop] at i1 i2 ⊢
              exact ⟨by omega, fun hd => i2 (by omega)⟩
            · simp at h
          · simp at h

theorem skip_depth {d d' num w : Nat} {bs r : List Nat} (h : skip d num w bs = some r) (hd : d ≤ d' ∨ bs.length ≤ 2 * d') :
    skip d' num w bs = some r := by
  unfold skip at h ⊢
  split at h
  · exact h
  · exact h
  · exact h
  · split at h
    · rename_i h0
      obtain ⟨h1, h2⟩ := skipGroups_depth (d' := d') h
      simp only [List.length_cons, List.length_nil] at h1 h2
      rw [if_pos (by omega)]
      exact h2 (by omega)
    · simp at h
  · exact h
  · simp at h

/-! ## Messages -/

theorem record_depth {d d' : Nat} {inner inner' : M → List Nat → Obj → Option Obj} {m : M} {bs r : List Nat} {o o' : Obj}
    (h : record S d inner m bs o = some (r, o')) (hd : d ≤ d' ∨ bs.length ≤ 2 * d' + 1)
    (hi : ∀ m p o x, p.length + 2 ≤ bs.length → inner m p o = some x → inner' m p o = some x) :
    record S d' inner' m bs o = some (r, o') := by
  unfold record at h ⊢
  cases ht : readTag bs with
  | none => simp [ht] at h
  | some x =>
    obtain ⟨t, bs1⟩ := x
    obtain ⟨_, t2, _⟩ := readTag_append [] ht
    simp only [ht, Option.bind_eq_bind, Option.bind_some] at h ⊢
    have hskip : ∀ {w : Nat} {r : List Nat} {o' : Obj}, ((skip d (t / 8) w bs1).bind fun bs => some (bs, o)) = some (r, o') →
        ((skip d' (t / 8) w bs1).bind fun bs => some (bs, o)) = some (r, o') := by
      intro w r o' h
      cases hs : skip d (t / 8) w bs1 with
      | none => simp [hs] at h
      | some y =>
        rw [skip_depth hs (by omega)]
        rw [hs] at h
        exact h
    split at h
    · simp at h
    rename_i h0
    rw [if_neg h0]
    cases hf : (S m).find? fun f => f.num == t / 8 with
    | none =>
      simp only [hf] at h ⊢
      exact hskip h
    | some f =>
      simp only [hf] at h ⊢
      split at h
      · rename_i s hty hw
        exact h
      · rename_i s hty hw
        split at h
        · rename_i hl
          rw [if_pos hl]; exact h
        · rename_i hl
          rw [if_neg hl]
          exact hskip h
      · exact h
      · exact h
      · rename_i m' hty hw
        cases hv : readBlock bs1 with
        | none => simp [hv] at h
        | some y =>
          obtain ⟨n, bs2⟩ := y
          obtain ⟨_, v2, _⟩ := readBlock_append [] hv
          simp only [hv, Option.bind_some] at h
          cases hp : inner m' n (o.within f) with
          | none => simp [hp] at h
          | some s =>
            have := hi m' n _ _ (by omega) hp
            rw [hp] at h
            simp only [Option.bind_some, this]
            exact h
      · exact hskip (by simpa using h)

/-- With a higher limit, the same is read; and it is read with a lower one as well, if there are not enough bytes to reach it. -/
theorem merge_depth : ∀ {fuel d d' : Nat} {m : M} {bs : List Nat} {o x : Obj}, merge S fuel d m bs o = some x →
    d ≤ d' ∨ bs.length ≤ 2 * d' + 1 → merge S fuel d' m bs o = some x := by
  intro fuel
  induction fuel with
  | zero =>
    intro d d' m bs o x h _
    cases bs with
    | nil => rw [merge_nil] at h ⊢; exact h
    | cons b bs => simp [merge] at h
  | succ fuel ih =>
    intro d d' m bs o x h hd
    cases bs with
    | nil => rw [merge_nil] at h ⊢; exact h
    | cons b bs =>
      rw [merge_cons] at h ⊢
      cases hr : record S d (deeper S fuel d) m (b :: bs) o with
      | none => simp [hr] at h
      | some y =>
        obtain ⟨r, o'⟩ := y
        obtain ⟨_, h2, _⟩ := record_append (inner' := deeper S fuel d) [] hr (fun _ _ _ _ _ _ hx => hx)
        have := record_depth (d' := d') (inner' := deeper S fuel d') hr hd (by
          intro m p o x hp hx
          unfold deeper at hx ⊢
          split at hx
          · rw [if_pos (by omega)]
            exact ih hx (by omega)
          · cases hx)
        rw [this]
        simp only [hr, Option.bind_some] at h ⊢
        exact ih h (by omega)

/-! ## Groups within groups -/

/-- Groups, one within the other. -/
def groups (num k : Nat) : List Nat :=
  (List.replicate k (varint (8 * num + 3))).flatten ++ (List.replicate k (varint (8 * num + 4))).flatten

theorem skipGroups_close {d num : Nat} (h0 : 0 < num) (h1 : num < 2 ^ 29) (i : Nat) : ∀ (fuel : Nat), i ≤ fuel →
    skipGroups d fuel (List.replicate i num) (List.replicate i (varint (8 * num + 4))).flatten = some [] := by
  induction i with
  | zero => intro fuel _; cases fuel <;> simp [skipGroups]
  | succ i ih =>
    intro fuel hf
    obtain ⟨fuel, rfl⟩ : ∃ k, fuel = k + 1 := ⟨fuel - 1, by omega⟩
    rw [List.replicate_succ, List.replicate_succ, List.flatten_cons, skipGroups, readTag_varint (by omega)]
    have e1 : (8 * num + 4) / 8 = num := by omega
    have e2 : (8 * num + 4) % 8 = 4 := by omega
    simp only [Option.bind_eq_bind, Option.bind_some]
    rw [e1, e2, if_neg (by omega)]
    simp only [if_true]
    exact ih fuel (by omega)

theorem skipGroups_groups {d num : Nat} (h0 : 0 < num) (h1 : num < 2 ^ 29) (j : Nat) : ∀ (i fuel : Nat), 0 < i → i ≤ d → i + j + j ≤ fuel →
    skipGroups d fuel (List.replicate i num)
      ((List.replicate j (varint (8 * num + 3))).flatten ++ (List.replicate (i + j) (varint (8 * num + 4))).flatten) =
      if i + j ≤ d then some [] else none := by
  induction j with
  | zero =>
    intro i fuel _ hi hf
    rw [List.replicate_zero, List.flatten_nil, List.nil_append, Nat.add_zero, if_pos hi]
    exact skipGroups_close h0 h1 i fuel (by omega)
  | succ j ih =>
    intro i fuel hi0 hi hf
    obtain ⟨fuel, rfl⟩ : ∃ k, fuel = k + 1 := ⟨fuel - 1, by omega⟩
    obtain ⟨i, rfl⟩ : ∃ k, i = k + 1 := ⟨i - 1, by omega⟩
    rw [List.replicate_succ, List.replicate_succ, List.flatten_cons, List.append_assoc, skipGroups, readTag_varint (by omega)]
    have e1 : (8 * num + 3) / 8 = num := by omega
    have e2 : (8 * num + 3) % 8 = 3 := by omega
    simp only [Option.bind_eq_bind, Option.bind_some]
    rw [e1, e2, if_neg (by omega)]
    simp only [List.length_replicate]
    split
    · have := ih (i + 2) fuel (by omega) (by omega) (by omega)
      rw [show i + 1 + (j + 1) = i + 2 + j by omega]
      exact this
    · rw [if_neg (by omega)]

theorem groups_length (num j : Nat) : j ≤ (List.replicate j (varint num)).flatten.length := by
  induction j with
  | zero => simp
  | succ j ih =>
    have := List.length_pos_iff.mpr (varint_ne_nil num)
    rw [List.replicate_succ, List.flatten_cons, List.length_append]
    omega

/-- Groups that are not known are skipped if they are not nested too deep. -/
theorem merge_groups {d k : Nat} {m : M} {num : Nat} (h0 : 0 < num) (h1 : num < 2 ^ 29) (hn : ∀ f ∈ S m, f.num ≠ num) (o : Obj) :
    merge S (groups num k).length d m (groups num k) o = if k ≤ d then some o else none := by
  cases k with
  | zero => simp [groups, merge_nil]
  | succ k =>
    have hf : (S m).find? (fun f => f.num == num) = none := by
      rw [List.find?_eq_none]
      intro f hf
      simpa using hn f hf
    have key : ∀ inner, record S d inner m (groups num (k + 1)) o = if k + 1 ≤ d then some ([], o) else none := by
      intro inner
      unfold record groups
      rw [List.replicate_succ, List.flatten_cons, List.append_assoc, readTag_varint (by omega)]
      have e1 : (8 * num + 3) / 8 = num := by omega
      have e2 : (8 * num + 3) % 8 = 3 := by omega
      simp only [Option.bind_eq_bind, Option.bind_some]
      rw [e1, e2, if_neg (by omega), hf]
      simp only [skip]
      by_cases hd : 0 < d
      · have := skipGroups_groups (d := d) h0 h1 k 1 _ (by omega) hd (show 1 + k + k ≤
          ((List.replicate k (varint (8 * num + 3))).flatten ++ (List.replicate (k + 1) (varint (8 * num + 4))).flatten).length by
            have a := groups_length (8 * num + 3) k
            have b := groups_length (8 * num + 4) (k + 1)
            rw [List.length_append]
            omega)
        rw [show 1 + k = k + 1 by omega] at this
        rw [if_pos hd]
        rw [show List.replicate 1 num = [num] from rfl] at this
        rw [this]
        split <;> rfl
      · rw [if_neg hd, if_neg (by omega)]
        rfl
    have hne : groups num (k + 1) ≠ [] := by
      simp [groups, List.replicate_succ, varint_ne_nil]
    by_cases hk : k + 1 ≤ d
    · rw [if_pos hk]
      exact merge_one hne (fun inner => by rw [key, if_pos hk])
    · rw [if_neg hk]
      cases hb : groups num (k + 1) with
      | nil => exact absurd hb hne
      | cons b bs =>
        rw [List.length_cons, merge_cons, ← hb, key, if_neg hk]
        rfl

end Ygo.Pb
