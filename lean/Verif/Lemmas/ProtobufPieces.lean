import Verif.Lemmas.ProtobufDepth

/-!
# Passing over what is not known
-/

set_option linter.unusedSimpArgs false

namespace Ygo.Pb
open Ygo Ygo.Spec

variable {M : Type} {S : M → List (Field M)}

/-- What is left after the open groups have ended. -/
def after (d : Nat) : List Nat → List Piece → Option (List Piece)
  | [], ps => some ps
  | _ :: _, [] => none
  | k :: open_, .begins k' :: ps => if open_.length + 1 < d then after d (k' :: k :: open_) ps else none
  | k :: open_, .ends k' :: ps => if k' = k then after d open_ ps else none
  | k :: open_, .number _ _ :: ps => after d (k :: open_) ps
  | k :: open_, .fixed64 _ _ :: ps => after d (k :: open_) ps
  | k :: open_, .sized _ _ :: ps => after d (k :: open_) ps
  | k :: open_, .fixed32 _ _ :: ps => after d (k :: open_) ps

theorem after_nil (d : Nat) (ps : List Piece) : after d [] ps = some ps := by cases ps <;> simp [after]

theorem bytes_ne_nil (p : Piece) : p.bytes ≠ [] := by
  cases p <;> simp [Piece.bytes, varint_ne_nil]

theorem pieces_length (ps : List Piece) : ps.length ≤ (ps.flatMap Piece.bytes).length := by
  induction ps with
  | nil => simp
  | cons p ps ih =>
    have := List.length_pos_iff.mpr (bytes_ne_nil p)
    simp only [List.flatMap_cons, List.length_append, List.length_cons]
    omega

theorem readVarint_10 {n : Nat} (h : n < 2 ^ 64) (rest : List Nat) : readVarint 10 (varint n ++ rest) = some (n, rest) :=
  readVarint_varintIn (by omega) (by omega) (by omega) (by omega)

theorem skipGroups_pieces {d : Nat} : ∀ (ps : List Piece) (open_ : List Nat) (fuel : Nat), (∀ p ∈ ps, p.Ok) → ps.length ≤ fuel →
    skipGroups d fuel open_ (ps.flatMap Piece.bytes) = (after d open_ ps).map (·.flatMap Piece.bytes) := by
  intro ps
  induction ps with
  | nil =>
    intro open_ fuel _ _
    cases open_ with
    | nil => cases fuel <;> simp [skipGroups, after]
    | cons k open_ =>
      cases fuel with
      | zero => simp [skipGroups, after]
      | succ fuel => simp [skipGroups, after, readTag, readVarint]
  | cons p ps ih =>
    intro open_ fuel hp hf
    cases open_ with
    | nil => cases fuel <;> simp [skipGroups, after]
    | cons k open_ =>
      obtain ⟨fuel, rfl⟩ : ∃ i, fuel = i + 1 := ⟨fuel - 1, by simp at hf; omega⟩
      have hps : ∀ q ∈ ps, q.Ok := fun q hq => hp q (by simp [hq])
      have hf' : ps.length ≤ fuel := by simp at hf; omega
      obtain ⟨⟨h0, h1⟩, h2⟩ := hp p (by simp)
      rw [List.flatMap_cons, skipGroups]
      cases p with
      | number num n =>
        simp only [Piece.num] at h0 h1 h2
        simp only [Piece.bytes, List.append_assoc]
        rw [readTag_varint (by omega)]
        simp only [Option.bind_eq_bind, Option.bind_some]
        rw [show 8 * num / 8 = num by omega, show 8 * num % 8 = 0 by omega, if_neg (by omega)]
        simp only
        rw [readVarint_10 h2]
        exact ih _ fuel hps hf'
      | fixed64 num bs =>
        simp only [Piece.num] at h0 h1 h2
        simp only [Piece.bytes, List.append_assoc]
        rw [readTag_varint (by omega)]
        simp only [Option.bind_eq_bind, Option.bind_some]
        rw [show (8 * num + 1) / 8 = num by omega, show (8 * num + 1) % 8 = 1 by omega, if_neg (by omega)]
        simp only
        rw [if_pos (by simp; omega), List.drop_append_of_le_length (by omega), List.drop_of_length_le (by omega), List.nil_append]
        exact ih _ fuel hps hf'
      | sized num bs =>
        simp only [Piece.num] at h0 h1 h2
        simp only [Piece.bytes, List.append_assoc]
        rw [readTag_varint (by omega)]
        simp only [Option.bind_eq_bind, Option.bind_some]
        rw [show (8 * num + 2) / 8 = num by omega, show (8 * num + 2) % 8 = 2 by omega, if_neg (by omega)]
        simp only
        rw [readBlock_varint h2]
        exact ih _ fuel hps hf'
      | fixed32 num bs =>
        simp only [Piece.num] at h0 h1 h2
        simp only [Piece.bytes, List.append_assoc]
        rw [readTag_varint (by omega)]
        simp only [Option.bind_eq_bind, Option.bind_some]
        rw [show (8 * num + 5) / 8 = num by omega, show (8 * num + 5) % 8 = 5 by omega, if_neg (by omega)]
        simp only
        rw [if_pos (by simp; omega), List.drop_append_of_le_length (by omega), List.drop_of_length_le (by omega), List.nil_append]
        exact ih _ fuel hps hf'
      | begins num =>
        simp only [Piece.num] at h0 h1
        simp only [Piece.bytes]
        rw [readTag_varint (by omega)]
        simp only [Option.bind_eq_bind, Option.bind_some]
        rw [show (8 * num + 3) / 8 = num by omega, show (8 * num + 3) % 8 = 3 by omega, if_neg (by omega)]
        simp only [after]
        split
        · exact ih _ fuel hps hf'
        · rfl
      | ends num =>
        simp only [Piece.num] at h0 h1
        simp only [Piece.bytes]
        rw [readTag_varint (by omega)]
        simp only [Option.bind_eq_bind, Option.bind_some]
        rw [show (8 * num + 4) / 8 = num by omega, show (8 * num + 4) % 8 = 4 by omega, if_neg (by omega)]
        simp only [after]
        split
        · exact ih _ fuel hps hf'
        · rfl

/-- After groups have ended, the rest decides. -/
theorem wellNested_after {d : Nat} : ∀ (ps : List Piece) (open_ : List Nat),
    wellNested d open_ ps = match after d open_ ps with | some qs => wellNested d [] qs | none => false := by
  intro ps
  induction ps with
  | nil => intro open_; cases open_ <;> simp [wellNested, after]
  | cons p ps ih =>
    intro open_
    cases open_ with
    | nil => simp [after]
    | cons k open_ =>
      cases p with
      | begins k' =>
        simp only [wellNested, after, List.length_cons]
        by_cases h : open_.length + 1 < d
        · simp [h, ih]
        · simp [h]
      | ends k' =>
        simp only [wellNested, after]
        by_cases h : k' = k
        · simp [h, ih]
        · have : k ≠ k' := fun e => h e.symm
          simp [h, this]
      | _ => simp only [wellNested, after]; exact ih _

theorem after_mem {d : Nat} : ∀ (ps : List Piece) (open_ : List Nat) (qs : List Piece), after d open_ ps = some qs →
    qs.length ≤ ps.length ∧ (∀ q ∈ qs, q ∈ ps) ∧ (∀ n ∈ outerNumbers 0 qs, n ∈ outerNumbers open_.length ps) := by
  intro ps
  induction ps with
  | nil =>
    intro open_ qs h
    cases open_ <;> simp [after] at h
    subst h; simp
  | cons p ps ih =>
    intro open_ qs h
    cases open_ with
    | nil =>
      rw [after_nil] at h; cases h; simp
    | cons k open_ =>
      have go : ∀ st, after d st ps = some qs → outerNumbers (open_.length + 1) (p :: ps) = outerNumbers st.length ps →
          qs.length ≤ (p :: ps).length ∧ (∀ q ∈ qs, q ∈ p :: ps) ∧ (∀ n ∈ outerNumbers 0 qs, n ∈ outerNumbers (k :: open_).length (p :: ps)) := by
        intro st h1 h2
        obtain ⟨a, b, c⟩ := ih _ _ h1
        refine ⟨by simp; omega, fun q hq => by simp [b q hq], ?_⟩
        intro n hn
        rw [List.length_cons, h2]
        exact c n hn
      cases p with
      | begins k' =>
        simp only [after] at h
        split at h
        · exact go _ h (by simp [outerNumbers])
        · cases h
      | ends k' =>
        simp only [after] at h
        split at h
        · exact go _ h (by simp [outerNumbers])
        · cases h
      | number => exact go _ h (by simp [outerNumbers])
      | fixed64 => exact go _ h (by simp [outerNumbers])
      | sized => exact go _ h (by simp [outerNumbers])
      | fixed32 => exact go _ h (by simp [outerNumbers])

/-- Pieces with unknown numbers add nothing if they are well nested, and make everything unreadable otherwise. -/
theorem merge_pieces {d : Nat} {m : M} (o : Obj) : ∀ (k : Nat) (ps : List Piece) (fuel : Nat), ps.length ≤ k → (∀ p ∈ ps, p.Ok) →
    (∀ n ∈ outerNumbers 0 ps, ∀ f ∈ S m, f.num ≠ n) → ps.length ≤ fuel →
    merge S fuel d m (ps.flatMap Piece.bytes) o = if wellNested d [] ps then some o else none := by
  intro k
  induction k with
  | zero =>
    intro ps fuel hk _ _ _
    have : ps = [] := by cases ps <;> simp at hk ⊢
    subst this
    simp [merge_nil, wellNested]
  | succ k ih =>
    intro ps fuel hk hp hn hf
    cases ps with
    | nil => simp [merge_nil, wellNested]
    | cons p ps =>
      obtain ⟨fuel, rfl⟩ : ∃ i, fuel = i + 1 := ⟨fuel - 1, by simp at hf; omega⟩
      have hps : ∀ q ∈ ps, q.Ok := fun q hq => hp q (by simp [hq])
      have hf' : ps.length ≤ fuel := by simp at hf; omega
      have hk' : ps.length ≤ k := by simp at hk; omega
      have hu : (S m).find? (fun f => f.num == p.num) = none := by
        rw [List.find?_eq_none]
        intro f hf
        simpa using hn p.num (by simp [outerNumbers]) f hf
      obtain ⟨⟨h0, h1⟩, h2⟩ := hp p (by simp)
      have hne : p.bytes ++ ps.flatMap Piece.bytes ≠ [] := by simp [bytes_ne_nil]
      have step : ∀ r : Option (List Piece), (∀ inner, record S d inner m (p.bytes ++ ps.flatMap Piece.bytes) o = r.map fun (qs : List Piece) => (qs.flatMap Piece.bytes, o)) →
          merge S (fuel + 1) d m ((p :: ps).flatMap Piece.bytes) o = r.bind fun qs => merge S fuel d m (qs.flatMap Piece.bytes) o := by
        intro r hr
        rw [List.flatMap_cons]
        cases hb : p.bytes ++ ps.flatMap Piece.bytes with
        | nil => exact absurd hb hne
        | cons b bs =>
          rw [merge_cons, ← hb, hr]
          cases r <;> rfl
      have plain : (∀ inner, record S d inner m (p.bytes ++ ps.flatMap Piece.bytes) o = some (ps.flatMap Piece.bytes, o)) →
          (∀ n ∈ outerNumbers 0 ps, n ∈ outerNumbers 0 (p :: ps)) → wellNested d [] (p :: ps) = wellNested d [] ps →
          merge S (fuel + 1) d m ((p :: ps).flatMap Piece.bytes) o = if wellNested d [] (p :: ps) then some o else none := by
        intro hr ho hw
        rw [step (some ps) (fun inner => hr inner), hw]
        exact ih ps fuel hk' hps (fun n h => hn n (ho n h)) hf'
      cases p with
      | number num n =>
        simp only [Piece.num] at h0 h1 h2 hu
        refine plain (fun inner => ?_) (fun n h => by simp [outerNumbers, h]) (by simp [wellNested])
        unfold record
        simp only [Piece.bytes, List.append_assoc]
        rw [readTag_varint (by omega)]
        simp only [Option.bind_eq_bind, Option.bind_some]
        rw [show 8 * num / 8 = num by omega, show 8 * num % 8 = 0 by omega, if_neg (by omega), hu]
        simp only [skip]
        rw [readVarint_10 h2]
        rfl
      | fixed64 num bs =>
        simp only [Piece.num] at h0 h1 h2 hu
        refine plain (fun inner => ?_) (fun n h => by simp [outerNumbers, h]) (by simp [wellNested])
        unfold record
        simp only [Piece.bytes, List.append_assoc]
        rw [readTag_varint (by omega)]
        simp only [Option.bind_eq_bind, Option.bind_some]
        rw [show (8 * num + 1) / 8 = num by omega, show (8 * num + 1) % 8 = 1 by omega, if_neg (by omega), hu]
        simp only [skip]
        rw [if_pos (by simp; omega), List.drop_append_of_le_length (by omega), List.drop_of_length_le (by omega), List.nil_append]
        rfl
      | sized num bs =>
        simp only [Piece.num] at h0 h1 h2 hu
        refine plain (fun inner => ?_) (fun n h => by simp [outerNumbers, h]) (by simp [wellNested])
        unfold record
        simp only [Piece.bytes, List.append_assoc]
        rw [readTag_varint (by omega)]
        simp only [Option.bind_eq_bind, Option.bind_some]
        rw [show (8 * num + 2) / 8 = num by omega, show (8 * num + 2) % 8 = 2 by omega, if_neg (by omega), hu]
        simp only [skip]
        rw [readBlock_varint h2]
        rfl
      | fixed32 num bs =>
        simp only [Piece.num] at h0 h1 h2 hu
        refine plain (fun inner => ?_) (fun n h => by simp [outerNumbers, h]) (by simp [wellNested])
        unfold record
        simp only [Piece.bytes, List.append_assoc]
        rw [readTag_varint (by omega)]
        simp only [Option.bind_eq_bind, Option.bind_some]
        rw [show (8 * num + 5) / 8 = num by omega, show (8 * num + 5) % 8 = 5 by omega, if_neg (by omega), hu]
        simp only [skip]
        rw [if_pos (by simp; omega), List.drop_append_of_le_length (by omega), List.drop_of_length_le (by omega), List.nil_append]
        rfl
      | ends num =>
        simp only [Piece.num] at h0 h1 hu
        rw [step none (fun inner => ?_)]
        · simp [wellNested]
        unfold record
        simp only [Piece.bytes]
        rw [readTag_varint (by omega)]
        simp only [Option.bind_eq_bind, Option.bind_some]
        rw [show (8 * num + 4) / 8 = num by omega, show (8 * num + 4) % 8 = 4 by omega, if_neg (by omega), hu]
        rfl
      | begins num =>
        simp only [Piece.num] at h0 h1 hu
        have hr : ∀ inner, record S d inner m (Piece.bytes (.begins num) ++ ps.flatMap Piece.bytes) o =
            (if 0 < d then after d [num] ps else none).map fun (qs : List Piece) => (qs.flatMap Piece.bytes, o) := by
          intro inner
          unfold record
          simp only [Piece.bytes]
          rw [readTag_varint (by omega)]
          simp only [Option.bind_eq_bind, Option.bind_some]
          rw [show (8 * num + 3) / 8 = num by omega, show (8 * num + 3) % 8 = 3 by omega, if_neg (by omega), hu]
          simp only [skip]
          split
          · rw [skipGroups_pieces ps [num] _ hps (pieces_length ps)]
            cases after d [num] ps <;> rfl
          · rfl
        rw [step _ hr]
        simp only [wellNested, List.length_nil]
        by_cases hd : 0 < d
        · simp only [hd, if_true, decide_true, Bool.true_and]
          rw [wellNested_after ps [num]]
          cases ha : after d [num] ps with
          | none => simp
          | some qs =>
            obtain ⟨a, b, c⟩ := after_mem ps [num] qs ha
            refine ih qs fuel (by omega) (fun q hq => hps q (b q hq)) (fun n h => hn n ?_) (by omega)
            have := c n h
            simp only [List.length_singleton] at this
            simp [outerNumbers, this]
        · simp [hd]

end Ygo.Pb
