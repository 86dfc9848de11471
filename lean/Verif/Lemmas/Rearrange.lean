import Verif.Spec.Single
import Verif.Lemmas.FrameOwn

/-!
# Any arrangement by moves of single cards
-/

namespace Ygo
open Spec

/-- From one board to another by `n` moves of single cards that start and end outside of `S`. -/
inductive Moves (S : Container → Prop) : Nat → Board → Board → Prop
  | nil (B : Board) : Moves S 0 B B
  | cons {B B' : Board} {n : Nat} (C1 : Container) (i : Nat) (C2 : Container) (j : Nat) (x : CardId) (h : CanGo B C1 i C2 j x) (h1 : ¬ S C1) (h2 : ¬ S C2)
      (t : Moves S n (gone B C1 i C2 j x) B') : Moves S (n + 1) B B'

theorem Moves.trans {S : Container → Prop} {n m : Nat} {A B C : Board} (h : Moves S n A B) (h' : Moves S m B C) : Moves S (n + m) A C := by
  induction h with
  | nil => rw [Nat.zero_add]; exact h'
  | cons C1 i C2 j x h h1 h2 _ ih => rw [Nat.add_right_comm]; exact .cons C1 i C2 j x h h1 h2 (ih h')

theorem count_gone {B : Board} {C1 C2 : Container} {i j : Nat} {x : CardId} (h : CanGo B C1 i C2 j x) (y : CardId) :
    (placed (gone B C1 i C2 j x)).count y = (placed B).count y := by
  have e : CarryOk ((B.take C1 i).put C2 j x) C1 C2 := by
    have := h.carry
    cases C1 <;> cases C2 <;> simp_all [CarryOk, Board.take, Board.put, upd_apply]
  unfold gone
  rw [count_carry e, count_put h.room, count_take h.there]

theorem length_gone {B : Board} {C1 C2 : Container} {i j : Nat} {x : CardId} (h : CanGo B C1 i C2 j x) :
    (placed (gone B C1 i C2 j x)).length = (placed B).length :=
  (List.perm_iff_count.mpr (count_gone h)).length_eq

/-- Each container holds a part of the cards. -/
theorem length_le_placed (B : Board) (C : Container) : (B C).length ≤ (placed B).length := by
  have hm := mem_containers C
  unfold placed
  generalize containers = cs at hm
  induction cs with
  | nil => cases hm
  | cons d ds ih =>
    rw [List.flatMap_cons, List.length_append]
    rcases List.mem_cons.mp hm with rfl | hm
    · omega
    · have := ih hm
      omega

theorem Moves.count {S : Container → Prop} {n : Nat} {A B : Board} (h : Moves S n A B) (y : CardId) : (placed B).count y = (placed A).count y := by
  induction h with
  | nil => rfl
  | cons C1 i C2 j x h _ _ _ ih => rw [ih, count_gone h]

/-! ## Everything into one pile -/

private theorem gather (S : Container → Prop) (P : PileKey) (hP : ¬ S (.pile P)) : ∀ (n : Nat) (B : Board), (∀ C, S C → B C = []) →
    (placed B).length = (B (.pile P)).length + n → ∃ m B', m ≤ n ∧ Moves S m B B' ∧ ∀ C, C ≠ .pile P → B' C = [] := by
  intro n
  induction n with
  | zero =>
    intro B hS hn
    refine ⟨0, B, Nat.le_refl _, .nil B, fun C hC => ?_⟩
    cases hB : B C with
    | nil => rfl
    | cons x t =>
      have hg : CanGo B C 0 (.pile P) 0 x := ⟨by rw [hB]; rfl, (fun k h => by cases h), Nat.zero_le _, (by cases C <;> trivial)⟩
      have h1 := length_le_placed (gone B C 0 (.pile P) 0 x) (.pile P)
      rw [length_gone hg] at h1
      have h2 : (gone B C 0 (.pile P) 0 x (.pile P)).length = (B (.pile P)).length + 1 := by
        cases C <;> simp [gone, Board.carry, Board.put, Board.take, upd_apply, hC.symm]
      omega
  | succ n ih =>
    intro B hS hn
    by_cases he : ∀ C, C ≠ .pile P → B C = []
    · exact ⟨0, B, Nat.zero_le _, .nil B, he⟩
    · obtain ⟨C, he⟩ := Classical.not_forall.mp he
      obtain ⟨hC, he⟩ := Classical.not_imp.mp he
      cases hB : B C with
      | nil => exact absurd hB he
      | cons x t =>
        have hg : CanGo B C 0 (.pile P) 0 x := ⟨by rw [hB]; rfl, (fun k h => by cases h), Nat.zero_le _, (by cases C <;> trivial)⟩
        have h2 : ∀ D, gone B C 0 (.pile P) 0 x D = if D = .pile P then x :: B (.pile P) else if D = C then t else B D := by
          intro D
          cases C <;> simp [gone, Board.carry, Board.put, Board.take, upd_apply, hC.symm, hB]
        have hSC : ¬ S C := fun h => he (hS C h)
        obtain ⟨m, B', hm, hM, hE⟩ := ih (gone B C 0 (.pile P) 0 x)
          (fun D hD => by
            have e1 : D ≠ .pile P := fun e => hP (e ▸ hD)
            have e2 : D ≠ C := fun e => hSC (e ▸ hD)
            rw [h2, if_neg e1, if_neg e2, hS D hD])
          (by rw [length_gone hg, h2, if_pos rfl, hn, List.length_cons]; omega)
        exact ⟨m + 1, B', by omega, .cons C 0 _ 0 x hg hSC hP hM, hE⟩

/-! ## And from there to where it belongs -/

/-- The board with cards put behind those in the containers named. -/
private def dealt (D : Board) (jobs : List (Container × CardId)) : Board := fun C => D C ++ (jobs.filter (·.1 = C)).map (·.2)

private theorem distribute (S : Container → Prop) (P : PileKey) (hP : ¬ S (.pile P)) : ∀ (jobs : List (Container × CardId)) (R : List CardId) (D : Board),
    (∀ j ∈ jobs, ¬ S j.1) → (∀ k, (dealt D jobs (.slot k)).length ≤ 1) → R.Perm (jobs.map (·.2)) →
    Moves S jobs.length (D.upd (.pile P) (R ++ D (.pile P))) (dealt D jobs) := by
  intro jobs
  induction jobs with
  | nil =>
    intro R D _ _ hR
    rw [List.perm_nil.mp hR, List.nil_append, upd_same]
    have : dealt D [] = D := by funext C; simp [dealt]
    rw [this]
    exact .nil D
  | cons j jobs ih =>
    obtain ⟨C, x⟩ := j
    intro R D hj hs hR
    have hx : x ∈ R := hR.mem_iff.mpr (by simp)
    obtain ⟨i, hi, hix⟩ := List.getElem_of_mem hx
    have hix' : R[i]? = some x := by rw [List.getElem?_eq_getElem hi, hix]
    have hC : ¬ S C := hj (C, x) (by simp)
    have hd : dealt D ((C, x) :: jobs) = dealt (D.upd C (D C ++ [x])) jobs := by
      funext E
      by_cases h : C = E
      · subst h; simp [dealt]
      · have h' : E ≠ C := fun e => h e.symm
        simp [dealt, h, upd_apply, h']
    have hg : CanGo (D.upd (.pile P) (R ++ D (.pile P))) (.pile P) i C (D C ++ if C = .pile P then R.eraseIdx i else []).length x := by
      refine ⟨?_, fun k hk => ?_, ?_, ?_⟩
      · rw [upd_self, List.getElem?_append_left hi, hix']
      · subst hk
        have h1 := hs k
        simp only [dealt, List.filter_cons, decide_true, if_true, List.map_cons, List.length_append, List.length_cons] at h1
        rw [upd_ne (by simp)]
        exact List.length_eq_zero_iff.mp (by omega)
      · by_cases h : C = .pile P
        · subst h
          simp only [Board.take, upd_self, if_true, List.length_append, List.eraseIdx_append_of_lt_length hi]
          omega
        · simp [Board.take, upd_apply, h]
      · cases C <;> trivial
    have hb : gone (D.upd (.pile P) (R ++ D (.pile P))) (.pile P) i C (D C ++ if C = .pile P then R.eraseIdx i else []).length x =
        (D.upd C (D C ++ [x])).upd (.pile P) (R.eraseIdx i ++ (D.upd C (D C ++ [x])) (.pile P)) := by
      have hc : ∀ B : Board, B.carry (.pile P) C = B := fun B => by cases C <;> rfl
      unfold gone
      rw [hc]
      funext E
      by_cases h : C = .pile P
      · subst h
        simp only [Board.put, Board.take, upd_self, upd_upd, if_true]
        rw [List.eraseIdx_append_of_lt_length hi]
        by_cases hE : E = .pile P
        · subst hE
          simp only [upd_self]
          rw [show (D (.pile P) ++ R.eraseIdx i).length = (R.eraseIdx i ++ D (.pile P)).length by simp only [List.length_append]; omega,
            List.insertIdx_length_self, List.append_assoc]
        · rw [upd_ne hE, upd_ne hE]
      · have h' : Container.pile P ≠ C := fun e => h e.symm
        by_cases hE : E = .pile P
        · subst hE
          simp only [Board.put, Board.take, upd_self, upd_upd, upd_ne h']
          rw [List.eraseIdx_append_of_lt_length hi]
        · by_cases hE' : E = C
          · subst hE'
            simp [Board.put, Board.take, upd_apply, h]
          · simp [Board.put, Board.take, upd_apply, hE, hE']
    have hp : (R.eraseIdx i).Perm (jobs.map (·.2)) := by
      have := (eraseIdx_perm hix').trans hR
      exact (List.perm_cons x).mp this
    have := ih (R.eraseIdx i) (D.upd C (D C ++ [x])) (fun j h => hj j (by simp [h])) (hd ▸ hs) hp
    rw [hd, List.length_cons]
    refine .cons (.pile P) i C _ x hg hP hC ?_
    rw [hb]
    exact this

/-- Any two boards with the same cards are a few moves apart, each card being moved at most twice. -/
theorem moves_between (S : Container → Prop) (P : PileKey) (hP : ¬ S (.pile P)) (A B : Board) (hA : ∀ C, S C → A C = []) (hB : ∀ C, S C → B C = [])
    (hs : ∀ k, (B (.slot k)).length ≤ 1) (hc : ∀ x, (placed A).count x = (placed B).count x) :
    ∃ n, n ≤ 2 * (placed A).length ∧ Moves S n A B := by
  obtain ⟨m, A', hm, hM, hE⟩ := gather S P hP ((placed A).length - (A (.pile P)).length) A hA (by have := length_le_placed A (.pile P); omega)
  let jobs : List (Container × CardId) := containers.flatMap fun C => (B C).map fun x => (C, x)
  have hd : dealt (fun _ => []) jobs = B := by
    funext C
    have : ∀ cs : List Container, cs.Nodup → ((cs.flatMap fun C => (B C).map fun x => (C, x)).filter (·.1 = C)).map (·.2) = if C ∈ cs then B C else [] := by
      intro cs
      induction cs with
      | nil => intro _; rfl
      | cons d ds ih =>
        intro hn
        rw [List.nodup_cons] at hn
        rw [List.flatMap_cons, List.filter_append, List.map_append, ih hn.2]
        by_cases h : d = C
        · subst h
          rw [if_neg hn.1, if_pos (by simp)]
          simp [List.filter_map, Function.comp_def]
        · have h' : ¬ C = d := fun e => h e.symm
          simp [List.filter_map, Function.comp_def, h, h']
    simp only [dealt, List.nil_append]
    exact (this containers nodup_containers).trans (if_pos (mem_containers C))
  have hj : jobs.map (·.2) = placed B := by
    simp only [jobs, placed, List.map_flatMap, List.map_map, Function.comp_def, List.map_id']
  have hA' : A' = Board.upd (fun _ => []) (.pile P) (A' (.pile P) ++ []) := by
    funext C
    by_cases h : C = .pile P
    · subst h; simp
    · rw [upd_ne h, hE C h]
  have hp : (A' (.pile P)).Perm (jobs.map (·.2)) := by
    rw [hj]
    refine List.perm_iff_count.mpr fun x => ?_
    rw [← hc, ← hM.count]
    have := count_placed_upd (fun _ => []) (.pile P) (A' (.pile P)) x
    rw [List.append_nil] at hA'
    rw [← hA'] at this
    have h0 : placed (fun _ => []) = [] := placed_nil fun _ => rfl
    rw [h0] at this
    simp at this
    exact this.symm
  have hD := distribute S P hP jobs (A' (.pile P)) (fun _ => [])
    (fun j h => by
      simp only [jobs, List.mem_flatMap, List.mem_map] at h
      obtain ⟨C, _, x, hx, rfl⟩ := h
      intro hS
      rw [hB C hS] at hx
      cases hx)
    (by rw [hd]; exact hs) hp
  rw [hd] at hD
  rw [← hA'] at hD
  refine ⟨_, ?_, hM.trans hD⟩
  have : jobs.length = (placed A).length := by
    rw [← List.length_map (f := (·.2)), hj]
    exact (List.perm_iff_count.mpr fun x => (hc x).symm).length_eq
  omega

end Ygo
