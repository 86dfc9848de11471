/-!
# List lemmas used throughout
-/

namespace Ygo
variable {α : Type}

theorem eraseIdx_insertIdx_cancel {p : List α} {i : Nat} (c : α) (h : i ≤ p.length) :
    (p.insertIdx i c).eraseIdx i = p := by
  induction p generalizing i with
  | nil => have : i = 0 := by simpa using h
           subst this; simp
  | cons a p ih =>
    cases i with
    | zero => simp
    | succ i => simp at h; simp [ih h]

theorem insertIdx_eraseIdx_cancel {p : List α} {i : Nat} {c : α} (h : p[i]? = some c) :
    (p.eraseIdx i).insertIdx i c = p := by
  induction p generalizing i with
  | nil => simp at h
  | cons a p ih =>
    cases i with
    | zero => simp at h; simp [h]
    | succ i => simp at h; simp [ih h]

theorem getElem?_insertIdx_self' {p : List α} {i : Nat} (c : α) (h : i ≤ p.length) :
    (p.insertIdx i c)[i]? = some c := by
  induction p generalizing i with
  | nil => have : i = 0 := by simpa using h
           subst this; simp
  | cons a p ih =>
    cases i with
    | zero => simp
    | succ i => simp at h; simp [ih h]

theorem insertIdx_perm {p : List α} {i : Nat} (c : α) (h : i ≤ p.length) : (p.insertIdx i c).Perm (c :: p) := by
  induction p generalizing i with
  | nil => have : i = 0 := by simpa using h
           subst this; simp
  | cons a p ih =>
    cases i with
    | zero => simp
    | succ i =>
      simp at h
      simp only [List.insertIdx_succ_cons]
      exact ((ih h).cons a).trans (List.Perm.swap ..)

theorem eraseIdx_perm {p : List α} {i : Nat} {c : α} (h : p[i]? = some c) : (c :: p.eraseIdx i).Perm p := by
  induction p generalizing i with
  | nil => simp at h
  | cons a p ih =>
    cases i with
    | zero => simp at h; simp [h]
    | succ i =>
      simp at h
      simp only [List.eraseIdx_cons_succ]
      exact (List.Perm.swap ..).trans ((ih h).cons a)

theorem lt_of_getElem?_some {p : List α} {i : Nat} {c : α} (h : p[i]? = some c) : i < p.length := by
  apply Classical.byContradiction
  intro hn
  rw [List.getElem?_eq_none (by omega)] at h
  cases h

theorem getElem?_some_of_lt {p : List α} {i : Nat} (h : i < p.length) : ∃ c, p[i]? = some c :=
  ⟨p[i], by simp [h]⟩

end Ygo
