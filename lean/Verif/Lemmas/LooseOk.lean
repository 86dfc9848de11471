import Verif.Lemmas.AcceptLoose

/-!
# The encoder on what it takes for a message
-/

set_option linter.unusedSimpArgs false

namespace Ygo
open P Spec

theorem looseFlag_ne (x : UInt16 × QueryItem) (h : LooseFits x) : x.2.flag.toNat ≠ 0x80000000 := by
  obtain ⟨sz, i⟩ := x
  cases i
  case unknown f p =>
    intro e
    have hf : f.toNat ∉ QueryItem.flags := h.1
    apply hf
    rw [show f.toNat = 0x80000000 from e]
    decide
  all_goals (simp only [QueryItem.flag]; decide)

theorem queryLoop_loose (fields : List (UInt16 × QueryItem)) (size : UInt16) (h : ∀ x ∈ fields, LooseFits x) (v : QueryRead) (fuel : Nat)
    (hf : fields.length < fuel) (s : List UInt8) :
    queryLoop fuel v ((LooseQuery.mk fields size).bytes ++ s) = .ok ((fields.map (·.2)).foldl QueryRead.add v, s) := by
  induction fields generalizing v fuel with
  | nil =>
    obtain ⟨n, rfl⟩ : ∃ n, fuel = n + 1 := ⟨fuel - 1, by simp at hf; omega⟩
    simp only [LooseQuery.bytes, List.flatMap_nil, List.nil_append, List.append_assoc, queryLoop, List.foldl_nil, List.map_nil]
    rw [bind_run_ok (read_b16 _ _), bind_run_ok (read_cnt4 _ (by omega)), if_pos rfl]
    rfl
  | cons i is ih =>
    obtain ⟨n, rfl⟩ : ∃ n, fuel = n + 1 := ⟨fuel - 1, by simp at hf; omega⟩
    have hi := h i (by simp)
    have hb : (LooseQuery.mk (i :: is) size).bytes ++ s = b16 i.1 ++ (b32 i.2.flag ++ (i.2.payload ++ ((LooseQuery.mk is size).bytes ++ s))) := by
      simp [LooseQuery.bytes, looseField]
    rw [hb]
    simp only [queryLoop, List.map_cons, List.foldl_cons]
    rw [bind_run_ok (read_b16 _ _), bind_run_ok (read_b32 _ _), if_neg (looseFlag_ne i hi)]
    rw [bind_run_ok (queryField_loose i.1 i.2 hi v _)]
    exact ih (fun j hj => h j (by simp [hj])) _ n (by simp at hf; omega)

theorem looseBytes_length (fields : List (UInt16 × QueryItem)) (size : UInt16) : fields.length < (LooseQuery.mk fields size).bytes.length := by
  induction fields with
  | nil => simp [LooseQuery.bytes]
  | cons i is ih =>
    have : (LooseQuery.mk (i :: is) size).bytes = looseField i ++ (LooseQuery.mk is size).bytes := by simp [LooseQuery.bytes]
    rw [this]
    simp only [List.length_cons, List.length_append, looseField, length_b16, length_b32]
    omega

theorem foldl_add_empty (is : List QueryItem) :
    is.foldl QueryRead.add { data := .empty } = ⟨QueryItem.data is, QueryItem.materials is⟩ := by
  rw [foldl_add]
  unfold QueryItem.data QueryItem.materials QueryData.empty
  simp only [Option.or_none, Option.getD_none, List.nil_append]
  congr 2
  · cases QueryItem.allOf QueryItem.targets is <;> rfl
  · cases QueryItem.allOf QueryItem.counterList is <;> rfl

/-- The fields of a query, without the sizes. -/
def _root_.Ygo.Spec.LooseQuery.items (q : LooseQuery) : List QueryItem := q.fields.map (·.2)

theorem encodeOneQuery_loose (q : LooseQuery) (h : q.Fits) (s : List UInt8) :
    encodeOneQuery (q.bytes ++ s) = .ok (⟨QueryItem.data q.items, QueryItem.materials q.items⟩, s) := by
  unfold encodeOneQuery
  have := looseBytes_length q.fields q.size
  rw [show q = ⟨q.fields, q.size⟩ from rfl, queryLoop_loose _ _ h _ _ (by simp only [List.length_append]; omega), foldl_add_empty]
  rfl

theorem looseSlot_length (o : Option LooseQuery) : 2 ≤ (looseSlot o).length := by
  cases o with
  | none => simp [looseSlot]
  | some q => simp [looseSlot, LooseQuery.bytes]

theorem updateLoop_loose (con : Int) (loc total : Nat) (slots : List (Option LooseQuery)) (h : ∀ q ∈ slots, LooseSlotFits q)
    (k readSize fuel : Nat) (hf : slots.length < fuel) (h1 : total ≤ readSize + (slots.flatMap looseSlot).length)
    (h2 : ∀ xs x, slots = xs ++ [x] → readSize + (xs.flatMap looseSlot).length < total)
    (hs : readSize + (slots.flatMap looseSlot).length < 2 ^ 32) (s : List UInt8) :
    ∃ qs, updateLoop con loc total fuel k readSize (slots.flatMap looseSlot ++ s) = .ok (qs, s) := by
  induction slots generalizing k readSize fuel with
  | nil =>
    obtain ⟨n, rfl⟩ : ∃ n, fuel = n + 1 := ⟨fuel - 1, by simp at hf; omega⟩
    simp only [List.flatMap_nil, List.length_nil, Nat.add_zero] at h1
    simp only [updateLoop, if_neg (show ¬ readSize < total by omega), List.flatMap_nil, List.nil_append, pure_run]
    exact ⟨_, rfl⟩
  | cons o ss ih =>
    obtain ⟨n, rfl⟩ : ∃ n, fuel = n + 1 := ⟨fuel - 1, by simp at hf; omega⟩
    simp only [List.flatMap_cons, List.length_append] at h1 hs
    simp only [List.length_cons] at hf
    have hlt : readSize < total := by
      obtain ⟨xs, x, e⟩ : ∃ xs x, o :: ss = xs ++ [x] :=
        ⟨(o :: ss).dropLast, (o :: ss).getLast (by simp), (List.dropLast_concat_getLast (by simp)).symm⟩
      have := h2 xs x e
      omega
    have h3 : ∀ xs x, ss = xs ++ [x] → readSize + (looseSlot o).length + (xs.flatMap looseSlot).length < total := by
      rintro xs x rfl
      have := h2 (o :: xs) x rfl
      rw [List.flatMap_cons, List.length_append] at this
      omega
    simp only [updateLoop, if_pos hlt, List.flatMap_cons, List.append_assoc]
    cases o with
    | none =>
      have hl : (looseSlot none).length = 2 := rfl
      have hp : peek (read 2) (looseSlot none ++ (ss.flatMap looseSlot ++ s)) = .ok (0, looseSlot none ++ (ss.flatMap looseSlot ++ s)) :=
        peek_ok (read_cnt2 (n := 0) _ (by omega))
      rw [bind_run_ok hp, if_pos rfl, bind_run_ok (skip_append hl), Nat.mod_eq_of_lt (show readSize + 2 < 2 ^ 32 by omega)]
      exact ih (fun q hq => h q (by simp [hq])) _ _ n (by omega) (by omega) h3 (by omega)
    | some q =>
      obtain ⟨hq, h0⟩ := h (some q) (by simp)
      obtain ⟨r, hr⟩ := Takes.first q (ss.flatMap looseSlot ++ s)
      have hp : peek (read 2) (looseSlot (some q) ++ (ss.flatMap looseSlot ++ s)) =
          .ok (q.first.toNat, looseSlot (some q) ++ (ss.flatMap looseSlot ++ s)) := peek_ok hr
      have hn : q.first.toNat ≠ 0 := fun e => h0 (UInt16.toNat_inj.mp e)
      have hc := counted_ok (p := encodeOneQuery) (bs := looseSlot (some q)) (encodeOneQuery_loose q hq (ss.flatMap looseSlot ++ s))
      rw [bind_run_ok hp, if_neg hn, bind_run_ok hc]
      simp only
      rw [Nat.mod_eq_of_lt (show readSize + (looseSlot (some q)).length < 2 ^ 32 by omega)]
      obtain ⟨qs, e⟩ := ih (fun q hq => h q (by simp [hq])) ((k + 1) % 2 ^ 32) _ n (by omega) (by omega) h3 (by omega)
      rw [bind_run_ok e, pure_run]
      exact ⟨_, rfl⟩

theorem reloadZone_loose (con : Int) (loc seq : Nat) (z : FieldCell) (hz : Marked z) (s : List UInt8) :
    ∃ ps, reloadZone con loc seq (z.bytes ++ s) = .ok (ps, s) := by
  cases z with
  | empty => exact ⟨[], rfl⟩
  | card mark pos mats =>
    have h0 : mark.toNat ≠ 0 := fun e => hz (UInt8.toNat_inj.mp e)
    unfold reloadZone
    simp only [FieldCell.bytes, List.append_assoc]
    rw [bind_run_ok (read_b8 _ _), if_neg h0, bind_run_ok (skip_b8 _ _)]
    rw [bind_run_ok (read_b32 _ _), pure_run]
    exact ⟨_, rfl⟩

theorem forEach_loose (f : Nat → P (List Place)) (hf : ∀ i z, Marked z → ∀ s, ∃ ps, f i (z.bytes ++ s) = .ok (ps, s)) (is : List Nat)
    (zs : List FieldCell) (hl : zs.length = is.length) (hz : ∀ z ∈ zs, Marked z) (s : List UInt8) :
    ∃ ps, P.forEach f is (zs.flatMap FieldCell.bytes ++ s) = .ok (ps, s) := by
  induction is generalizing zs with
  | nil =>
    obtain rfl : zs = [] := by simpa using hl
    exact ⟨_, rfl⟩
  | cons i is ih =>
    cases zs with
    | nil => cases hl
    | cons z zs =>
      obtain ⟨ps, h1⟩ := hf i z (hz z (by simp)) (zs.flatMap FieldCell.bytes ++ s)
      obtain ⟨qs, h2⟩ := ih zs (by simpa using hl) (fun y hy => hz y (by simp [hy]))
      simp only [List.flatMap_cons, List.append_assoc, P.forEach]
      rw [bind_run_ok h1, bind_run_ok h2]
      exact ⟨_, rfl⟩

theorem reloadController_loose (con : Int) (f : FieldSide) (h : LooseSide f) (s : List UInt8) :
    ∃ x, reloadController con (f.bytes ++ s) = .ok (x, s) := by
  obtain ⟨h1, h2, h3, h4⟩ := h
  unfold reloadController
  simp only [FieldSide.bytes, List.append_assoc]
  rw [bind_run_ok (read_b32 _ _)]
  obtain ⟨a, e1⟩ := forEach_loose _ (fun i z hz s => reloadZone_loose con Loc.monsterZone i z hz s) (List.range 7) f.monsters (by simpa using h1) h3
    (f.spells.flatMap FieldCell.bytes ++ (b32 f.main ++ (b32 f.hand ++ (b32 f.grave ++ (b32 f.banished ++ (b32 f.extra ++ (b32 f.extraP ++ s)))))))
  obtain ⟨b, e2⟩ := forEach_loose _ (fun i z hz s => reloadZone_loose con Loc.spellZone i z hz s) (List.range 8) f.spells (by simpa using h2) h4
    (b32 f.main ++ (b32 f.hand ++ (b32 f.grave ++ (b32 f.banished ++ (b32 f.extra ++ (b32 f.extraP ++ s))))))
  rw [bind_run_ok e1, bind_run_ok e2, bind_run_ok (read_b32 _ _), bind_run_ok (read_b32 _ _), bind_run_ok (read_b32 _ _),
    bind_run_ok (read_b32 _ _), bind_run_ok (read_b32 _ _), bind_run_ok (skip_b32 _ _), pure_run]
  exact ⟨_, rfl⟩

end Ygo
