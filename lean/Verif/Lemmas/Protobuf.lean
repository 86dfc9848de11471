import Verif.Spec.Protobuf

/-!
# Reading what was written
-/

set_option linter.unusedSimpArgs false

namespace Ygo.Pb
open Ygo Ygo.Spec

/-! ## Numbers -/

theorem readVarint_varintIn {k : Nat} : ∀ {j n : Nat} {rest : List Nat}, 0 < k → n < 128 ^ k → 0 < j → n < 128 ^ j →
    readVarint k (varintIn j n ++ rest) = some (n, rest) := by
  induction k with
  | zero => intro j n rest h; omega
  | succ k ih =>
    intro j n rest _ hk hj0 hj
    obtain ⟨j, rfl⟩ : ∃ i, j = i + 1 := ⟨j - 1, by omega⟩
    unfold varintIn
    by_cases h : n < 128
    · simp [h, readVarint]
    · rw [if_neg h]
      have k0 : 0 < k := by
        rcases Nat.eq_zero_or_pos k with rfl | h'
        · simp at hk; omega
        · exact h'
      have j0 : 0 < j := by
        rcases Nat.eq_zero_or_pos j with rfl | h'
        · simp at hj; omega
        · exact h'
      have e1 : n / 128 < 128 ^ k := by rw [Nat.pow_succ] at hk; omega
      have e2 : n / 128 < 128 ^ j := by rw [Nat.pow_succ] at hj; omega
      have hh : ¬ (n % 128 + 128 < 128) := by omega
      simp only [List.cons_append, readVarint, if_neg hh, ih k0 e1 j0 e2, Option.bind_eq_bind, Option.bind_some]
      simp
      omega

theorem varintIn_length (k n : Nat) : (varintIn k n).length ≤ k := by
  induction k generalizing n with
  | zero => simp [varintIn]
  | succ k ih => unfold varintIn; split <;> simp; exact ih _

theorem varint_ne_nil (n : Nat) : varint n ≠ [] := by
  unfold varint varintIn; split <;> simp

theorem varint_bytes (n : Nat) : ∀ b ∈ varint n, b < 256 := by
  unfold varint
  suffices ∀ k n, ∀ b ∈ varintIn k n, b < 256 from this 10 n
  intro k
  induction k with
  | zero => simp [varintIn]
  | succ k ih =>
    intro n b hb
    unfold varintIn at hb
    split at hb
    · simp at hb; omega
    · rcases List.mem_cons.mp hb with rfl | hb
      · omega
      · exact ih _ b hb

theorem readU64_varint {n : Nat} {rest : List Nat} (h : n < 2 ^ 64) : readU64 (varint n ++ rest) = some (n, rest) := by
  unfold readU64 varint
  rw [readVarint_varintIn (by omega) (by omega) (by omega) (by omega)]
  simp
  omega

theorem readTag_varint {n : Nat} {rest : List Nat} (h : n < 2 ^ 32) : readTag (varint n ++ rest) = some (n, rest) := by
  unfold readTag varint
  rw [readVarint_varintIn (by omega) (by omega) (by omega) (by omega)]
  simp
  omega

theorem readBlock_varint {p rest : List Nat} (h : p.length < 2 ^ 31 - 16) : readBlock (varint p.length ++ (p ++ rest)) = some (p, rest) := by
  unfold readBlock varint
  rw [readVarint_varintIn (by omega) (by omega) (by omega) (by omega)]
  simp only [Option.bind_eq_bind, Option.bind_some]
  rw [if_pos (by simp; omega)]
  simp

theorem scalar_encode_lt {s : Scalar} {z : Int} (h : ScalarHolds s z) : s.encode z < 2 ^ 64 := by
  cases s <;> simp only [ScalarHolds, I32] at h <;> simp only [Scalar.encode] <;> first | omega | (split <;> omega)

theorem scalar_decode {s : Scalar} {z : Int} (h : ScalarHolds s z) : s.decode (s.encode z) = z := by
  generalize e : s.encode z = n
  cases s <;> simp only [ScalarHolds, I32] at h <;> unfold Scalar.encode at e <;> dsimp only at e <;> unfold Scalar.decode <;> dsimp only <;>
    try unfold signed32
  · split <;> omega
  · omega
  · omega
  · split at e <;> split <;> omega
  · rcases h with rfl | rfl <;> simp at e <;> simp [← e]
  · split <;> omega

theorem scalar_holds_decode {s : Scalar} {n : Nat} (h : n < 2 ^ 64) : ScalarHolds s (s.decode n) := by
  cases s <;> simp only [ScalarHolds, I32, Scalar.decode, signed32] <;> first | omega | (split <;> omega)

theorem readU64_lt {bs rest : List Nat} {n : Nat} (h : readU64 bs = some (n, rest)) : n < 2 ^ 64 := by
  unfold readU64 at h
  cases hv : readVarint 10 bs with
  | none => simp [hv] at h
  | some x =>
    simp [hv] at h
    rw [← h.1]
    exact Nat.mod_lt _ (by omega)

/-! ## Text -/

theorem readText_utf8 (s : String) : readText (utf8 s) = some s := by
  unfold readText utf8
  have e : ∀ l : List UInt8, (l.map UInt8.toNat).map (fun b => UInt8.ofNat b) = l := by
    intro l; induction l with
    | nil => rfl
    | cons x l ih => simp [ih]
  rw [e]
  simp only [Array.toArray_toList, String.fromUTF8?]
  have hv : ({ data := s.toUTF8.data } : ByteArray).IsValidUTF8 := s.isValidUTF8
  rw [dif_pos hv]
  rfl

/-! ## Packed numbers -/

theorem packed_length_pos {s : Scalar} {z : Int} {vs : List Val} : vs.length < (packed s (.num z :: vs)).length + vs.length := by
  have := List.length_pos_iff.mpr (varint_ne_nil (s.encode z))
  simp [packed]; omega

theorem readPacked_packed {s : Scalar} {vs : List Val} (h : ∀ v ∈ vs, ∃ z, v = .num z ∧ ScalarHolds s z) :
    ∀ fuel, (packed s vs).length ≤ fuel → readPacked s fuel (packed s vs) = some vs := by
  induction vs with
  | nil => intro fuel _; cases fuel <;> simp [packed, readPacked]
  | cons v vs ih =>
    intro fuel hf
    obtain ⟨z, rfl, hz⟩ := h v (by simp)
    have hpos := List.length_pos_iff.mpr (varint_ne_nil (s.encode z))
    simp only [packed, List.length_append] at hf ⊢
    obtain ⟨fuel, rfl⟩ : ∃ i, fuel = i + 1 := ⟨fuel - 1, by omega⟩
    have hne : varint (s.encode z) ++ packed s vs ≠ [] := by simp [varint_ne_nil]
    cases hb : varint (s.encode z) ++ packed s vs with
    | nil => exact absurd hb hne
    | cons b bs =>
      rw [readPacked, ← hb]
      · rw [readU64_varint (scalar_encode_lt hz)]
        simp only [Option.bind_eq_bind, Option.bind_some]
        rw [ih (fun v hv => h v (by simp [hv])) fuel (by omega)]
        simp [scalar_decode hz]
      · simp

/-! ## Records -/

variable {M : Type} {S : M → List (Field M)}

theorem find_field (hS : Described S) {m : M} {f : Field M} (hf : f ∈ S m) : (S m).find? (fun f' => f'.num == f.num) = some f := by
  have h := (hS m).1
  revert hf
  generalize S m = fs at h
  intro hf
  induction fs with
  | nil => simp at hf
  | cons f' fs ih =>
    rcases List.mem_cons.mp hf with rfl | hf
    · simp
    · have := (List.pairwise_cons.mp h).1 f hf
      rw [List.find?_cons_of_neg (by simp; omega)]
      exact ih (List.pairwise_cons.mp h).2 hf

theorem write_eq (m : M) (o : Obj) (num : Nat) : writeVal S num (.msg m) (.msg o) = block num (write S m o) := by
  simp only [writeVal, write, writeField]

theorem writeVal_ne_nil {num : Nat} {t : Ty M} {v : Val} (h : HasType S t v) : writeVal S num t v ≠ [] := by
  cases h <;> simp [writeVal, block, varint_ne_nil]

theorem record_block (hS : Described S) {d : Nat} {inner : M → List Nat → Obj → Option Obj} {m : M} {f : Field M} (hf : f ∈ S m)
    {p rest : List Nat} {o : Obj} (hl : p.length < 2 ^ 31 - 16) :
    record S d inner m (block f.num p ++ rest) o =
      match f.ty with
      | .num s => if f.label = .rep then (readPacked s p.length p).map fun vs => (rest, o.putAll f vs) else some (rest, o)
      | .text => (readText p).map fun s => (rest, o.put (S m) f (.text s))
      | .blob => some (rest, o.put (S m) f (.blob p))
      | .msg m' => (inner m' p (o.within f)).map fun o' => (rest, o.put (S m) f (.msg o')) := by
  have hn := (hS m).2 f hf
  unfold record block
  rw [List.append_assoc, List.append_assoc, readTag_varint (by omega)]
  simp only [Option.bind_eq_bind, Option.bind_some]
  have e1 : (8 * f.num + 2) / 8 = f.num := by omega
  have e2 : (8 * f.num + 2) % 8 = 2 := by omega
  rw [e1, e2, if_neg (by omega), find_field hS hf]
  have hb := readBlock_varint (rest := rest) hl
  cases ht : f.ty <;> simp only [ht, hb, Option.bind_eq_bind, Option.bind_some, skip]
  · split
    · cases readPacked _ _ _ <;> rfl
    · rfl
  · cases readText p <;> rfl
  · rfl
  · cases inner _ _ _ <;> rfl

theorem record_num (hS : Described S) {d : Nat} {inner : M → List Nat → Obj → Option Obj} {m : M} {f : Field M} (hf : f ∈ S m) {s : Scalar}
    (ht : f.ty = .num s) {z : Int} (hz : ScalarHolds s z) {rest : List Nat} {o : Obj} :
    record S d inner m (varint (8 * f.num) ++ varint (s.encode z) ++ rest) o = some (rest, o.put (S m) f (.num z)) := by
  have hn := (hS m).2 f hf
  unfold record
  rw [List.append_assoc, readTag_varint (by omega)]
  simp only [Option.bind_eq_bind, Option.bind_some]
  have e1 : (8 * f.num) / 8 = f.num := by omega
  have e2 : (8 * f.num) % 8 = 0 := by omega
  rw [e1, e2, if_neg (by omega), find_field hS hf]
  simp only [ht, readU64_varint (scalar_encode_lt hz), Option.bind_eq_bind, Option.bind_some, scalar_decode hz]
  rfl

/-- What reads the messages within a message. -/
def deeper (S : M → List (Field M)) (fuel d : Nat) (m : M) (bs : List Nat) (o : Obj) : Option Obj :=
  if 0 < d then merge S fuel (d - 1) m bs o else none

theorem merge_nil (fuel d : Nat) (m : M) (o : Obj) : merge S fuel d m [] o = some o := by
  cases fuel <;> simp [merge]

theorem merge_cons (fuel d : Nat) (m : M) (b : Nat) (bs : List Nat) (o : Obj) :
    merge S (fuel + 1) d m (b :: bs) o = (record S d (deeper S fuel d) m (b :: bs) o).bind fun x => merge S fuel d m x.1 x.2 := by
  rw [merge]
  · rfl
  · simp

theorem nests_field {d : Nat} {m m' : M} {f : Field M} (h : nestsIn S d m = true) (hf : f ∈ S m) (ht : f.ty = .msg m') :
    ∃ d', d = d' + 1 ∧ nestsIn S d' m' = true := by
  cases d with
  | zero =>
    simp only [nestsIn, List.all_eq_true] at h
    have := h f hf
    rw [ht] at this
    cases this
  | succ d =>
    simp only [nestsIn, List.all_eq_true] at h
    have := h f hf
    rw [ht] at this
    exact ⟨d, rfl, this⟩

theorem nests_more {d : Nat} : ∀ {m : M}, nestsIn S d m = true → nestsIn S (d + 1) m = true := by
  induction d with
  | zero =>
    intro m h
    simp only [nestsIn, List.all_eq_true] at h ⊢
    intro f hf
    have := h f hf
    split at this
    · cases this
    · rfl
  | succ d ih =>
    intro m h
    rw [nestsIn, List.all_eq_true] at h ⊢
    intro f hf
    have := h f hf
    split at this
    · exact ih this
    · rfl

theorem nests_le {d d' : Nat} {m : M} (h : d ≤ d') (hd : nestsIn S d m = true) : nestsIn S d' m = true := by
  induction h with
  | refl => exact hd
  | step _ ih => exact nests_more ih

theorem merge_step {fuel d : Nat} {m : M} {a rest : List Nat} {o o' : Obj} (ha : a ≠ [])
    (h : record S d (deeper S fuel d) m (a ++ rest) o = some (rest, o')) :
    merge S (fuel + 1) d m (a ++ rest) o = merge S fuel d m rest o' := by
  cases hb : a ++ rest with
  | nil => simp at hb; exact absurd hb.1 ha
  | cons b bs =>
    rw [merge_cons, ← hb, h]
    rfl

/-- What is read when a value was written: it is put into the message. -/
def ReadsBack (S : M → List (Field M)) (t : Ty M) (v : Val) : Prop :=
  ∀ (m : M) (d : Nat) (f : Field M), nestsIn S d m = true → f ∈ S m → f.ty = t → (writeVal S f.num t v).length < 2 ^ 31 - 16 →
  ∀ (fuel : Nat) (rest : List Nat) (o : Obj), o.within f = Obj.empty → (writeVal S f.num t v).length ≤ fuel + 1 →
    record S d (deeper S fuel d) m (writeVal S f.num t v ++ rest) o = some (rest, o.put (S m) f v)

theorem within_empty {f : Field M} {o : Obj} (h : f.label = .rep ∨ o f.num = []) : o.within f = Obj.empty := by
  unfold Obj.within
  rcases h with h | h
  · simp [h]
  · cases hl : f.label <;> simp [h]

/-- Fields that are written one value after the other. -/
theorem merge_rep {m : M} {d : Nat} (hd : nestsIn S d m = true) {f : Field M} (hf : f ∈ S m) (hl : f.label = .rep) {vs : List Val}
    (hv : ∀ v ∈ vs, HasType S f.ty v) (ih : ∀ v ∈ vs, ReadsBack S f.ty v) :
    ∀ (fuel : Nat) (rest : List Nat) (o : Obj), (writeVals S f.num f.ty vs ++ rest).length < 2 ^ 31 - 16 →
      (writeVals S f.num f.ty vs ++ rest).length ≤ fuel →
      ∃ fuel', rest.length ≤ fuel' ∧ merge S fuel d m (writeVals S f.num f.ty vs ++ rest) o = merge S fuel' d m rest (o.putAll f vs) := by
  induction vs with
  | nil =>
    intro fuel rest o _ h2
    refine ⟨fuel, by simpa [writeVals] using h2, ?_⟩
    have : o.putAll f [] = o := by funext n; simp [Obj.putAll]
    rw [this]; simp [writeVals]
  | cons v vs ihv =>
    intro fuel rest o h1 h2
    have hne := writeVal_ne_nil (num := f.num) (hv v (by simp))
    have hpos := List.length_pos_iff.mpr hne
    simp only [writeVals, List.append_assoc] at h1 h2 ⊢
    simp only [List.length_append] at h1 h2
    obtain ⟨fuel, rfl⟩ : ∃ i, fuel = i + 1 := ⟨fuel - 1, by omega⟩
    have hr := ih v (by simp) m d f hd hf rfl (by omega) fuel (writeVals S f.num f.ty vs ++ rest) o (within_empty (.inl hl)) (by omega)
    rw [merge_step hne hr]
    obtain ⟨fuel', g1, g2⟩ := ihv (fun v hv' => hv v (by simp [hv'])) (fun v hv' => ih v (by simp [hv'])) fuel rest
      (o.put (S m) f v) (by simp only [List.length_append]; omega) (by simp only [List.length_append]; omega)
    refine ⟨fuel', g1, ?_⟩
    rw [g2]
    congr 1
    funext n
    simp only [Obj.putAll, Obj.put, hl]
    split <;> simp

/-- The content of some fields only. -/
def Obj.only (fs : List (Field M)) (o : Obj) : Obj := fun n => if n ∈ fs.map (·.num) then o n else []

theorem merge_field (hS : Described S) {m : M} {d : Nat} (hd : nestsIn S d m = true) {o : Obj} {done fs : List (Field M)} {f : Field M} (hm : S m = done ++ f :: fs)
    (ho : HasType S (.msg m) (.msg o)) (ih : ∀ v ∈ o f.num, ReadsBack S f.ty v) (fuel : Nat) (rest : List Nat)
    (h1 : (writeField S f (o f.num) ++ rest).length < 2 ^ 31 - 16) (h2 : (writeField S f (o f.num) ++ rest).length ≤ fuel) :
    ∃ fuel', rest.length ≤ fuel' ∧
      merge S fuel d m (writeField S f (o f.num) ++ rest) (o.only done) = merge S fuel' d m rest (o.only (done ++ [f])) := by
  have hf : f ∈ S m := by rw [hm]; simp
  cases ho with
  | msg c1 c2 c3 c4 =>
  have hnot : f.num ∉ done.map (·.num) := by
    intro hx
    obtain ⟨f', hf', he⟩ := List.mem_map.mp hx
    have := (hS m).1
    rw [hm] at this
    have := (List.pairwise_append.mp this).2.2 f' hf' f (by simp)
    omega
  have hst : (o.only done) f.num = [] := by simp only [Obj.only, if_neg hnot]
  have hall : (o.only done).putAll f (o f.num) = o.only (done ++ [f]) := by
    funext n
    simp only [Obj.putAll]
    by_cases e : n = f.num
    · subst e; rw [if_pos rfl, hst]; simp [Obj.only]
    · rw [if_neg e]; simp [Obj.only, e]
  have hnil : o f.num = [] → o.only done = o.only (done ++ [f]) := by
    intro e
    rw [← hall, e]; funext n; simp [Obj.putAll]
  have hdone : writeField S f (o f.num) = [] → o.only done = o.only (done ++ [f]) →
      ∃ fuel', rest.length ≤ fuel' ∧
        merge S fuel d m (writeField S f (o f.num) ++ rest) (o.only done) = merge S fuel' d m rest (o.only (done ++ [f])) := by
    intro e e'
    rw [e] at h2
    refine ⟨fuel, by simpa using h2, ?_⟩
    rw [e, ← e']; simp
  by_cases hrep : f.label = .rep
  · cases ht : f.ty with
    | num s =>
      have hw : writeField S f (o f.num) = if (o f.num).isEmpty then [] else block f.num (packed s (o f.num)) := by
        simp only [writeField, hrep, ht]
      by_cases he : o f.num = []
      · exact hdone (by rw [hw, he]; rfl) (hnil he)
      · have he' : (o f.num).isEmpty = false := by simpa using he
        rw [hw, he'] at h1 h2 ⊢
        simp only [Bool.false_eq_true, if_false] at h1 h2 ⊢
        have hne : block f.num (packed s (o f.num)) ≠ [] := by simp [block, varint_ne_nil]
        have hpos := List.length_pos_iff.mpr hne
        have hlen : (packed s (o f.num)).length ≤ (block f.num (packed s (o f.num))).length := by simp [block]; omega
        simp only [List.length_append] at h1 h2
        obtain ⟨fuel, rfl⟩ : ∃ i, fuel = i + 1 := ⟨fuel - 1, by omega⟩
        refine ⟨fuel, by omega, ?_⟩
        apply merge_step hne
        rw [record_block hS hf (by omega)]
        simp only [ht, if_pos hrep]
        rw [readPacked_packed ?_ _ (Nat.le_refl _)]
        · simp only [Option.map_some]; rw [hall]
        · intro v hv
          have := c1 f hf v hv
          rw [ht] at this
          cases this with
          | num hz => exact ⟨_, rfl, hz⟩
    | _ =>
      have hw : writeField S f (o f.num) = writeVals S f.num f.ty (o f.num) := by
        simp only [writeField, hrep, ht]
      rw [hw] at h1 h2 ⊢
      obtain ⟨fuel', g1, g2⟩ := merge_rep hd hf hrep (c1 f hf) ih fuel rest (o.only done) h1 h2
      exact ⟨fuel', g1, by rw [g2, hall]⟩
  · have hw : writeField S f (o f.num) = writeVals S f.num f.ty (o f.num) := by
      cases hl : f.label <;> simp only [writeField, hl] <;> exact absurd hl hrep
    have hc := c2 f hf
    have hone : o f.num = [] ∨ ∃ v, o f.num = [v] ∧ (f.label = .plain → v.isZero = false) := by
      cases hl : f.label with
      | rep => exact absurd hl hrep
      | plain =>
        rw [hl] at hc
        rcases hc with hc | ⟨v, h1, h2⟩
        · exact .inl hc
        · exact .inr ⟨v, h1, fun _ => h2⟩
      | oneof g =>
        rw [hl] at hc
        rcases hc with hc | ⟨v, h1⟩
        · exact .inl hc
        · exact .inr ⟨v, h1, by simp⟩
    rcases hone with he | ⟨v, he, hz⟩
    · exact hdone (by rw [hw, he]; simp [writeVals]) (hnil he)
    · have hw' : writeField S f (o f.num) = writeVal S f.num f.ty v := by rw [hw, he]; simp [writeVals]
      have hvt := c1 f hf v (by rw [he]; simp)
      have hne := writeVal_ne_nil (num := f.num) hvt
      have hpos := List.length_pos_iff.mpr hne
      rw [hw'] at h1 h2 ⊢
      simp only [List.length_append] at h1 h2
      obtain ⟨fuel, rfl⟩ : ∃ i, fuel = i + 1 := ⟨fuel - 1, by omega⟩
      refine ⟨fuel, by omega, ?_⟩
      have hr := ih v (by rw [he]; simp) m d f hd hf rfl (by omega) fuel rest (o.only done) (within_empty (.inr hst)) (by omega)
      rw [merge_step hne hr]
      congr 1
      rw [← hall, he]
      funext n
      cases hl : f.label with
      | rep => exact absurd hl hrep
      | plain =>
        simp only [Obj.put, Obj.putAll, hl, hz hl]
        by_cases e : n = f.num
        · subst e; simp [hst]
        · simp [e]
      | oneof g =>
        simp only [Obj.put, Obj.putAll, hl]
        by_cases e : n = f.num
        · subst e; simp [hst]
        · rw [if_neg e, if_neg e]
          split
          · rename_i hany
            obtain ⟨f', hf', hx⟩ := List.any_eq_true.mp hany
            simp only [Bool.and_eq_true, beq_iff_eq] at hx
            by_cases hn : o n = []
            · simp [Obj.only, hn]
            · have := c3 f hf f' hf' g hl hx.2 (by rw [he]; simp) (by rw [hx.1]; exact hn)
              omega
          · rfl

theorem merge_fields (hS : Described S) {m : M} {d : Nat} (hd : nestsIn S d m = true) {o : Obj} (ho : HasType S (.msg m) (.msg o))
    (ih : ∀ f ∈ S m, ∀ v ∈ o f.num, ReadsBack S f.ty v) (fs done : List (Field M)) (hm : S m = done ++ fs) :
    ∀ fuel, (fs.flatMap fun f => writeField S f (o f.num)).length < 2 ^ 31 - 16 →
      (fs.flatMap fun f => writeField S f (o f.num)).length ≤ fuel →
      merge S fuel d m (fs.flatMap fun f => writeField S f (o f.num)) (o.only done) = some o := by
  induction fs generalizing done with
  | nil =>
    intro fuel _ _
    simp only [List.flatMap_nil, merge_nil, Option.some.injEq]
    simp only [List.append_nil] at hm
    subst hm
    cases ho with
    | msg c1 c2 c3 c4 =>
    funext n
    simp only [Obj.only]
    split
    · rfl
    · rename_i hn
      exact (c4 n (fun f hf e => hn (List.mem_map.mpr ⟨f, hf, e⟩))).symm
  | cons f fs ihf =>
    intro fuel h1 h2
    rw [List.flatMap_cons] at h1 h2 ⊢
    obtain ⟨fuel', g1, g2⟩ := merge_field hS hd hm ho (ih f (by rw [hm]; simp)) fuel _ h1 h2
    rw [g2]
    refine ihf (done ++ [f]) (by simp [hm]) fuel' ?_ g1
    simp only [List.length_append] at h1
    omega

theorem merge_write (hS : Described S) {m : M} {d : Nat} (hd : nestsIn S d m = true) {o : Obj} (ho : HasType S (.msg m) (.msg o))
    (ih : ∀ f ∈ S m, ∀ v ∈ o f.num, ReadsBack S f.ty v) {fuel : Nat} (h1 : (write S m o).length < 2 ^ 31 - 16)
    (h2 : (write S m o).length ≤ fuel) : merge S fuel d m (write S m o) Obj.empty = some o := by
  have := merge_fields hS hd ho ih (S m) [] rfl fuel h1 h2
  have e : o.only ([] : List (Field M)) = Obj.empty := by funext n; simp [Obj.only, Obj.empty]
  rw [e] at this
  exact this

theorem readsBack (hS : Described S) {t : Ty M} {v : Val} (h : HasType S t v) : ReadsBack S t v := by
  induction h with
  | num hz =>
    intro m d f hd hf ht _ fuel rest o _ _
    rw [writeVal]
    exact record_num hS hf ht hz
  | text =>
    intro m d f hd hf ht hl fuel rest o _ _
    simp only [writeVal] at hl ⊢
    rw [record_block hS hf (by simp [block] at hl; omega)]
    simp only [ht, readText_utf8, Option.map_some]
  | blob hb =>
    intro m d f hd hf ht hl fuel rest o _ _
    simp only [writeVal] at hl ⊢
    rw [record_block hS hf (by simp [block] at hl; omega)]
    simp only [ht]
  | @msg m' o' c1 c2 c3 c4 ih =>
    intro m d f hd hf ht hl fuel rest o hw h2
    rw [write_eq] at hl h2 ⊢
    have hp1 := List.length_pos_iff.mpr (varint_ne_nil (8 * f.num + 2))
    have hlen : (write S m' o').length + 1 ≤ (block f.num (write S m' o')).length := by
      simp only [block, List.length_append]; omega
    rw [record_block hS hf (by omega)]
    obtain ⟨d, rfl, hd'⟩ := nests_field hd hf ht
    simp only [ht, hw]
    have := merge_write hS hd' (.msg c1 c2 c3 c4) ih (fuel := fuel) (by omega) (by omega)
    rw [show deeper S fuel (d + 1) m' (write S m' o') Obj.empty = some o' from this]
    rfl

/-- What was written is read. -/
theorem read_write (hS : Described S) {m : M} (hd : nestsIn S maxDepth m = true) {o : Obj} (ho : HasType S (.msg m) (.msg o)) (hl : (write S m o).length < 2 ^ 31 - 16) :
    read S m (write S m o) = some o := by
  refine merge_write hS hd ho ?_ hl (Nat.le_refl _)
  intro f hf v hv
  cases ho with
  | msg c1 c2 c3 c4 => exact readsBack hS (c1 f hf v hv)

end Ygo.Pb
