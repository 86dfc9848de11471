import Verif.Model.Network
import Verif.Spec.Network
import Verif.Lemmas.ProtobufRead

/-!
# Lemmas about messages as objects
-/

namespace Ygo.Pb
open Ygo.Spec Obj

set_option linter.unusedSimpArgs false

/-! ## Getters after setters -/

theorem toInt_int (z : Int) : toInt (int z) = z := by
  by_cases h : z = 0 <;> simp [int, toInt, h]

@[simp] theorem toInts_map {α : Type} (g : α → Int) (xs : List α) : toInts (xs.map fun x => .num (g x)) = xs.map g := by
  induction xs with
  | nil => rfl
  | cons x xs ih => simp [toInts, ih]

@[simp] theorem toObjs_map {α : Type} (g : α → Obj) (xs : List α) : toObjs (xs.map fun x => .msg (g x)) = xs.map g := by
  induction xs with
  | nil => rfl
  | cons x xs ih => simp [toObjs, ih]

section Get
variable {o : Obj} {n : Nat}

theorem get_int {z : Int} (h : o n = Pb.int z) : o.int n = z := by rw [Obj.int, h, toInt_int]
theorem get_int1 {z : Int} (h : o n = Pb.int1 z) : o.int n = z := by rw [Obj.int, h]; rfl
theorem get_nat {k : Nat} (h : o n = Pb.nat k) : o.nat n = k := by rw [Obj.nat, h, Pb.nat, toInt_int]; rfl
theorem get_nat1 {k : Nat} (h : o n = Pb.nat1 k) : o.nat n = k := by rw [Obj.nat, h]; rfl
theorem get_bool {b : Bool} (h : o n = Pb.bool b) : o.bool n = b := by rw [Obj.bool, h, Pb.bool, toInt_int]; cases b <;> rfl
theorem get_bool1 {b : Bool} (h : o n = Pb.bool1 b) : o.bool n = b := by rw [Obj.bool, h]; cases b <;> rfl
theorem get_ints {zs : List Int} (h : o n = Pb.ints zs) : o.ints n = zs := by
  rw [Obj.ints, h]; exact (toInts_map (fun z => z) zs).trans (List.map_id' zs)
theorem get_nats {ks : List Nat} (h : o n = Pb.nats ks) : o.nats n = ks := by
  rw [Obj.nats, h, Pb.nats, toInts_map, List.map_map]
  exact List.map_id' ks
theorem get_bools {bs : List Bool} (h : o n = Pb.bools bs) : o.bools n = bs := by
  rw [Obj.bools, h, Pb.bools, toInts_map, List.map_map]
  refine (List.map_congr_left fun b _ => ?_).trans (List.map_id' bs)
  cases b <;> rfl
theorem get_sub {p : Obj} (h : o n = Pb.obj p) : o.sub n = p := by rw [Obj.sub, h]; rfl
theorem get_subs {α : Type} {set : α → Obj} {get : Obj → α} {xs : List α} (h : o n = Pb.objs set xs)
    (hg : ∀ x ∈ xs, get (set x) = x) : o.subs n get = xs := by
  rw [Obj.subs, h, Pb.objs, toObjs_map, List.map_map]
  exact (List.map_congr_left hg).trans (List.map_id' xs)

end Get

/-! ## Objects made with setters -/

/-- A field with these values is as described. -/
def FieldOk (f : Field MsgType) (vs : List Val) : Prop := (∀ v ∈ vs, HasType schema f.ty v) ∧ LabelHolds f.label vs

/-- Number of the fields with these numbers that are in a `oneof`. -/
def oneofs (fs : List (Field MsgType)) : List Nat → Nat
  | [] => 0
  | k :: ks =>
    (match fs.find? (fun f => f.num == k) with
      | some ⟨_, .oneof _, _⟩ => 1
      | _ => 0) + oneofs fs ks

/-- The values are those of fields of the message. -/
inductive Made (m : MsgType) : List (Nat × List Val) → Prop
  | nil : Made m []
  | cons {k : Nat} {vs : List Val} {l : List (Nat × List Val)} {f : Field MsgType} (hf : (schema m).find? (fun f => f.num == k) = some f)
    (hv : FieldOk f vs) (hl : Made m l) : Made m ((k, vs) :: l)

theorem described : Described schema := by
  intro m
  cases m <;> decide

theorem nests (m : MsgType) : nestsIn schema 9 m = true := by
  cases m <;> decide +kernel

theorem nests_max (m : MsgType) : nestsIn schema maxDepth m = true := nests_le (by decide) (nests m)

theorem with_mem {l : List (Nat × List Val)} {n : Nat} (h : with_ l n ≠ []) : (n, with_ l n) ∈ l := by
  induction l with
  | nil => exact absurd rfl h
  | cons e l ih =>
    obtain ⟨k, vs⟩ := e
    simp only [with_] at h ⊢
    split
    · rename_i hk; subst hk; simp
    · rename_i hk
      rw [if_neg hk] at h
      exact List.mem_cons_of_mem _ (ih h)

theorem Made.ok {m : MsgType} {l : List (Nat × List Val)} (h : Made m l) {k : Nat} {vs : List Val} (he : (k, vs) ∈ l) :
    ∃ f, (schema m).find? (fun f => f.num == k) = some f ∧ FieldOk f vs := by
  induction h with
  | nil => cases he
  | cons hf hv hl ih =>
    rcases List.mem_cons.1 he with he | he
    · cases he
      exact ⟨_, hf, hv⟩
    · exact ih he

theorem oneofs_pos {fs : List (Field MsgType)} {ks : List Nat} {k : Nat} (h : k ∈ ks) {f : Field MsgType}
    (hf : fs.find? (fun f => f.num == k) = some f) {g : Nat} (hg : f.label = .oneof g) : 0 < oneofs fs ks := by
  induction ks with
  | nil => cases h
  | cons k' ks ih =>
    rw [oneofs]
    rcases List.mem_cons.1 h with h | h
    · subst h
      rw [hf]
      obtain ⟨_, _, _⟩ := f
      cases hg
      dsimp only
      omega
    · have := ih h
      omega

theorem oneofs_unique {fs : List (Field MsgType)} {ks : List Nat} (hk : oneofs fs ks ≤ 1) {k k' : Nat} (h : k ∈ ks) (h' : k' ∈ ks)
    {f f' : Field MsgType} (hf : fs.find? (fun f => f.num == k) = some f) (hf' : fs.find? (fun f => f.num == k') = some f')
    {g g' : Nat} (hg : f.label = .oneof g) (hg' : f'.label = .oneof g') : k = k' := by
  induction ks with
  | nil => cases h
  | cons k'' ks ih =>
    rw [oneofs] at hk
    rcases List.mem_cons.1 h with i | i <;> rcases List.mem_cons.1 h' with i' | i'
    · rw [i, i']
    · subst i
      have := oneofs_pos i' hf' hg'
      rw [hf] at hk
      obtain ⟨_, _, _⟩ := f
      cases hg
      dsimp only at hk
      omega
    · subst i'
      have := oneofs_pos i hf hg
      rw [hf'] at hk
      obtain ⟨_, _, _⟩ := f'
      cases hg'
      dsimp only at hk
      omega
    · exact ih (by omega) i i'

/-- Objects made with setters are as described. -/
theorem made_holds {m : MsgType} {l : List (Nat × List Val)} (h1 : Nat.ble (oneofs (schema m) (l.map Prod.fst)) 1 = true)
    (h : Made m l) : HasType schema (.msg m) (.msg (with_ l)) := by
  have found : ∀ f ∈ schema m, with_ l f.num ≠ [] → f.num ∈ l.map Prod.fst ∧ FieldOk f (with_ l f.num) := by
    intro f hf hn
    have hm := with_mem hn
    obtain ⟨f', hf', hok⟩ := h.ok hm
    have := find_field described hf
    rw [this] at hf'
    cases hf'
    exact ⟨List.mem_map_of_mem hm, hok⟩
  refine .msg ?_ ?_ ?_ ?_
  · intro f hf v hv
    exact (found f hf (fun e => by rw [e] at hv; cases hv)).2.1 v hv
  · intro f hf
    by_cases hn : with_ l f.num = []
    · rw [hn]
      cases f.label
      · exact .inl rfl
      · exact .inl rfl
      · trivial
    · exact (found f hf hn).2.2
  · intro f hf f' hf' g hg hg' hn hn'
    exact oneofs_unique (Nat.le_of_ble_eq_true h1) (found f hf hn).1 (found f' hf' hn').1 (find_field described hf)
      (find_field described hf') hg hg'
  · intro n hn
    by_cases h0 : with_ l n = []
    · exact h0
    · obtain ⟨f, hf, _⟩ := h.ok (with_mem h0)
      have := List.find?_some hf
      exact absurd (by simpa using this) (hn f (List.mem_of_find?_eq_some hf))

section Ok
variable {n g : Nat} {m : MsgType}

theorem ok_num {s : Scalar} {z : Int} (h : ScalarHolds s z) : FieldOk ⟨n, .plain, .num s⟩ (int z) := by
  by_cases hz : z = 0
  · subst hz; exact ⟨by simp [int], .inl rfl⟩
  · refine ⟨by simpa [int, hz] using .num h, .inr ⟨.num z, by simp [int, hz], ?_⟩⟩
    simp [Val.isZero, hz]
theorem ok_num1 {s : Scalar} {z : Int} (h : ScalarHolds s z) : FieldOk ⟨n, .oneof g, .num s⟩ (int1 z) :=
  ⟨by simpa [int1] using .num h, .inr ⟨_, rfl⟩⟩
theorem ok_bool (b : Bool) : FieldOk ⟨n, .plain, .num .bool⟩ (bool b) := ok_num (by cases b <;> simp [ScalarHolds])
theorem ok_bool1 (b : Bool) : FieldOk ⟨n, .oneof g, .num .bool⟩ (bool1 b) := ok_num1 (by cases b <;> simp [ScalarHolds])
theorem ok_i32 {z : Int} (h : I32 z) : FieldOk ⟨n, .plain, .num .int32⟩ (int z) := ok_num h
theorem ok_s32 {z : Int} (h : I32 z) : FieldOk ⟨n, .plain, .num .sint32⟩ (int z) := ok_num h
theorem ok_enum {z : Int} (h : I32 z) : FieldOk ⟨n, .plain, .num .enum⟩ (int z) := ok_num h
theorem ok_i32_1 {z : Int} (h : I32 z) : FieldOk ⟨n, .oneof g, .num .int32⟩ (int1 z) := ok_num1 h
theorem ok_enum1 {z : Int} (h : I32 z) : FieldOk ⟨n, .oneof g, .num .enum⟩ (int1 z) := ok_num1 h
theorem ok_u32 {k : Nat} (h : U32 k) : FieldOk ⟨n, .plain, .num .uint32⟩ (nat k) :=
  ok_num (by simp only [ScalarHolds, U32] at h ⊢; omega)
theorem ok_u64 {k : Nat} (h : U64 k) : FieldOk ⟨n, .plain, .num .uint64⟩ (nat k) :=
  ok_num (by simp only [ScalarHolds, U64] at h ⊢; omega)
theorem ok_u32_1 {k : Nat} (h : U32 k) : FieldOk ⟨n, .oneof g, .num .uint32⟩ (nat1 k) :=
  ok_num1 (by simp only [ScalarHolds, U32] at h ⊢; omega)
theorem ok_u64_1 {k : Nat} (h : U64 k) : FieldOk ⟨n, .oneof g, .num .uint64⟩ (nat1 k) :=
  ok_num1 (by simp only [ScalarHolds, U64] at h ⊢; omega)
theorem ok_nums {α : Type} {s : Scalar} {g : α → Int} {xs : List α} (h : ∀ x ∈ xs, ScalarHolds s (g x)) :
    FieldOk ⟨n, .rep, .num s⟩ (xs.map fun x => .num (g x)) := by
  refine ⟨?_, trivial⟩
  intro v hv
  obtain ⟨x, hx, rfl⟩ := List.mem_map.1 hv
  exact .num (h x hx)
theorem ok_i32s {zs : List Int} (h : All I32 zs) : FieldOk ⟨n, .rep, .num .int32⟩ (ints zs) := ok_nums (g := fun z => z) h
theorem ok_u32s {ks : List Nat} (h : All U32 ks) : FieldOk ⟨n, .rep, .num .uint32⟩ (nats ks) :=
  ok_nums fun k hk => by have := h k hk; simp only [ScalarHolds, U32] at this ⊢; omega
theorem ok_u64s {ks : List Nat} (h : All U64 ks) : FieldOk ⟨n, .rep, .num .uint64⟩ (nats ks) :=
  ok_nums fun k hk => by have := h k hk; simp only [ScalarHolds, U64] at this ⊢; omega
theorem ok_bools (bs : List Bool) : FieldOk ⟨n, .rep, .num .bool⟩ (bools bs) :=
  ok_nums fun b _ => by cases b <;> simp [ScalarHolds]
theorem ok_obj {o : Obj} (h : HasType schema (.msg m) (.msg o)) : FieldOk ⟨n, .plain, .msg m⟩ (obj o) :=
  ⟨by simpa [obj] using h, .inr ⟨_, rfl, rfl⟩⟩
theorem ok_obj1 {o : Obj} (h : HasType schema (.msg m) (.msg o)) : FieldOk ⟨n, .oneof g, .msg m⟩ (obj o) :=
  ⟨by simpa [obj] using h, .inr ⟨_, rfl⟩⟩
theorem ok_objs {α : Type} {P : α → Prop} {set : α → Obj} {xs : List α} (h : All P xs)
    (hs : ∀ x, P x → HasType schema (.msg m) (.msg (set x))) : FieldOk ⟨n, .rep, .msg m⟩ (objs set xs) := by
  refine ⟨?_, trivial⟩
  intro v hv
  obtain ⟨x, hx, rfl⟩ := List.mem_map.1 hv
  exact hs x (h x hx)

end Ok

/-! ## What getters say about objects as described -/

section Got
variable {m m' : MsgType} {o : Obj} {n : Nat} {l : Label} (h : HasType schema (.msg m) (.msg o))
include h

theorem got_value {f : Field MsgType} (hf : (schema m).find? (fun f => f.num == n) = some f) {v : Val} (hv : v ∈ o n) :
    HasType schema f.ty v := by
  cases h with
  | msg h1 h2 h3 h4 =>
    have := List.find?_some hf
    have e : f.num = n := by simpa using this
    subst e
    exact h1 f (List.mem_of_find?_eq_some hf) v hv

theorem got_num {s : Scalar} (hf : (schema m).find? (fun f => f.num == n) = some ⟨n, l, .num s⟩) : ScalarHolds s (o.int n) := by
  unfold Obj.int
  match e : o n with
  | [] => cases s <;> simp [toInt, ScalarHolds, I32]
  | v :: vs =>
    have := got_value h hf (v := v) (by rw [e]; simp)
    cases this with
    | num hz => exact hz

theorem got_i32 (hf : (schema m).find? (fun f => f.num == n) = some ⟨n, l, .num .int32⟩) : I32 (o.int n) := got_num h hf
theorem got_s32 (hf : (schema m).find? (fun f => f.num == n) = some ⟨n, l, .num .sint32⟩) : I32 (o.int n) := got_num h hf
theorem got_enum (hf : (schema m).find? (fun f => f.num == n) = some ⟨n, l, .num .enum⟩) : I32 (o.int n) := got_num h hf
theorem got_u32 (hf : (schema m).find? (fun f => f.num == n) = some ⟨n, l, .num .uint32⟩) : U32 (o.nat n) := by
  have := got_num h hf
  simp only [ScalarHolds, U32, Obj.nat, Obj.int] at this ⊢
  omega
theorem got_u64 (hf : (schema m).find? (fun f => f.num == n) = some ⟨n, l, .num .uint64⟩) : U64 (o.nat n) := by
  have := got_num h hf
  simp only [ScalarHolds, U64, Obj.nat, Obj.int] at this ⊢
  omega

theorem got_nums {s : Scalar} (hf : (schema m).find? (fun f => f.num == n) = some ⟨n, l, .num s⟩) : All (ScalarHolds s) (o.ints n) := by
  have hv := fun v => got_value h hf (v := v)
  unfold Obj.ints
  generalize o n = vs at hv
  induction vs with
  | nil => intro x hx; cases hx
  | cons v vs ih =>
    have := hv v (by simp)
    cases this with
    | num hz =>
      intro x hx
      rcases List.mem_cons.1 hx with hx | hx
      · rw [hx]; exact hz
      · exact ih (fun v hv' => hv v (List.mem_cons_of_mem _ hv')) x hx

theorem got_i32s (hf : (schema m).find? (fun f => f.num == n) = some ⟨n, l, .num .int32⟩) : All I32 (o.ints n) := got_nums h hf
theorem got_u32s (hf : (schema m).find? (fun f => f.num == n) = some ⟨n, l, .num .uint32⟩) : All U32 (o.nats n) := by
  intro x hx
  obtain ⟨z, hz, rfl⟩ := List.mem_map.1 hx
  have := got_nums h hf z hz
  simp only [ScalarHolds, U32] at this ⊢
  omega
theorem got_u64s (hf : (schema m).find? (fun f => f.num == n) = some ⟨n, l, .num .uint64⟩) : All U64 (o.nats n) := by
  intro x hx
  obtain ⟨z, hz, rfl⟩ := List.mem_map.1 hx
  have := got_nums h hf z hz
  simp only [ScalarHolds, U64] at this ⊢
  omega

theorem got_obj (hf : (schema m).find? (fun f => f.num == n) = some ⟨n, l, .msg m'⟩) : HasType schema (.msg m') (.msg (o.sub n)) := by
  unfold Obj.sub
  match e : o n with
  | [] => exact hasType_empty m'
  | v :: vs =>
    have := got_value h hf (v := v) (by rw [e]; simp)
    cases this with
    | msg h1 h2 h3 h4 => exact .msg h1 h2 h3 h4

theorem got_objs {α : Type} {get : Obj → α} {P : α → Prop} (hf : (schema m).find? (fun f => f.num == n) = some ⟨n, l, .msg m'⟩)
    (hg : ∀ o, HasType schema (.msg m') (.msg o) → P (get o)) : All P (o.subs n get) := by
  have hv := fun v => got_value h hf (v := v)
  unfold Obj.subs
  generalize o n = vs at hv
  intro x hx
  obtain ⟨p, hp, rfl⟩ := List.mem_map.1 hx
  refine hg p ?_
  clear hx
  induction vs with
  | nil => cases hp
  | cons v vs ih =>
    have := hv v (by simp)
    cases this with
    | msg h1 h2 h3 h4 =>
      rcases List.mem_cons.1 hp with hp | hp
      · rw [hp]; exact .msg h1 h2 h3 h4
      · exact ih (fun v hv' => hv v (List.mem_cons_of_mem _ hv')) hp

end Got

end Ygo.Pb
