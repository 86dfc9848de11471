import Verif.Lemmas.Message
import Verif.Spec.Loose

/-!
# Reading query blobs
-/

set_option linter.unusedSimpArgs false

namespace Ygo
open P Spec

/-- What one item adds to what was read before. -/
def QueryRead.add (v : QueryRead) (i : QueryItem) : QueryRead where
  data :=
    { single := fun f => (i.value f).or (v.data.single f)
      targets := match i.targets with
        | some ls => some (v.data.targets.getD [] ++ ls)
        | none => v.data.targets
      counters := match i.counterList with
        | some ls => some (v.data.counters.getD [] ++ ls)
        | none => v.data.counters }
  overlays := i.overlays.getD v.overlays

theorem queryField_single {f : QField} {x : f.Val} {size fl : Nat} {v : QueryRead} {bs s : List UInt8}
    (hf : QField.all.find? (fun f => f.flag = fl) = some f) (hr : readField f (bs ++ s) = .ok (x, s)) :
    queryField size fl v (bs ++ s) = .ok ({ v with data := v.data.setSingle f x }, s) := by
  have e : f.flag = fl := by simpa using List.find?_some hf
  have h : f.flag ≠ 0x8000 ∧ f.flag ≠ 0x20000 ∧ f.flag ≠ 0x800000 ∧ f.flag ≠ 0x10000 := by cases f <;> decide
  rw [e] at h
  unfold queryField
  rw [if_neg h.1, if_neg h.2.1, if_neg h.2.2.1, if_neg h.2.2.2, hf]
  simp only [bind_run, hr, pure_run]

theorem add_single {v : QueryRead} {i : QueryItem} {f : QField} {x : f.Val} (h1 : ∀ g, i.value g = if h : g = f then some (h ▸ x) else none)
    (h2 : i.targets = none) (h3 : i.counterList = none) (h4 : i.overlays = none) :
    v.add i = { v with data := v.data.setSingle f x } := by
  unfold QueryRead.add QueryData.setSingle
  simp only [h2, h3, h4, Option.getD_none]
  congr 2
  funext g
  rw [h1 g]
  split <;> rfl

theorem add_other {v w : QueryRead} {i : QueryItem} (h1 : ∀ g, i.value g = none) (h2 : w.data.single = v.data.single)
    (h3 : w.data.targets = (v.add i).data.targets) (h4 : w.data.counters = (v.add i).data.counters)
    (h5 : w.overlays = (v.add i).overlays) : v.add i = w := by
  obtain ⟨⟨a, b, c⟩, d⟩ := w
  simp only at h2 h3 h4 h5
  subst h2 h3 h4 h5
  unfold QueryRead.add
  simp only [h1, Option.none_or]

/-- The size in front of a field that is known does not matter. -/
theorem queryField_loose (sz : UInt16) (i : QueryItem) (hi : LooseFits (sz, i)) (v : QueryRead) (s : List UInt8) :
    queryField sz.toNat i.flag.toNat v (i.payload ++ s) = .ok (v.add i, s) := by
  cases i with
  | code x => 
    rw [add_single (f := .code) (x := x.toNat) (by intro g; cases g <;> rfl) rfl rfl rfl]
    exact queryField_single rfl (read_b32 x s)
  | position x =>
    rw [add_single (f := .position) (x := x.toNat) (by intro g; cases g <;> rfl) rfl rfl rfl]
    exact queryField_single rfl (read_b32 x s)
  | alias_ x =>
    rw [add_single (f := .«alias») (x := x.toNat) (by intro g; cases g <;> rfl) rfl rfl rfl]
    exact queryField_single rfl (read_b32 x s)
  | type x =>
    rw [add_single (f := .type) (x := x.toNat) (by intro g; cases g <;> rfl) rfl rfl rfl]
    exact queryField_single rfl (read_b32 x s)
  | rank x =>
    rw [add_single (f := .xyzRank) (x := x.toNat) (by intro g; cases g <;> rfl) rfl rfl rfl]
    exact queryField_single rfl (read_b32 x s)
  | attribute_ x =>
    rw [add_single (f := .«attribute») (x := x.toNat) (by intro g; cases g <;> rfl) rfl rfl rfl]
    exact queryField_single rfl (read_b32 x s)
  | status x =>
    rw [add_single (f := .status) (x := x.toNat) (by intro g; cases g <;> rfl) rfl rfl rfl]
    exact queryField_single rfl (read_b32 x s)
  | lscale x =>
    rw [add_single (f := .pendLScale) (x := x.toNat) (by intro g; cases g <;> rfl) rfl rfl rfl]
    exact queryField_single rfl (read_b32 x s)
  | rscale x =>
    rw [add_single (f := .pendRScale) (x := x.toNat) (by intro g; cases g <;> rfl) rfl rfl rfl]
    exact queryField_single rfl (read_b32 x s)
  | cover x =>
    rw [add_single (f := .cover) (x := x.toNat) (by intro g; cases g <;> rfl) rfl rfl rfl]
    exact queryField_single rfl (read_b32 x s)
  | race x =>
    rw [add_single (f := .race) (x := x.toNat) (by intro g; cases g <;> rfl) rfl rfl rfl]
    exact queryField_single rfl (read_b64 x s)
  | level x =>
    rw [add_single (f := .level) (x := signed32 x) (by intro g; cases g <;> rfl) rfl rfl rfl]
    exact queryField_single rfl (by simp [readField, QueryItem.payload, bind_run])
  | attack x =>
    rw [add_single (f := .atk) (x := signed32 x) (by intro g; cases g <;> rfl) rfl rfl rfl]
    exact queryField_single rfl (by simp [readField, QueryItem.payload, bind_run])
  | defense x =>
    rw [add_single (f := .def_) (x := signed32 x) (by intro g; cases g <;> rfl) rfl rfl rfl]
    exact queryField_single rfl (by simp [readField, QueryItem.payload, bind_run])
  | baseAttack x =>
    rw [add_single (f := .baseAtk) (x := signed32 x) (by intro g; cases g <;> rfl) rfl rfl rfl]
    exact queryField_single rfl (by simp [readField, QueryItem.payload, bind_run])
  | baseDefense x =>
    rw [add_single (f := .baseDef) (x := signed32 x) (by intro g; cases g <;> rfl) rfl rfl rfl]
    exact queryField_single rfl (by simp [readField, QueryItem.payload, bind_run])
  | equipCard x =>
    rw [add_single (f := .equippedTo) (x := x.place) (by intro g; cases g <;> rfl) rfl rfl rfl]
    exact queryField_single rfl (readLocInfo_bytes x s)
  | owner x =>
    rw [add_single (f := .owner) (x := ((x.toNat : Nat) : Int)) (by intro g; cases g <;> rfl) rfl rfl rfl]
    exact queryField_single rfl (readCon_b8 x s)
  | isPublic x =>
    rw [add_single (f := .isPublic) (x := decide (x ≠ 0)) (by intro g; cases g <;> rfl) rfl rfl rfl]
    exact queryField_single rfl (readBool_b8 x s)
  | isHidden x =>
    rw [add_single (f := .isHidden) (x := decide (x ≠ 0)) (by intro g; cases g <;> rfl) rfl rfl rfl]
    exact queryField_single rfl (readBool_b8 x s)
  | link r a =>
    have e : v.add (.link r a) = { v with data := (v.data.setSingle .linkRate r.toNat).setSingle .linkArrow a.toNat } := by
      unfold QueryRead.add QueryData.setSingle
      simp only [QueryItem.targets, QueryItem.counterList, QueryItem.overlays, Option.getD_none]
      congr 2
      funext g
      cases g <;> rfl
    rw [e]
    show queryField _ 0x800000 v (b32 r ++ b32 a ++ s) = _
    unfold queryField
    rw [if_neg (by decide), if_neg (by decide), if_pos rfl]
    simp only [bind_run, List.append_assoc, read_b32, pure_run]
  | targetCard ls =>
    have hl : ls.length < 2 ^ 32 := hi
    show queryField _ 0x8000 v (list32 LocInfo.bytes ls ++ s) = _
    unfold queryField
    rw [if_pos rfl, bind_run_ok (listOf_map hl s fun x _ s => readLocInfo_bytes x s)]
    refine congrArg (fun w => Except.ok (w, s)) (Eq.symm ?_)
    apply add_other
    · intro g; cases g <;> rfl
    all_goals rfl
  | overlayCard cs =>
    have hl : cs.length < 2 ^ 32 := hi
    show queryField _ 0x10000 v (list32 b32 cs ++ s) = _
    unfold queryField
    rw [if_neg (by decide), if_neg (by decide), if_neg (by decide), if_pos rfl, bind_run_ok (listOf_map hl s fun x _ s => read_b32 x s)]
    refine congrArg (fun w => Except.ok (w, s)) (Eq.symm ?_)
    apply add_other
    · intro g; cases g <;> rfl
    all_goals rfl
  | counters cs =>
    have hl : cs.length < 2 ^ 32 := hi
    show queryField _ 0x20000 v (list32 (fun c => b16 c.1 ++ b16 c.2) cs ++ s) = _
    unfold queryField
    rw [if_neg (by decide), if_pos rfl,
      bind_run_ok (listOf_map (g := fun c => ⟨c.1.toNat, c.2.toNat⟩) hl s fun x _ s => by
        rw [List.append_assoc]; exact readCounter_bytes x.1 x.2 s)]
    refine congrArg (fun w => Except.ok (w, s)) (Eq.symm ?_)
    apply add_other
    · intro g; cases g <;> rfl
    all_goals rfl
  | unknown f p =>
    have hf : f.toNat ∉ QueryItem.flags := hi.1
    show queryField sz.toNat f.toNat v (p ++ s) = _
    rw [show sz.toNat = 4 + p.length from hi.2]
    have hlt := f.toNat_lt
    generalize f.toNat = n at hf hlt
    simp only [QueryItem.flags, List.mem_cons, not_or, List.not_mem_nil] at hf
    unfold queryField
    rw [if_neg (by omega), if_neg (by omega), if_neg (by omega), if_neg (by omega)]
    have hn : QField.all.find? (fun f => f.flag = n) = none := by
      rw [List.find?_eq_none]
      intro g _
      have : g.flag ≠ n := by cases g <;> simp only [QField.flag] <;> omega
      simpa using this
    rw [hn]
    simp only [bind_run, guardUb, show 4 ≤ 4 + p.length by omega, if_true, lift_ok, show 4 + p.length - 4 = p.length by omega,
      skip_append, pure_run]
    rw [add_other (w := v) (by intro g; cases g <;> rfl) rfl rfl rfl rfl]

theorem QueryItem.Fits.loose {i : QueryItem} (hi : i.Fits) : LooseFits (UInt16.ofNat (4 + i.payload.length), i) := by
  cases i
  case targetCard ls =>
    show ls.length < 2 ^ 32
    have := hi.1
    simp only [QueryItem.payload, list32, List.length_append, length_le] at this
    have h2 : ls.length ≤ (ls.flatMap LocInfo.bytes).length := by
      clear this hi
      induction ls with
      | nil => simp
      | cons x xs ih => simp only [List.length_cons, List.flatMap_cons, List.length_append, length_locInfo]; omega
    omega
  case overlayCard cs =>
    show cs.length < 2 ^ 32
    have := hi.1
    simp only [QueryItem.payload, list32, List.length_append, length_le] at this
    have h2 : cs.length ≤ (cs.flatMap b32).length := by
      clear this hi
      induction cs with
      | nil => simp
      | cons x xs ih => simp only [List.length_cons, List.flatMap_cons, List.length_append, length_b32]; omega
    omega
  case counters cs =>
    show cs.length < 2 ^ 32
    have := hi.1
    simp only [QueryItem.payload, list32, List.length_append, length_le] at this
    have h2 : cs.length ≤ (cs.flatMap fun c => b16 c.1 ++ b16 c.2).length := by
      clear this hi
      induction cs with
      | nil => simp
      | cons x xs ih => simp only [List.length_cons, List.flatMap_cons, List.length_append, length_b16]; omega
    omega
  case unknown f p =>
    refine ⟨hi.2, ?_⟩
    have := hi.1
    show (UInt16.ofNat (4 + p.length)).toNat = 4 + p.length
    simp [QueryItem.payload] at this ⊢
    omega
  all_goals exact trivial

theorem queryField_item (i : QueryItem) (hi : i.Fits) (v : QueryRead) (s : List UInt8) :
    queryField (4 + i.payload.length) i.flag.toNat v (i.payload ++ s) = .ok (v.add i, s) := by
  have h := queryField_loose _ i (QueryItem.Fits.loose hi) v s
  have e : (UInt16.ofNat (4 + i.payload.length)).toNat = 4 + i.payload.length := by
    have := hi.1
    simp
    omega
  rwa [e] at h

theorem flag_ne (i : QueryItem) (hi : i.Fits) : i.flag.toNat ≠ 0x80000000 := by
  cases i
  case unknown f p =>
    intro e
    have hf : f.toNat ∉ QueryItem.flags := hi.2
    apply hf
    show f.toNat ∈ _
    rw [show f.toNat = 0x80000000 from e]
    decide
  all_goals (simp only [QueryItem.flag]; decide)

theorem queryLoop_items (is : List QueryItem) (h : ∀ i ∈ is, i.Fits) (v : QueryRead) (fuel : Nat) (hf : is.length < fuel) (s : List UInt8) :
    queryLoop fuel v (QueryItem.blob is ++ s) = .ok (is.foldl QueryRead.add v, s) := by
  induction is generalizing v fuel with
  | nil =>
    obtain ⟨n, rfl⟩ : ∃ n, fuel = n + 1 := ⟨fuel - 1, by simp at hf; omega⟩
    simp only [QueryItem.blob, List.flatMap_nil, List.nil_append, List.append_assoc, queryLoop, List.foldl_nil]
    rw [bind_run_ok (read_cnt2 _ (by omega)), bind_run_ok (read_cnt4 _ (by omega)), if_pos rfl]
    rfl
  | cons i is ih =>
    obtain ⟨n, rfl⟩ : ∃ n, fuel = n + 1 := ⟨fuel - 1, by simp at hf; omega⟩
    have hi := h i (by simp)
    have hb : QueryItem.blob (i :: is) ++ s = le 2 (4 + i.payload.length) ++ (b32 i.flag ++ (i.payload ++ (QueryItem.blob is ++ s))) := by
      simp [QueryItem.blob, QueryItem.bytes]
    rw [hb]
    simp only [queryLoop, List.foldl_cons]
    rw [bind_run_ok (read_cnt2 _ hi.1), bind_run_ok (read_b32 _ _), if_neg (flag_ne i hi)]
    rw [bind_run_ok (queryField_item i hi v _)]
    exact ih (fun j hj => h j (by simp [hj])) _ n (by simp at hf; omega)

theorem foldl_add (is : List QueryItem) (v : QueryRead) :
    is.foldl QueryRead.add v =
      { data :=
          { single := fun f => (QueryItem.last (QueryItem.value f) is).or (v.data.single f)
            targets := match QueryItem.allOf QueryItem.targets is with
              | some ls => some (v.data.targets.getD [] ++ ls)
              | none => v.data.targets
            counters := match QueryItem.allOf QueryItem.counterList is with
              | some ls => some (v.data.counters.getD [] ++ ls)
              | none => v.data.counters }
        overlays := (QueryItem.last QueryItem.overlays is).getD v.overlays } := by
  induction is generalizing v with
  | nil => rfl
  | cons i is ih =>
    rw [List.foldl_cons, ih]
    have hl : ∀ {β : Type} (f : QueryItem → Option β), QueryItem.last f (i :: is) = (QueryItem.last f is).or (f i) := by
      intro β f
      simp [QueryItem.last, List.findSome?_append]
    have ha : ∀ {β : Type} (f : QueryItem → Option (List β)), QueryItem.allOf f (i :: is) =
        match f i, QueryItem.allOf f is with
        | some x, some y => some (x ++ y)
        | some x, none => some x
        | none, y => y := by
      intro β f
      unfold QueryItem.allOf
      cases hf : f i with
      | none => simp [hf]
      | some x =>
        by_cases hb : is.any (fun x => (f x).isSome) = true
        · simp [hf, hb]
        · have : is.filterMap f = [] := by
            rw [List.filterMap_eq_nil_iff]
            intro y hy
            rw [List.any_eq_true] at hb
            by_contra hn
            exact hb ⟨y, hy, by simpa [Option.isSome_iff_ne_none] using hn⟩
          simp [hf, hb, this]
    simp only [hl, ha, QueryRead.add]
    congr 1
    · congr 1
      · funext f
        rw [Option.or_assoc]
      · cases i.targets <;> cases QueryItem.allOf QueryItem.targets is <;> simp
      · cases i.counterList <;> cases QueryItem.allOf QueryItem.counterList is <;> simp
    · cases QueryItem.last QueryItem.overlays is <;> cases i.overlays <;> rfl

theorem blob_length (is : List QueryItem) : is.length < (QueryItem.blob is).length := by
  induction is with
  | nil => simp [QueryItem.blob]
  | cons i is ih =>
    have : QueryItem.blob (i :: is) = i.bytes ++ QueryItem.blob is := by simp [QueryItem.blob]
    rw [this]
    simp only [List.length_cons, List.length_append, QueryItem.bytes, length_le, length_b32]
    omega

theorem queryLoop_blob (is : List QueryItem) (h : ∀ i ∈ is, i.Fits) (fuel : Nat) (hf : is.length < fuel) (s : List UInt8) :
    queryLoop fuel { data := .empty } (QueryItem.blob is ++ s) = .ok (⟨QueryItem.data is, QueryItem.materials is⟩, s) := by
  rw [queryLoop_items is h _ _ hf, foldl_add]
  unfold QueryItem.data QueryItem.materials QueryData.empty
  simp only [Option.or_none, Option.getD_none, List.nil_append]
  congr 3
  congr 1
  · cases QueryItem.allOf QueryItem.targets is <;> rfl
  · cases QueryItem.allOf QueryItem.counterList is <;> rfl

theorem encodeOneQuery_blob (is : List QueryItem) (h : ∀ i ∈ is, i.Fits) (s : List UInt8) :
    encodeOneQuery (QueryItem.blob is ++ s) = .ok (⟨QueryItem.data is, QueryItem.materials is⟩, s) := by
  unfold encodeOneQuery
  apply queryLoop_blob is h
  have := blob_length is
  simp only [List.length_append]
  omega

end Ygo
