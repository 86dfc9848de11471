import Verif.Props.Gist

/-!
# C104: what is passed on of queries
-/

namespace Ygo.Props
open Ygo Ygo.Spec

/-! ### The last value -/

private theorem last_nil {α β : Type} (f : α → Option β) : QueryItem.last f [] = none := rfl

private theorem last_append {α β : Type} (f : α → Option β) (a b : List α) :
    QueryItem.last f (a ++ b) = (QueryItem.last f b).or (QueryItem.last f a) := by
  simp [QueryItem.last, List.findSome?_append]

private theorem last_toList {α β : Type} (f : α → Option β) (o : Option α) : QueryItem.last f o.toList = o.bind f := by
  cases o with
  | none => rfl
  | some x => simp [QueryItem.last, List.findSome?_cons]; cases f x <;> rfl

private theorem last_none {α β : Type} (f : α → Option β) (l : List α) (h : ∀ x ∈ l, f x = none) : QueryItem.last f l = none := by
  simpa [QueryItem.last, List.findSome?_eq_none_iff] using h

/-- The value of the last item kept, if all that are kept have one and all that have one are kept. -/
private theorem last_keep {α β γ : Type} (k : α → Option β) (v : α → Option γ) (w : β → Option γ) : ∀ (l : List α),
    (∀ x ∈ l, (∃ y, k x = some y ∧ w y = v x ∧ (v x).isSome) ∨ k x = none ∧ v x = none) →
    QueryItem.last v l = (QueryItem.last k l).bind w := by
  intro l h
  unfold QueryItem.last
  have h' : ∀ x ∈ l.reverse, (∃ y, k x = some y ∧ w y = v x ∧ (v x).isSome) ∨ k x = none ∧ v x = none := fun x hx => h x (by simpa using hx)
  generalize l.reverse = r at h'
  induction r with
  | nil => rfl
  | cons x xs ih =>
    rw [List.findSome?_cons, List.findSome?_cons]
    rcases h' x (by simp) with ⟨y, h1, h2, h3⟩ | ⟨h1, h2⟩
    · obtain ⟨z, hz⟩ := Option.isSome_iff_exists.mp h3
      rw [h1, hz]
      simp [h2, hz]
    · rw [h1, h2]
      exact ih fun y hy => h' y (by simp [hy])

/-! ### Fields with one value -/

/-- The flag of a field. -/
private def flagOf : QField → UInt32
  | .code => 0x1
  | .position => 0x2
  | .«alias» => 0x4
  | .type => 0x8
  | .level => 0x10
  | .xyzRank => 0x20
  | .«attribute» => 0x40
  | .race => 0x80
  | .atk => 0x100
  | .def_ => 0x200
  | .baseAtk => 0x400
  | .baseDef => 0x800
  | .equippedTo => 0x4000
  | .owner => 0x40000
  | .status => 0x80000
  | .isPublic => 0x100000
  | .pendLScale => 0x200000
  | .pendRScale => 0x400000
  | .linkRate => 0x800000
  | .linkArrow => 0x800000
  | .isHidden => 0x1000000
  | .cover => 0x2000000

private theorem flag_mem (f : QField) : flagOf f ∈ QueryItem.oneValue := by
  cases f <;> decide +kernel

private theorem value_gist (f : QField) (i : QueryItem) : QueryItem.value f i.gist = QueryItem.value f i := by
  cases i
  case equipCard l => cases f <;> simp [QueryItem.gist, QueryItem.value, gist_info]
  case isPublic b =>
    have h := gist_bool b
    unfold CoreMsg.yes at h
    cases f <;> simp [QueryItem.gist, QueryItem.value] <;> simpa using h
  case isHidden b =>
    have h := gist_bool b
    unfold CoreMsg.yes at h
    cases f <;> simp [QueryItem.gist, QueryItem.value] <;> simpa using h
  all_goals rfl

private theorem flag_gist (i : QueryItem) : i.gist.flag = i.flag := by cases i <;> rfl

private theorem value_flagOf (f : QField) (i : QueryItem) (hf : i.Fits) : (QueryItem.value f i).isSome ↔ i.flag = flagOf f := by
  cases i
  case unknown k p =>
    have h1 : k.toNat ∉ QueryItem.flags := hf.2
    constructor
    · intro h; cases f <;> simp [QueryItem.value] at h
    · intro h
      exfalso
      apply h1
      have h : k = flagOf f := h
      subst h
      cases f <;> decide +kernel
  all_goals (cases f <;> simp [QueryItem.value, QueryItem.flag, flagOf])

/-- The field with the values. -/
private def backItem (v : (f : QField) → Option f.Val) : Option QueryItem :=
  ((v .code).map fun (n : Nat) => .code (UInt32.ofNat n))
  |>.or ((v .position).map fun (n : Nat) => .position (UInt32.ofNat n))
  |>.or ((v .«alias»).map fun (n : Nat) => .alias_ (UInt32.ofNat n))
  |>.or ((v .type).map fun (n : Nat) => .type (UInt32.ofNat n))
  |>.or ((v .level).map fun (z : Int) => .level (pos32 z))
  |>.or ((v .xyzRank).map fun (n : Nat) => .rank (UInt32.ofNat n))
  |>.or ((v .«attribute»).map fun (n : Nat) => .attribute_ (UInt32.ofNat n))
  |>.or ((v .race).map fun (n : Nat) => .race (UInt64.ofNat n))
  |>.or ((v .atk).map fun (z : Int) => .attack (pos32 z))
  |>.or ((v .def_).map fun (z : Int) => .defense (pos32 z))
  |>.or ((v .baseAtk).map fun (z : Int) => .baseAttack (pos32 z))
  |>.or ((v .baseDef).map fun (z : Int) => .baseDefense (pos32 z))
  |>.or ((v .equippedTo).map fun (p : Place) => .equipCard (backInfo p))
  |>.or ((v .owner).map fun (z : Int) => .owner (UInt8.ofNat z.toNat))
  |>.or ((v .status).map fun (n : Nat) => .status (UInt32.ofNat n))
  |>.or ((v .isPublic).map fun (b : Bool) => .isPublic (boolByte b))
  |>.or ((v .pendLScale).map fun (n : Nat) => .lscale (UInt32.ofNat n))
  |>.or ((v .pendRScale).map fun (n : Nat) => .rscale (UInt32.ofNat n))
  |>.or ((v .linkRate).bind fun (r : Nat) => (v .linkArrow).map fun (a : Nat) => .link (UInt32.ofNat r) (UInt32.ofNat a))
  |>.or ((v .isHidden).map fun (b : Bool) => .isHidden (boolByte b))
  |>.or ((v .cover).map fun (n : Nat) => .cover (UInt32.ofNat n))

private theorem back_item (i : QueryItem) (hf : i.Fits) (h : i.flag ∈ QueryItem.oneValue) :
    backItem (fun f => QueryItem.value f i) = some i.gist := by
  cases i
  case targetCard => exact absurd h (show (0x8000 : UInt32) ∉ QueryItem.oneValue by decide +kernel)
  case overlayCard => exact absurd h (show (0x10000 : UInt32) ∉ QueryItem.oneValue by decide +kernel)
  case counters => exact absurd h (show (0x20000 : UInt32) ∉ QueryItem.oneValue by decide +kernel)
  case unknown k p =>
    exfalso
    apply hf.2
    have h : k ∈ QueryItem.oneValue := h
    have : ∀ k ∈ QueryItem.oneValue, k.toNat ∈ QueryItem.flags := by decide +kernel
    exact this k h
  case equipCard l => simp [backItem, QueryItem.value, QueryItem.gist, back_info]
  case isPublic b =>
    have := back_bool b
    simp [CoreMsg.yes] at this
    simp [backItem, QueryItem.value, QueryItem.gist, ← this]
  case isHidden b =>
    have := back_bool b
    simp [CoreMsg.yes] at this
    simp [backItem, QueryItem.value, QueryItem.gist, ← this]
  all_goals simp [backItem, QueryItem.value, QueryItem.gist, pos32_signed]

private theorem one_flag {k : UInt32} (h : k ∈ QueryItem.oneValue) : ∃ f, flagOf f = k := by
  have : ∀ k ∈ QueryItem.oneValue, ∃ f ∈ QField.all, flagOf f = k := by decide +kernel
  obtain ⟨f, _, h⟩ := this k h
  exact ⟨f, h⟩

/-- An item if it has a flag. -/
private def keep (k : UInt32) (i : QueryItem) : Option QueryItem := if i.flag = k then some i.gist else none

private theorem lastOf_eq (k : UInt32) (is : List QueryItem) : QueryItem.lastOf k is = (QueryItem.last (keep k) is).toList := rfl

private theorem last_mem {α β : Type} {f : α → Option β} {l : List α} {y : β} (h : QueryItem.last f l = some y) : ∃ x ∈ l, f x = some y := by
  unfold QueryItem.last at h
  obtain ⟨x, hx, e⟩ := List.exists_of_findSome?_eq_some h
  exact ⟨x, by simpa using hx, e⟩

private theorem last_value (f : QField) (is : List QueryItem) (hf : ∀ i ∈ is, i.Fits) :
    QueryItem.last (QueryItem.value f) is = (QueryItem.last (keep (flagOf f)) is).bind (QueryItem.value f) := by
  apply last_keep
  intro i hi
  have h := value_flagOf f i (hf i hi)
  by_cases hk : i.flag = flagOf f
  · exact .inl ⟨i.gist, by simp [keep, hk], value_gist f i, h.mpr hk⟩
  · refine .inr ⟨by simp [keep, hk], ?_⟩
    cases hv : QueryItem.value f i with
    | none => rfl
    | some v => exact absurd (h.mp (by simp [hv])) hk

private theorem lastOf_same (k : UInt32) (hk : k ∈ QueryItem.oneValue) (is is' : List QueryItem) (hf : ∀ i ∈ is, i.Fits) (hf' : ∀ i ∈ is', i.Fits)
    (h : ∀ f, QueryItem.last (QueryItem.value f) is = QueryItem.last (QueryItem.value f) is') : QueryItem.lastOf k is = QueryItem.lastOf k is' := by
  rw [lastOf_eq, lastOf_eq]
  congr 1
  have key : ∀ (is : List QueryItem), (∀ i ∈ is, i.Fits) → ∀ y, QueryItem.last (keep k) is = some y →
      ∃ x : QueryItem, x.Fits ∧ x.flag = k ∧ y = x.gist := by
    intro is hf y hy
    obtain ⟨x, hx, e⟩ := last_mem hy
    unfold keep at e
    split at e
    · rename_i hk
      cases e
      exact ⟨x, hf x hx, hk, rfl⟩
    · cases e
  obtain ⟨f, rfl⟩ := one_flag hk
  have h1 := h f
  rw [last_value f is hf, last_value f is' hf'] at h1
  cases e : QueryItem.last (keep (flagOf f)) is with
  | none =>
    cases e' : QueryItem.last (keep (flagOf f)) is' with
    | none => rfl
    | some y =>
      obtain ⟨x, h2, h3, h4⟩ := key is' hf' y e'
      rw [e, e'] at h1
      have := (value_flagOf f x h2).mpr h3
      simp [h4, value_gist] at h1
      simp [← h1] at this
  | some y =>
    obtain ⟨x, h2, h3, h4⟩ := key is hf y e
    cases e' : QueryItem.last (keep (flagOf f)) is' with
    | none =>
      rw [e, e'] at h1
      have := (value_flagOf f x h2).mpr h3
      simp [h4, value_gist] at h1
      simp [h1] at this
    | some y' =>
      obtain ⟨x', h2', h3', h4'⟩ := key is' hf' y' e'
      rw [h4, h4', ← back_item x h2 (h3 ▸ hk), ← back_item x' h2' (h3' ▸ hk)]
      congr 1
      funext g
      by_cases hg : flagOf g = flagOf f
      · have h5 := h g
        rw [last_value g is hf, last_value g is' hf', hg, e, e', h4, h4'] at h5
        simpa [value_gist] using h5
      · have n : ∀ z : QueryItem, z.Fits → z.flag = flagOf f → QueryItem.value g z = none := by
          intro z hz hzf
          cases hv : QueryItem.value g z with
          | none => rfl
          | some v => exact absurd (((value_flagOf g z hz).mp (by simp [hv])).symm.trans hzf) hg
        rw [n x h2 h3, n x' h2' h3']

/-! ### Lists -/

private theorem allOf_map {α β γ : Type} (f : α → Option (List β)) (g : β → γ) (l : List α) :
    QueryItem.allOf (fun x => (f x).map (List.map g)) l = (QueryItem.allOf f l).map (List.map g) := by
  have e : (l.filterMap fun x => (f x).map (List.map g)) = (l.filterMap f).map (List.map g) := by
    rw [List.map_filterMap]
  unfold QueryItem.allOf
  simp only [Option.isSome_map, e]
  split
  · simp [List.map_flatten]
  · rfl

private theorem allOf_left {α β : Type} (f : α → Option (List β)) (a b : List α) (h : ∀ x ∈ b, f x = none) :
    QueryItem.allOf f (a ++ b) = QueryItem.allOf f a := by
  have e : b.filterMap f = [] := by simpa [List.filterMap_eq_nil_iff] using h
  have e' : (b.any fun x => (f x).isSome) = false := by
    simp only [List.any_eq_false]
    intro x hx
    simp [h x hx]
  unfold QueryItem.allOf
  simp [e, e']

private theorem allOf_right {α β : Type} (f : α → Option (List β)) (a b : List α) (h : ∀ x ∈ a, f x = none) :
    QueryItem.allOf f (a ++ b) = QueryItem.allOf f b := by
  have e : a.filterMap f = [] := by simpa [List.filterMap_eq_nil_iff] using h
  have e' : (a.any fun x => (f x).isSome) = false := by
    simp only [List.any_eq_false]
    intro x hx
    simp [h x hx]
  unfold QueryItem.allOf
  simp [e, e']

private theorem last_map {α β γ : Type} (f : α → Option β) (g : β → γ) (l : List α) :
    QueryItem.last (fun x => (f x).map g) l = (QueryItem.last f l).map g := by
  unfold QueryItem.last
  induction l.reverse with
  | nil => rfl
  | cons x xs ih =>
    rw [List.findSome?_cons, List.findSome?_cons]
    cases f x with
    | none => exact ih
    | some y => rfl

private theorem targets_eq : QueryItem.targets = fun i => (QueryItem.targetInfos i).map (List.map LocInfo.place) := by
  funext i; cases i <;> rfl

private theorem counters_eq :
    QueryItem.counterList = fun i => (QueryItem.counterPairs i).map (List.map fun c => (⟨c.1.toNat, c.2.toNat⟩ : Counter)) := by
  funext i; cases i <;> rfl

private theorem overlays_eq : QueryItem.overlays = fun i => (QueryItem.overlayCodes i).map (List.map UInt32.toNat) := by
  funext i; cases i <;> rfl

private theorem all_targets (is : List QueryItem) :
    QueryItem.allOf QueryItem.targets is = (QueryItem.allOf QueryItem.targetInfos is).map (List.map LocInfo.place) := by
  rw [targets_eq, allOf_map]

private theorem all_counters (is : List QueryItem) : QueryItem.allOf QueryItem.counterList is =
    (QueryItem.allOf QueryItem.counterPairs is).map (List.map fun c => (⟨c.1.toNat, c.2.toNat⟩ : Counter)) := by
  rw [counters_eq, allOf_map]

private theorem materials_eq (is : List QueryItem) :
    QueryItem.materials is = ((QueryItem.last QueryItem.overlayCodes is).getD []).map UInt32.toNat := by
  rw [QueryItem.materials, overlays_eq, last_map]
  cases QueryItem.last QueryItem.overlayCodes is <;> rfl

/-- What is left of a query, from what is told. -/
private theorem gists_of (is is' : List QueryItem) (hf : ∀ i ∈ is, i.Fits) (hf' : ∀ i ∈ is', i.Fits) (hd : QueryItem.data is = QueryItem.data is')
    (hm : QueryItem.materials is = QueryItem.materials is') : QueryItem.gists is = QueryItem.gists is' := by
  have h1 : ∀ f, QueryItem.last (QueryItem.value f) is = QueryItem.last (QueryItem.value f) is' := fun f => by
    have := congrArg (fun d => d.single f) hd
    exact this
  have h2 : QueryItem.allOf QueryItem.targets is = QueryItem.allOf QueryItem.targets is' := congrArg QueryData.targets hd
  have h3 : QueryItem.allOf QueryItem.counterList is = QueryItem.allOf QueryItem.counterList is' := congrArg QueryData.counters hd
  rw [all_targets, all_targets] at h2
  rw [all_counters, all_counters] at h3
  rw [materials_eq, materials_eq] at hm
  unfold QueryItem.gists
  congr 1
  · congr 1
    · congr 1
      · rw [List.flatMap_def, List.flatMap_def]
        congr 1
        apply List.map_congr_left
        intro k hk
        exact lastOf_same k hk is is' hf hf' h1
      · congr 1
        have := congrArg (Option.map fun ps => QueryItem.targetCard (ps.map backInfo)) h2
        simpa [Option.map_map, Function.comp_def, back_info] using this
    · congr 1
      have := congrArg (Option.map fun (cs : List Counter) => QueryItem.counters (cs.map fun c => (UInt16.ofNat c.type, UInt16.ofNat c.count))) h3
      simpa [Option.map_map, Function.comp_def] using this
  · have := congrArg (List.map UInt32.ofNat) hm
    have h4 : (QueryItem.last QueryItem.overlayCodes is).getD [] = (QueryItem.last QueryItem.overlayCodes is').getD [] := by
      simpa [Function.comp_def] using this
    rw [h4]

/-- The fields with one value. -/
private theorem one_mem {is : List QueryItem} {x : QueryItem} (h : x ∈ QueryItem.oneValue.flatMap (QueryItem.lastOf · is)) :
    x.flag ∈ QueryItem.oneValue := by
  obtain ⟨k, hk, hx⟩ := List.mem_flatMap.mp h
  rw [lastOf_eq, Option.mem_toList] at hx
  obtain ⟨y, _, e⟩ := last_mem hx
  unfold keep at e
  split at e
  · rename_i hy
    cases e
    rw [flag_gist, hy]
    exact hk
  · cases e

private theorem one_other {x : QueryItem} (h : x.flag ∈ QueryItem.oneValue) :
    QueryItem.targets x = none ∧ QueryItem.counterList x = none ∧ QueryItem.overlays x = none := by
  cases x
  case targetCard => exact absurd h (show (0x8000 : UInt32) ∉ QueryItem.oneValue by decide +kernel)
  case overlayCard => exact absurd h (show (0x10000 : UInt32) ∉ QueryItem.oneValue by decide +kernel)
  case counters => exact absurd h (show (0x20000 : UInt32) ∉ QueryItem.oneValue by decide +kernel)
  all_goals exact ⟨rfl, rfl, rfl⟩

private theorem last_blocks {α β γ : Type} [DecidableEq γ] (v : α → Option β) (g : γ → List α) (k : γ) (hg : ∀ j, j ≠ k → QueryItem.last v (g j) = none) :
    ∀ (l : List γ), k ∈ l → QueryItem.last v (l.flatMap g) = QueryItem.last v (g k) := by
  have none_out : ∀ (l : List γ), k ∉ l → QueryItem.last v (l.flatMap g) = none := by
    intro l
    induction l with
    | nil => intro _; rfl
    | cons j l ih =>
      intro h
      rw [List.flatMap_cons, last_append, ih (by simp at h; exact h.2), hg j (by simp at h; exact fun e => h.1 e.symm)]
      rfl
  intro l
  induction l with
  | nil => intro h; cases h
  | cons j l ih =>
    intro h
    rw [List.flatMap_cons, last_append]
    by_cases hk : k ∈ l
    · rw [ih hk]
      by_cases hj : j = k
      · subst hj; simp
      · rw [hg j hj]; simp
    · have : j = k := by
        rcases List.mem_cons.mp h with h | h
        · exact h.symm
        · exact absurd h hk
      subst this
      rw [none_out l hk]
      rfl

/-- The last block of what is left. -/
private theorem over_mem {cs : List UInt32} {x : QueryItem} (h : x ∈ QueryItem.overlaysOf cs) : ∃ cs, x = .overlayCard cs := by
  cases cs with
  | nil => cases h
  | cons c cs => exact ⟨_, List.mem_singleton.mp h⟩

private theorem last_over (cs : List UInt32) : (QueryItem.last QueryItem.overlays (QueryItem.overlaysOf cs)).getD [] = cs.map UInt32.toNat := by
  cases cs <;> rfl

private theorem gists_materials (is : List QueryItem) : QueryItem.materials (QueryItem.gists is) = QueryItem.materials is := by
  rw [materials_eq is, ← last_over]
  unfold QueryItem.materials QueryItem.gists
  rw [last_append]
  congr 1
  rw [last_none QueryItem.overlays (_ ++ _ ++ _)]
  · simp
  · intro x hx
    simp only [List.mem_append, Option.mem_toList, Option.map_eq_some_iff] at hx
    rcases hx with (hx | ⟨ls, _, rfl⟩) | ⟨cs, _, rfl⟩
    · exact (one_other (one_mem hx)).2.2
    · rfl
    · rfl

private theorem gists_value (f : QField) (is : List QueryItem) (hf : ∀ i ∈ is, i.Fits) :
    QueryItem.last (QueryItem.value f) (QueryItem.gists is) = QueryItem.last (QueryItem.value f) is := by
  unfold QueryItem.gists
  rw [List.append_assoc, List.append_assoc, last_append, last_none (QueryItem.value f) (_ ++ _)]
  · rw [Option.none_or, last_value f is hf, last_blocks (QueryItem.value f) (QueryItem.lastOf · is) (flagOf f) _ _ (flag_mem f), lastOf_eq,
      last_toList]
    intro k hk
    apply last_none
    intro x hx
    rw [lastOf_eq, Option.mem_toList] at hx
    obtain ⟨y, hy, e⟩ := last_mem hx
    unfold keep at e
    split at e
    · rename_i hyk
      cases e
      rw [value_gist]
      cases hv : QueryItem.value f y with
      | none => rfl
      | some v => exact absurd (hyk.symm.trans ((value_flagOf f y (hf y hy)).mp (by simp [hv]))) hk
    · cases e
  · intro x hx
    simp only [List.mem_append, Option.mem_toList, Option.map_eq_some_iff] at hx
    rcases hx with ⟨ls, _, rfl⟩ | ⟨cs, _, rfl⟩ | hx
    · cases f <;> rfl
    · cases f <;> rfl
    · obtain ⟨cs, rfl⟩ := over_mem hx
      cases f <;> rfl

private theorem gists_targets (is : List QueryItem) :
    QueryItem.allOf QueryItem.targets (QueryItem.gists is) = QueryItem.allOf QueryItem.targets is := by
  unfold QueryItem.gists
  rw [List.append_assoc, allOf_left, allOf_right, all_targets is]
  · cases QueryItem.allOf QueryItem.targetInfos is with
    | none => rfl
    | some ls =>
      simp [QueryItem.allOf, QueryItem.targets, Function.comp_def, gist_info]
  · intro x hx
    exact (one_other (one_mem hx)).1
  · intro x hx
    simp only [List.mem_append, Option.mem_toList, Option.map_eq_some_iff] at hx
    rcases hx with ⟨cs, _, rfl⟩ | hx
    · rfl
    · obtain ⟨cs, rfl⟩ := over_mem hx
      rfl

private theorem gists_counters (is : List QueryItem) :
    QueryItem.allOf QueryItem.counterList (QueryItem.gists is) = QueryItem.allOf QueryItem.counterList is := by
  unfold QueryItem.gists
  rw [allOf_left, allOf_right, all_counters is]
  · cases QueryItem.allOf QueryItem.counterPairs is with
    | none => rfl
    | some ls => simp [QueryItem.allOf, QueryItem.counterList]
  · intro x hx
    simp only [List.mem_append, Option.mem_toList, Option.map_eq_some_iff] at hx
    rcases hx with hx | ⟨cs, _, rfl⟩
    · exact (one_other (one_mem hx)).2.1
    · rfl
  · intro x hx
    obtain ⟨cs, rfl⟩ := over_mem hx
    rfl

private theorem gists_data (is : List QueryItem) (hf : ∀ i ∈ is, i.Fits) : QueryItem.data (QueryItem.gists is) = QueryItem.data is := by
  unfold QueryItem.data
  rw [gists_targets, gists_counters]
  congr 1
  funext f
  exact gists_value f is hf

private theorem gists_iff (is is' : List QueryItem) (hf : ∀ i ∈ is, i.Fits) (hf' : ∀ i ∈ is', i.Fits) :
    QueryItem.data is = QueryItem.data is' ∧ QueryItem.materials is = QueryItem.materials is' ↔ QueryItem.gists is = QueryItem.gists is' :=
  ⟨fun h => gists_of is is' hf hf' h.1 h.2, fun h => by
    rw [← gists_data is hf, ← gists_data is' hf', ← gists_materials is, ← gists_materials is', h]
    exact ⟨rfl, rfl⟩⟩

/-! ### Several queries -/

/-- The queries for the materials. -/
private def below (p : Place) (ms : List Nat) : List Query :=
  ms.mapIdx fun i code => ⟨{ p with oseq := (i : Int) }, (QueryData.mk (fun _ => none) none none).setSingle .code code⟩

private theorem queries_eq (p : Place) (is : List QueryItem) :
    QueryItem.queries p is = ⟨p, QueryItem.data is⟩ :: below p (QueryItem.materials is) := rfl

private theorem below_inj (p : Place) (a b : List Nat) (h : below p a = below p b) : a = b := by
  apply List.ext_getElem
  · have := congrArg List.length h
    simpa [below] using this
  · intro i h1 h2
    have : (below p a)[i]'(by simpa [below] using h1) = (below p b)[i]'(by simpa [below] using h2) := by simp only [h]
    simp only [below, List.getElem_mapIdx, Query.mk.injEq, true_and] at this
    have := congrArg (fun d => QueryData.single d .code) this
    simpa [QueryData.setSingle] using this

private theorem below_top {p : Place} {ms : List Nat} {q : Query} (h : q ∈ below p ms) : q.place.oseq ≠ -1 := by
  simp only [below, List.mem_mapIdx] at h
  obtain ⟨i, hi, rfl⟩ := h
  show (i : Int) ≠ -1
  omega

/-- Lists that are cut at the first element that has something. -/
private theorem cut_inj {α : Type} (c : α → Prop) : ∀ (a b x y : List α), (∀ z ∈ a, ¬ c z) → (∀ z ∈ b, ¬ c z) → (∀ z, x.head? = some z → c z) →
    (∀ z, y.head? = some z → c z) → a ++ x = b ++ y → a = b ∧ x = y := by
  intro a
  induction a with
  | nil =>
    intro b x y _ hb hx hy h
    cases b with
    | nil => exact ⟨rfl, h⟩
    | cons z b =>
      have h : x = z :: (b ++ y) := h
      exact absurd (hx z (by rw [h]; rfl)) (hb z (by simp))
  | cons w a ih =>
    intro b x y ha hb hx hy h
    cases b with
    | nil =>
      have h : w :: (a ++ x) = y := h
      exact absurd (hy w (by rw [← h]; rfl)) (ha w (by simp))
    | cons z b =>
      have h : w :: (a ++ x) = z :: (b ++ y) := h
      injection h with h1 h2
      obtain ⟨h3, h4⟩ := ih b x y (fun z hz => ha z (by simp [hz])) (fun z hz => hb z (by simp [hz])) hx hy h2
      exact ⟨by rw [h1, h3], h4⟩

private theorem queries_inj : ∀ (a b : List (Place × List QueryItem)), (∀ x ∈ a, x.1.oseq = -1 ∧ ∀ i ∈ x.2, i.Fits) →
    (∀ x ∈ b, x.1.oseq = -1 ∧ ∀ i ∈ x.2, i.Fits) →
    ((a.flatMap fun x => QueryItem.queries x.1 x.2) = (b.flatMap fun x => QueryItem.queries x.1 x.2) ↔
      a.map (fun x => (x.1, QueryItem.gists x.2)) = b.map (fun x => (x.1, QueryItem.gists x.2))) := by
  have head : ∀ (a : List (Place × List QueryItem)), (∀ x ∈ a, x.1.oseq = -1 ∧ ∀ i ∈ x.2, i.Fits) →
      ∀ z, (a.flatMap fun x => QueryItem.queries x.1 x.2).head? = some z → z.place.oseq = -1 := by
    intro a ha z hz
    cases a with
    | nil => cases hz
    | cons x a =>
      rw [List.flatMap_cons, queries_eq] at hz
      cases hz
      exact (ha x (by simp)).1
  intro a
  induction a with
  | nil =>
    intro b _ _
    cases b with
    | nil => simp
    | cons y b => simp [queries_eq]
  | cons x a ih =>
    intro b ha hb
    cases b with
    | nil => simp [queries_eq]
    | cons y b =>
      have hxa := ha x (by simp)
      have hyb := hb y (by simp)
      have ha' : ∀ z ∈ a, z.1.oseq = -1 ∧ ∀ i ∈ z.2, i.Fits := fun z hz => ha z (by simp [hz])
      have hb' : ∀ z ∈ b, z.1.oseq = -1 ∧ ∀ i ∈ z.2, i.Fits := fun z hz => hb z (by simp [hz])
      have ih := ih b ha' hb'
      have g := gists_iff x.2 y.2 hxa.2 hyb.2
      rw [List.flatMap_cons, List.flatMap_cons, queries_eq, queries_eq, List.map_cons, List.map_cons]
      constructor
      · intro h
        have h : Query.mk x.1 (QueryItem.data x.2) :: (below x.1 (QueryItem.materials x.2) ++ a.flatMap fun x => QueryItem.queries x.1 x.2) =
          Query.mk y.1 (QueryItem.data y.2) :: (below y.1 (QueryItem.materials y.2) ++ b.flatMap fun x => QueryItem.queries x.1 x.2) := h
        injection h with h1 h2
        injection h1 with h1 h3
        obtain ⟨h4, h5⟩ := cut_inj (fun q : Query => q.place.oseq = -1) _ _ _ _ (fun z hz => below_top hz) (fun z hz => below_top hz)
          (head a ha') (head b hb') h2
        rw [h1] at h4
        rw [h1, g.mp ⟨h3, below_inj _ _ _ h4⟩, ih.mp h5]
      · intro h
        injection h with h1 h2
        injection h1 with h1 h3
        obtain ⟨h4, h5⟩ := g.mpr h3
        rw [h1, h4, h5, ih.mpr h2]

private theorem asked_fits (m : CoreMsg) (hf : m.Fits) : ∀ x ∈ m.asked, x.1.oseq = -1 ∧ ∀ i ∈ x.2, i.Fits := by
  intro x hx
  cases m <;> simp only [CoreMsg.asked, List.not_mem_nil, List.mem_singleton] at hx
  case updateData c l ss =>
    rw [List.mem_flatten] at hx
    obtain ⟨l, hl, hx⟩ := hx
    rw [List.mem_mapIdx] at hl
    obtain ⟨i, hi, rfl⟩ := hl
    rw [List.mem_map] at hx
    obtain ⟨is, his, rfl⟩ := hx
    refine ⟨rfl, fun j hj => hf.2 is ?_ j hj⟩
    rw [Option.mem_toList] at his
    exact his ▸ List.getElem_mem hi
  case updateCard l is =>
    subst hx
    exact ⟨rfl, hf⟩

private theorem asked_meaning (m : CoreMsg) (ht : TellsData m) :
    m.meaning = some (.queries (m.asked.flatMap fun x => QueryItem.queries x.1 x.2)) := by
  cases m <;> first
    | exact absurd ht id
    | skip
  case updateData c l ss =>
    simp only [CoreMsg.meaning, CoreMsg.asked]
    congr 2
    rw [List.flatMap_def, List.map_flatten, List.flatten_flatten]
    congr 1
    apply List.ext_getElem
    · simp
    · intro i h1 h2
      simp only [List.getElem_mapIdx, List.getElem_map, List.map_map]
      have hi : i < ss.length := by simpa using h1
      cases ss[i]'hi <;> simp
  case updateCard l is => simp [CoreMsg.meaning, CoreMsg.asked]

variable {C C' : Type} [EncodeContext C] [EncodeContext C']

/-- **C104.** Messages that tell the values of cards are translated to the same exactly if the same places come in the same order and
the same is left of what is told about each. -/
theorem C104_updates (c : C) (c' : C') (m m' : CoreMsg) (hf : m.Fits) (hf' : m'.Fits) (ht : TellsData m) (ht' : TellsData m')
    (more more' : List UInt8) : ∃ r r', encodeOne c (m.bytes ++ more) = .ok (r, c) ∧ encodeOne c' (m'.bytes ++ more') = .ok (r', c') ∧
      (r.msg = r'.msg ↔ m.told = m'.told) := by
  refine ⟨_, _, C34_translation c m hf _ (asked_meaning m ht) more, C34_translation c' m' hf' _ (asked_meaning m' ht') more', ?_⟩
  rw [CoreMsg.told, CoreMsg.told, ← queries_inj _ _ (asked_fits m hf) (asked_fits m' hf')]
  constructor
  · intro h
    injection meaning_inj (x := .queries _) (x' := .queries _) h
  · intro h
    rw [h]

/-- **C104.** No other message is translated to what such a message is translated to. -/
theorem C104_updates_apart (c : C) (c' : C') (m m' : CoreMsg) (hf : m.Fits) (hf' : m'.Fits) (ht : TellsData m) (ht' : ¬ TellsData m')
    (hs : m'.meaning.isSome) (more more' : List UInt8) :
    ∃ r r', encodeOne c (m.bytes ++ more) = .ok (r, c) ∧ encodeOne c' (m'.bytes ++ more') = .ok (r', c') ∧ r.msg ≠ r'.msg := by
  obtain ⟨x, hx⟩ := Option.isSome_iff_exists.mp hs
  refine ⟨_, _, C34_translation c m hf _ (asked_meaning m ht) more, C34_translation c' m' hf' x hx more', ?_⟩
  intro h
  have h := meaning_inj (x := .queries _) (x' := x) h
  subst h
  cases m' <;> first
    | exact ht' trivial
    | (simp [CoreMsg.meaning] at hx)

/-! ### Instances -/

deriving instance DecidableEq for LocInfo
deriving instance DecidableEq for QueryItem

/-- Fields that have no use, an earlier value, the order of the fields, and how the counters are spread over lists get lost. -/
example : QueryItem.gists [.unknown 0x1000 [1, 2, 3], .level 4, .counters [(1, 2)], .code 5, .overlayCard [], .isPublic 7, .level 8,
      .counters [(3, 4)]] =
    [.code 5, .level 8, .isPublic 1, .counters [(1, 2), (3, 4)]] := by decide +kernel

/-- That there are no counters is not the same as that nothing is said about counters. -/
example : QueryItem.gists [.counters []] ≠ QueryItem.gists [] := by decide +kernel

/-- How many empty zones come after the last card gets lost, how many before it does not. -/
example : (CoreMsg.updateData 0 4 [none, some [.code 5], none]).told = (CoreMsg.updateData 0 4 [none, some [.code 5]]).told ∧
    (CoreMsg.updateData 0 4 [none, some [.code 5]]).told ≠ (CoreMsg.updateData 0 4 [some [.code 5]]).told := by decide +kernel

/-- It also gets lost whether the cards of a row were asked for or one card. -/
example : (CoreMsg.updateData 1 4 [none, some [.code 5]]).told = (CoreMsg.updateCard ⟨1, 4, 1⟩ [.code 5]).told := by decide +kernel

end Ygo.Props
