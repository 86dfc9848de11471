import Verif.Spec.UndoableObjects

/-! # Undoable objects in memory and the values they stand for -/

set_option linter.unusedSimpArgs false

namespace Ygo
open Spec
variable {α : Type}

/-- The nodes of an object hold the past, the current value and the future. -/
def NodesHold (node : Nat → Option α) (ns : List Nat) (cur : Nat) (e : Editor α) : Prop :=
  ns.Nodup ∧ ∃ as bs, ns = as ++ cur :: bs ∧ as.map node = e.past.reverse.map some ∧ node cur = some e.now ∧
    bs.map node = e.future.map some

/-- An object stands for a value. -/
def ObjHolds (node : Nat → Option α) : Option (List Nat × Nat) → Option (Option (Editor α)) → Prop
  | x, none => x = none
  | x, some none => ∃ cur, x = some ([], cur)
  | x, some (some e) => ∃ ns cur, x = some (ns, cur) ∧ NodesHold node ns cur e

/-- Memory and values agree. -/
structure Shelved (m : Memory α) (s : Shelf α) : Prop where
  holds : ∀ o, ObjHolds m.node (m.obj o) (s o)
  apart : ∀ o p ns ms c d, m.obj o = some (ns, c) → m.obj p = some (ms, d) → o ≠ p → ∀ a ∈ ns, a ∉ ms
  low : ∀ o ns c, m.obj o = some (ns, c) → ∀ a ∈ ns, a < m.fresh

theorem NodesHold.congr {node node' : Nat → Option α} {ns : List Nat} {cur : Nat} {e : Editor α} (h : NodesHold node ns cur e)
    (hn : ∀ a ∈ ns, node' a = node a) : NodesHold node' ns cur e := by
  obtain ⟨h1, as, bs, rfl, h2, h3, h4⟩ := h
  refine ⟨h1, as, bs, rfl, ?_, ?_, ?_⟩
  · rw [← h2]; exact List.map_congr_left fun a ha => hn a (by simp [ha])
  · rw [← h3]; exact hn cur (by simp)
  · rw [← h4]; exact List.map_congr_left fun a ha => hn a (by simp [ha])

theorem ObjHolds.congr {node node' : Nat → Option α} {x : Option (List Nat × Nat)} {y : Option (Option (Editor α))} (h : ObjHolds node x y)
    (hn : ∀ ns c, x = some (ns, c) → ∀ a ∈ ns, node' a = node a) : ObjHolds node' x y := by
  match y, h with
  | none, h => exact h
  | some none, h => exact h
  | some (some e), ⟨ns, cur, h1, h2⟩ => exact ⟨ns, cur, h1, h2.congr (hn ns cur h1)⟩

theorem idxOf_mid {as bs : List Nat} {c : Nat} (h : (as ++ c :: bs).Nodup) : (as ++ c :: bs).idxOf c = as.length := by
  have : c ∉ as := fun hc => (List.nodup_append.mp h).2.2 c hc c (by simp) rfl
  simp [List.idxOf_append, this]

theorem Shelved.empty : Shelved (Memory.empty : Memory α) (fun _ => none) :=
  ⟨fun _ => rfl, fun _ _ _ _ _ _ h => by simp [Memory.empty] at h, fun _ _ _ h => by simp [Memory.empty] at h⟩

/-- An object gets other nodes, all of which are new or its own, and the others keep theirs. -/
theorem Shelved.update {m : Memory α} {s : Shelf α} (h : Shelved m s) (o : Nat) (node : Nat → Option α) (fresh : Nat)
    (x : Option (List Nat × Nat)) (y : Option (Option (Editor α)))
    (hf : m.fresh ≤ fresh)
    (hn : ∀ p ns c, p ≠ o → m.obj p = some (ns, c) → ∀ a ∈ ns, node a = m.node a)
    (hx : ObjHolds node x y)
    (ho : ∀ ns c, x = some (ns, c) → ∀ a ∈ ns, a < fresh ∧ (m.fresh ≤ a ∨ ∃ ms d, m.obj o = some (ms, d) ∧ a ∈ ms)) :
    Shelved ⟨node, fun p => if p = o then x else m.obj p, fresh⟩ (s.put o y) := by
  refine ⟨?_, ?_, ?_⟩
  · intro p
    simp only [Shelf.put]
    by_cases hp : p = o
    · simpa [hp] using hx
    · simp only [if_neg hp]
      exact (h.holds p).congr (hn p · · hp)
  · intro p q ns ms c d hp hq hpq a ha
    simp only at hp hq
    by_cases h1 : p = o
    · have h2 : q ≠ o := fun e => hpq (h1.trans e.symm)
      simp only [if_pos h1, if_neg h2] at hp hq
      rcases (ho ns c hp a ha).2 with h3 | ⟨ls, e, h3, h4⟩
      · intro hm; have := h.low q ms d hq a hm; omega
      · exact h.apart o q ls ms e d h3 hq (Ne.symm h2) a h4
    · simp only [if_neg h1] at hp
      by_cases h2 : q = o
      · simp only [if_pos h2] at hq
        intro hm
        rcases (ho ms d hq a hm).2 with h3 | ⟨ls, e, h3, h4⟩
        · have := h.low p ns c hp a ha; omega
        · exact h.apart p o ns ls c e hp h3 h1 a ha h4
      · simp only [if_neg h2] at hq
        exact h.apart p q ns ms c d hp hq hpq a ha
  · intro p ns c hp a ha
    simp only at hp ⊢
    by_cases h1 : p = o
    · simp only [if_pos h1] at hp
      exact (ho ns c hp a ha).1
    · simp only [if_neg h1] at hp
      exact Nat.lt_of_lt_of_le (h.low p ns c hp a ha) hf

theorem Memory.alloc_old {m : Memory α} {v : α} {a : Nat} (h : a ≠ m.fresh) : (m.alloc v).node a = m.node a := by
  simp [Memory.alloc, h]

theorem Memory.alloc_new {m : Memory α} {v : α} : (m.alloc v).node m.fresh = some v := by
  simp [Memory.alloc]

theorem Memory.free_other {m : Memory α} {ns : List Nat} {a : Nat} (h : a ∉ ns) : (m.free ns).node a = m.node a := by
  simp [Memory.free, h]

theorem Shelved.construct {m : Memory α} {s : Shelf α} (h : Shelved m s) (o : Nat) (d : α) :
    Shelved (m.construct o d) (s.put o (some (some ⟨[], d, []⟩))) := by
  refine h.update o _ _ _ _ (Nat.le_succ _) ?_ ?_ ?_
  · intro p ns c _ hp a ha
    have := h.low p ns c hp a ha
    exact Memory.alloc_old (by omega)
  · exact ⟨[m.fresh], m.fresh, rfl, by simp, [], [], by simp, by simp, Memory.alloc_new, by simp⟩
  · intro ns c hc a ha
    simp at hc
    obtain ⟨rfl, rfl⟩ := hc
    simp at ha
    subst ha
    exact ⟨Nat.lt_succ_self _, Or.inl (Nat.le_refl _)⟩

theorem Shelved.nodes {m : Memory α} {s : Shelf α} (h : Shelved m s) {o : Nat} {e : Editor α} (he : s o = some (some e)) :
    ∃ ns cur, m.obj o = some (ns, cur) ∧ NodesHold m.node ns cur e := by
  have := h.holds o
  rwa [he] at this

theorem Shelved.read {m : Memory α} {s : Shelf α} (h : Shelved m s) {o : Nat} {e : Editor α} (he : s o = some (some e)) :
    m.read o = .ok e.now := by
  obtain ⟨ns, cur, h1, _, as, bs, rfl, _, h2, _⟩ := h.nodes he
  simp [Memory.read, h1, h2, orUb]

theorem Shelved.assign {m : Memory α} {s : Shelf α} (h : Shelved m s) {o : Nat} {e : Editor α} (he : s o = some (some e)) (v : α) :
    ∃ m', m.assign o v = .ok m' ∧ Shelved m' (s.put o (some (some (e.assign v)))) := by
  obtain ⟨ns, cur, h1, hnd, as, bs, rfl, h2, h3, h4⟩ := h.nodes he
  have hidx := idxOf_mid hnd
  have hlow := h.low o _ _ h1
  rcases List.eq_nil_or_concat bs with hb | ⟨bs', b, hb⟩
  · subst hb
    have hfut : e.future = [] := by simpa using h4.symm
    have hnew : m.fresh ∉ as ++ [cur] := fun hm => Nat.lt_irrefl _ (hlow _ hm)
    have hnd' : ((as ++ [cur]) ++ [m.fresh]).Nodup := by
      rw [List.nodup_append]
      exact ⟨hnd, by simp, fun a ha b hb => by simp at hb; subst hb; exact fun e => hnew (e ▸ ha)⟩
    have hidx' : ((as ++ [cur]) ++ [m.fresh]).idxOf cur = as.length := by
      have := idxOf_mid (as := as) (c := cur) (bs := [m.fresh]) (by simpa using hnd')
      simpa using this
    refine ⟨(m.alloc v).put o (some (as ++ [cur] ++ [m.fresh], m.fresh)), ?_, ?_⟩
    · simp only [Memory.assign, h1, orUb, bind_ok]
      simp only [List.getLast?_append, List.getLast?_singleton, Option.some_or, bind_ok, guardUb, List.mem_append, List.mem_singleton, or_true,
        if_true, hidx']
      simp [orUb]
    · refine h.update o _ _ _ _ (Nat.le_succ _) ?_ ?_ ?_
      · intro p ns c _ hp a ha
        have := h.low p ns c hp a ha
        exact Memory.alloc_old (by omega)
      · refine ⟨_, _, rfl, hnd', as ++ [cur], [], rfl, ?_, ?_, ?_⟩
        · have : e.assign v = ⟨e.now :: e.past, v, []⟩ := by simp [Editor.assign, hfut]
          rw [this]
          simp only [List.map_append, List.map_cons, List.map_nil, List.reverse_cons]
          have hc : cur ≠ m.fresh := fun hh => hnew (by simp [hh])
          rw [Memory.alloc_old hc, h3]
          congr 1
          rw [← h2]
          exact List.map_congr_left fun a ha => by
            have : a < m.fresh := hlow a (by simp [ha])
            exact Memory.alloc_old (by omega)
        · simp [Editor.assign, hfut, Memory.alloc_new]
        · simp [Editor.assign, hfut]
      · intro ns c hc a ha
        simp only [Option.some.injEq, Prod.mk.injEq] at hc
        obtain ⟨rfl, rfl⟩ := hc
        rw [List.mem_append] at ha
        rcases ha with ha | ha
        · exact ⟨Nat.lt_succ_of_lt (hlow a ha), Or.inr ⟨_, _, h1, ha⟩⟩
        · simp at ha
          subst ha
          exact ⟨Nat.lt_succ_self _, Or.inl (Nat.le_refl _)⟩
  · have hne : bs ≠ [] := by simp [hb]
    obtain ⟨b0, bs0, rfl⟩ : ∃ b0 bs0, bs = b0 :: bs0 := by
      cases bs with
      | nil => exact absurd rfl hne
      | cons x xs => exact ⟨x, xs, rfl⟩
    obtain ⟨f0, fs, hfut⟩ : ∃ f0 fs, e.future = f0 :: fs := by
      cases hf : e.future with
      | nil => rw [hf] at h4; simp at h4
      | cons x xs => exact ⟨x, xs, rfl⟩
    rw [hfut] at h4
    simp only [List.map_cons, List.cons.injEq] at h4
    have hlast : (as ++ cur :: b0 :: bs0).getLast? = some ((b0 :: bs0).getLast (by simp)) := by
      simp [List.getLast?_append, List.getLast?_cons_cons]
      exact List.getLast?_eq_some_getLast _
    have hcl : cur ≠ (b0 :: bs0).getLast (by simp) := by
      intro hh
      have hm : cur ∈ b0 :: bs0 := hh ▸ List.getLast_mem _
      have := (List.nodup_append.mp hnd).2.1
      exact (List.nodup_cons.mp this).1 hm
    refine ⟨m.put o (some (as ++ cur :: b0 :: bs0, b0)), ?_, ?_⟩
    · simp only [Memory.assign, h1, orUb, bind_ok]
      rw [hlast]
      simp only [bind_ok, guardUb, List.mem_append, List.mem_cons, true_or, or_true, if_true, if_neg hcl, hidx]
      have : (as ++ cur :: b0 :: bs0)[as.length + 1]? = some b0 := by
        rw [List.getElem?_append_right (by omega)]
        simp
      rw [this]
      rfl
    · refine h.update o _ _ _ _ (Nat.le_refl _) ?_ ?_ ?_
      · intro p ns c _ hp a ha
        rfl
      · refine ⟨_, _, rfl, hnd, as ++ [cur], bs0, by simp, ?_, ?_, ?_⟩
        · simp [Editor.assign, hfut, h2, h3]
        · simp [Editor.assign, hfut, h4.1]
        · simp [Editor.assign, hfut, h4.2]
      · intro ns c hc a ha
        simp only [Option.some.injEq, Prod.mk.injEq] at hc
        obtain ⟨rfl, rfl⟩ := hc
        exact ⟨hlow a ha, Or.inr ⟨_, _, h1, ha⟩⟩

theorem Shelved.undo {m : Memory α} {s : Shelf α} (h : Shelved m s) {o : Nat} {e e' : Editor α} (he : s o = some (some e))
    (hu : e.undo = some e') : ∃ m', m.undo o = .ok m' ∧ Shelved m' (s.put o (some (some e'))) := by
  obtain ⟨ns, cur, h1, hnd, as, bs, rfl, h2, h3, h4⟩ := h.nodes he
  have hidx := idxOf_mid hnd
  have hlow := h.low o _ _ h1
  obtain ⟨past, now, future⟩ := e
  cases past with
  | nil => simp [Editor.undo] at hu
  | cons x xs =>
    simp only [Editor.undo, Option.some.injEq] at hu
    subst hu
    simp only [List.reverse_cons, List.map_append] at h2
    obtain ⟨as', a', rfl⟩ : ∃ as' a', as = as' ++ [a'] := by
      rcases List.eq_nil_or_concat as with ha | ⟨as', b, ha⟩
      · subst ha; simp at h2
      · exact ⟨as', b, by simpa using ha⟩
    simp only [List.map_append, List.map_cons, List.map_nil] at h2
    obtain ⟨h5, h6⟩ := List.append_inj' h2 rfl
    simp only [List.cons.injEq, and_true] at h6
    have hcur : (as' ++ [a'] ++ cur :: bs).head? ≠ some cur := by
      intro hh
      have hm : cur ∈ as' ++ [a'] := by
        cases as' with
        | nil => simp at hh; simp [hh]
        | cons y ys => simp at hh; simp [hh]
      exact (List.nodup_append.mp hnd).2.2 cur hm cur (by simp) rfl
    refine ⟨m.put o (some (as' ++ [a'] ++ cur :: bs, a')), ?_, ?_⟩
    · simp only [Memory.undo, h1, orUb, bind_ok]
      simp only [guardUb, List.mem_append, List.mem_cons, true_or, or_true, if_true, bind_ok, hidx, massert, if_pos hcur]
      have : (as' ++ [a'] ++ cur :: bs)[(as' ++ [a']).length - 1]? = some a' := by
        simp
      rw [this]
      rfl
    · refine h.update o _ _ _ _ (Nat.le_refl _) ?_ ?_ ?_
      · intro p ns c _ hp a ha
        rfl
      · refine ⟨_, _, rfl, hnd, as', cur :: bs, by simp, h5, h6, ?_⟩
        simp [h3, h4]
      · intro ns c hc a ha
        simp only [Option.some.injEq, Prod.mk.injEq] at hc
        obtain ⟨rfl, rfl⟩ := hc
        exact ⟨hlow a ha, Or.inr ⟨_, _, h1, ha⟩⟩

theorem Shelved.undo_none {m : Memory α} {s : Shelf α} (h : Shelved m s) {o : Nat} {e : Editor α} (he : s o = some (some e))
    (hu : e.past = []) : m.undo o = .error .assert := by
  obtain ⟨ns, cur, h1, hnd, as, bs, rfl, h2, h3, h4⟩ := h.nodes he
  have : as = [] := by simpa [hu] using h2
  subst this
  simp [Memory.undo, h1, orUb, guardUb, massert]

/-- A value changes hands. -/
theorem Shelved.transfer {m : Memory α} {s : Shelf α} (h : Shelved m s) {o p : Nat} {y : Option (Editor α)} (hp : s p = some y)
    (hop : o ≠ p) {ns : List Nat} {cur : Nat} (hm : m.obj p = some (ns, cur)) :
    Shelved ((m.put o (some (ns, cur))).put p (some ([], cur))) ((s.put o (some y)).put p (some none)) := by
  have hh := h.holds p
  rw [hp, hm] at hh
  refine ⟨?_, ?_, ?_⟩
  · intro q
    simp only [Memory.put, Shelf.put]
    by_cases h1 : q = p
    · simp [h1, ObjHolds]
    · by_cases h2 : q = o
      · simpa [h2, hop] using hh
      · simpa [h1, h2] using h.holds q
  · intro q r ls ms c d hq hr hqr a ha
    simp only [Memory.put] at hq hr
    by_cases h1 : q = p
    · simp only [if_pos h1, Option.some.injEq, Prod.mk.injEq] at hq
      obtain ⟨rfl, rfl⟩ := hq
      simp at ha
    · by_cases h2 : r = p
      · simp only [if_pos h2, Option.some.injEq, Prod.mk.injEq] at hr
        obtain ⟨rfl, rfl⟩ := hr
        simp
      · simp only [if_neg h1, if_neg h2] at hq hr
        by_cases h3 : q = o
        · have h4 : r ≠ o := fun e => hqr (h3.trans e.symm)
          simp only [if_pos h3, if_neg h4, Option.some.injEq, Prod.mk.injEq] at hq hr
          obtain ⟨rfl, rfl⟩ := hq
          exact h.apart p r _ _ _ _ hm hr (Ne.symm h2) a ha
        · simp only [if_neg h3] at hq
          by_cases h4 : r = o
          · simp only [if_pos h4, Option.some.injEq, Prod.mk.injEq] at hr
            obtain ⟨rfl, rfl⟩ := hr
            exact h.apart q p _ _ _ _ hq hm h1 a ha
          · simp only [if_neg h4] at hr
            exact h.apart q r _ _ _ _ hq hr hqr a ha
  · intro q ls c hq a ha
    simp only [Memory.put] at hq ⊢
    by_cases h1 : q = p
    · simp only [if_pos h1, Option.some.injEq, Prod.mk.injEq] at hq
      obtain ⟨rfl, rfl⟩ := hq
      simp at ha
    · simp only [if_neg h1] at hq
      by_cases h3 : q = o
      · simp only [if_pos h3, Option.some.injEq, Prod.mk.injEq] at hq
        obtain ⟨rfl, rfl⟩ := hq
        exact h.low p _ _ hm a ha
      · simp only [if_neg h3] at hq
        exact h.low q _ _ hq a ha

theorem Shelved.there {m : Memory α} {s : Shelf α} (h : Shelved m s) {o : Nat} {y : Option (Editor α)} (hs : s o = some y) :
    ∃ ns cur, m.obj o = some (ns, cur) := by
  have hh := h.holds o
  rw [hs] at hh
  match y, hh with
  | none, ⟨cur, hc⟩ => exact ⟨[], cur, hc⟩
  | some e, ⟨ns, cur, hc, _⟩ => exact ⟨ns, cur, hc⟩

theorem Shelved.clear {m : Memory α} {s : Shelf α} (h : Shelved m s) {o : Nat} {ns : List Nat} {cur : Nat} (hm : m.obj o = some (ns, cur)) :
    Shelved ((m.free ns).put o (some ([], cur))) (s.put o (some none)) := by
  refine h.update o _ _ _ _ (Nat.le_refl _) ?_ ⟨cur, rfl⟩ ?_
  · intro p ms c hp hmp a ha
    exact Memory.free_other (h.apart p o ms ns c cur hmp hm hp a ha)
  · intro ls c hc a ha
    simp only [Option.some.injEq, Prod.mk.injEq] at hc
    obtain ⟨rfl, rfl⟩ := hc
    simp at ha

theorem Shelved.destroy {m : Memory α} {s : Shelf α} (h : Shelved m s) {o : Nat} {ns : List Nat} {cur : Nat} (hm : m.obj o = some (ns, cur)) :
    Shelved ((m.free ns).put o none) (s.put o none) := by
  refine h.update o _ _ _ _ (Nat.le_refl _) ?_ rfl ?_
  · intro p ms c hp hmp a ha
    exact Memory.free_other (h.apart p o ms ns c cur hmp hm hp a ha)
  · intro ls c hc a ha
    simp at hc

theorem Shelf.put_put (s : Shelf α) (o : Nat) (x y : Option (Option (Editor α))) : (s.put o x).put o y = s.put o y := by
  funext p
  simp only [Shelf.put]
  split <;> rfl

theorem Memory.put_put (m : Memory α) (o : Nat) (x y : Option (List Nat × Nat)) : (m.put o x).put o y = m.put o y := by
  simp only [Memory.put]
  congr 1
  funext p
  split <;> rfl

/-- One operation that is no copy does in memory what it means. -/
theorem Shelved.step {m : Memory α} {s s' : Shelf α} (h : Shelved m s) (op : UndoableOp α) (hc : ∀ o p, op ≠ .copy o p)
    (hs : s.step op = some s') : ∃ m', m.step op = .ok m' ∧ Shelved m' s' := by
  cases op with
  | construct o d =>
    simp only [Shelf.step, Option.some.injEq] at hs
    subst hs
    exact ⟨_, rfl, h.construct o d⟩
  | assign o v =>
    simp only [Shelf.step] at hs
    split at hs
    · rename_i e he
      simp only [Option.some.injEq] at hs
      subst hs
      exact h.assign he v
    · simp at hs
  | undo o =>
    simp only [Shelf.step] at hs
    split at hs
    · rename_i e he
      simp only [Option.map_eq_some_iff] at hs
      obtain ⟨e', hu, rfl⟩ := hs
      exact h.undo he hu
    · simp at hs
  | copy o p => exact absurd rfl (hc o p)
  | move o p =>
    simp only [Shelf.step] at hs
    split at hs
    · rename_i y hy
      split at hs
      · simp at hs
      · rename_i hop
        simp only [Option.some.injEq] at hs
        subst hs
        obtain ⟨ns, cur, hm⟩ := h.there hy
        exact ⟨_, by simp only [Memory.step, Memory.move, hm, orUb, bind_ok]; rfl, h.transfer hy hop hm⟩
    · simp at hs
  | moveAssign o p =>
    simp only [Shelf.step] at hs
    split at hs
    · rename_i z y hz hy
      simp only [Option.some.injEq] at hs
      subst hs
      obtain ⟨old, oldCur, hm⟩ := h.there hz
      have h1 := h.clear hm
      by_cases hop : o = p
      · subst hop
        refine ⟨(m.free old).put o (some ([], oldCur)), ?_, by rw [Shelf.put_put]; exact h1⟩
        have : ((m.free old).put o (some ([], oldCur))).obj o = some ([], oldCur) := by simp [Memory.put]
        simp only [Memory.step, Memory.moveAssign, hm, orUb, bind_ok, this, Memory.put_put]
        rfl
      · obtain ⟨ns, cur, hmp⟩ := h.there hy
        have hmp' : ((m.free old).put o (some ([], oldCur))).obj p = some (ns, cur) := by
          simp [Memory.put, Memory.free, Ne.symm hop, hmp]
        have h2 := h1.transfer (o := o) (p := p) (y := y) (by simp [Shelf.put, Ne.symm hop, hy]) hop hmp'
        refine ⟨_, by simp only [Memory.step, Memory.moveAssign, hm, hmp', orUb, bind_ok]; rfl, ?_⟩
        rw [Shelf.put_put] at h2
        exact h2
    · simp at hs
  | destroy o =>
    simp only [Shelf.step] at hs
    split at hs
    · rename_i y hy
      simp only [Option.some.injEq] at hs
      subst hs
      obtain ⟨ns, cur, hm⟩ := h.there hy
      exact ⟨_, by simp only [Memory.step, Memory.destroy, hm, orUb, bind_ok]; rfl, h.destroy hm⟩
    · simp at hs

/-- A program without copies does in memory what it means. -/
theorem Shelved.run {m : Memory α} {s s' : Shelf α} (h : Shelved m s) (ops : List (UndoableOp α)) (hc : NoCopy ops)
    (hs : s.run ops = some s') : ∃ m', m.run ops = .ok m' ∧ Shelved m' s' := by
  induction ops generalizing m s with
  | nil =>
    simp only [Shelf.run, Option.some.injEq] at hs
    subst hs
    exact ⟨m, rfl, h⟩
  | cons op ops ih =>
    simp only [Shelf.run, Option.bind_eq_some_iff] at hs
    obtain ⟨s1, h1, h2⟩ := hs
    obtain ⟨m1, h3, h4⟩ := h.step op (fun o p e => hc o p (by simp [e])) h1
    obtain ⟨m', h5, h6⟩ := ih h4 (fun o p hm => hc o p (by simp [hm])) h2
    exact ⟨m', by simp [Memory.run, h3, h5], h6⟩

end Ygo
