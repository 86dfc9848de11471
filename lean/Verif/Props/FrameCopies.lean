import Verif.Lemmas.FrameBorrow

/-!
# What can be done with copies and moved frames (C97)
-/

set_option linter.unusedSimpArgs false

namespace Ygo
open Ygo.Spec Ygo.Rename

variable {α : Type}

theorem FHolds.nodup {m : FrameMemory α} {o : Nat} {x : Solo α} {ρ : CardId → CardId} (h : FHolds m o x ρ) : (x.frame.owned.map ρ).Nodup :=
  List.pairwise_map.mpr (h.inv.nodup.imp_of_mem fun {a b} ha hb hne e => hne (h.inj a b (h.inv.fresh a ha) (h.inv.fresh b hb) e))

theorem Inv.husk {x : Solo α} (h : Inv x.frame) : Inv x.husk.frame ∧ ∀ c ∈ x.husk.frame.owned, c ∈ x.frame.owned := by
  have hsub : x.husk.frame.owned.Sublist (placed (view x.frame.layout)) := by
    refine List.Sublist.flatMap_right _ fun C _ => ?_
    cases C with
    | pile k => exact List.nil_sublist _
    | slot k => exact List.Sublist.refl _
    | mats k => exact List.nil_sublist _
  have hmem : ∀ c ∈ x.husk.frame.owned, c ∈ x.frame.owned := fun c hc => h.owns.perm.mem_iff.mp (hsub.subset hc)
  exact ⟨⟨fun _ => rfl, hsub.nodup (h.owns.perm.nodup_iff.mpr h.nodup), fun c hc => h.fresh c (hmem c hc)⟩, hmem⟩

end Ygo

namespace Ygo.Props
open Ygo Ygo.Spec Ygo.Rename

variable {α : Type} [Inhabited α]

/-- **C97, copies, exactly.** What can be done with a copy: any calls that succeed on a frame of its own and take none of the cards away that were
there when it was copied. As long as that is so, the copy shows what a frame of its own shows, and no other frame notices, not even the one
it was copied from. The next call then fails as it does on a frame of its own, or stops at an assertion because it takes such a card away. -/
theorem C97_copy_exactly (ops : List (FrameObjOp α)) (hc : NoFrameCopy ops) (s : Frames α) (hs : Frames.run (fun _ => none) ops = some s)
    (o p : Nat) (ho : s o = none) (x : Solo α) (hx : s p = some (some x)) (cs : List (FrameOp × α)) :
    ((∃ m, FrameMemory.empty.run (ops ++ .copy o p :: callsOn o cs) = .ok m) ↔ ∃ y, x.calls cs = .ok y ∧ KeepsAll x y) ∧
    ∀ y m, x.calls cs = .ok y → FrameMemory.empty.run (ops ++ .copy o p :: callsOn o cs) = .ok m →
      (∀ q, m.read o q = y.read q) ∧
      (∀ z w, s z = some (some w) → ∀ q, m.read z q = w.read q) ∧
      ∀ op d e, m.call o op d = .error e ↔ y.call op d = .error e ∨ e = .assert ∧ ∃ y', y.call op d = .ok y' ∧ ¬ KeepsAll x y' := by
  obtain ⟨m0, h1, h2⟩ := FShelved.empty.run ops hc hs
  obtain ⟨ρ, hp⟩ := h2.used hx
  have hop : o ≠ p := fun e => by rw [e, hx] at ho; cases ho
  let m : FrameMemory α := {
    card := fun c => if c < m0.fresh then m0.card c else (x.frame.owned.map ρ)[c - m0.fresh]?.bind m0.card
    obj := fun q => if q = o then some (x.frame.layout.map ρ, List.range' m0.fresh (x.frame.owned.map ρ).length) else m0.obj q
    fresh := m0.fresh + (x.frame.owned.map ρ).length }
  have hrun : ∀ cs, FrameMemory.empty.run (ops ++ .copy o p :: callsOn o cs) = m.run (callsOn o cs) := by
    intro cs
    rw [FrameMemory.run_append, h1, bind_ok]
    simp only [FrameMemory.run, FrameMemory.step, FrameMemory.copy, hp.obj, orUb, bind_ok]
    rfl
  have hobjo : m.obj o = some (x.frame.layout.map ρ, List.range' m0.fresh (x.frame.owned.map ρ).length) := by simp [m]
  have hlow : ∀ (w : Solo α) (τ : CardId → CardId) (z : Nat), FHolds m0 z w τ → ∀ c ∈ w.frame.owned, τ c < m0.fresh :=
    fun w τ z h c hcm => h.low c (h.inv.fresh c hcm)
  have hcard : ∀ (w : Solo α) (τ : CardId → CardId) (z : Nat), FHolds m0 z w τ → ∀ c ∈ w.frame.owned, m.card (τ c) = some (w.value c) := by
    intro w τ z h c hcm
    show (if τ c < m0.fresh then _ else _) = _
    rw [if_pos (hlow w τ z h c hcm), h.card c hcm]
  have hnot : ∀ (w : Solo α) (τ : CardId → CardId) (z : Nat), FHolds m0 z w τ → ∀ c ∈ w.frame.owned,
      τ c ∉ List.range' m0.fresh (x.frame.owned.map ρ).length := by
    intro w τ z h c hcm hr
    have := hlow w τ z h c hcm
    rw [List.mem_range'] at hr
    omega
  have hb : Borrows m o x x.frame.owned ρ (List.range' m0.fresh (x.frame.owned.map ρ).length) := by
    refine ⟨⟨hp.inv, hp.inj, fun a ha => Nat.lt_of_lt_of_le (hp.low a ha) (Nat.le_add_right _ _), by simp [FrameMemory.put], hcard x ρ p hp⟩, hobjo,
      ⟨rfl, rfl, fun c hcm => ?_, fun _ h => h, hp.nodup, List.nodup_range', fun c hcm => ?_⟩, fun _ h => h⟩
    · obtain ⟨a, ha, rfl⟩ := List.mem_map.mp hcm
      exact ⟨fun h => absurd h (hnot x ρ p hp a ha), fun h => absurd hcm h⟩
    · simp only [List.mem_range'] at hcm
      show c < m0.fresh + _
      omega
  have ha : Uninvolved (fun z => (s z).join) m o (List.range' m0.fresh (x.frame.owned.map ρ).length) := by
    intro z w hz hsz
    have hsz : s z = some (some w) := by simpa [Option.join_eq_some_iff] using hsz
    obtain ⟨τ, hw⟩ := h2.used hsz
    exact ⟨τ, ⟨hw.inv, hw.inj, fun a ha => Nat.lt_of_lt_of_le (hw.low a ha) (Nat.le_add_right _ _), by simp [m, hz, hw.obj], hcard w τ z hw⟩, hnot w τ z hw⟩
  rw [hrun]
  obtain ⟨h3, h4⟩ := hb.exactly ha cs
  refine ⟨h3, fun y m' hy hm => ?_⟩
  obtain ⟨h5, h6, h7⟩ := h4 y m' hy hm
  refine ⟨h5, fun z w hz q => h6 z w (fun e => ?_) (by simp [hz]) q, h7⟩
  rw [e, ho] at hz
  cases hz

/-- **C97, moved frames, exactly.** What can be done with a frame that was moved: any calls that succeed on a frame with nothing but the cards in the
zones, and that take none of these away. As long as that is so, it shows what such a frame shows, and no other frame notices. The next
call then fails as it does on such a frame, or stops at an assertion because it takes such a card away. -/
theorem C97_moved_exactly (ops : List (FrameObjOp α)) (hc : NoFrameCopy ops) (s : Frames α) (hs : Frames.run (fun _ => none) ops = some s)
    (o p : Nat) (ho : s o = none) (x : Solo α) (hx : s p = some (some x)) (cs : List (FrameOp × α)) :
    ((∃ m, FrameMemory.empty.run (ops ++ .move o p :: callsOn p cs) = .ok m) ↔ ∃ y, x.husk.calls cs = .ok y ∧ KeepsAll x.husk y) ∧
    ∀ y m, x.husk.calls cs = .ok y → FrameMemory.empty.run (ops ++ .move o p :: callsOn p cs) = .ok m →
      (∀ q, m.read p q = y.read q) ∧
      (∀ q, m.read o q = x.read q) ∧
      (∀ z w, z ≠ p → s z = some (some w) → ∀ q, m.read z q = w.read q) ∧
      ∀ op d e, m.call p op d = .error e ↔ y.call op d = .error e ∨ e = .assert ∧ ∃ y', y.call op d = .ok y' ∧ ¬ KeepsAll x.husk y' := by
  obtain ⟨m0, h1, h2⟩ := FShelved.empty.run ops hc hs
  obtain ⟨m, h3, h4⟩ := h2.move ho hx
  obtain ⟨ρ, hp⟩ := h2.used hx
  have hop : o ≠ p := fun e => by rw [e, hx] at ho; cases ho
  have hm : m = (m0.put o (some (x.frame.layout.map ρ, x.frame.owned.map ρ))).put p (some (FrameMemory.leftovers (x.frame.layout.map ρ), [])) := by
    simp only [FrameMemory.move, hp.obj, orUb, bind_ok, pure_eq_ok, Except.ok.injEq] at h3
    exact h3.symm
  have hrun : FrameMemory.empty.run (ops ++ .move o p :: callsOn p cs) = m.run (callsOn p cs) := by
    rw [FrameMemory.run_append, h1, bind_ok]
    simp only [FrameMemory.run, FrameMemory.step, h3, bind_ok]
  have hobjp : m.obj p = some (x.husk.frame.layout.map ρ, []) := by rw [hm]; simp [FrameMemory.put]; rfl
  have hfresh : m.fresh = m0.fresh := by rw [hm]; rfl
  have hcard : m.card = m0.card := by rw [hm]; rfl
  obtain ⟨hi, hsub⟩ := hp.inv.husk
  have hv : FHolds (m.put p (some (x.husk.frame.layout.map ρ, x.husk.frame.owned.map ρ))) p x.husk ρ := by
    refine ⟨hi, hp.inj, fun a ha => ?_, by simp [FrameMemory.put], fun c hcm => ?_⟩
    · show ρ a < m.fresh
      rw [hfresh]
      exact hp.low a ha
    · show m.card (ρ c) = _
      rw [hcard]
      exact hp.card c (hsub c hcm)
  have hb : Borrows m p x.husk x.husk.frame.owned ρ [] := by
    refine ⟨hv, hobjp, ⟨rfl, rfl, fun c hcm => ?_, fun _ h => h, hv.nodup, List.nodup_nil, fun c hcm => by cases hcm⟩, fun _ h => h⟩
    exact ⟨fun h => (by cases h), fun h => absurd hcm h⟩
  have ha : Uninvolved (fun z => (((s.put o (some (some x))).put p (some none)) z).join) m p [] := by
    intro z w hz hsz
    have hsz : ((s.put o (some (some x))).put p (some none)) z = some (some w) := by simpa [Option.join_eq_some_iff] using hsz
    obtain ⟨τ, hw⟩ := h4.used hsz
    exact ⟨τ, hw, fun _ _ h => by cases h⟩
  rw [hrun]
  obtain ⟨h5, h6⟩ := hb.exactly ha cs
  refine ⟨h5, fun y m' hy hm' => ?_⟩
  obtain ⟨h7, h8, h9⟩ := h6 y m' hy hm'
  refine ⟨h7, h8 o x hop (by simp [Frames.put, hop]), fun z w hz hsz q => h8 z w hz ?_ q, h9⟩
  have hzo : z ≠ o := fun e => by rw [e, ho] at hsz; cases hsz
  simp [Frames.put, hz, hzo, hsz]

/-! ## Examples -/

/-- A card in the hand and a monster. -/
def handAndMonster : List (FrameObjOp Nat) := [.construct 0, .call 0 (.add ⟨0, 0x2, 0, -1⟩) 8, .call 0 (.add ⟨0, 0x4, 2, -1⟩) 9]

example : NoFrameCopy handAndMonster := by intro o p; simp [handAndMonster]
example : (Frames.run (fun _ => none) handAndMonster).isSome = true := rfl
-- On a copy, the cards may be moved around, and a new one may come and go; the frame it was copied from does not notice.
example : (do (← FrameMemory.empty.run (handAndMonster ++ FrameObjOp.copy 1 0 :: callsOn 1 [(.move ⟨0, 0x2, 0, -1⟩ ⟨0, 0x10, 0, -1⟩, 0), (.add ⟨0, 0x2, 0, -1⟩, 7),
    (.remove ⟨0, 0x2, 0, -1⟩, 0)])).read 1 ⟨0, 0x10, 0, -1⟩) = .ok 8 := rfl
example : (do (← FrameMemory.empty.run (handAndMonster ++ FrameObjOp.copy 1 0 :: callsOn 1 [(.move ⟨0, 0x2, 0, -1⟩ ⟨0, 0x10, 0, -1⟩, 0)])).read 0 ⟨0, 0x2, 0, -1⟩) = .ok 8 := rfl
-- The card in the hand may not be taken away.
example : (FrameMemory.empty.run (handAndMonster ++ FrameObjOp.copy 1 0 :: callsOn 1 [(.move ⟨0, 0x2, 0, -1⟩ ⟨0, 0x10, 0, -1⟩, 0), (.resize ⟨0, 0x10, 0, -1⟩ 0, 0)])).toOption.isNone = true := rfl
-- What was moved still has its monster, which may be moved to another zone.
example : (do (← FrameMemory.empty.run (handAndMonster ++ FrameObjOp.move 1 0 :: callsOn 0 [(.move ⟨0, 0x4, 2, -1⟩ ⟨0, 0x4, 3, -1⟩, 0)])).read 0 ⟨0, 0x4, 3, -1⟩) = .ok 9 := rfl
example : (do (← FrameMemory.empty.run (handAndMonster ++ FrameObjOp.move 1 0 :: callsOn 0 [(.move ⟨0, 0x4, 2, -1⟩ ⟨0, 0x4, 3, -1⟩, 0)])).read 1 ⟨0, 0x4, 2, -1⟩) = .ok 9 := rfl
example : FrameMemory.empty.run (handAndMonster ++ FrameObjOp.move 1 0 :: callsOn 0 [(.clear, 0)]) = .error .assert := rfl

end Ygo.Props
