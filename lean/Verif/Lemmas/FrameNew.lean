import Verif.Lemmas.FrameOwn
import Verif.Lemmas.FrameSafe
import Verif.Model.Event

/-!
# Cards that are made by frame operations
-/

set_option linter.unusedSimpArgs false

namespace Ygo
open Ygo Ygo.Spec

theorem destructCards_next {cs : List CardId} {f g : Frame} (h : Frame.destructCards cs f = .ok g) : g.next = f.next := by
  induction cs generalizing f with
  | nil => cases h; rfl
  | cons c cs ih =>
    simp only [Frame.destructCards, Frame.destruct, bind_eq_ok, massert_eq_ok, pure_eq_ok, Except.ok.injEq] at h
    obtain ⟨f1, ⟨_, _, rfl⟩, h⟩ := h
    have e := ih h
    exact e

theorem clearPiles_next {ks : List PileKey} {f g : Frame} (h : Frame.clearPiles ks f = .ok g) : g.next = f.next := by
  induction ks generalizing f with
  | nil => cases h; rfl
  | cons k ks ih =>
    simp only [Frame.clearPiles, bind_eq_ok] at h
    obtain ⟨f1, h1, h⟩ := h
    have e1 := ih h
    have e2 := destructCards_next h1
    exact Eq.trans e1 e2

theorem clearZones_next {ks : List ZoneKey} {f g : Frame} (h : Frame.clearZones ks f = .ok g) : g.next = f.next := by
  induction ks generalizing f with
  | nil => cases h; rfl
  | cons k ks ih =>
    simp only [Frame.clearZones, bind_eq_ok] at h
    obtain ⟨f1, h1, f2, h2, h⟩ := h
    have e1 := ih h
    have e2 := destructCards_next h2
    have e3 := destructCards_next h1
    exact Eq.trans e1 (Eq.trans e2 e3)

/-- Card ids are handed out in ascending order. -/
theorem step_next {f g : Frame} {op : FrameOp} (h : f.step op = .ok g) : f.next ≤ g.next := by
  cases op <;> simp only [Frame.step, bind_eq_ok, pure_eq_ok, Except.ok.injEq, Prod.exists] at h
  case add p =>
    obtain ⟨f1, c, h, rfl⟩ := h
    simp only [Frame.cardAdd, Frame.construct, bind_eq_ok, pure_eq_ok, Except.ok.injEq, Prod.mk.injEq] at h
    obtain ⟨l, _, rfl, _⟩ := h
    exact Nat.le_succ _
  case remove p =>
    simp only [Frame.cardRemove, Frame.destruct, bind_eq_ok, pure_eq_ok, Except.ok.injEq, Prod.exists] at h
    obtain ⟨_, _, _, _, _, _, _, _, _, rfl⟩ := h
    exact Nat.le_refl _
  case move a b =>
    obtain ⟨f1, c, h, rfl⟩ := h
    simp only [Frame.cardMove, bind_eq_ok, pure_eq_ok, Except.ok.injEq, Prod.exists, Prod.mk.injEq] at h
    obtain ⟨_, _, _, rfl, _⟩ := h
    exact Nat.le_refl _
  case shuffle p c n =>
    simp only [Frame.cardShuffle, bind_eq_ok, pure_eq_ok, Except.ok.injEq] at h
    obtain ⟨_, _, rfl⟩ := h
    exact Nat.le_refl _
  case swap a b =>
    simp only [Frame.cardSwap, bind_eq_ok, pure_eq_ok, Except.ok.injEq] at h
    obtain ⟨_, _, rfl⟩ := h
    exact Nat.le_refl _
  case resize p n =>
    obtain ⟨k, hp⟩ := Frame.pileResize_place h
    rw [(Frame.pileResize_at hp h).2.2]
    exact Nat.le_add_right _ _
  case splice a n b r =>
    simp only [Frame.pileSplice, bind_eq_ok, pure_eq_ok, Except.ok.injEq] at h
    obtain ⟨_, _, rfl⟩ := h
    exact Nat.le_refl _
  case pswap a b =>
    simp only [Frame.pileSwap, bind_eq_ok, pure_eq_ok, Except.ok.injEq] at h
    obtain ⟨_, _, rfl⟩ := h
    exact Nat.le_refl _
  case clear =>
    simp only [Frame.clear, bind_eq_ok] at h
    obtain ⟨f1, h1, h2⟩ := h
    rw [clearZones_next h2, clearPiles_next h1]
    exact Nat.le_refl _

theorem destructCards_owned {cs : List CardId} {f g : Frame} (h : Frame.destructCards cs f = .ok g) {x : CardId} (hx : x ∈ g.owned) :
    x ∈ f.owned := by
  induction cs generalizing f with
  | nil => cases h; exact hx
  | cons c cs ih =>
    simp only [Frame.destructCards, Frame.destruct, bind_eq_ok, massert_eq_ok, pure_eq_ok, Except.ok.injEq] at h
    obtain ⟨f1, ⟨_, _, rfl⟩, h⟩ := h
    exact List.mem_of_mem_erase (ih h)

theorem clearPiles_owned {ks : List PileKey} {f g : Frame} (h : Frame.clearPiles ks f = .ok g) {x : CardId} (hx : x ∈ g.owned) :
    x ∈ f.owned := by
  induction ks generalizing f with
  | nil => cases h; exact hx
  | cons k ks ih =>
    simp only [Frame.clearPiles, bind_eq_ok] at h
    obtain ⟨f1, h1, h⟩ := h
    have := ih h
    exact destructCards_owned h1 this

theorem clearZones_owned {ks : List ZoneKey} {f g : Frame} (h : Frame.clearZones ks f = .ok g) {x : CardId} (hx : x ∈ g.owned) :
    x ∈ f.owned := by
  induction ks generalizing f with
  | nil => cases h; exact hx
  | cons k ks ih =>
    simp only [Frame.clearZones, bind_eq_ok] at h
    obtain ⟨f1, h1, f2, h2, h⟩ := h
    have := ih h
    have := destructCards_owned h2 this
    exact destructCards_owned h1 this

/-- Operations keep cards or make new ones. -/
theorem step_owned {f g : Frame} {op : FrameOp} (h : f.step op = .ok g) {x : CardId} (hx : x ∈ g.owned) : x ∈ f.owned ∨ f.next ≤ x := by
  cases op <;> simp only [Frame.step, bind_eq_ok, pure_eq_ok, Except.ok.injEq, Prod.exists] at h
  case add p =>
    obtain ⟨f1, c, h, rfl⟩ := h
    simp only [Frame.cardAdd, Frame.construct, bind_eq_ok, pure_eq_ok, Except.ok.injEq, Prod.mk.injEq] at h
    obtain ⟨l, _, rfl, _⟩ := h
    rcases List.mem_cons.mp hx with rfl | hx
    · exact .inr (Nat.le_refl _)
    · exact .inl hx
  case remove p =>
    simp only [Frame.cardRemove, Frame.destruct, bind_eq_ok, pure_eq_ok, Except.ok.injEq, Prod.exists] at h
    obtain ⟨_, _, _, _, _, _, _, _, _, rfl⟩ := h
    exact .inl (List.mem_of_mem_erase hx)
  case move a b =>
    obtain ⟨f1, c, h, rfl⟩ := h
    simp only [Frame.cardMove, bind_eq_ok, pure_eq_ok, Except.ok.injEq, Prod.exists, Prod.mk.injEq] at h
    obtain ⟨_, _, _, rfl, _⟩ := h
    exact .inl hx
  case shuffle p c n =>
    simp only [Frame.cardShuffle, bind_eq_ok, pure_eq_ok, Except.ok.injEq] at h
    obtain ⟨_, _, rfl⟩ := h
    exact .inl hx
  case swap a b =>
    simp only [Frame.cardSwap, bind_eq_ok, pure_eq_ok, Except.ok.injEq] at h
    obtain ⟨_, _, rfl⟩ := h
    exact .inl hx
  case resize p n =>
    obtain ⟨k, hp⟩ := Frame.pileResize_place h
    rw [(Frame.pileResize_at hp h).2.1] at hx
    rcases List.mem_append.mp hx with hx | hx
    · rw [List.mem_reverse, List.mem_range'_1] at hx
      exact .inr hx.1
    · exact .inl (mem_of_mem_eraseAll hx)
  case splice a n b r =>
    simp only [Frame.pileSplice, bind_eq_ok, pure_eq_ok, Except.ok.injEq] at h
    obtain ⟨_, _, rfl⟩ := h
    exact .inl hx
  case pswap a b =>
    simp only [Frame.pileSwap, bind_eq_ok, pure_eq_ok, Except.ok.injEq] at h
    obtain ⟨_, _, rfl⟩ := h
    exact .inl hx
  case clear =>
    simp only [Frame.clear, bind_eq_ok] at h
    obtain ⟨f1, h1, h2⟩ := h
    exact .inl (clearPiles_owned h1 (clearZones_owned h2 hx))

theorem runOps_owned {ops : List FrameOp} {f g : Frame} (h : runOps f ops = .ok g) {x : CardId} (hx : x ∈ g.owned) :
    x ∈ f.owned ∨ f.next ≤ x := by
  induction ops generalizing f with
  | nil => cases h; exact .inl hx
  | cons o ops ih =>
    simp only [runOps, FrameLike.step, bind_eq_ok] at h
    obtain ⟨f1, h1, h2⟩ := h
    rcases ih h2 with hx | hx
    · exact step_owned h1 hx
    · exact .inr (Nat.le_trans (step_next h1) hx)

/-- From no cards at all, only new cards come to be there. -/
theorem runOps_all_new {ops : List FrameOp} {f g : Frame} (h0 : f.owned = []) (h : runOps f ops = .ok g) (hg : Inv g) (C : Container)
    (x : CardId) (hx : x ∈ view g.layout C) : f.next ≤ x := by
  rcases runOps_owned h (hg.mem_owned hx) with h1 | h1
  · rw [h0] at h1
    cases h1
  · exact h1

end Ygo
