import Verif.Lemmas.FrameObjects

/-!
# Frames that show cards of other frames
-/

set_option linter.unusedSimpArgs false

namespace Ygo
open Ygo.Spec Ygo.Rename

variable {α : Type}

theorem Layout.card_at {l : Layout} {q : Place} {C : Container} {i : Nat} (h : At q C i) : l.card q = orAssert (view l C)[i]? := by
  cases hc : (view l C)[i]? with
  | some c => exact Layout.card_eq_ok.mpr ⟨C, i, h, hc⟩
  | none =>
    have : ¬ i < (view l C).length := by
      intro hlt
      rw [List.getElem?_eq_getElem hlt] at hc
      cases hc
    simp only [Layout.card, Layout.hasCard_at h, bind_ok, this, decide_false]
    by_cases he : q.isEmpty = false <;> simp [massert, he, orAssert]

theorem FrameMemory.run_snoc (k : FrameMemory α) (xs : List (FrameObjOp α)) (y : FrameObjOp α) : k.run (xs ++ [y]) = (do (← k.run xs).step y) := by
  induction xs generalizing k with
  | nil =>
    simp only [List.nil_append, FrameMemory.run, bind_ok]
    cases k.step y <;> rfl
  | cons x xs ih =>
    simp only [List.cons_append, FrameMemory.run]
    cases k.step x with
    | error => rfl
    | ok k' => simp [ih]

theorem destructCards_strange {f : Frame} {cs : List CardId} (h : ∀ c ∈ cs, c ∉ f.owned) :
    Frame.destructCards cs f = if cs = [] then .ok f else .error .assert := by
  cases cs with
  | nil => rfl
  | cons c cs => simp [Frame.destructCards, Frame.destruct, h, massert]

theorem clearPiles_strange {f : Frame} (h : ∀ k, ∀ c ∈ f.layout.pile k, c ∉ f.owned) (ks : List PileKey) :
    ((∃ k ∈ ks, f.layout.pile k ≠ []) → Frame.clearPiles ks f = .error .assert) ∧
      ((∀ k ∈ ks, f.layout.pile k = []) → Frame.clearPiles ks f = .ok f) := by
  induction ks with
  | nil => simp [Frame.clearPiles]
  | cons k ks ih =>
    by_cases hz : f.layout.pile k = []
    · have hsame : ({ f with layout := f.layout.setPile k [] } : Frame) = f := by
        obtain ⟨⟨pile, zone⟩, ow, n⟩ := f
        simp only [Layout.setPile, Frame.mk.injEq, Layout.mk.injEq, and_true]
        funext k'
        split
        · rename_i e; subst e; exact hz.symm
        · rfl
      have hstep : Frame.clearPiles (k :: ks) f = Frame.clearPiles ks f := by
        simp only [Frame.clearPiles, hz, Frame.destructCards, bind_ok, hsame]
      rw [hstep]
      simpa [hz] using ih
    · simp [Frame.clearPiles, hz, destructCards_strange (h k)]

theorem clearZones_strange {f : Frame} (h1 : ∀ k, ∀ c ∈ (f.layout.zone k).card.toList, c ∉ f.owned)
    (h2 : ∀ k, ∀ c ∈ (f.layout.zone k).materials, c ∉ f.owned) (ks : List ZoneKey) :
    ((∃ k ∈ ks, (f.layout.zone k).card.toList ≠ [] ∨ (f.layout.zone k).materials ≠ []) → Frame.clearZones ks f = .error .assert) ∧
      ((∀ k ∈ ks, (f.layout.zone k).card.toList = [] ∧ (f.layout.zone k).materials = []) → Frame.clearZones ks f = .ok f) := by
  induction ks with
  | nil => simp [Frame.clearZones]
  | cons k ks ih =>
    cases hz : (f.layout.zone k).card with
    | some c =>
      have := h1 k
      rw [hz] at this
      simp [Frame.clearZones, hz, destructCards_strange (show ∀ x ∈ [c], x ∉ f.owned from this)]
    | none =>
      have hsame : ({ f with layout := f.layout.setCard k none } : Frame) = f := by
        obtain ⟨⟨pile, zone⟩, ow, n⟩ := f
        simp only [Layout.setCard, Layout.setZone, Frame.mk.injEq, Layout.mk.injEq, true_and, and_true]
        funext k'
        split
        · rename_i e
          subst e
          simp only at hz
          rw [← hz]
        · rfl
      have hmats : ((f.layout.setCard k none).zone k).materials = (f.layout.zone k).materials := by simp
      have hstep : Frame.clearZones (k :: ks) f =
          (do let f ← Frame.destructCards (f.layout.zone k).materials f; Frame.clearZones ks { f with layout := f.layout.setMats k [] }) := by
        simp only [Frame.clearZones, hz, Option.toList_none, Frame.destructCards, bind_ok]
        rw [hsame, hmats]
      by_cases hm : (f.layout.zone k).materials = []
      · have hsame2 : ({ f with layout := f.layout.setMats k [] } : Frame) = f := by
          obtain ⟨⟨pile, zone⟩, ow, n⟩ := f
          simp only [Layout.setMats, Layout.setZone, Frame.mk.injEq, Layout.mk.injEq, true_and, and_true]
          funext k'
          split
          · rename_i e
            subst e
            simp only at hm
            rw [← hm]
          · rfl
        rw [hstep, hm]
        simp only [Frame.destructCards, bind_ok, hsame2]
        simpa [hz, hm] using ih
      · rw [hstep, destructCards_strange (h2 k)]
        simp [hz, hm]

/-- Clearing a frame none of whose shown cards is its own stops at an assertion, unless it shows none. -/
theorem clear_strange {f : Frame} (h : ∀ C, ∀ c ∈ view f.layout C, c ∉ f.owned) :
    ((∃ C, view f.layout C ≠ []) → f.clear = .error .assert) ∧ ((∀ C, view f.layout C = []) → f.clear = .ok f) := by
  have hp := clearPiles_strange (f := f) (fun k => h (.pile k)) allPiles
  have hz := clearZones_strange (f := f) (fun k => h (.slot k)) (fun k => h (.mats k)) allZones
  by_cases hpile : ∀ k, f.layout.pile k = []
  · have hstep : f.clear = Frame.clearZones allZones f := by
      unfold Frame.clear
      rw [hp.2 fun k _ => hpile k, bind_ok]
    rw [hstep]
    refine ⟨fun ⟨C, hC⟩ => hz.1 ?_, fun hall => hz.2 fun k _ => ⟨hall (.slot k), hall (.mats k)⟩⟩
    cases C with
    | pile k => exact absurd (hpile k) hC
    | slot k => exact ⟨k, mem_allZones k, .inl hC⟩
    | mats k => exact ⟨k, mem_allZones k, .inr hC⟩
  · have hex : ∃ k, f.layout.pile k ≠ [] := Classical.not_forall.mp hpile
    obtain ⟨k, hk⟩ := hex
    refine ⟨fun _ => ?_, fun hall => absurd (hall (.pile k)) hk⟩
    unfold Frame.clear
    rw [hp.1 ⟨k, mem_allPiles k, hk⟩, bind_error]

/-- Removing a card that is another frame's stops at an assertion. -/
theorem remove_strange {f : Frame} (h : ∀ C, ∀ c ∈ view f.layout C, c ∉ f.owned) {q : Place} {C : Container} {i : Nat} (hq : At q C i) :
    f.cardRemove q = .error .assert := by
  simp only [Frame.cardRemove, Layout.hasCard_at hq, bind_ok]
  by_cases hi : i < (view f.layout C).length
  · have hget : (view f.layout C)[i]? = some (view f.layout C)[i] := List.getElem?_eq_getElem hi
    have hne := h C _ (List.getElem_mem hi)
    generalize (view f.layout C)[i] = c at hget hne
    obtain ⟨l', hl'⟩ : ∃ l', f.layout.cardErase q = .ok (c, l') := by
      cases hq with
      | pile k s o =>
        refine ⟨f.layout.setPile k ((f.layout.pile k).eraseIdx i), ?_⟩
        have : (f.layout.pile k)[i]? = some c := hget
        simp [Layout.cardErase, this, orUb]
      | slot k o ho =>
        refine ⟨f.layout.setCard k none, ?_⟩
        have : (f.layout.zone k).card = some c := by
          cases hz : (f.layout.zone k).card with
          | none => simp [view, hz] at hi
          | some c => simpa [view, hz] using hget
        simp [Layout.cardErase, this, orUb, ho]
      | mats k n =>
        refine ⟨f.layout.setMats k ((f.layout.zone k).materials.eraseIdx i), ?_⟩
        have h1 : (f.layout.zone k).materials[i]? = some c := hget
        have h2 : i < (f.layout.zone k).materials.length := hi
        have h3 : ¬ ((i : Int) < 0) := by omega
        have h4 : takeAt (f.layout.zone k).materials i = .ok (c, (f.layout.zone k).materials.eraseIdx i) := by
          rw [takeAt, massert_true h2, h1]
          rfl
        simp [Layout.cardErase, h3, h4]
    simp [hi, hl', Frame.destruct, massert, hne]
  · simp [hi, massert]

end Ygo
