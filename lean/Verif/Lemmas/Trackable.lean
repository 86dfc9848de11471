import Verif.Spec.Trackable
import Verif.Spec.Apart
import Verif.Lemmas.FrameOwn
import Verif.Lemmas.FrameSwap

/-!
# Calls that do not name skill zones
-/

set_option linter.unusedSimpArgs false

namespace Ygo
open Ygo.Spec

/-- The location is not the skill zone's and has no higher bits. -/
def Near (p : Place) : Prop := p.loc < 0x400

/-- No cards in the skill zones. -/
def Bare (B : Board) : Prop := ∀ C, InSkillZone C → B C = []

theorem Near.at {p : Place} {C : Container} {i : Nat} (h : Near p) (ha : At p C i) : ¬ InSkillZone C := by
  cases ha with
  | pile k s o => exact id
  | slot k o ho =>
    intro hk
    have hk : k.loc = .skill := hk
    simp [Near, hk, ZoneLoc.code] at h
  | mats k n =>
    intro hk
    have hk : k.loc = .skill := hk
    simp [Near, hk, ZoneLoc.code] at h

theorem Near.zone {p : Place} {k : ZoneKey} {s : Nat} (h : Near p) (hk : Ygo.zoneKey p.con p.loc s = .ok k) : k.loc ≠ .skill := by
  obtain ⟨_, h2, _⟩ := zoneKey_eq_ok.mp hk
  intro e
  simp [Near, h2, e, ZoneLoc.code] at h

theorem Bare.upd {B : Board} (h : Bare B) {C : Container} (hC : ¬ InSkillZone C) (v : List CardId) : Bare (B.upd C v) := by
  intro D hD
  unfold Board.upd
  split
  · rename_i e; exact absurd (e ▸ hD) hC
  · exact h D hD

theorem Bare.carry {B : Board} (h : Bare B) {C1 C2 : Container} (h1 : ¬ InSkillZone C1) (h2 : ¬ InSkillZone C2) : Bare (B.carry C1 C2) := by
  cases C1 <;> cases C2 <;> try exact h
  exact (h.upd (C := .mats _) h2 _).upd (C := .mats _) h1 _

theorem Bare.swapAll {B : Board} (h : Bare B) {C1 C2 : Container} (h1 : ¬ InSkillZone C1) (h2 : ¬ InSkillZone C2) : Bare (B.swapAll C1 C2) :=
  (h.upd h1 _).upd h2 _

theorem Bare.swapMats {B : Board} (h : Bare B) {C1 C2 : Container} (h1 : ¬ InSkillZone C1) (h2 : ¬ InSkillZone C2) : Bare (B.swapMats C1 C2) := by
  cases C1 <;> cases C2 <;> try exact h
  exact (h.upd (C := .mats _) h1 _).upd (C := .mats _) h2 _

theorem Bare.shuffleLoop {n i : Nat} {ps : List Place} {seqs : List Nat} {l l' : Layout} (h : Layout.shuffleLoop n i ps seqs l = .ok l')
    (hp : ∀ p ∈ ps, Near p) (hb : Bare (view l)) : Bare (view l') := by
  induction n generalizing i ps seqs l with
  | zero => simp only [Layout.shuffleLoop, Except.ok.injEq] at h; exact h ▸ hb
  | succ n ih =>
    cases ps with
    | nil => simp [Layout.shuffleLoop] at h
    | cons p ps =>
      have hps : ∀ q ∈ ps, Near q := fun q hq => hp q (List.mem_cons_of_mem _ hq)
      simp only [Layout.shuffleLoop] at h
      split at h
      · exact ih h hps hb
      · simp only [bind_eq_ok] at h
        obtain ⟨si, _, k1, h1, k2, h2, h⟩ := h
        have n1 := (hp p (by simp)).zone h1
        have n2 := (hp p (by simp)).zone h2
        refine ih h hps ?_
        rw [view_swapZones]
        exact (hb.swapAll (C1 := .slot _) (C2 := .slot _) n1 n2).swapAll (C1 := .mats _) (C2 := .mats _) n1 n2

theorem Bare.step {f f' : Frame} {op : FrameOp} (hi : Inv f) (h : f.step op = .ok f') (hp : ∀ p ∈ placesOf op, Near p) (hb : Bare (view f.layout)) :
    Bare (view f'.layout) := by
  cases op with
  | add p =>
    simp only [Frame.step, Frame.cardAdd, Frame.construct, bind_eq_ok, pure_eq_ok, Except.ok.injEq] at h
    obtain ⟨_, ⟨l, hins, rfl⟩, rfl⟩ := h
    obtain ⟨C, i, ha, _, hv⟩ := Layout.cardInsert_eq_ok.mp hins
    show Bare (view l)
    rw [hv]
    exact hb.upd ((hp p (by simp [placesOf])).at ha) _
  | remove p =>
    obtain ⟨C, i, c, ha, _, _, hv, _⟩ := Frame.cardRemove_eq_ok.mp h
    rw [hv]
    exact hb.upd ((hp p (by simp [placesOf])).at ha) _
  | move a b =>
    simp only [Frame.step, Frame.cardMove, bind_eq_ok, pure_eq_ok, Except.ok.injEq] at h
    obtain ⟨_, ⟨⟨l, c⟩, h, rfl⟩, rfl⟩ := h
    obtain ⟨C1, i, C2, j, ha, hc, _, _, _, _, _, _, hv⟩ := Layout.cardMove_eq_ok.mp h
    show Bare (view l)
    rw [hv]
    have h1 := (hp a (by simp [placesOf])).at ha
    have h2 := (hp b (by simp [placesOf])).at hc
    exact ((hb.upd h1 _).upd h2 _).carry h1 h2
  | shuffle prev cur n =>
    simp only [Frame.step, Frame.cardShuffle, Layout.cardShuffle, bind_eq_ok, pure_eq_ok, Except.ok.injEq] at h
    obtain ⟨l, ⟨_, _, _, _, _, _, _, _, _, _, h⟩, rfl⟩ := h
    exact Bare.shuffleLoop h (fun p h => hp p (by simp [placesOf, h])) hb
  | swap a b =>
    simp only [Frame.step, Frame.cardSwap, bind_eq_ok, pure_eq_ok, Except.ok.injEq] at h
    obtain ⟨l, h, rfl⟩ := h
    obtain ⟨⟨C1, i, ha⟩, C2, j, hc⟩ := Layout.cardSwap_places h
    obtain ⟨_, _, _, _, _, c1, c2, _, _, hv⟩ := (Layout.cardSwap_at ha hc).mp h
    show Bare (view l)
    rw [hv]
    have h1 := (hp a (by simp [placesOf])).at ha
    have h2 := (hp b (by simp [placesOf])).at hc
    exact Bare.swapMats ((hb.upd h1 _).upd h2 _) h1 h2
  | resize p n =>
    obtain ⟨k, ha⟩ := Frame.pileResize_place h
    rw [(Frame.pileResize_at ha h).1]
    exact hb.upd (C := .pile k) id _
  | splice a n b r =>
    simp only [Frame.step, Frame.pileSplice, bind_eq_ok, pure_eq_ok, Except.ok.injEq] at h
    obtain ⟨l, h, rfl⟩ := h
    obtain ⟨k1, i, k2, j, _, _, _, _, hv⟩ := Layout.pileSplice_eq_ok.mp h
    show Bare (view l)
    rw [hv]
    exact (hb.upd (C := .pile k1) id _).upd (C := .pile k2) id _
  | pswap a b =>
    simp only [Frame.step, Frame.pileSwap, bind_eq_ok, pure_eq_ok, Except.ok.injEq] at h
    obtain ⟨l, h, rfl⟩ := h
    obtain ⟨k1, i, k2, j, _, _, hv⟩ := Layout.pileSwap_eq_ok.mp h
    show Bare (view l)
    rw [hv]
    exact hb.swapAll (C1 := .pile k1) (C2 := .pile k2) id id
  | clear =>
    obtain ⟨g, hg, _, _, hv, _⟩ := hi.clear
    have : Frame.clear f = .ok f' := h
    rw [hg] at this
    cases this
    intro C _
    rw [hv]

theorem Bare.runOps {ops : List FrameOp} {f f' : Frame} (hi : Inv f) (h : Ygo.runOps f ops = .ok f') (hp : ∀ op ∈ ops, ∀ p ∈ placesOf op, Near p)
    (hb : Bare (view f.layout)) : Bare (view f'.layout) := by
  induction ops generalizing f with
  | nil => simp only [Ygo.runOps, Except.ok.injEq] at h; exact h ▸ hb
  | cons op ops ih =>
    simp only [Ygo.runOps, FrameLike.step, bind_eq_ok] at h
    obtain ⟨g, hg, h⟩ := h
    exact ih (hi.step hg) h (fun o ho => hp o (List.mem_cons_of_mem _ ho)) (hb.step hi hg (hp op (by simp)))

end Ygo
