import Verif.Lemmas.FrameObjects
import Verif.Spec.FrameNames

/-!
# No card of any frame leaks (C97)
-/

set_option linter.unusedSimpArgs false

namespace Ygo.Props
open Ygo Ygo.Spec

variable {α : Type}

/-- A list of cards without repetition, all made before `n`. -/
def CardsBelow (cs : List CardId) (n : CardId) : Prop := cs.Nodup ∧ ∀ c ∈ cs, c < n

theorem destructCards_below {cs : List CardId} {f g : Frame} (h : Frame.destructCards cs f = .ok g) (hf : CardsBelow f.owned f.next) :
    CardsBelow g.owned g.next := by
  induction cs generalizing f with
  | nil => cases h; exact hf
  | cons c cs ih =>
    simp only [Frame.destructCards, Frame.destruct, bind_eq_ok, massert_eq_ok, pure_eq_ok, Except.ok.injEq] at h
    obtain ⟨f1, ⟨_, _, rfl⟩, h⟩ := h
    exact ih h ⟨hf.1.erase c, fun x hx => hf.2 x (List.mem_of_mem_erase hx)⟩

theorem clearPiles_below {ks : List PileKey} {f g : Frame} (h : Frame.clearPiles ks f = .ok g) (hf : CardsBelow f.owned f.next) :
    CardsBelow g.owned g.next := by
  induction ks generalizing f with
  | nil => cases h; exact hf
  | cons k ks ih =>
    simp only [Frame.clearPiles, bind_eq_ok] at h
    obtain ⟨f1, h1, h⟩ := h
    have := destructCards_below h1 hf
    exact ih h this

theorem clearZones_below {ks : List ZoneKey} {f g : Frame} (h : Frame.clearZones ks f = .ok g) (hf : CardsBelow f.owned f.next) :
    CardsBelow g.owned g.next := by
  induction ks generalizing f with
  | nil => cases h; exact hf
  | cons k ks ih =>
    simp only [Frame.clearZones, bind_eq_ok] at h
    obtain ⟨f1, h1, f2, h2, h⟩ := h
    have := destructCards_below h1 hf
    have := destructCards_below h2 this
    exact ih h this

theorem growPile_below (k : PileKey) (n : Nat) {f : Frame} (hf : CardsBelow f.owned f.next) :
    CardsBelow (Frame.growPile k n f).owned (Frame.growPile k n f).next := by
  induction n generalizing f with
  | zero => exact hf
  | succ n ih =>
    refine ih (f := { f.construct.2 with layout := _ }) ⟨List.nodup_cons.mpr ⟨fun hm => Nat.lt_irrefl _ (hf.2 _ hm), hf.1⟩, fun x hx => ?_⟩
    rcases List.mem_cons.mp hx with rfl | hx
    · exact Nat.lt_succ_self _
    · exact Nat.lt_succ_of_lt (hf.2 x hx)

theorem shrinkPile_below {k : PileKey} {n : Nat} {f g : Frame} (h : Frame.shrinkPile k n f = .ok g) (hf : CardsBelow f.owned f.next) :
    CardsBelow g.owned g.next := by
  induction n generalizing f with
  | zero => cases h; exact hf
  | succ n ih =>
    simp only [Frame.shrinkPile, Frame.destruct, bind_eq_ok, orUb_eq_ok, massert_eq_ok, pure_eq_ok, Except.ok.injEq] at h
    obtain ⟨c, _, f1, ⟨_, _, rfl⟩, h⟩ := h
    exact ih h ⟨hf.1.erase c, fun x hx => hf.2 x (List.mem_of_mem_erase hx)⟩

/-- Whatever is on a frame, calls keep what it owns without repetition. -/
theorem step_below {f g : Frame} {op : FrameOp} (h : f.step op = .ok g) (hf : CardsBelow f.owned f.next) : CardsBelow g.owned g.next := by
  cases op <;> simp only [Frame.step, bind_eq_ok, pure_eq_ok, Except.ok.injEq, Prod.exists] at h
  case add p =>
    obtain ⟨f1, c, h, rfl⟩ := h
    simp only [Frame.cardAdd, Frame.construct, bind_eq_ok, pure_eq_ok, Except.ok.injEq, Prod.mk.injEq] at h
    obtain ⟨l, _, rfl, _⟩ := h
    refine ⟨List.nodup_cons.mpr ⟨fun hm => Nat.lt_irrefl _ (hf.2 _ hm), hf.1⟩, fun x hx => ?_⟩
    rcases List.mem_cons.mp hx with rfl | hx
    · exact Nat.lt_succ_self _
    · exact Nat.lt_succ_of_lt (hf.2 x hx)
  case remove p =>
    simp only [Frame.cardRemove, Frame.destruct, bind_eq_ok, pure_eq_ok, Except.ok.injEq, Prod.exists] at h
    obtain ⟨_, _, _, _, _, _, _, _, _, rfl⟩ := h
    exact ⟨hf.1.erase _, fun x hx => hf.2 x (List.mem_of_mem_erase hx)⟩
  case move a b =>
    obtain ⟨f1, c, h, rfl⟩ := h
    simp only [Frame.cardMove, bind_eq_ok, pure_eq_ok, Except.ok.injEq, Prod.exists, Prod.mk.injEq] at h
    obtain ⟨_, _, _, rfl, _⟩ := h
    exact hf
  case shuffle p c n =>
    simp only [Frame.cardShuffle, bind_eq_ok, pure_eq_ok, Except.ok.injEq] at h
    obtain ⟨_, _, rfl⟩ := h
    exact hf
  case swap a b =>
    simp only [Frame.cardSwap, bind_eq_ok, pure_eq_ok, Except.ok.injEq] at h
    obtain ⟨_, _, rfl⟩ := h
    exact hf
  case resize p n =>
    simp only [Frame.pileResize, bind_eq_ok, massert_eq_ok] at h
    obtain ⟨_, _, k, _, h⟩ := h
    split at h
    · cases h
      exact growPile_below k _ hf
    · split at h
      · exact shrinkPile_below h hf
      · cases h
        exact hf
  case splice a n b r =>
    simp only [Frame.pileSplice, bind_eq_ok, pure_eq_ok, Except.ok.injEq] at h
    obtain ⟨_, _, rfl⟩ := h
    exact hf
  case pswap a b =>
    simp only [Frame.pileSwap, bind_eq_ok, pure_eq_ok, Except.ok.injEq] at h
    obtain ⟨_, _, rfl⟩ := h
    exact hf
  case clear =>
    simp only [Frame.clear, bind_eq_ok] at h
    obtain ⟨f1, h1, h2⟩ := h
    exact clearZones_below h2 (clearPiles_below h1 hf)

/-- The cards of a name, if it stands for a frame. -/
def cardsOf (m : FrameMemory α) (o : Nat) : List CardId := ((m.obj o).map (·.2)).getD []

theorem cardsOf_eq {m : FrameMemory α} {o : Nat} {l : Layout} {ow : List CardId} (h : m.obj o = some (l, ow)) : cardsOf m o = ow := by
  simp [cardsOf, h]

theorem cardsOf_none {m : FrameMemory α} {o : Nat} (h : m.obj o = none) : cardsOf m o = [] := by
  simp [cardsOf, h]

/-- Every card belongs to one frame, and the other way round. -/
structure CardsOwned (m : FrameMemory α) : Prop where
  alive : ∀ c, (m.card c).isSome ↔ ∃ o, c ∈ cardsOf m o
  apart : ∀ o p c, c ∈ cardsOf m o → c ∈ cardsOf m p → o = p
  below : ∀ o, CardsBelow (cardsOf m o) m.fresh

/-- One frame loses cards, which die, and gets new ones. -/
theorem CardsOwned.change {m m' : FrameMemory α} (h : CardsOwned m) (o : Nat) (hf : m.fresh ≤ m'.fresh) (hb : CardsBelow (cardsOf m' o) m'.fresh)
    (hn : ∀ c ∈ cardsOf m' o, c ∈ cardsOf m o ∨ m.fresh ≤ c) (ho : ∀ p, p ≠ o → cardsOf m' p = cardsOf m p)
    (hc : ∀ c, (m'.card c).isSome ↔ c ∈ cardsOf m' o ∨ (m.card c).isSome ∧ c ∉ cardsOf m o) : CardsOwned m' := by
  refine ⟨fun c => ?_, fun p q c hp hq => ?_, fun p => ?_⟩
  · rw [hc]
    constructor
    · rintro (h1 | ⟨h1, h2⟩)
      · exact ⟨o, h1⟩
      · obtain ⟨p, hp⟩ := (h.alive c).mp h1
        exact ⟨p, by rw [ho p (by rintro rfl; exact h2 hp)]; exact hp⟩
    · rintro ⟨p, hp⟩
      by_cases hpo : p = o
      · exact .inl (hpo ▸ hp)
      · rw [ho p hpo] at hp
        exact .inr ⟨(h.alive c).mpr ⟨p, hp⟩, fun h2 => hpo (h.apart _ _ _ hp h2)⟩
  · by_cases hpo : p = o <;> by_cases hqo : q = o
    · rw [hpo, hqo]
    · subst hpo
      rw [ho q hqo] at hq
      rcases hn c hp with hp | hp
      · exact h.apart _ _ _ hp hq
      · have := (h.below q).2 c hq; omega
    · subst hqo
      rw [ho p hpo] at hp
      rcases hn c hq with hq | hq
      · exact h.apart _ _ _ hp hq
      · have := (h.below p).2 c hp; omega
    · rw [ho p hpo] at hp
      rw [ho q hqo] at hq
      exact h.apart _ _ _ hp hq
  · by_cases hpo : p = o
    · exact hpo ▸ hb
    · rw [ho p hpo]
      exact ⟨(h.below p).1, fun c hc => Nat.lt_of_lt_of_le ((h.below p).2 c hc) hf⟩

/-- One frame hands its cards to another, whose cards die. -/
theorem CardsOwned.hand {m m' : FrameMemory α} (h : CardsOwned m) {o p : Nat} (hf : m'.fresh = m.fresh)
    (ho : ∀ q, cardsOf m' q = if q = p then [] else if q = o then cardsOf m p else cardsOf m q)
    (hc : ∀ c, (m'.card c).isSome ↔ (m.card c).isSome ∧ c ∉ cardsOf m o) : CardsOwned m' := by
  have key : ∀ {q c}, c ∈ cardsOf m' q → q ≠ p ∧ (q = o ∧ c ∈ cardsOf m p ∨ q ≠ o ∧ c ∈ cardsOf m q) := by
    intro q c hq
    rw [ho] at hq
    split at hq
    · cases hq
    · rename_i h1
      split at hq
      · rename_i h2; exact ⟨h1, .inl ⟨h2, hq⟩⟩
      · rename_i h2; exact ⟨h1, .inr ⟨h2, hq⟩⟩
  refine ⟨fun c => ?_, fun q r c hq hr => ?_, fun q => ?_⟩
  · rw [hc, h.alive]
    constructor
    · rintro ⟨⟨q, hq⟩, h2⟩
      have hqo : q ≠ o := by rintro rfl; exact h2 hq
      by_cases hqp : q = p
      · subst hqp
        exact ⟨o, by rw [ho, if_neg (Ne.symm hqo), if_pos rfl]; exact hq⟩
      · exact ⟨q, by rw [ho, if_neg hqp, if_neg hqo]; exact hq⟩
    · rintro ⟨q, hq⟩
      obtain ⟨h1, ⟨rfl, h2⟩ | ⟨h2, h3⟩⟩ := key hq
      · exact ⟨⟨p, h2⟩, fun h3 => h1 (h.apart _ _ _ h3 h2)⟩
      · exact ⟨⟨q, h3⟩, fun h4 => h2 (h.apart _ _ _ h3 h4)⟩
  · obtain ⟨h1, ⟨h2, h3⟩ | ⟨h2, h3⟩⟩ := key hq <;> obtain ⟨k1, ⟨k2, k3⟩ | ⟨k2, k3⟩⟩ := key hr
    · rw [h2, k2]
    · exact absurd (h.apart _ _ _ k3 h3) k1
    · exact absurd (h.apart _ _ _ h3 k3) h1
    · exact h.apart _ _ _ h3 k3
  · rw [ho, hf]
    split
    · exact ⟨List.nodup_nil, by simp⟩
    · split
      · exact h.below p
      · exact h.below q

theorem CardsOwned.step {m m' : FrameMemory α} (h : CardsOwned m) {op : FrameObjOp α} {live live' : Nat → Bool}
    (hl : ∀ o, live o = (m.obj o).isSome) (hu : useFrameNames live op = some live') (hm : m.step op = .ok m') :
    CardsOwned m' ∧ ∀ o, live' o = (m'.obj o).isSome := by
  have none_of : ∀ {o}, live o = false → m.obj o = none := fun {o} e => by
    rw [hl] at e
    cases hh : m.obj o with
    | none => rfl
    | some _ => rw [hh] at e; cases e
  have dead : ∀ {c}, m.fresh ≤ c → (m.card c).isSome = false := fun {c} hc => by
    rw [Bool.eq_false_iff]
    intro hs
    obtain ⟨o, ho⟩ := (h.alive c).mp hs
    have := (h.below o).2 c ho
    omega
  cases op with
  | construct o =>
    simp only [useFrameNames, Option.ite_none_left_eq_some, Option.some.injEq, Bool.not_eq_true] at hu
    obtain ⟨ho, rfl⟩ := hu
    cases hm
    have e1 : cardsOf (m.construct o) o = [] := by simp [cardsOf, FrameMemory.construct, FrameMemory.put]
    refine ⟨h.change o (Nat.le_refl _) (by rw [e1]; exact ⟨List.nodup_nil, by simp⟩) (by simp [e1]) (fun p hp => ?_) (fun c => ?_), fun q => ?_⟩
    · simp [cardsOf, FrameMemory.construct, FrameMemory.put, hp]
    · rw [e1, cardsOf_none (none_of ho)]
      simp [FrameMemory.construct, FrameMemory.put]
    · simp only [FrameMemory.construct, FrameMemory.put, hl]
      by_cases hq : q = o <;> simp [hq]
  | call o op d =>
    simp only [useFrameNames, Option.ite_none_right_eq_some, Option.some.injEq] at hu
    obtain ⟨ho, rfl⟩ := hu
    simp only [FrameMemory.step, FrameMemory.call, bind_eq_ok, orUb_eq_ok, pure_eq_ok, Except.ok.injEq] at hm
    obtain ⟨⟨l, ow⟩, hob, f, hf, rfl⟩ := hm
    have e0 := cardsOf_eq hob
    have hb : CardsBelow ow m.fresh := e0 ▸ h.below o
    have hn : ∀ c ∈ f.owned, c ∈ ow ∨ m.fresh ≤ c := fun c hc => step_owned hf hc
    refine ⟨h.change o (step_next hf) ?_ ?_ (fun p hp => ?_) (fun c => ?_), fun q => ?_⟩
    · rw [cardsOf_eq (l := f.layout) (ow := f.owned) (by simp)]
      exact step_below hf hb
    · rw [cardsOf_eq (l := f.layout) (ow := f.owned) (by simp), e0]
      exact hn
    · simp [cardsOf, hp]
    · rw [cardsOf_eq (l := f.layout) (ow := f.owned) (by simp), e0]
      simp only
      by_cases hc : c ∈ f.owned
      · rw [if_pos hc]
        refine iff_of_true ?_ (.inl hc)
        by_cases hlt : m.fresh ≤ c
        · rw [if_pos hlt]; rfl
        · rw [if_neg hlt]
          rcases hn c hc with h1 | h1
          · exact (h.alive c).mpr ⟨o, by rw [e0]; exact h1⟩
          · exact absurd h1 hlt
      · by_cases hw : c ∈ ow <;> simp [hc, hw]
    · simp only [hl]
      by_cases hq : q = o <;> simp [hq, hob]
  | write o p v =>
    simp only [useFrameNames, Option.ite_none_right_eq_some, Option.some.injEq] at hu
    obtain ⟨ho, rfl⟩ := hu
    simp only [FrameMemory.step, FrameMemory.write, bind_eq_ok, orUb_eq_ok, pure_eq_ok, Except.ok.injEq] at hm
    obtain ⟨⟨l, ow⟩, hob, c, _, v', hv', rfl⟩ := hm
    refine ⟨⟨fun x => ?_, h.apart, h.below⟩, hl⟩
    show (if x = c then some v else m.card x).isSome ↔ ∃ o, x ∈ cardsOf m o
    rw [← h.alive x]
    split
    · rename_i hx; subst hx; simp [hv']
    · rfl
  | copy o p =>
    simp only [useFrameNames, Option.ite_none_right_eq_some, Option.some.injEq, Bool.and_eq_true, Bool.not_eq_true'] at hu
    obtain ⟨⟨hp, ho⟩, rfl⟩ := hu
    simp only [FrameMemory.step, FrameMemory.copy, bind_eq_ok, orUb_eq_ok, pure_eq_ok, Except.ok.injEq] at hm
    obtain ⟨⟨l, ow⟩, hob, rfl⟩ := hm
    have e0 := cardsOf_eq hob
    refine ⟨h.change o (Nat.le_add_right _ _) ?_ ?_ (fun q hq => ?_) (fun c => ?_), fun q => ?_⟩
    · rw [cardsOf_eq (l := l) (ow := List.range' m.fresh ow.length) (by simp)]
      exact ⟨List.nodup_range', fun c hc => by rw [List.mem_range'_1] at hc; exact hc.2⟩
    · rw [cardsOf_eq (l := l) (ow := List.range' m.fresh ow.length) (by simp)]
      exact fun c hc => .inr (by rw [List.mem_range'_1] at hc; exact hc.1)
    · simp [cardsOf, hq]
    · rw [cardsOf_eq (l := l) (ow := List.range' m.fresh ow.length) (by simp), cardsOf_none (none_of ho)]
      simp only [List.mem_range'_1, List.not_mem_nil, not_false_eq_true, and_true]
      by_cases hc : c < m.fresh
      · simp [hc]; omega
      · have hc' : m.fresh ≤ c := by omega
        simp only [if_neg hc, dead hc', hc', true_and, Bool.false_eq_true, or_false]
        by_cases hlt : c - m.fresh < ow.length
        · rw [List.getElem?_eq_getElem hlt]
          have : (m.card ow[c - m.fresh]).isSome := (h.alive _).mpr ⟨p, by rw [e0]; exact List.getElem_mem hlt⟩
          simp only [Option.bind_some, this, true_iff]
          omega
        · rw [List.getElem?_eq_none (by omega)]
          simp
          omega
    · simp only [hl]
      by_cases hq : q = o <;> simp [hq]
  | move o p =>
    simp only [useFrameNames, Option.ite_none_right_eq_some, Option.some.injEq, Bool.and_eq_true, Bool.not_eq_true'] at hu
    obtain ⟨⟨hp, ho⟩, rfl⟩ := hu
    simp only [FrameMemory.step, FrameMemory.move, bind_eq_ok, orUb_eq_ok, pure_eq_ok, Except.ok.injEq] at hm
    obtain ⟨⟨l, ow⟩, hob, rfl⟩ := hm
    have hop : o ≠ p := by rintro rfl; rw [ho] at hp; cases hp
    refine ⟨h.hand (o := o) (p := p) rfl (fun q => ?_) (fun c => ?_), fun q => ?_⟩
    · rw [cardsOf_eq hob]
      simp only [cardsOf, FrameMemory.put]
      by_cases hq : q = p
      · simp [hq]
      · by_cases hq' : q = o <;> simp [hq, hq', hop]
    · rw [cardsOf_none (none_of ho)]
      simp [FrameMemory.put]
    · simp only [FrameMemory.put, hl]
      by_cases hq : q = p
      · simp [hq, hob]
      · by_cases hq' : q = o <;> simp [hq, hq', hop]
  | moveAssign o p =>
    simp only [useFrameNames, Option.ite_none_right_eq_some, Option.some.injEq, Bool.and_eq_true] at hu
    obtain ⟨⟨ho, hp⟩, rfl⟩ := hu
    simp only [FrameMemory.step, FrameMemory.moveAssign, bind_eq_ok, orUb_eq_ok, pure_eq_ok, Except.ok.injEq] at hm
    obtain ⟨⟨l', old⟩, hob, ⟨l, ow⟩, hpb, rfl⟩ := hm
    refine ⟨h.hand (o := o) (p := p) rfl (fun q => ?_) (fun c => ?_), fun q => ?_⟩
    · rw [cardsOf_eq hpb]
      simp only [cardsOf, FrameMemory.put, FrameMemory.free]
      by_cases hq : q = p
      · simp [hq]
      · by_cases hq' : q = o
        · subst hq'; simp [hq]
        · simp [hq, hq']
    · rw [cardsOf_eq hob]
      simp only [FrameMemory.put, FrameMemory.free]
      by_cases hc : c ∈ old <;> simp [hc]
    · simp only [FrameMemory.put, FrameMemory.free, hl]
      by_cases hq : q = p
      · simp [hq, hpb]
      · by_cases hq' : q = o
        · subst hq'; simp [hq, hob]
        · simp [hq, hq']
  | destroy o =>
    simp only [useFrameNames, Option.ite_none_right_eq_some, Option.some.injEq] at hu
    obtain ⟨ho, rfl⟩ := hu
    simp only [FrameMemory.step, FrameMemory.destroy, bind_eq_ok, orUb_eq_ok, pure_eq_ok, Except.ok.injEq] at hm
    obtain ⟨⟨l, old⟩, hob, rfl⟩ := hm
    have e1 : cardsOf ((m.free old).put o none) o = [] := by simp [cardsOf, FrameMemory.put]
    refine ⟨h.change o (Nat.le_refl _) (by rw [e1]; exact ⟨List.nodup_nil, by simp⟩) (by simp [e1]) (fun p hp => ?_) (fun c => ?_), fun q => ?_⟩
    · simp [cardsOf, FrameMemory.put, FrameMemory.free, hp]
    · rw [e1, cardsOf_eq hob]
      simp only [FrameMemory.put, FrameMemory.free]
      by_cases hc : c ∈ old <;> simp [hc]
    · simp only [FrameMemory.put, FrameMemory.free, hl]
      by_cases hq : q = o <;> simp [hq]

theorem CardsOwned.run {m m' : FrameMemory α} (h : CardsOwned m) {ops : List (FrameObjOp α)} {live live' : Nat → Bool}
    (hl : ∀ o, live o = (m.obj o).isSome) (hu : frameNamesAfter live ops = some live') (hm : m.run ops = .ok m') :
    CardsOwned m' ∧ ∀ o, live' o = (m'.obj o).isSome := by
  induction ops generalizing m live with
  | nil => cases hu; cases hm; exact ⟨h, hl⟩
  | cons op ops ih =>
    simp only [frameNamesAfter, Option.bind_eq_some_iff] at hu
    obtain ⟨l, hu1, hu2⟩ := hu
    simp only [FrameMemory.run, bind_eq_ok] at hm
    obtain ⟨m1, h1, h2⟩ := hm
    obtain ⟨h3, h4⟩ := h.step hl hu1 h1
    exact ih h3 h4 hu2 h2

/-- **C97.** Copies, moved frames or none: whatever a program does, the cards that live are those of the frames that live, no card is in the lists of two
frames or twice in one, so that none is freed twice, and once all frames are gone so are all cards. -/
theorem C97_no_leaks {ops : List (FrameObjOp α)} {live : Nat → Bool} {m : FrameMemory α}
    (hn : frameNamesAfter (fun _ => false) ops = some live) (hm : FrameMemory.empty.run ops = .ok m) :
    (∀ c, (m.card c).isSome ↔ ∃ o l ow, m.obj o = some (l, ow) ∧ c ∈ ow) ∧
    (∀ o p l ow l' ow', m.obj o = some (l, ow) → m.obj p = some (l', ow') → o ≠ p → ∀ c ∈ ow, c ∉ ow') ∧
    (∀ o l ow, m.obj o = some (l, ow) → ow.Nodup) ∧
    ((∀ o, live o = false) → ∀ c, m.card c = none) := by
  have h0 : CardsOwned (FrameMemory.empty : FrameMemory α) :=
    ⟨by simp [FrameMemory.empty, cardsOf], by simp [FrameMemory.empty, cardsOf], by simp [FrameMemory.empty, cardsOf, CardsBelow]⟩
  obtain ⟨h, hl⟩ := h0.run (fun _ => rfl) hn hm
  have halive : ∀ c, (m.card c).isSome ↔ ∃ o l ow, m.obj o = some (l, ow) ∧ c ∈ ow := fun c => by
    rw [h.alive c]
    refine exists_congr fun o => ?_
    match ho : m.obj o with
    | none => simp [cardsOf_none ho]
    | some (l, ow) =>
      rw [cardsOf_eq ho]
      exact ⟨fun hc => ⟨l, ow, rfl, hc⟩, fun ⟨_, _, e, hc⟩ => by cases e; exact hc⟩
  refine ⟨halive, fun o p l ow l' ow' h1 h2 hop c hc hc' => ?_, fun o l ow h1 => ?_, fun hd c => ?_⟩
  · exact hop (h.apart o p c (by rw [cardsOf_eq h1]; exact hc) (by rw [cardsOf_eq h2]; exact hc'))
  · have := (h.below o).1
    rwa [cardsOf_eq h1] at this
  · rw [← Option.not_isSome_iff_eq_none, halive c]
    rintro ⟨o, l, ow, ho, _⟩
    have := hd o
    rw [hl, ho] at this
    cases this

/-- A frame with two cards that is copied; the copy gets a card of its own; the first frame moves over the copy. -/
def copiedFrames : List (FrameObjOp Nat) :=
  [.construct 0, .call 0 (.resize (.mk 0 Loc.hand 0 (-1)) 2) 7, .copy 1 0, .call 1 (.add (.mk 0 Loc.hand 2 (-1))) 8, .moveAssign 1 0]

example : (frameNamesAfter (fun _ => false) copiedFrames).isSome ∧
    (FrameMemory.empty.run copiedFrames).toOption.map (fun m => ((List.range 6).map m.card, (m.obj 1).map (·.2), (m.obj 0).map (·.2))) =
      some ([some 7, some 7, none, none, none, none], some [1, 0], some []) := by
  decide +kernel

end Ygo.Props
