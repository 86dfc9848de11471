import Verif.Props.Encode
import Verif.Props.Place

/-!
# Moves, deferred materials and match win reasons (C39, C40, C46)
-/

set_option linter.unusedSimpArgs false

namespace Ygo.Props
open Ygo Ygo.Spec P

theorem pileLoc_iff (p : Place) : p.isPile = true ↔ InPile p.loc := (C05_classification_bits p.loc).1

theorem pileLoc_false_iff (p : Place) : p.isPile = false ↔ ¬ InPile p.loc := by
  rw [← pileLoc_iff]; simp

/-! ## C39 -/

section
variable {C : Type} [EncodeContext C]

/-- A result that reports something about cards. -/
def reported (n reason : Nat) (e : CardEvent) : Encoded := ⟨.ok, n, some ⟨.event (.card reason e), []⟩⟩

theorem encodeOne_move (c : C) (code : UInt32) (a b : LocInfo) (r : UInt32) (more : List UInt8) :
    encodeOne c ((CoreMsg.move code a b r).bytes ++ more) =
      (do let (o, c') ← moveOutcome c a.place b.place r.toNat; return (⟨o.state, (CoreMsg.move code a b r).bytes.length, o.msg⟩, c')) := by
  unfold encodeOne
  rw [body_move]
  cases moveOutcome c a.place b.place r.toNat with
  | error e => rfl
  | ok x =>
    have e : ((CoreMsg.move code a b r).bytes ++ more).length - more.length = (CoreMsg.move code a b r).bytes.length := by simp
    show Except.ok _ = Except.ok _
    rw [e]

variable (c : C) (code : UInt32) (a b : LocInfo) (r : UInt32) (more : List UInt8)

/-- **C39.** The seven kinds are told apart by these conditions, exactly one of which holds. -/
theorem C39_kinds (p q : Place) :
    (moveKind p q = .nothing ↔ p.loc = 0 ∧ q.loc = 0) ∧
    (moveKind p q = .added ↔ p.loc = 0 ∧ q.loc ≠ 0) ∧
    (moveKind p q = .removed ↔ p.loc ≠ 0 ∧ q.loc = 0) ∧
    (moveKind p q = .deferred ↔ p.loc ≠ 0 ∧ q.loc ≠ 0 ∧ InPile q.loc ∧ 0 ≤ q.oseq) ∧
    (moveKind p q = .arrival ↔ p.loc ≠ 0 ∧ q.loc ≠ 0 ∧ ¬ InPile q.loc ∧ q.oseq < 0) ∧
    (moveKind p q = .leftBehind ↔ p.loc ≠ 0 ∧ q.loc ≠ 0 ∧ (InPile q.loc ↔ q.oseq < 0) ∧ InPile p.loc ∧ 0 ≤ p.oseq) ∧
    (moveKind p q = .plain ↔ p.loc ≠ 0 ∧ q.loc ≠ 0 ∧ (InPile q.loc ↔ q.oseq < 0) ∧ ¬ (InPile p.loc ∧ 0 ≤ p.oseq)) := by
  unfold moveKind
  by_cases h1 : p.loc = 0 <;> by_cases h2 : q.loc = 0 <;> by_cases h3 : InPile q.loc <;> by_cases h4 : q.oseq < 0 <;>
    by_cases h5 : InPile p.loc <;> by_cases h6 : 0 ≤ p.oseq <;>
    simp [h1, h2, h3, h4, h5, h6, show (0 ≤ q.oseq ↔ ¬ q.oseq < 0) by omega]

/-- **C39.** A card that neither existed nor exists: nothing is reported. -/
theorem C39_nothing (h : moveKind a.place b.place = .nothing) :
    encodeOne c ((CoreMsg.move code a b r).bytes ++ more) = .ok (⟨.swallowed, (CoreMsg.move code a b r).bytes.length, none⟩, c) := by
  rw [encodeOne_move]
  have h := (C39_kinds _ _).1.mp h
  simp only [moveOutcome, h, and_self, if_true]
  rfl

/-- **C39.** A card that did not exist is added at its new place. -/
theorem C39_added (h : moveKind a.place b.place = .added) :
    encodeOne c ((CoreMsg.move code a b r).bytes ++ more) =
      .ok (reported (CoreMsg.move code a b r).bytes.length r.toNat (.add [b.place]), c) := by
  rw [encodeOne_move]
  have h := (C39_kinds _ _).2.1.mp h
  simp only [moveOutcome, h, and_false, if_false, if_true]
  rfl

/-- **C39.** A card that ceases to exist is removed from its old place; if it was in a zone and had materials, it is remembered that
these have lost their monster. -/
theorem C39_removed (h : moveKind a.place b.place = .removed) :
    encodeOne c ((CoreMsg.move code a b r).bytes ++ more) = (do
      let c' ← if a.place.isPile then pure c else do
        pure (if ← EncodeContext.hasXyzMat c a.place then EncodeContext.xyzLeft c a.place {} else c)
      return (reported (CoreMsg.move code a b r).bytes.length r.toNat (.remove [a.place]), c')) := by
  rw [encodeOne_move]
  have h := (C39_kinds _ _).2.2.1.mp h
  simp only [moveOutcome, h, false_and, if_false, if_true]
  split
  · rfl
  · cases EncodeContext.hasXyzMat c a.place <;> rfl

/-- **C39.** A card that becomes material of a monster that is still in a pile: nothing is reported yet. -/
theorem C39_deferred (h : moveKind a.place b.place = .deferred) :
    encodeOne c ((CoreMsg.move code a b r).bytes ++ more) =
      .ok (⟨.swallowed, (CoreMsg.move code a b r).bytes.length, none⟩, EncodeContext.xyzMatDefer c a.place) := by
  rw [encodeOne_move]
  obtain ⟨h1, h2, h3, h4⟩ := (C39_kinds _ _).2.2.2.1.mp h
  have h3 := (pileLoc_iff b.place).mpr h3
  have h4 : ¬ b.place.oseq < 0 := by omega
  simp only [moveOutcome, h1, h2, h3, h4, false_and, and_false, if_false, not_false_eq_true, and_self, if_true]
  rfl

/-- **C39.** A card that arrives in a zone: the materials waiting for it are attached first. -/
theorem C39_arrival (h : moveKind a.place b.place = .arrival) :
    encodeOne c ((CoreMsg.move code a b r).bytes ++ more) =
      .ok (reported (CoreMsg.move code a b r).bytes.length r.toNat
        (.move (deferredOps b.place 0 (EncodeContext.takeDeferredXyzMat c).1 ++ [⟨a.place, b.place⟩])),
        (EncodeContext.takeDeferredXyzMat c).2) := by
  rw [encodeOne_move]
  obtain ⟨h1, h2, h3, h4⟩ := (C39_kinds _ _).2.2.2.2.1.mp h
  have h3 := (pileLoc_false_iff b.place).mpr h3
  simp only [moveOutcome, h1, h2, h3, h4, false_and, and_false, if_false, not_true_eq_false, and_self, if_true]
  rfl

/-- **C39.** A material of a monster that has left: it is moved from the zone where the monster was. -/
theorem C39_left_behind (h : moveKind a.place b.place = .leftBehind) :
    encodeOne c ((CoreMsg.move code a b r).bytes ++ more) = (do
      let src ← EncodeContext.getXyzLeft c { a.place with oseq := -1 }
      return (reported (CoreMsg.move code a b r).bytes.length r.toNat (.move [⟨{ src with oseq := a.place.oseq }, b.place⟩]), c)) := by
  rw [encodeOne_move]
  obtain ⟨h1, h2, h3, h4, h5⟩ := (C39_kinds _ _).2.2.2.2.2.1.mp h
  have h4 := (pileLoc_iff a.place).mpr h4
  have h5 : ¬ a.place.oseq < 0 := by omega
  by_cases ho : b.place.oseq < 0
  · have h3 := (pileLoc_iff b.place).mpr (h3.mpr ho)
    simp only [moveOutcome, h1, h2, h3, h4, h5, ho, false_and, and_false, if_false, not_true_eq_false, not_false_eq_true, and_self, if_true,
      Bool.true_eq_false]
    cases EncodeContext.getXyzLeft c { a.place with oseq := OSEQ_INVALID } <;> rfl
  · have h3 := (pileLoc_false_iff b.place).mpr (mt h3.mp ho)
    simp only [moveOutcome, h1, h2, h3, h4, h5, ho, false_and, and_false, if_false, not_true_eq_false, not_false_eq_true, and_self, if_true,
      Bool.false_eq_true]
    cases EncodeContext.getXyzLeft c { a.place with oseq := OSEQ_INVALID } <;> rfl

/-- **C39.** Any other card is moved from its old place to its new one; if a monster with materials goes from a zone to a pile, it is
remembered where it came from. -/
theorem C39_plain (h : moveKind a.place b.place = .plain) :
    encodeOne c ((CoreMsg.move code a b r).bytes ++ more) = (do
      let c' ← if a.place.isPile = false ∧ b.place.isPile = true then do
          pure (if ← EncodeContext.hasXyzMat c a.place then EncodeContext.xyzLeft c b.place a.place else c)
        else pure c
      return (reported (CoreMsg.move code a b r).bytes.length r.toNat (.move [⟨a.place, b.place⟩]), c')) := by
  rw [encodeOne_move]
  obtain ⟨h1, h2, h3, h4⟩ := (C39_kinds _ _).2.2.2.2.2.2.mp h
  have h4 : ¬ (¬ a.place.oseq < 0 ∧ a.place.isPile = true) := by
    rw [pileLoc_iff]
    rintro ⟨h5, h6⟩
    exact h4 ⟨h6, by omega⟩
  by_cases ho : b.place.oseq < 0
  · have h3 := (pileLoc_iff b.place).mpr (h3.mpr ho)
    simp only [moveOutcome, h1, h2, h3, h4, ho, false_and, and_false, if_false, not_true_eq_false, not_false_eq_true, and_self, if_true,
      Bool.true_eq_false, and_true]
    split
    · cases EncodeContext.hasXyzMat c a.place <;> rfl
    · rfl
  · have h3 := (pileLoc_false_iff b.place).mpr (mt h3.mp ho)
    simp only [moveOutcome, h1, h2, h3, h4, ho, false_and, and_false, if_false, not_true_eq_false, not_false_eq_true, and_self, if_true,
      Bool.false_eq_true]
    rfl

end

/-! Each kind occurs. -/
example : moveKind (LocInfo.place ⟨0, 0, 0, 0⟩) (LocInfo.place ⟨0, 0, 0, 0⟩) = .nothing := by rw [(C39_kinds _ _).1]; decide
example : moveKind (LocInfo.place ⟨0, 0, 0, 0⟩) (LocInfo.place ⟨0, 4, 1, 1⟩) = .added := by rw [(C39_kinds _ _).2.1]; decide
example : moveKind (LocInfo.place ⟨0, 4, 1, 1⟩) (LocInfo.place ⟨0, 0, 0, 0⟩) = .removed := by rw [(C39_kinds _ _).2.2.1]; decide
/-- A monster becomes material of one in the extra deck. -/
example : moveKind (LocInfo.place ⟨0, 4, 1, 1⟩) (LocInfo.place ⟨0, 0xC0, 3, 0⟩) = .deferred := by
  rw [(C39_kinds _ _).2.2.2.1]; unfold InPile; decide
example : moveKind (LocInfo.place ⟨0, 0x40, 3, 1⟩) (LocInfo.place ⟨0, 4, 5, 1⟩) = .arrival := by
  rw [(C39_kinds _ _).2.2.2.2.1]; unfold InPile; decide
/-- A material follows its monster to the graveyard. -/
example : moveKind (LocInfo.place ⟨0, 0x90, 3, 0⟩) (LocInfo.place ⟨0, 0x10, 4, 1⟩) = .leftBehind := by
  rw [(C39_kinds _ _).2.2.2.2.2.1]; unfold InPile; decide
example : moveKind (LocInfo.place ⟨0, 4, 3, 1⟩) (LocInfo.place ⟨0, 0x10, 4, 1⟩) = .plain := by
  rw [(C39_kinds _ _).2.2.2.2.2.2]; unfold InPile; decide

/-! ## C40 -/

theorem deferredOps_eq (curr : Place) (ds : List Place) : deferredOps curr 0 ds = attachments curr ds := by
  have key : ∀ (ds : List Place) (k : Nat), deferredOps curr k ds =
      ((ds.zipIdx k).map fun (d, i) => (PlacePair.mk d { curr with oseq := (i : Int) })).filter fun x => x.fst ≠ x.snd := by
    intro ds
    induction ds with
    | nil => intro k; rfl
    | cons d ds ih =>
      intro k
      obtain ⟨dc, dl, dq, dO⟩ := d
      obtain ⟨cc, cl, cq, cO⟩ := curr
      simp only [deferredOps, List.zipIdx_cons, List.map_cons]
      by_cases he : dc = cc ∧ dl = cl ∧ dq = cq ∧ dO = (k : Int)
      · rw [if_pos he, ih, List.filter_cons_of_neg]
        simp [he]
      · rw [if_neg he, ih, List.filter_cons_of_pos]
        simp only [PlacePair.mk.injEq, Place.mk.injEq, ne_eq, decide_eq_true_eq]
        exact he
  exact key ds 0

/-- **C40.** A deferred attachment is put at the end of the list. -/
theorem C40_defer (c : BasicContext) (code : UInt32) (a b : LocInfo) (r : UInt32) (more : List UInt8)
    (h : moveKind a.place b.place = .deferred) :
    encodeOne c ((CoreMsg.move code a b r).bytes ++ more) =
      .ok (⟨.swallowed, (CoreMsg.move code a b r).bytes.length, none⟩, { c with deferred := c.deferred ++ [a.place] }) :=
  C39_deferred c code a b r more h

/-- **C40.** An arrival attaches the cards of the list in order before the move itself, and empties the list. -/
theorem C40_arrival (c : BasicContext) (code : UInt32) (a b : LocInfo) (r : UInt32) (more : List UInt8)
    (h : moveKind a.place b.place = .arrival) :
    encodeOne c ((CoreMsg.move code a b r).bytes ++ more) =
      .ok (reported (CoreMsg.move code a b r).bytes.length r.toNat (.move (attachments b.place c.deferred ++ [⟨a.place, b.place⟩])),
        { c with deferred := [] }) := by
  rw [C39_arrival c code a b r more h]
  simp only [deferredOps_eq]
  rfl

/-- **C40.** When none of the cards is at its final place already, each gets exactly one operation, with the indices 0, 1, 2, ... of
the monster's materials. -/
theorem C40_attachments (curr : Place) (ds : List Place) (h : ∀ (i : Nat) d, ds[i]? = some d → d ≠ { curr with oseq := (i : Int) }) :
    (attachments curr ds).map (·.fst) = ds ∧
      (attachments curr ds).map (·.snd) = (List.range ds.length).map fun (i : Nat) => { curr with oseq := (i : Int) } := by
  have e : attachments curr ds = ds.zipIdx.map fun (d, i) => (PlacePair.mk d { curr with oseq := (i : Int) }) := by
    unfold attachments
    rw [List.filter_eq_self]
    intro x hx
    obtain ⟨⟨d, i⟩, hm, rfl⟩ := List.mem_map.mp hx
    rw [List.mem_zipIdx_iff_getElem?] at hm
    simpa using h i d hm
  rw [e]
  constructor
  · apply List.ext_getElem <;> simp
  · apply List.ext_getElem <;> simp

/-- What is tracked apart from the deferred materials and the places monsters have left. -/
structure Same (c c' : BasicContext) : Prop where
  board : c'.board = c.board
  store : c'.store = c.store

theorem moveOutcome_ctx (c : BasicContext) (p q : Place) (n : Nat) (o : Outcome) (c' : BasicContext)
    (h : moveOutcome c p q n = .ok (o, c')) : Same c c' ∧ c'.matchWinReason = c.matchWinReason ∧
      c'.deferred = (match moveKind p q with | .deferred => c.deferred ++ [p] | .arrival => [] | _ => c.deferred) := by
  by_cases h1 : p.loc = 0
  · by_cases h2 : q.loc = 0
    · rw [(C39_kinds p q).1.mpr ⟨h1, h2⟩]
      simp only [moveOutcome, h1, h2, and_self, if_true, Except.ok.injEq, Prod.mk.injEq] at h
      rw [← h.2]; exact ⟨⟨rfl, rfl⟩, rfl, rfl⟩
    · rw [(C39_kinds p q).2.1.mpr ⟨h1, h2⟩]
      simp only [moveOutcome, h1, h2, and_false, if_true, if_false, Except.ok.injEq, Prod.mk.injEq] at h
      rw [← h.2]; exact ⟨⟨rfl, rfl⟩, rfl, rfl⟩
  by_cases h2 : q.loc = 0
  · rw [(C39_kinds p q).2.2.1.mpr ⟨h1, h2⟩]
    simp only [moveOutcome, h1, h2, false_and, if_true, if_false] at h
    split at h
    · cases h; exact ⟨⟨rfl, rfl⟩, rfl, rfl⟩
    · cases hh : EncodeContext.hasXyzMat c p with
      | error e => rw [hh] at h; cases h
      | ok b => rw [hh] at h; cases b <;> cases h <;> exact ⟨⟨rfl, rfl⟩, rfl, rfl⟩
  by_cases h3 : InPile q.loc ∧ 0 ≤ q.oseq
  · rw [(C39_kinds p q).2.2.2.1.mpr ⟨h1, h2, h3⟩]
    have e1 := (pileLoc_iff q).mpr h3.1
    have e2 : ¬ q.oseq < 0 := by omega
    simp only [moveOutcome, h1, h2, e1, e2, false_and, if_true, if_false, not_false_eq_true, and_self, Except.ok.injEq, Prod.mk.injEq] at h
    rw [← h.2]; exact ⟨⟨rfl, rfl⟩, rfl, rfl⟩
  by_cases h4 : ¬ InPile q.loc ∧ q.oseq < 0
  · rw [(C39_kinds p q).2.2.2.2.1.mpr ⟨h1, h2, h4⟩]
    have e1 := (pileLoc_false_iff q).mpr h4.1
    have e2 := h4.2
    simp only [moveOutcome, h1, h2, e1, e2, false_and, and_false, if_true, if_false, not_true_eq_false, and_self, Except.ok.injEq, Prod.mk.injEq] at h
    rw [← h.2]; exact ⟨⟨rfl, rfl⟩, rfl, rfl⟩
  have e3 : ¬ (¬ q.oseq < 0 ∧ q.isPile = true) := by
    rintro ⟨a, b⟩
    exact h3 ⟨(pileLoc_iff q).mp b, by omega⟩
  have e4 : ¬ (q.oseq < 0 ∧ q.isPile = false) := by
    rintro ⟨a, b⟩
    exact h4 ⟨(pileLoc_false_iff q).mp b, a⟩
  have hq : InPile q.loc ↔ q.oseq < 0 := by
    constructor
    · intro a
      by_contra b
      exact h3 ⟨a, by omega⟩
    · intro a
      by_contra b
      exact h4 ⟨b, a⟩
  by_cases h5 : InPile p.loc ∧ 0 ≤ p.oseq
  · rw [(C39_kinds p q).2.2.2.2.2.1.mpr ⟨h1, h2, hq, h5⟩]
    have e5 : ¬ p.oseq < 0 ∧ p.isPile = true := ⟨by omega, (pileLoc_iff p).mpr h5.1⟩
    simp only [moveOutcome, h1, h2, false_and, if_false] at h
    rw [if_neg e3, if_neg e4, if_pos e5] at h
    simp only [bind_eq_ok, pure_eq_ok, Except.ok.injEq, Prod.mk.injEq] at h
    obtain ⟨_, _, _, rfl⟩ := h
    exact ⟨⟨rfl, rfl⟩, rfl, rfl⟩
  · rw [(C39_kinds p q).2.2.2.2.2.2.mpr ⟨h1, h2, hq, h5⟩]
    have e5 : ¬ (¬ p.oseq < 0 ∧ p.isPile = true) := by
      rintro ⟨a, b⟩
      exact h5 ⟨(pileLoc_iff p).mp b, by omega⟩
    simp only [moveOutcome, h1, h2, false_and, if_false] at h
    rw [if_neg e3, if_neg e4, if_neg e5] at h
    split at h
    · cases hh : EncodeContext.hasXyzMat c p with
      | error e => rw [hh] at h; cases h
      | ok b => rw [hh] at h; cases b <;> cases h <;> exact ⟨⟨rfl, rfl⟩, rfl, rfl⟩
    · cases h; exact ⟨⟨rfl, rfl⟩, rfl, rfl⟩

/-- What a message does to the list of deferred materials. -/
noncomputable def deferredAfter (ds : List Place) : CoreMsg → List Place
  | .move _ a b _ => match moveKind a.place b.place with
    | .deferred => ds ++ [a.place]
    | .arrival => []
    | _ => ds
  | _ => ds

/-- What a message does to the match win reason. -/
def reasonAfter (n : Option Nat) : CoreMsg → Option Nat
  | .matchKill r => some r.toNat
  | _ => n

theorem encodeOne_ctx (c : BasicContext) (m : CoreMsg) (hf : m.Fits) (more : List UInt8) (r : Encoded) (c' : BasicContext)
    (h : encodeOne c (m.bytes ++ more) = .ok (r, c')) :
    Same c c' ∧ c'.matchWinReason = reasonAfter c.matchWinReason m ∧ c'.deferred = deferredAfter c.deferred m := by
  cases hm : m.meaning with
  | some y =>
    rw [C34_translation c m hf y hm] at h
    cases h
    cases m <;> first | exact ⟨⟨rfl, rfl⟩, rfl, rfl⟩ | cases hm
  | none =>
    cases hx : m.inContext c with
    | some y =>
      rw [C34_translation_in_context c m hf y hx] at h
      cases m <;> simp only [CoreMsg.inContext, reduceCtorEq] at hx <;> cases hx <;>
        simp only [bind_eq_ok, pure_eq_ok, Except.ok.injEq, Prod.mk.injEq] at h
      case none.some.matchKill.refl =>
        obtain ⟨_, rfl, _, rfl⟩ := h
        exact ⟨⟨rfl, rfl⟩, rfl, rfl⟩
      case none.some.win.refl =>
        obtain ⟨_, ⟨_, _, rfl⟩, _, rfl⟩ := h
        exact ⟨⟨rfl, rfl⟩, rfl, rfl⟩
      case none.some.deckTop.refl =>
        obtain ⟨_, ⟨_, _, rfl⟩, _, rfl⟩ := h
        exact ⟨⟨rfl, rfl⟩, rfl, rfl⟩
      case none.some.draw.refl =>
        obtain ⟨_, ⟨_, _, _, _, rfl⟩, _, rfl⟩ := h
        exact ⟨⟨rfl, rfl⟩, rfl, rfl⟩
      case none.some.reverseDeck.refl =>
        obtain ⟨_, ⟨_, _, _, _, rfl⟩, _, rfl⟩ := h
        exact ⟨⟨rfl, rfl⟩, rfl, rfl⟩
    | none =>
      cases m <;> try cases hm
      all_goals try cases hx
      case none.none.swapGraveDeck.refl.refl p pos mask =>
        obtain ⟨o, rest, hb, rfl⟩ := encodeOne_eq h
        simp only [CoreMsg.bytes, List.append_assoc, List.cons_append, List.nil_append] at hb
        rw [body_context' c rfl rfl rfl rfl rfl rfl] at hb
        obtain ⟨o', t, h1, h2⟩ := bind_eq_ok_iff.mp hb
        simp only [pure_run, Except.ok.injEq, Prod.mk.injEq] at h2
        obtain ⟨⟨_, rfl⟩, _⟩ := h2
        exact ⟨⟨rfl, rfl⟩, rfl, rfl⟩
      case none.none.move.refl.refl code a b n =>
        rw [encodeOne_move] at h
        simp only [bind_eq_ok, pure_eq_ok, Except.ok.injEq, Prod.mk.injEq] at h
        obtain ⟨⟨o, c1⟩, ho, _, rfl⟩ := h
        exact moveOutcome_ctx c a.place b.place _ o c1 ho

/-- **C40.** Only deferred attachments and arrivals touch the list; it is the deferred cards since the last arrival, in order. `use` is
whatever is done with the results, which has no access to the list. -/
theorem C40_list_of_history (use : BasicContext → Encoded → Res BasicContext)
    (hu : ∀ c r c', use c r = .ok c' → c'.deferred = c.deferred) (ms : List CoreMsg) (hf : ∀ m ∈ ms, m.Fits)
    (c c' : BasicContext) (rs : List Encoded) (h : eachMessage use c ms = .ok (rs, c')) :
    c'.deferred = ms.foldl deferredAfter c.deferred := by
  induction ms generalizing c c' rs with
  | nil => cases h; rfl
  | cons m ms ih =>
    simp only [eachMessage, bind_eq_ok, pure_eq_ok, Except.ok.injEq, Prod.exists, Prod.mk.injEq] at h
    obtain ⟨r, c1, h1, c2, h2, rs', c3, h3, _, rfl⟩ := h
    have e1 := encodeOne_ctx c m (hf m (by simp)) [] r c1 (by rw [List.append_nil]; exact h1)
    have e2 := ih (fun m hm => hf m (by simp [hm])) c2 c3 rs' h3
    rw [e2, hu _ _ _ h2, e1.2.2]
    rfl

open Classical in
/-- The cards that messages report as material of a monster that is still in a pile. -/
noncomputable def waiting (ms : List CoreMsg) : List Place := ms.filterMap fun
  | .move _ a b _ => if moveKind a.place b.place = .deferred then some a.place else none
  | _ => none

theorem foldl_deferredAfter (ms : List CoreMsg)
    (hn : ∀ code a b r, CoreMsg.move code a b r ∈ ms → moveKind a.place b.place ≠ .arrival) (ds : List Place) :
    ms.foldl deferredAfter ds = ds ++ waiting ms := by
  induction ms generalizing ds with
  | nil => simp [waiting]
  | cons m ms ih =>
    have ih := ih fun code a b r hm => hn code a b r (by simp [hm])
    rw [List.foldl_cons, ih]
    cases m
    case move code a b r =>
      have := hn code a b r (by simp)
      cases hk : moveKind a.place b.place <;> simp [hk, deferredAfter, waiting] at this ⊢
    all_goals simp [deferredAfter, waiting]

/-- **C40.** From one arrival to the next: every card reported as material in between is attached once, in the order in which they
were reported, before the monster is moved; then none is left over. -/
theorem C40_between_arrivals (use : BasicContext → Encoded → Res BasicContext)
    (hu : ∀ c r c', use c r = .ok c' → c'.deferred = c.deferred) (ms : List CoreMsg) (hf : ∀ m ∈ ms, m.Fits)
    (hn : ∀ code a b r, CoreMsg.move code a b r ∈ ms → moveKind a.place b.place ≠ .arrival)
    (c c' : BasicContext) (h0 : c.deferred = []) (rs : List Encoded) (h : eachMessage use c ms = .ok (rs, c'))
    (code : UInt32) (a b : LocInfo) (r : UInt32) (hk : moveKind a.place b.place = .arrival) (more : List UInt8) :
    encodeOne c' ((CoreMsg.move code a b r).bytes ++ more) =
      .ok (reported (CoreMsg.move code a b r).bytes.length r.toNat (.move (attachments b.place (waiting ms) ++ [⟨a.place, b.place⟩])),
        { c' with deferred := [] }) := by
  rw [C40_arrival c' code a b r more hk, C40_list_of_history use hu ms hf c c' rs h, h0, foldl_deferredAfter ms hn, List.nil_append]

/-- Two cards become material of a monster that then arrives. -/
example : ∃ x, eachMessage (fun c _ => .ok c) BasicContext.init
    [.move 0 ⟨0, 4, 1, 1⟩ ⟨0, 0xC0, 3, 0⟩ 0, .move 0 ⟨0, 4, 2, 1⟩ ⟨0, 0xC0, 3, 1⟩ 0, .move 0 ⟨0, 0x40, 3, 1⟩ ⟨0, 4, 5, 1⟩ 7] = .ok x ∧
    x.1.map (·.msg) = [none, none, some ⟨.event (.card 7 (.move [⟨⟨0, 4, 1, -1⟩, ⟨0, 4, 5, 0⟩⟩, ⟨⟨0, 4, 2, -1⟩, ⟨0, 4, 5, 1⟩⟩,
      ⟨⟨0, 0x40, 3, -1⟩, ⟨0, 4, 5, -1⟩⟩])), []⟩] ∧ x.2.deferred = [] := ⟨_, rfl, rfl, rfl⟩

/-! ## C46 -/

/-- **C46.** After any messages the tracked match win reason is the one announced last. -/
theorem C46_last_announced (use : BasicContext → Encoded → Res BasicContext)
    (hu : ∀ c r c', use c r = .ok c' → c'.matchWinReason = c.matchWinReason) (ms : List CoreMsg) (hf : ∀ m ∈ ms, m.Fits)
    (c c' : BasicContext) (rs : List Encoded) (h : eachMessage use c ms = .ok (rs, c')) :
    c'.matchWinReason = ms.foldl reasonAfter c.matchWinReason := by
  induction ms generalizing c c' rs with
  | nil => cases h; rfl
  | cons m ms ih =>
    simp only [eachMessage, bind_eq_ok, pure_eq_ok, Except.ok.injEq, Prod.exists, Prod.mk.injEq] at h
    obtain ⟨r, c1, h1, c2, h2, rs', c3, h3, _, rfl⟩ := h
    have e1 := encodeOne_ctx c m (hf m (by simp)) [] r c1 (by rw [List.append_nil]; exact h1)
    have e2 := ih (fun m hm => hf m (by simp [hm])) c2 c3 rs' h3
    rw [e2, hu _ _ _ h2, e1.2.1]
    rfl

/-- **C46.** A win message reports the tracked reason. -/
theorem C46_win_reports (c : BasicContext) (w reason : UInt8) (n : Nat) (hn : c.matchWinReason = some n) (more : List UInt8) :
    encodeOne c ((CoreMsg.win w reason).bytes ++ more) = .ok (⟨.ok, 3,
      some ⟨.event (.finish ⟨reason.toNat, n, if w = 2 then .draw true else .winner w.toNat⟩), []⟩⟩, c) := by
  rw [C34_translation_in_context c (.win w reason) trivial _ rfl]
  simp only [EncodeContext.getMatchWinReason, hn]
  rfl

/-- **C46.** Without an announcement the member is read uninitialised. -/
theorem C46_win_without_announcement (c : BasicContext) (w reason : UInt8) (hn : c.matchWinReason = none) (more : List UInt8) :
    encodeOne c ((CoreMsg.win w reason).bytes ++ more) = .error .ub := by
  rw [C34_translation_in_context c (.win w reason) trivial _ rfl]
  simp only [EncodeContext.getMatchWinReason, hn]
  rfl

/-- **C46.** Applying messages to the tracked board leaves the reason and the deferred materials alone. -/
theorem C46_parse_keeps (c c' : BasicContext) (m : Msg) (h : c.parse m = .ok c') :
    c'.matchWinReason = c.matchWinReason ∧ c'.deferred = c.deferred := by
  simp only [BasicContext.parse, bind_eq_ok, pure_eq_ok, Except.ok.injEq] at h
  split at h <;> simp only [bind_eq_ok, pure_eq_ok, Except.ok.injEq] at h
  · obtain ⟨_, _, _, _, rfl⟩ := h
    exact ⟨rfl, rfl⟩
  · obtain ⟨_, _, _, _, rfl⟩ := h
    exact ⟨rfl, rfl⟩

/-- Two announcements, then a win. -/
example : ∃ x, eachMessage (fun c _ => .ok c) BasicContext.init [.matchKill 3, .matchKill 8, .newTurn 1, .win 1 2] = .ok x ∧
    (x.1.map (·.msg))[3]? = some (some ⟨.event (.finish ⟨2, 8, .winner 1⟩), []⟩) := ⟨_, rfl, rfl⟩

end Ygo.Props
