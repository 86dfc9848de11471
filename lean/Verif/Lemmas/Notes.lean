import Verif.Spec.Notes
import Verif.Props.Exact
import Verif.Props.Pace
import Verif.Props.Rewind
import Verif.Props.Update

namespace Ygo.Props
open Ygo Ygo.Spec Ygo.P

set_option linter.unusedSimpArgs false

/-- What is written down about a card that moves. -/
def MoveNotes (c : BasicContext) (p q l s : Place) : Prop :=
  ¬ InPile p.loc ∧ HasBeneath c p ∧
    ((moveKind p q = .removed ∧ l = p ∧ s = Place.zero) ∨ (moveKind p q = .plain ∧ InPile q.loc ∧ l = q ∧ s = p))

theorem hasXyzMat_iff (c : BasicContext) (p : Place) : EncodeContext.hasXyzMat c p = .ok true ↔ HasBeneath c p := by
  show (do let k ← p.zoneKey; return !(c.board.frame.layout.zone k).materials.isEmpty) = Except.ok true ↔ _
  unfold HasBeneath
  have e : ∀ k, p.zoneKey = .ok k ↔ p.con = k.con.val ∧ p.loc = k.loc.code ∧ p.seq = k.seq := fun k => by
    simp only [Place.zoneKey, zoneKey_eq_ok]
  cases h : p.zoneKey with
  | error x =>
    refine ⟨fun h => (by cases h), ?_⟩
    rintro ⟨k, h1, h2, h3, -⟩
    rw [(e k).mpr ⟨h1, h2, h3⟩] at h
    cases h
  | ok k =>
    have hk := (e k).mp h
    constructor
    · intro h
      refine ⟨k, hk.1, hk.2.1, hk.2.2, fun h0 => ?_⟩
      have h0 : (c.board.frame.layout.zone k).materials = [] := h0
      simp only [bind_ok, h0] at h
      cases h
    · rintro ⟨k', h1, h2, h3, h4⟩
      have := (e k').mpr ⟨h1, h2, h3⟩
      rw [h] at this
      cases this
      have h4 : (c.board.frame.layout.zone k).materials ≠ [] := h4
      cases hm : (c.board.frame.layout.zone k).materials with
      | nil => exact absurd hm h4
      | cons x xs => rw [bind_ok, hm]; rfl

/-- How the notes change. -/
inductive LeftStep (c c' : BasicContext) (N : Place → Place → Prop) : Prop
  | none (h : c'.left = c.left) (hn : ∀ l s, ¬ N l s)
  | one (l0 s0 : Place) (h : c'.left = fun x => if x = l0 then some s0 else c.left x) (hn : ∀ l s, N l s ↔ l = l0 ∧ s = s0)

theorem moveOutcome_left (c : BasicContext) (p q : Place) (n : Nat) (o : Outcome) (c' : BasicContext)
    (h : moveOutcome c p q n = .ok (o, c')) : LeftStep c c' (MoveNotes c p q) := by
  have no : ∀ {k : MoveKind}, moveKind p q = k → k ≠ .removed → k ≠ .plain → ∀ l s, ¬ MoveNotes c p q l s := by
    rintro k hk h1 h2 l s ⟨-, -, ⟨h, -⟩ | ⟨h, -⟩⟩
    · exact h1 (hk.symm.trans h)
    · exact h2 (hk.symm.trans h)
  by_cases h1 : p.loc = 0
  · by_cases h2 : q.loc = 0
    · have hk := (C39_kinds p q).1.mpr ⟨h1, h2⟩
      simp only [moveOutcome, h1, h2, and_self, if_true, Except.ok.injEq, Prod.mk.injEq] at h
      rw [← h.2]; exact .none rfl (no hk (by decide) (by decide))
    · have hk := (C39_kinds p q).2.1.mpr ⟨h1, h2⟩
      simp only [moveOutcome, h1, h2, and_false, if_true, if_false, Except.ok.injEq, Prod.mk.injEq] at h
      rw [← h.2]; exact .none rfl (no hk (by decide) (by decide))
  by_cases h2 : q.loc = 0
  · have hk := (C39_kinds p q).2.2.1.mpr ⟨h1, h2⟩
    simp only [moveOutcome, h1, h2, false_and, if_true, if_false] at h
    split at h
    · next hp =>
      cases h
      refine .none rfl ?_
      rintro l s ⟨h, -⟩
      exact h ((pileLoc_iff p).mp hp)
    · next hp =>
      have hp : ¬ InPile p.loc := fun h => hp ((pileLoc_iff p).mpr h)
      cases hh : EncodeContext.hasXyzMat c p with
      | error e => rw [hh] at h; cases h
      | ok b =>
        rw [hh] at h
        cases b with
        | false =>
          cases h
          refine .none rfl ?_
          rintro l s ⟨-, h, -⟩
          rw [(hasXyzMat_iff c p).mpr h] at hh
          cases hh
        | true =>
          cases h
          refine .one p Place.zero rfl fun l s => ⟨?_, ?_⟩
          · rintro ⟨-, -, ⟨-, rfl, rfl⟩ | ⟨h, -⟩⟩
            · exact ⟨rfl, rfl⟩
            · rw [hk] at h; cases h
          · rintro ⟨rfl, rfl⟩
            exact ⟨hp, (hasXyzMat_iff c _).mp hh, .inl ⟨hk, rfl, rfl⟩⟩
  by_cases h3 : InPile q.loc ∧ 0 ≤ q.oseq
  · have hk := (C39_kinds p q).2.2.2.1.mpr ⟨h1, h2, h3⟩
    have e1 := (pileLoc_iff q).mpr h3.1
    have e2 : ¬ q.oseq < 0 := by omega
    simp only [moveOutcome, h1, h2, e1, e2, false_and, if_true, if_false, not_false_eq_true, and_self, Except.ok.injEq, Prod.mk.injEq] at h
    rw [← h.2]; exact .none rfl (no hk (by decide) (by decide))
  by_cases h4 : ¬ InPile q.loc ∧ q.oseq < 0
  · have hk := (C39_kinds p q).2.2.2.2.1.mpr ⟨h1, h2, h4⟩
    have e1 := (pileLoc_false_iff q).mpr h4.1
    have e2 := h4.2
    simp only [moveOutcome, h1, h2, e1, e2, false_and, and_false, if_true, if_false, not_true_eq_false, and_self, Except.ok.injEq, Prod.mk.injEq] at h
    rw [← h.2]; exact .none rfl (no hk (by decide) (by decide))
  have e3 : ¬ (¬ q.oseq < 0 ∧ q.isPile = true) := by
    rintro ⟨a, b⟩
    exact h3 ⟨(pileLoc_iff q).mp b, by omega⟩
  have e4 : ¬ (q.oseq < 0 ∧ q.isPile = false) := by
    rintro ⟨a, b⟩
    exact h4 ⟨(pileLoc_false_iff q).mp b, a⟩
  have hq : InPile q.loc ↔ q.oseq < 0 := by
    constructor
    · intro a
      by_contra b
      exact h3 ⟨a, by omega⟩
    · intro a
      by_contra b
      exact h4 ⟨b, a⟩
  by_cases h5 : InPile p.loc ∧ 0 ≤ p.oseq
  · have hk := (C39_kinds p q).2.2.2.2.2.1.mpr ⟨h1, h2, hq, h5⟩
    have e5 : ¬ p.oseq < 0 ∧ p.isPile = true := ⟨by omega, (pileLoc_iff p).mpr h5.1⟩
    simp only [moveOutcome, h1, h2, false_and, if_false] at h
    rw [if_neg e3, if_neg e4, if_pos e5] at h
    simp only [bind_eq_ok, pure_eq_ok, Except.ok.injEq, Prod.mk.injEq] at h
    obtain ⟨_, _, _, rfl⟩ := h
    exact .none rfl (no hk (by decide) (by decide))
  · have hk := (C39_kinds p q).2.2.2.2.2.2.mpr ⟨h1, h2, hq, h5⟩
    have e5 : ¬ (¬ p.oseq < 0 ∧ p.isPile = true) := by
      rintro ⟨a, b⟩
      exact h5 ⟨(pileLoc_iff p).mp b, by omega⟩
    simp only [moveOutcome, h1, h2, false_and, if_false] at h
    rw [if_neg e3, if_neg e4, if_neg e5] at h
    split at h
    · next hp =>
      have hp1 : ¬ InPile p.loc := (pileLoc_false_iff p).mp hp.1
      have hp2 : InPile q.loc := (pileLoc_iff q).mp hp.2
      cases hh : EncodeContext.hasXyzMat c p with
      | error e => rw [hh] at h; cases h
      | ok b =>
        rw [hh] at h
        cases b with
        | false =>
          cases h
          refine .none rfl ?_
          rintro l s ⟨-, h, -⟩
          rw [(hasXyzMat_iff c p).mpr h] at hh
          cases hh
        | true =>
          cases h
          refine .one q p rfl fun l s => ⟨?_, ?_⟩
          · rintro ⟨-, -, ⟨h, -⟩ | ⟨-, -, rfl, rfl⟩⟩
            · rw [hk] at h; cases h
            · exact ⟨rfl, rfl⟩
          · rintro ⟨rfl, rfl⟩
            exact ⟨hp1, (hasXyzMat_iff c _).mp hh, .inr ⟨hk, hp2, rfl, rfl⟩⟩
    · next hp =>
      cases h
      refine .none rfl ?_
      rintro l s ⟨ha, -, ⟨h, -⟩ | ⟨-, hb, -⟩⟩
      · rw [hk] at h; cases h
      · exact hp ⟨(pileLoc_false_iff p).mpr ha, (pileLoc_iff q).mpr hb⟩

theorem encodeOne_left (c : BasicContext) (m : CoreMsg) (hf : m.Fits) (more : List UInt8) (r : Encoded) (c' : BasicContext)
    (h : encodeOne c (m.bytes ++ more) = .ok (r, c')) : LeftStep c c' (Notes c m) := by
  cases hm : m.meaning with
  | some y =>
    rw [C34_translation c m hf y hm] at h
    cases h
    cases m <;> first | exact .none rfl (fun _ _ h => h) | cases hm
  | none =>
    cases hx : m.inContext c with
    | some y =>
      rw [C34_translation_in_context c m hf y hx] at h
      cases m <;> simp only [CoreMsg.inContext, reduceCtorEq] at hx <;> cases hx <;>
        simp only [bind_eq_ok, pure_eq_ok, Except.ok.injEq, Prod.mk.injEq] at h
      case none.some.matchKill.refl =>
        obtain ⟨_, rfl, _, rfl⟩ := h
        exact .none rfl (fun _ _ h => h)
      case none.some.win.refl =>
        obtain ⟨_, ⟨_, _, rfl⟩, _, rfl⟩ := h
        exact .none rfl (fun _ _ h => h)
      case none.some.deckTop.refl =>
        obtain ⟨_, ⟨_, _, rfl⟩, _, rfl⟩ := h
        exact .none rfl (fun _ _ h => h)
      case none.some.draw.refl =>
        obtain ⟨_, ⟨_, _, _, _, rfl⟩, _, rfl⟩ := h
        exact .none rfl (fun _ _ h => h)
      case none.some.reverseDeck.refl =>
        obtain ⟨_, ⟨_, _, _, _, rfl⟩, _, rfl⟩ := h
        exact .none rfl (fun _ _ h => h)
    | none =>
      cases m <;> try cases hm
      all_goals try cases hx
      case none.none.swapGraveDeck.refl.refl p pos mask =>
        obtain ⟨o, rest, hb, rfl⟩ := encodeOne_eq h
        simp only [CoreMsg.bytes, List.append_assoc, List.cons_append, List.nil_append] at hb
        rw [body_context' c rfl rfl rfl rfl rfl rfl] at hb
        obtain ⟨o', t, h1, h2⟩ := bind_eq_ok_iff.mp hb
        simp only [pure_run, Except.ok.injEq, Prod.mk.injEq] at h2
        obtain ⟨⟨_, rfl⟩, _⟩ := h2
        exact .none rfl (fun _ _ h => h)
      case none.none.move.refl.refl code a b n =>
        rw [encodeOne_move] at h
        simp only [bind_eq_ok, pure_eq_ok, Except.ok.injEq, Prod.mk.injEq] at h
        obtain ⟨⟨o, c1⟩, ho, _, rfl⟩ := h
        exact moveOutcome_left c a.place b.place _ o c1 ho

theorem parse_left {c c' : BasicContext} {m : Msg} (h : c.parse m = .ok c') : c'.left = c.left := by
  obtain ⟨b, st, -, -, rfl⟩ := parse_parts h
  rfl

/-- One message. -/
theorem feed_single {c c' : BasicContext} {m : CoreMsg} (hf : m.Fits) {rs : List Encoded} (h : feed c [m.bytes] = .ok (rs, c')) :
    LeftStep c c' (Notes c m) := by
  obtain ⟨r, c1, c2, rs', h1, -, h2, h3, rfl⟩ := feed_cons h
  cases h3
  have e : c'.left = c1.left := by
    cases hm : r.msg with
    | none => rw [hm] at h2; cases h2; rfl
    | some m => rw [hm] at h2; exact parse_left h2
  have := encodeOne_left c m hf [] r c1 (by rw [List.append_nil]; exact h1)
  cases this with
  | none h hn => exact .none (e.trans h) hn
  | one l s h hn => exact .one l s (e.trans h) hn

theorem LeftStep.iff {c c' : BasicContext} {N : Place → Place → Prop} (h : LeftStep c c' N) (l s : Place) :
    c'.left l = some s ↔ N l s ∨ (c.left l = some s ∧ ∀ s', ¬ N l s') := by
  cases h with
  | none h hn => simp [h, hn]
  | one l0 s0 h hn =>
    rw [h]
    simp only [hn]
    by_cases e : l = l0
    · subst e
      simp only [if_true, Option.some.injEq, true_and]
      constructor
      · rintro rfl; exact .inl rfl
      · rintro (rfl | ⟨-, h⟩)
        · rfl
        · exact absurd rfl (h s0)
    · simp [e]

theorem _root_.Ygo.Spec.After.unique {ms : List CoreMsg} {i : Nat} {c d : BasicContext} (h : After ms i c) (k : After ms i d) : c = d := by
  obtain ⟨rs, h⟩ := h
  obtain ⟨rs', k⟩ := k
  rw [h] at k
  cases k
  rfl

/-- The server after one more message. -/
theorem _root_.Ygo.Spec.After.succ {ms : List CoreMsg} {i : Nat} {m : CoreMsg} {c d : BasicContext} (hm : ms[i]? = some m) (hc : After ms i c) (hd : After ms (i + 1) d) :
    ∃ rs, feed c [m.bytes] = .ok (rs, d) := by
  obtain ⟨rs, hc⟩ := hc
  obtain ⟨rs', hd⟩ := hd
  rw [List.take_add_one, hm, Option.toList_some, List.map_append, List.map_cons, List.map_nil, feed_append, hc, bind_ok] at hd
  cases h : feed c [m.bytes] with
  | error e => rw [h] at hd; cases hd
  | ok y =>
    rw [h] at hd
    cases hd
    exact ⟨_, rfl⟩

/-- There is such a server for every number of messages. -/
theorem _root_.Ygo.Spec.After.before {ms : List CoreMsg} {n : Nat} {c : BasicContext} (h : After ms n c) {i : Nat} (hi : i ≤ n) : ∃ d, After ms i d := by
  obtain ⟨rs, h⟩ := h
  obtain ⟨d, hd⟩ := feed_take h i
  rw [← List.map_take, List.take_take, Nat.min_eq_left hi] at hd
  exact ⟨d, _, hd⟩

end Ygo.Props
