import Verif.Spec.Stream
import Verif.Lemmas.Encode
import Verif.Lemmas.Ext

/-!
# The encoder's result, and messages that depend on the context
-/

set_option linter.unusedSimpArgs false

namespace Ygo
open P Spec

/-! ## What results look like -/

/-- Everything `p` can return satisfies `Q`. -/
def Gives {α : Type} (Q : α → Prop) (p : P α) : Prop := ∀ s a r, p s = .ok (a, r) → Q a

namespace Gives
variable {α β : Type}

theorem pure {Q : α → Prop} {a : α} (h : Q a) : Gives Q (Pure.pure a : P α) := by
  intro s b r e
  simp only [pure_run, Except.ok.injEq, Prod.mk.injEq] at e
  rw [← e.1]; exact h

theorem bind {Q : β → Prop} {p : P α} {f : α → P β} (hf : ∀ a, Gives Q (f a)) : Gives Q (p >>= f) := by
  intro s b r h
  obtain ⟨a, t, _, h2⟩ := bind_eq_ok_iff.mp h
  exact hf a _ _ _ h2

theorem ite {Q : α → Prop} {c : Prop} [Decidable c] {p q : P α} (hp : Gives Q p) (hq : Gives Q q) : Gives Q (if c then p else q) := by
  split <;> assumption

/-- A message with the state that goes with it. -/
def Told (o : Outcome) : Prop := o.state = .ok ∧ o.msg.isSome = true

/-- State and message go together. -/
def Sound (o : Outcome) : Prop := (o.state = .ok ∧ o.msg.isSome = true) ∨ (o.state ≠ .ok ∧ o.msg = none)

macro "gives_tac" : tactic => `(tactic| repeat' (first
  | exact Gives.pure ⟨rfl, rfl⟩
  | with_reducible refine Gives.bind fun _ => ?_
  | with_reducible refine Gives.ite ?_ ?_))

theorem eventCase (k : Kind) (p : P Outcome) (h : eventCase k = some p) : Gives Told p := by
  cases k <;> simp only [Ygo.eventCase, Option.some.injEq, reduceCtorEq] at h <;> subst h <;>
    (try unfold summoningEvent) <;> (try unfold selectedEvent) <;> (try unfold lpEvent) <;> (try unfold startEvent) <;>
    (try unfold tagSwapEvent) <;> (try unfold reloadEvent) <;> gives_tac

theorem queryCase (k : Kind) (p : P Outcome) (h : queryCase k = some p) : Gives Told p := by
  cases k <;> simp only [Ygo.queryCase, Option.some.injEq, reduceCtorEq] at h <;> subst h <;> gives_tac

section
variable {C : Type} [EncodeContext C]

theorem moveOutcome (c : C) (prev curr : Place) (reason : Nat) (x : Outcome × C) (h : moveOutcome c prev curr reason = .ok x) :
    Sound x.1 := by
  have t : ∀ e, Sound (.event e) := fun e => Or.inl ⟨rfl, rfl⟩
  have w : Sound .swallowed := Or.inr ⟨by decide, rfl⟩
  unfold Ygo.moveOutcome at h
  split at h
  · cases h; exact w
  split at h
  · cases h; exact t _
  split at h
  · split at h <;> simp only [bind_eq_ok, pure_eq_ok, Except.ok.injEq] at h <;> obtain ⟨_, _, h⟩ := h
    · subst h; exact t _
    · obtain ⟨_, _, rfl⟩ := h; exact t _
  split at h
  · cases h; exact w
  split at h
  · cases h; exact t _
  split at h
  · simp only [bind_eq_ok, pure_eq_ok, Except.ok.injEq] at h
    obtain ⟨_, _, rfl⟩ := h
    exact t _
  · split at h <;> simp only [bind_eq_ok, pure_eq_ok, Except.ok.injEq] at h <;> obtain ⟨_, _, h⟩ := h
    · obtain ⟨_, _, rfl⟩ := h; exact t _
    · subst h; exact t _

theorem contextCase (c : C) (k : Kind) (p : P (Outcome × C)) (h : contextCase c k = some p) : Gives (fun x => Sound x.1) p := by
  have lft : ∀ a b n, Gives (fun x : Outcome × C => Sound x.1) (P.lift (Ygo.moveOutcome c a b n)) := by
    intro a b n s x r e
    exact moveOutcome c a b n x (lift_eq_ok.mp e).1
  have told : ∀ {q : P Outcome}, Gives Told q → Gives (fun x : Outcome × C => Sound x.1) (q >>= fun o => Pure.pure (o, c)) := by
    intro q hq s x r e
    obtain ⟨o, t, h1, h2⟩ := bind_eq_ok_iff.mp e
    simp only [pure_run, Except.ok.injEq, Prod.mk.injEq] at h2
    rw [← h2.1]
    exact Or.inl (hq _ _ _ h1)
  have w : Sound .swallowed := Or.inr ⟨by decide, rfl⟩
  cases k <;> simp only [Ygo.contextCase, Option.some.injEq, reduceCtorEq] at h <;> subst h
  case win => exact told (by unfold winEvent; gives_tac)
  case deckTop => exact told (by unfold deckTopEvent; gives_tac)
  case move => exact bind fun _ => bind fun _ => bind fun _ => bind fun _ => lft _ _ _
  case swapGraveDeck => exact told (by unfold swapGraveDeckEvent; gives_tac)
  case draw => exact told (by unfold drawEvent; gives_tac)
  case reverseDeck => exact told (by unfold reverseDeckEvent; gives_tac)
  case matchKill => exact bind fun _ => pure w

theorem encodeBody (c : C) : Gives (fun x => Sound x.1) (encodeBody c) := by
  have told : ∀ {q : P Outcome}, Gives Told q → Gives (fun x : Outcome × C => Sound x.1) (q >>= fun o => Pure.pure (o, c)) := by
    intro q hq s x r e
    obtain ⟨o, t, h1, h2⟩ := bind_eq_ok_iff.mp e
    simp only [pure_run, Except.ok.injEq, Prod.mk.injEq] at h2
    rw [← h2.1]
    exact Or.inl (hq _ _ _ h1)
  have u : Sound ({} : Outcome) := Or.inr ⟨by decide, rfl⟩
  have w : Sound .swallowed := Or.inr ⟨by decide, rfl⟩
  unfold Ygo.encodeBody
  refine bind fun b => ?_
  split
  · next k _ =>
    unfold Ygo.encodeCase
    split
    · exact told (eventCase _ _ ‹Ygo.eventCase k = some _›)
    · exact told (queryCase _ _ ‹Ygo.queryCase k = some _›)
    · exact bind fun _ => bind fun _ => pure (Or.inl ⟨rfl, rfl⟩)
    · exact bind fun _ => pure w
    · exact contextCase c _ _ ‹Ygo.contextCase c k = some _›
    · exact pure u
  · exact pure u

end
end Gives

/-! ## Messages that depend on the context -/

section
variable {C : Type} [EncodeContext C]

/-- A result followed by the rest of the input. -/
def told (x : Res (CoreMsg.Meaning × C)) (s : List UInt8) : Res ((Outcome × C) × List UInt8) := do
  let (m, c) ← x
  return ((⟨m.state, m.msg⟩, c), s)

theorem body_context' (c : C) {b : UInt8} {k : Kind} {p : P (Outcome × C)} {s : List UInt8} (hk : Kind.ofByte b.toNat = some k)
    (he : eventCase k = none) (hq : queryCase k = none) (hf : requestCase k = none) (hs : swallowedCase k = none)
    (hc : contextCase c k = some p) : encodeBody c (b :: s) = p s := by
  have : read 1 (b :: s) = .ok (b.toNat, s) := read_b8 b s
  unfold encodeBody
  rw [bind_run_ok this, hk]
  have e : encodeCase c k = p := by unfold encodeCase; rw [he, hq, hf, hs, hc]
  simp only [e]

theorem body_inContext (c : C) (m : CoreMsg) (hf : m.Fits) {x : Res (CoreMsg.Meaning × C)} (hm : m.inContext c = some x) (s : List UInt8) :
    encodeBody c (m.bytes ++ s) = told x s := by
  cases m <;> simp only [CoreMsg.inContext, Option.some.injEq, reduceCtorEq] at hm <;> subst hm <;>
    simp only [CoreMsg.bytes, List.append_assoc, List.cons_append, List.nil_append]
  case win w r =>
    rw [body_context' c rfl rfl rfl rfl rfl rfl]
    have hw : w.toNat = 2 ↔ w = 2 := by rw [← UInt8.toNat_inj]; rfl
    cases h : EncodeContext.getMatchWinReason c with
    | error e => simp [winEvent, bind_run, h, told, Bind.bind, Except.bind]
    | ok n => simp [winEvent, bind_run, h, told, Bind.bind, Except.bind, hw]; rfl
  case deckTop p seq code pos =>
    rw [body_context' c rfl rfl rfl rfl rfl rfl]
    cases h : EncodeContext.pileSize c p.toNat 1 with
    | error e => simp [deckTopEvent, bind_run, h, told, Bind.bind, Except.bind]
    | ok n => simp [deckTopEvent, bind_run, h, told, Bind.bind, Except.bind]; rfl
  case reverseDeck =>
    rw [body_context' c rfl rfl rfl rfl rfl rfl]
    cases h : EncodeContext.pileSize c 0 1 with
    | error e => simp [reverseDeckEvent, bind_run, h, told, Bind.bind, Except.bind]
    | ok n =>
      cases h' : EncodeContext.pileSize c 1 1 with
      | error e => simp [reverseDeckEvent, bind_run, h, h', told, Bind.bind, Except.bind]
      | ok n' => simp [reverseDeckEvent, bind_run, h, h', told, Bind.bind, Except.bind]; rfl
  case draw p cs =>
    rw [body_context' c rfl rfl rfl rfl rfl rfl]
    have hev : drawEvent c (b8 p ++ (list32 CoreMsg.pair32 cs ++ s)) = (do
        let deck ← lift (EncodeContext.pileSize c p.toNat 1)
        let hand ← lift (EncodeContext.pileSize c p.toNat 2)
        return .event (.pile 0x2000000 (.splice
          [⟨⟨p.toNat, 1, in32 (deck - cs.length), -1⟩, cs.length, ⟨p.toNat, 2, in32 hand, -1⟩, true⟩])) : P Outcome) s := by
      unfold drawEvent
      rw [bind_run_ok (readCon_b8 _ _), list32, List.append_assoc, bind_run_ok (read_cnt4 _ hf),
        bind_run_ok (skipMany_map (p := (do skip 4; skip 4)) cs s fun x _ s => skip_pair x s)]
      rfl
    rw [bind_run, hev]
    cases h : EncodeContext.pileSize c p.toNat 1 with
    | error e => simp [bind_run, h, told, Bind.bind, Except.bind]
    | ok n =>
      cases h' : EncodeContext.pileSize c p.toNat 2 with
      | error e => simp [bind_run, h, h', told, Bind.bind, Except.bind]
      | ok n' => simp [bind_run, h, h', told, Bind.bind, Except.bind]; rfl
  case matchKill r =>
    rw [body_context' c rfl rfl rfl rfl rfl rfl]
    simp [bind_run, told, Bind.bind, Except.bind]
    rfl

/-- A move message is read as its two places and its reason. -/
theorem body_move (c : C) (code : UInt32) (a b : LocInfo) (r : UInt32) (s : List UInt8) :
    encodeBody c ((CoreMsg.move code a b r).bytes ++ s) = (do let x ← moveOutcome c a.place b.place r.toNat; return (x, s)) := by
  simp only [CoreMsg.bytes, List.append_assoc, List.cons_append, List.nil_append]
  rw [body_context' c rfl rfl rfl rfl rfl rfl]
  simp only [bind_run, skip_b32, readLocInfo_bytes, read_b32]
  cases moveOutcome c a.place b.place r.toNat <;> rfl

theorem flatMap_b8 (xs : List UInt8) : xs.flatMap b8 = xs := by
  induction xs with
  | nil => rfl
  | cons x xs ih => rw [List.flatMap_cons, ih]; rfl

/-- A message that swaps graveyard and deck is read as its player, position and mask. -/
theorem body_swapGraveDeck (c : C) (p : UInt8) (pos : UInt32) (mask : List UInt8) (hf : mask.length < 2 ^ 32) (s : List UInt8)
    (gy deck : Nat) (ops : List SpliceOp) (hg : EncodeContext.pileSize c p.toNat 0x10 = .ok gy)
    (hd : EncodeContext.pileSize c p.toNat 1 = .ok deck) (hgy : gy < 2 ^ 32)
    (hl : graveLoop p.toNat pos.toNat gy 0 0 0 0 (mask ++ s) = .ok (ops, mask ++ s)) :
    encodeBody c ((CoreMsg.swapGraveDeck p pos mask).bytes ++ s) = .ok ((.event (.pile 0 (.splice (
      (if gy > 0 then [⟨⟨p.toNat, 0x10, 0, -1⟩, wrap32 gy, ⟨p.toNat, 1, 0, -1⟩, false⟩] else []) ++
      (if deck > 0 then [⟨⟨p.toNat, 1, wrap32 gy, -1⟩, wrap32 deck, ⟨p.toNat, 0x10, 0, -1⟩, false⟩] else []) ++ ops))), c), s) := by
  simp only [CoreMsg.bytes, List.append_assoc, List.cons_append, List.nil_append]
  rw [body_context' c rfl rfl rfl rfl rfl rfl]
  have e : list32 b8 mask ++ s = le 4 mask.length ++ (mask ++ s) := by
    simp [list32, flatMap_b8]
  unfold swapGraveDeckEvent
  have h2 := read_cnt4 (mask ++ s) hf
  have h3 : skip mask.length (mask ++ s) = .ok ((), s) := skip_append rfl
  have hn : ¬ (gy ≥ 2 ^ 32) := by omega
  have hev : swapGraveDeckEvent c (b8 p ++ (b32 pos ++ (list32 b8 mask ++ s))) = .ok (.event (.pile 0 (.splice (
      (if gy > 0 then [⟨⟨p.toNat, 0x10, 0, -1⟩, wrap32 gy, ⟨p.toNat, 1, 0, -1⟩, false⟩] else []) ++
      (if deck > 0 then [⟨⟨p.toNat, 1, wrap32 gy, -1⟩, wrap32 deck, ⟨p.toNat, 0x10, 0, -1⟩, false⟩] else []) ++ ops))), s) := by
    unfold swapGraveDeckEvent
    rw [e, bind_run_ok (readCon_b8 _ _), bind_run_ok (read_b32 _ _), bind_run_ok h2, hg, bind_run_ok (lift_ok _ _), hd,
      bind_run_ok (lift_ok _ _), bind_run_ok hl, if_neg hn]
    exact (bind_run_ok h3).trans rfl
  refine (bind_run_ok hev).trans ?_
  simp only [pure_run, List.append_assoc]

/-- Whatever the message, if it is read at all it is read to its end. -/
theorem body_rest (c : C) (m : CoreMsg) (hf : m.Fits) (s : List UInt8) (x : Outcome × C) (r : List UInt8)
    (h : encodeBody c (m.bytes ++ s) = .ok (x, r)) : r = s := by
  cases hm : m.meaning with
  | some y =>
    rw [body_meaning c m hf hm] at h
    cases h; rfl
  | none =>
    cases hx : m.inContext c with
    | some y =>
      rw [body_inContext c m hf hx] at h
      unfold told at h
      simp only [bind_eq_ok, pure_eq_ok, Except.ok.injEq, Prod.mk.injEq] at h
      obtain ⟨_, _, _, rfl⟩ := h
      rfl
    | none =>
      cases m <;> try cases hm
      all_goals try cases hx
      case none.none.swapGraveDeck.refl.refl p pos mask =>
        simp only [CoreMsg.bytes, List.append_assoc, List.cons_append, List.nil_append] at h
        rw [body_context' c rfl rfl rfl rfl rfl rfl] at h
        have e : list32 b8 mask ++ s = le 4 mask.length ++ (mask ++ s) := by
          simp [list32, flatMap_b8]
        obtain ⟨o, t, h1, h2⟩ := bind_eq_ok_iff.mp h
        simp only [pure_run, Except.ok.injEq, Prod.mk.injEq] at h2
        obtain ⟨-, rfl⟩ := h2
        unfold swapGraveDeckEvent at h1
        rw [e, bind_run_ok (readCon_b8 _ _), bind_run_ok (read_b32 _ _), bind_run_ok (read_cnt4 (mask ++ s) hf)] at h1
        obtain ⟨gy, t1, h3, h4⟩ := bind_eq_ok_iff.mp h1
        obtain ⟨hgy, rfl⟩ := lift_eq_ok.mp h3
        obtain ⟨deck, t2, h5, h6⟩ := bind_eq_ok_iff.mp h4
        obtain ⟨hdeck, rfl⟩ := lift_eq_ok.mp h5
        obtain ⟨ops, t3, h7, h8⟩ := bind_eq_ok_iff.mp h6
        obtain rfl := graveLoop_rest _ _ _ _ _ _ _ _ _ _ h7
        dsimp only at h8
        split at h8
        · obtain ⟨_, _, h9, _⟩ := bind_eq_ok_iff.mp h8
          cases h9
        · rw [bind_run_ok (skip_append rfl), pure_run] at h8
          cases h8; rfl
      case none.none.move.refl.refl code a b n =>
        rw [body_move] at h
        simp only [bind_eq_ok, pure_eq_ok, Except.ok.injEq, Prod.mk.injEq] at h
        obtain ⟨_, _, _, rfl⟩ := h
        rfl

end
end Ygo
