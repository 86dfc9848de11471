import Verif.Spec.Score
import Verif.Props.System
import Verif.Props.Setup

/-!
# Turn, phase, life points and chain end to end (C69)
-/

set_option linter.unusedSimpArgs false

namespace Ygo.Props
open Ygo Spec P

/-- Score of a board. -/
def boardScore (b : PlainBoard) : Score := ⟨b.turn.val, b.turnController.val, b.phase.val, fun i => (b.lp i).val, b.chainStack.val⟩

/-- Events that do not touch the score. -/
def Quiet : Event → Prop
  | .board (.state _) | .chainStack _ | .nextTurn _ | .lp .. | .nextPhase _ => False
  | _ => True

theorem onFrame_score {b b' : PlainBoard} {ops : List FrameOp} (h : b.onFrame ops = .ok b') : boardScore b' = boardScore b := by
  simp only [DuelBoard.onFrame, bind_eq_ok, pure_eq_ok, Except.ok.injEq] at h
  obtain ⟨f, _, rfl⟩ := h
  rfl

theorem quiet_score {b b' : PlainBoard} {e : Event} (hq : Quiet e) (h : b.parseEvent e = .ok b') : boardScore b' = boardScore b := by
  cases e with
  | board e =>
    cases e with
    | unset => cases h; rfl
    | exchange e => exact onFrame_score h
    | state s => exact hq.elim
  | card r e => exact onFrame_score h
  | pile r e => exact onFrame_score h
  | chainStack e => exact hq.elim
  | nextTurn c => exact hq.elim
  | lp con c => exact hq.elim
  | nextPhase p => exact hq.elim
  | zoneBlock zs => cases h; rfl
  | finish | metaInfo | result | unset => cases h; rfl

/-- Only events that do not touch the score. -/
def QuietOutcome (o : Outcome) : Prop := ∀ m e, o.msg = some m → Msg.event? m = some e → Quiet e

theorem quiet_event {e : Event} (h : Quiet e) : QuietOutcome (.event e) := by
  rintro m e' hm he
  cases hm; cases he
  exact h

theorem quiet_swallowed : QuietOutcome .swallowed := by rintro m e hm; cases hm

theorem moveOutcome_quiet (c : BasicContext) (prev curr : Place) (reason : Nat) (x : Outcome × BasicContext)
    (h : moveOutcome c prev curr reason = .ok x) : QuietOutcome x.1 := by
  have w := quiet_swallowed
  have t : ∀ r e, QuietOutcome (.event (.card r e)) := fun _ _ => quiet_event trivial
  unfold Ygo.moveOutcome at h
  split at h
  · cases h; exact w
  split at h
  · cases h; exact t _ _
  split at h
  · split at h <;> simp only [bind_eq_ok, pure_eq_ok, Except.ok.injEq] at h <;> obtain ⟨_, _, h⟩ := h
    · subst h; exact t _ _
    · obtain ⟨_, _, rfl⟩ := h; exact t _ _
  split at h
  · cases h; exact w
  split at h
  · cases h; exact t _ _
  split at h
  · simp only [bind_eq_ok, pure_eq_ok, Except.ok.injEq] at h
    obtain ⟨_, _, rfl⟩ := h
    exact t _ _
  · split at h <;> simp only [bind_eq_ok, pure_eq_ok, Except.ok.injEq] at h <;> obtain ⟨_, _, h⟩ := h
    · obtain ⟨_, _, rfl⟩ := h; exact t _ _
    · subst h; exact t _ _

theorem contextCase_quiet (c : BasicContext) (k : Kind) (p : P (Outcome × BasicContext)) (h : contextCase c k = some p) :
    Gives (fun x => QuietOutcome x.1) p := by
  have kept : ∀ {q : P Outcome}, Gives QuietOutcome q → Gives (fun x : Outcome × BasicContext => QuietOutcome x.1) (q >>= fun o => Pure.pure (o, c)) :=
    fun hq => Gives.bind' hq fun _ h => Gives.pure h
  cases k <;> simp only [contextCase, Option.some.injEq, reduceCtorEq] at h <;> subst h
  case move =>
    refine Gives.bind fun _ => Gives.bind fun _ => Gives.bind fun _ => Gives.bind fun _ => ?_
    intro s x r e
    exact moveOutcome_quiet c _ _ _ x (lift_eq_ok.mp e).1
  case matchKill => exact Gives.bind fun _ => Gives.pure quiet_swallowed
  all_goals
    refine kept ?_
    first | unfold winEvent | unfold deckTopEvent | unfold swapGraveDeckEvent | unfold drawEvent | unfold reverseDeckEvent
    repeat' (first
    | exact Gives.pure (quiet_event trivial)
    | with_reducible refine Gives.bind fun _ => ?_
    | with_reducible refine Gives.ite ?_ ?_)

/-- Tracking a message that does not touch the score. -/
theorem track_quiet {c c' : BasicContext} {data : List UInt8} (h : track c data = .ok c')
    (hq : ∀ r c1, encodeOne c data = .ok (r, c1) → ∀ m e, r.msg = some m → Msg.event? m = some e → Quiet e) : scoreOf c' = scoreOf c := by
  unfold track at h
  rw [bind_eq_ok] at h
  obtain ⟨⟨r, c1⟩, h1, h⟩ := h
  have hs := (encodeOne_same h1)
  have hb : scoreOf c1 = scoreOf c := by unfold scoreOf; rw [hs.board]
  dsimp only at h
  cases hm : r.msg with
  | none => simp only [hm] at h; cases h; exact hb
  | some m =>
    simp only [hm] at h
    obtain ⟨b, st, hp, _, rfl⟩ := parse_parts h
    rw [← hb]
    show boardScore b = boardScore c1.board
    cases he : Msg.event? m with
    | none => rw [he] at hp; cases hp; rfl
    | some e => rw [he] at hp; exact quiet_score (hq r c1 h1 m e hm he) hp

theorem setLp_score (b : PlainBoard) (i : Fin 2) (p : UInt8) (hp : i.val = p.toNat) (f : Nat → Nat) :
    boardScore (b.setLp i ⟨f (b.lp i).val⟩) = (boardScore b).setLp p f := by
  unfold boardScore Score.setLp DuelBoard.setLp
  congr 1
  funext j
  by_cases h : j = i
  · subst h; simp [hp]
  · have : ¬ j.val = p.toNat := fun e => h (Fin.ext (e.trans hp.symm))
    simp [h, this]

theorem lp_score {b b' : PlainBoard} {p : UInt8} {ch : LPChange} (h : b.parseEvent (.lp p.toNat ch) = .ok b') :
    boardScore b' = (boardScore b).setLp p fun l => DuelBoard.lpAfter l ch := by
  simp only [DuelBoard.parseEvent, bind_eq_ok, pure_eq_ok, Except.ok.injEq] at h
  obtain ⟨i, hi, x, hx, rfl⟩ := h
  have hx : x = (b.lp i).val := by cases hx; rfl
  have hi : (p.toNat : Int) = i.val := lpIdx_eq_ok.mp hi
  subst hx
  exact setLp_score b i p (by omega) (fun l => DuelBoard.lpAfter l ch)

theorem sub_score (l n : Nat) : (if l < n then 0 else l - n) = l - n := by split <;> omega

theorem context_quiet (c : BasicContext) (m : CoreMsg) (hm : m.meaning = none) (more : List UInt8) (r : Encoded) (c1 : BasicContext)
    (h : encodeOne c (m.bytes ++ more) = .ok (r, c1)) : ∀ x e, r.msg = some x → Msg.event? x = some e → Quiet e := by
  obtain ⟨o, rest, hb, rfl⟩ := encodeOne_eq h
  suffices hq : QuietOutcome o from hq
  have go : ∀ {b : UInt8} (k : Kind) {p : P (Outcome × BasicContext)} {s : List UInt8}, Kind.ofByte b.toNat = some k → eventCase k = none →
      queryCase k = none → requestCase k = none → swallowedCase k = none → contextCase c k = some p →
      encodeBody c (b :: s) = .ok ((o, c1), rest) → QuietOutcome o := by
    intro b k p s h1 h2 h3 h4 h5 h6 hb
    rw [body_context' c h1 h2 h3 h4 h5 h6] at hb
    exact contextCase_quiet c k p h6 _ _ _ hb
  cases m <;> simp only [CoreMsg.meaning, reduceCtorEq] at hm
  all_goals simp only [CoreMsg.bytes, List.append_assoc, List.cons_append, List.nil_append] at hb
  case win => exact go .win rfl rfl rfl rfl rfl rfl hb
  case swapGraveDeck => exact go .swapGraveDeck rfl rfl rfl rfl rfl rfl hb
  case reverseDeck => exact go .reverseDeck rfl rfl rfl rfl rfl rfl hb
  case deckTop => exact go .deckTop rfl rfl rfl rfl rfl rfl hb
  case move => exact go .move rfl rfl rfl rfl rfl rfl hb
  case draw => exact go .draw rfl rfl rfl rfl rfl rfl hb
  case matchKill => exact go .matchKill rfl rfl rfl rfl rfl rfl hb

theorem meaning_quiet (c : BasicContext) (m : CoreMsg) (hf : m.Fits) (x : CoreMsg.Meaning) (hm : m.meaning = some x) (more : List UInt8)
    (hq : ∀ e, x = .event e → Quiet e) (r : Encoded) (c1 : BasicContext)
    (h : encodeOne c (m.bytes ++ more) = .ok (r, c1)) : ∀ y e, r.msg = some y → Msg.event? y = some e → Quiet e := by
  rw [C34_translation c m hf x hm more] at h
  cases h
  intro y e hy he
  cases x <;> cases hy <;> cases he
  exact hq _ rfl

/-- **C69.** After a message from the core is encoded and applied, the tracked score is the score after it. -/
theorem C69_score (c : BasicContext) (m : CoreMsg) (hf : m.Fits) (more : List UInt8) (c' : BasicContext)
    (h : track c (m.bytes ++ more) = .ok c') : scoreOf c' = (scoreOf c).after m := by
  have ev : ∀ e, m.meaning = some (.event e) → ∃ b, c.board.parseEvent e = .ok b ∧ scoreOf c' = boardScore b := by
    intro e he
    rw [track_event c m hf e he more] at h
    simp only [bind_eq_ok, pure_eq_ok, Except.ok.injEq] at h
    obtain ⟨b, hb, rfl⟩ := h
    exact ⟨b, hb, rfl⟩
  have other : ∀ x, m.meaning = some x → (∀ e, x = .event e → Quiet e) → scoreOf c' = scoreOf c :=
    fun x hx hq => track_quiet h fun r c1 => meaning_quiet c m hf x hx more hq r c1
  have ctx : m.meaning = none → scoreOf c' = scoreOf c := fun hm => track_quiet h fun r c1 => context_quiet c m hm more r c1
  cases m
  case start r l0 l1 m0 e0 m1 e1 =>
    obtain ⟨b, hb, hs⟩ := ev _ rfl
    rw [hs]
    simp only [DuelBoard.parseEvent, DuelBoard.parseState, bind_eq_ok] at hb
    obtain ⟨x, hx, y, hy, hb⟩ := hb
    cases hx; cases hy
    rw [onFrame_score hb]
    show Score.mk _ _ _ _ _ = Score.mk _ _ _ _ _
    congr 1
    funext i
    match i with
    | 0 => rfl
    | 1 => rfl
  case reloadField f a b links =>
    obtain ⟨b, hb, hs⟩ := ev _ rfl
    rw [hs]
    simp only [DuelBoard.parseEvent, DuelBoard.parseState, bind_eq_ok] at hb
    obtain ⟨x, hx, y, hy, hb⟩ := hb
    cases hx; cases hy
    rw [onFrame_score hb]
    show Score.mk _ _ _ _ _ = Score.mk _ _ _ _ _
    congr 1
    funext i
    match i with
    | 0 => rfl
    | 1 => rfl
  case newTurn p => obtain ⟨b, hb, hs⟩ := ev _ rfl; rw [hs]; cases hb; rfl
  case newPhase p => obtain ⟨b, hb, hs⟩ := ev _ rfl; rw [hs]; cases hb; rfl
  case damage p n =>
    obtain ⟨b, hb, hs⟩ := ev _ rfl
    rw [hs, lp_score hb]
    simp only [DuelBoard.lpAfter, sub_score]
    rfl
  case payLpcost p n =>
    obtain ⟨b, hb, hs⟩ := ev _ rfl
    rw [hs, lp_score hb]
    simp only [DuelBoard.lpAfter, sub_score]
    rfl
  case recover p n => obtain ⟨b, hb, hs⟩ := ev _ rfl; rw [hs, lp_score hb]; rfl
  case lpupdate p n => obtain ⟨b, hb, hs⟩ := ev _ rfl; rw [hs, lp_score hb]; rfl
  case chaining l n => obtain ⟨b, hb, hs⟩ := ev _ rfl; rw [hs]; cases hb; rfl
  case chainSolved n =>
    obtain ⟨b, hb, hs⟩ := ev _ rfl
    rw [hs]
    simp only [DuelBoard.parseEvent, Cell.pop, bind_eq_ok, pure_eq_ok, Except.ok.injEq] at hb
    obtain ⟨_, ⟨_, _, rfl⟩, rfl⟩ := hb
    rfl
  all_goals first
    | exact ctx rfl
    | (refine other _ rfl fun e he => ?_; cases he; done)
    | (refine other _ rfl fun e he => ?_; cases he; trivial)

/-- **C69.** So it is after any messages. -/
theorem C69_score_of_history (ms : List CoreMsg) (hf : ∀ m ∈ ms, m.Fits) (c c' : BasicContext) (h : trackAll c ms = .ok c') :
    scoreOf c' = ms.foldl Score.after (scoreOf c) := by
  induction ms generalizing c with
  | nil => cases h; rfl
  | cons m ms ih =>
    rw [trackAll, bind_eq_ok] at h
    obtain ⟨c1, h1, h2⟩ := h
    rw [List.foldl_cons, ← C69_score c m (hf m (by simp)) [] c1 (by rw [List.append_nil]; exact h1)]
    exact ih (fun m hm => hf m (by simp [hm])) c1 h2

/-- **C69.** Messages about the score that make sense always get through, and change nothing else. -/
theorem C69_score_returns (c : BasicContext) (m : CoreMsg) (ha : (scoreOf c).Allows m) (hf : m.Fits) (more : List UInt8) :
    ∃ c', track c (m.bytes ++ more) = .ok c' ∧ boardOf c' = boardOf c ∧ c'.store = c.store ∧ c'.board.blockedZones = c.board.blockedZones := by
  have ev : ∀ e, m.meaning = some (.event e) → (∃ b, c.board.parseEvent e = .ok b ∧ b.frame = c.board.frame ∧ b.blockedZones = c.board.blockedZones) →
      ∃ c', track c (m.bytes ++ more) = .ok c' ∧ boardOf c' = boardOf c ∧ c'.store = c.store ∧ c'.board.blockedZones = c.board.blockedZones := by
    rintro e he ⟨b, hb, hl, hz⟩
    refine ⟨{ c with board := b }, ?_, ?_, rfl, hz⟩
    · rw [track_event c m hf e he more, hb]; rfl
    · show view b.frame.layout = _; rw [hl]; rfl
  have lp : ∀ (p : UInt8) ch, p.toNat < 2 → m.meaning = some (.event (.lp p.toNat ch)) →
      ∃ c', track c (m.bytes ++ more) = .ok c' ∧ boardOf c' = boardOf c ∧ c'.store = c.store ∧ c'.board.blockedZones = c.board.blockedZones := by
    intro p ch hp hm
    refine ev _ hm ?_
    have hi : DuelBoard.lpIdx (p.toNat : Int) = .ok ⟨p.toNat, hp⟩ := lpIdx_eq_ok.mpr rfl
    exact ⟨c.board.setLp ⟨p.toNat, hp⟩ ⟨DuelBoard.lpAfter (c.board.lp ⟨p.toNat, hp⟩).val ch⟩,
      by simp only [DuelBoard.parseEvent, hi, bind_ok, Cell.get]; rfl, rfl, rfl⟩
  cases m <;> simp only [Score.Allows] at ha
  case newTurn => exact ev _ rfl ⟨_, rfl, rfl, rfl⟩
  case newPhase => exact ev _ rfl ⟨_, rfl, rfl, rfl⟩
  case chaining => exact ev _ rfl ⟨_, rfl, rfl, rfl⟩
  case chainSolved =>
    refine ev _ rfl ⟨{ c.board with chainStack := ⟨c.board.chainStack.val.dropLast⟩ }, ?_, rfl, rfl⟩
    have : c.board.chainStack.val.length ≠ 0 := fun e => ha (List.length_eq_zero_iff.mp e)
    simp only [DuelBoard.parseEvent, Cell.pop, guardUb, if_pos this, bind_ok, pure_eq_ok]
  case damage p n => exact lp p _ ha rfl
  case payLpcost p n => exact lp p _ ha rfl
  case recover p n => exact lp p _ ha rfl
  case lpupdate p n => exact lp p _ ha rfl

/-! ### Examples -/

/-- A duel with a chain of two links of which one is resolved. -/
def someScore : List CoreMsg :=
  [.start 0 8000 8000 3 0 3 0, .newTurn 1, .newPhase 4, .payLpcost 1 1000, .chaining ⟨5, ⟨0, 4, 1, 1⟩, ⟨0, 4, 1⟩, 7⟩ 1,
   .chaining ⟨6, ⟨1, 8, 1, 1⟩, ⟨1, 8, 1⟩, 9⟩ 2, .chainSolved 2, .damage 0 9000, .recover 1 500, .summoned, .draw 0 [(1, 1)]]

example : ∀ m ∈ someScore, m.Fits := by
  intro m hm
  simp only [someScore, List.mem_cons, List.not_mem_nil, or_false] at hm
  rcases hm with rfl | rfl | rfl | rfl | rfl | rfl | rfl | rfl | rfl | rfl | rfl <;> simp [CoreMsg.Fits]

example : (trackAll BasicContext.init someScore).toOption.map (fun c =>
    ((scoreOf c).turn, (scoreOf c).player, (scoreOf c).phase, (scoreOf c).lp 0, (scoreOf c).lp 1, (scoreOf c).chain.length)) =
    some (1, 1, 4, 0, 7500, 1) := by decide +kernel

end Ygo.Props
