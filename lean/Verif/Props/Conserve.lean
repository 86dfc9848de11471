import Verif.Spec.Conserve
import Verif.Props.Inert
import Verif.Props.Setup
import Verif.Props.Single

/-!
# No card is lost, none is made twice (C98)
-/

set_option linter.unusedSimpArgs false

namespace Ygo.Props
open Ygo Spec P

/-- Calls that only rearrange cards. -/
def Rearranges : FrameOp → Prop
  | .move .. | .shuffle .. | .swap .. | .splice .. | .pswap .. => True
  | _ => False

theorem _root_.Ygo.Spec.KeepsCards.rearranges {e : Event} (h : KeepsCards e) : ∀ op ∈ frameOps e, Rearranges op := by
  intro op ho
  cases e with
  | board e => cases e <;> first | exact absurd h id | cases ho
  | card r e =>
    cases e <;> simp only [frameOps, DuelBoard.cardOps, List.not_mem_nil, List.mem_map, List.mem_singleton] at ho
    · exact absurd h id
    · obtain ⟨_, _, rfl⟩ := ho; trivial
    · obtain ⟨_, _, rfl⟩ := ho; trivial
    · exact absurd h id
    · subst ho; trivial
  | pile r e =>
    cases e <;> simp only [frameOps, DuelBoard.pileOps, List.not_mem_nil, List.mem_map, List.mem_singleton] at ho
    · obtain ⟨_, _, rfl⟩ := ho; trivial
    · obtain ⟨_, _, rfl⟩ := ho; trivial
  | _ => cases ho

theorem step_count {f f' : Frame} {op : FrameOp} (hr : Rearranges op) (h : f.step op = .ok f') (x : CardId) :
    (placed (view f'.layout)).count x = (placed (view f.layout)).count x := by
  cases op <;> try exact absurd hr id
  case move a b =>
    simp only [Frame.step, Frame.cardMove, bind_eq_ok, pure_eq_ok, Except.ok.injEq] at h
    obtain ⟨⟨g, c⟩, ⟨⟨l, d⟩, h, he⟩, rfl⟩ := h
    cases he; exact count_move h x
  case shuffle p c n =>
    simp only [Frame.step, Frame.cardShuffle, bind_eq_ok, pure_eq_ok, Except.ok.injEq] at h
    obtain ⟨l, h, rfl⟩ := h
    exact count_shuffle h x
  case swap a b =>
    simp only [Frame.step, Frame.cardSwap, bind_eq_ok, pure_eq_ok, Except.ok.injEq] at h
    obtain ⟨l, h, rfl⟩ := h
    exact count_swap h x
  case splice a n b r =>
    simp only [Frame.step, Frame.pileSplice, bind_eq_ok, pure_eq_ok, Except.ok.injEq] at h
    obtain ⟨l, h, rfl⟩ := h
    exact count_pileSplice h x
  case pswap a b =>
    simp only [Frame.step, Frame.pileSwap, bind_eq_ok, pure_eq_ok, Except.ok.injEq] at h
    obtain ⟨l, h, rfl⟩ := h
    exact count_pileSwap h x

theorem runOps_count {f f' : Frame} {ops : List FrameOp} (hr : ∀ op ∈ ops, Rearranges op) (h : runOps f ops = .ok f') (x : CardId) :
    (placed (view f'.layout)).count x = (placed (view f.layout)).count x := by
  induction ops generalizing f with
  | nil => cases h; rfl
  | cons op ops ih =>
    simp only [runOps, FrameLike.step, bind_eq_ok] at h
    obtain ⟨g, h1, h2⟩ := h
    rw [ih (fun o ho => hr o (List.mem_cons_of_mem _ ho)) h2, step_count (hr op List.mem_cons_self) h1]

theorem limbo_step_base {f f' : Limbo} {op : FrameOp} (hr : Rearranges op) (h : f.step op = .ok f') : f.base.step op = .ok f'.base := by
  cases op <;> try exact absurd hr id
  case move a b =>
    simp only [Limbo.step, Limbo.cardMove, bind_eq_ok, pure_eq_ok, Except.ok.injEq] at h
    obtain ⟨⟨g, c⟩, ⟨⟨l, d⟩, h, he⟩, rfl⟩ := h
    cases he
    simp only [Frame.step, h, bind_ok, pure_eq_ok]
  all_goals
    simp only [Limbo.step, Limbo.cardShuffle, Limbo.cardSwap, Limbo.pileSplice, Limbo.pileSwap, bind_eq_ok, pure_eq_ok, Except.ok.injEq] at h
    obtain ⟨l, h, rfl⟩ := h
    exact h

theorem limbo_runOps_count {f f' : Limbo} {ops : List FrameOp} (hr : ∀ op ∈ ops, Rearranges op) (h : runOps f ops = .ok f') (x : CardId) :
    (placed (view f'.base.layout)).count x = (placed (view f.base.layout)).count x := by
  induction ops generalizing f with
  | nil => cases h; rfl
  | cons op ops ih =>
    simp only [runOps, FrameLike.step, bind_eq_ok] at h
    obtain ⟨g, h1, h2⟩ := h
    rw [ih (fun o ho => hr o (List.mem_cons_of_mem _ ho)) h2,
      step_count (hr op List.mem_cons_self) (limbo_step_base (hr op List.mem_cons_self) h1)]

theorem limbo_undo_count {f f' : Limbo} {op : FrameOp} (hr : Rearranges op) (h : f.undo op = .ok f') (x : CardId) :
    (placed (view f'.base.layout)).count x = (placed (view f.base.layout)).count x := by
  cases op <;> try exact absurd hr id
  case move a b => exact step_count (op := .move b a) trivial (limbo_step_base (op := .move b a) trivial h) x
  case shuffle p c n => cases h
  case swap a b => exact step_count (op := .swap a b) trivial (limbo_step_base (op := .swap a b) trivial h) x
  case splice a n b r => exact step_count (op := .splice b n a r) trivial (limbo_step_base (op := .splice b n a r) trivial h) x
  case pswap a b => exact step_count (op := .pswap a b) trivial (limbo_step_base (op := .pswap a b) trivial h) x

theorem limbo_undoOps_count {f f' : Limbo} {ops : List FrameOp} (hr : ∀ op ∈ ops, Rearranges op) (h : UndoBoard.undoOps f ops = .ok f')
    (x : CardId) : (placed (view f'.base.layout)).count x = (placed (view f.base.layout)).count x := by
  induction ops generalizing f with
  | nil => cases h; rfl
  | cons op ops ih =>
    simp only [UndoBoard.undoOps, bind_eq_ok] at h
    obtain ⟨g, h1, h2⟩ := h
    rw [ih (fun o ho => hr o (List.mem_cons_of_mem _ ho)) h2, limbo_undo_count (hr op List.mem_cons_self) h1]

theorem undo_ops (u u' : UndoBoard) (e : Event) (he : KeepsCards e) (h : u.undoParseEvent e = .ok u') :
    ∃ ops, (∀ op ∈ ops, Rearranges op) ∧ UndoBoard.undoOps u.frame ops = .ok u'.frame := by
  have none : u'.frame = u.frame → ∃ ops, (∀ op ∈ ops, Rearranges op) ∧ UndoBoard.undoOps u.frame ops = .ok u'.frame :=
    fun h => ⟨[], by simp, by rw [h]; rfl⟩
  cases e with
  | board e =>
    cases e with
    | unset => cases h; exact none rfl
    | _ => exact absurd he id
  | card r e =>
    simp only [UndoBoard.undoParseEvent, UndoBoard.undoFrame, bind_eq_ok, pure_eq_ok, Except.ok.injEq] at h
    obtain ⟨f, h, rfl⟩ := h
    refine ⟨_, ?_, h⟩
    intro op ho
    cases e <;> simp only [UndoBoard.cardUndo, List.not_mem_nil, List.mem_map, List.mem_singleton] at ho
    · exact absurd he id
    · obtain ⟨_, _, rfl⟩ := ho; trivial
    · obtain ⟨_, _, rfl⟩ := ho; trivial
    · exact absurd he id
    · subst ho; trivial
  | pile r e =>
    simp only [UndoBoard.undoParseEvent, UndoBoard.undoFrame, bind_eq_ok, pure_eq_ok, Except.ok.injEq] at h
    obtain ⟨f, h, rfl⟩ := h
    refine ⟨_, ?_, h⟩
    intro op ho
    cases e <;> simp only [UndoBoard.pileUndo, List.not_mem_nil, List.mem_map, List.mem_singleton] at ho
    · obtain ⟨_, _, rfl⟩ := ho; trivial
    · obtain ⟨_, _, rfl⟩ := ho; trivial
  | chainStack e =>
    refine none ?_
    cases e <;> simp [UndoBoard.undoParseEvent, Undoable.unsupported] at h
    subst h; rfl
  | nextTurn _ | lp _ _ | nextPhase _ | zoneBlock _ =>
    refine none ?_
    simp only [UndoBoard.undoParseEvent, bind_eq_ok, pure_eq_ok, Except.ok.injEq] at h
    obtain ⟨_, _, _, _, rfl⟩ := h; rfl
  | _ => cases h; exact none rfl

/-- **C98.** Events that do not say that cards appear or disappear leave the same cards on the board, whatever board it is: none is lost and
none is there twice that was not before. -/
theorem C98_events (b b' : PlainBoard) (e : Event) (he : KeepsCards e) (h : b.parseEvent e = .ok b') :
    (placed (view b'.frame.layout)).Perm (placed (view b.frame.layout)) :=
  List.perm_iff_count.mpr fun x => runOps_count (KeepsCards.rearranges he) (parse_frame h) x

/-- **C98.** The same holds on boards that can be undone, at any point of their history. -/
theorem C98_events_undoable (u u' : UndoBoard) (e : Event) (he : KeepsCards e) (h : u.parseEvent e = .ok u') :
    (placed (view u'.frame.base.layout)).Perm (placed (view u.frame.base.layout)) :=
  List.perm_iff_count.mpr fun x => limbo_runOps_count (KeepsCards.rearranges he) (parse_frame h) x

/-- **C98.** Undoing such an event keeps the cards as well. -/
theorem C98_undone (u u' : UndoBoard) (e : Event) (he : KeepsCards e) (h : u.undoParseEvent e = .ok u') :
    (placed (view u'.frame.base.layout)).Perm (placed (view u.frame.base.layout)) := by
  refine List.perm_iff_count.mpr fun x => ?_
  obtain ⟨ops, hr, ho⟩ := undo_ops u u' e he h
  exact limbo_undoOps_count hr ho x

/-! ## Core messages -/

theorem track_kept {c c' : BasicContext} {data : List UInt8} (h : track c data = .ok c')
    (hk : ∀ r c1 x e, encodeOne c data = .ok (r, c1) → r.msg = some x → Msg.event? x = some e → KeepsCards e) :
    (placed (boardOf c')).Perm (placed (boardOf c)) := by
  obtain ⟨r, c1, h1, hs, _, hn, hx⟩ := track_parts h
  cases hr : r.msg with
  | none => rw [hn hr]; unfold boardOf; rw [hs.board]
  | some x =>
    obtain ⟨he, hq, _⟩ := hx x hr
    cases hev : Msg.event? x with
    | none => unfold boardOf; rw [hq hev]
    | some e => exact C98_events _ _ e (hk r c1 x e h1 hr hev) (he e hev)

/-- Results of messages whose translation depends on what is tracked: nothing, or an event that keeps the cards. -/
def Keeping (o : Outcome) : Prop := o = .swallowed ∨ ∃ e, o = .event e ∧ KeepsCards e

theorem moveOutcome_keeping (c : BasicContext) (prev curr : Place) (reason : Nat) (x : Outcome × BasicContext)
    (hk : prev.loc = 0 ↔ curr.loc = 0) (h : moveOutcome c prev curr reason = .ok x) : Keeping x.1 := by
  have w : Keeping .swallowed := .inl rfl
  have t : ∀ r ops, Keeping (.event (.card r (.move ops))) := fun _ _ => .inr ⟨_, rfl, trivial⟩
  unfold Ygo.moveOutcome at h
  split at h
  · cases h; exact w
  next h0 =>
  split at h
  · next h1 => exact absurd ⟨h1, hk.mp h1⟩ h0
  split at h
  · next h1 => exact absurd ⟨hk.mpr h1, h1⟩ h0
  split at h
  · cases h; exact w
  split at h
  · cases h; exact t _ _
  split at h
  · simp only [bind_eq_ok, pure_eq_ok, Except.ok.injEq] at h
    obtain ⟨_, _, rfl⟩ := h
    exact t _ _
  · split at h <;> simp only [bind_eq_ok, pure_eq_ok, Except.ok.injEq] at h <;> obtain ⟨_, _, h⟩ := h
    · obtain ⟨_, _, rfl⟩ := h; exact t _ _
    · subst h; exact t _ _

theorem contextCase_keeping (c : BasicContext) (k : Kind) (hk : k ≠ .move) (p : P (Outcome × BasicContext)) (h : contextCase c k = some p) :
    Gives (fun x => Keeping x.1) p := by
  have kept : ∀ {q : P Outcome}, Gives Keeping q →
      Gives (fun x : Outcome × BasicContext => Keeping x.1) (q >>= fun o => Pure.pure (o, c)) :=
    fun hq => Gives.bind' hq fun _ h => Gives.pure h
  cases k <;> simp only [contextCase, Option.some.injEq, reduceCtorEq] at h <;> subst h
  case move => exact absurd rfl hk
  case matchKill => exact Gives.bind fun _ => Gives.pure (.inl rfl)
  all_goals
    refine kept ?_
    first | unfold winEvent | unfold deckTopEvent | unfold swapGraveDeckEvent | unfold drawEvent | unfold reverseDeckEvent
    repeat' (first
    | exact Gives.pure (.inr ⟨_, rfl, trivial⟩)
    | with_reducible refine Gives.bind fun _ => ?_
    | with_reducible refine Gives.ite ?_ ?_)

theorem context_keeping (c : BasicContext) (m : CoreMsg) (hm : m.meaning = none) (hk : KeepsTable m) (more : List UInt8) (r : Encoded)
    (c1 : BasicContext) (h : encodeOne c (m.bytes ++ more) = .ok (r, c1)) (x : Msg) (e : Event) (hx : r.msg = some x)
    (he : Msg.event? x = some e) : KeepsCards e := by
  have fin : ∀ {o : Outcome}, Keeping o → o.msg = some x → KeepsCards e := by
    rintro o (rfl | ⟨e', rfl, hk⟩) hx
    · cases hx
    · cases hx; cases he; exact hk
  obtain ⟨o, rest, hb, rfl⟩ := encodeOne_eq h
  have go : ∀ {b : UInt8} (k : Kind) {p : P (Outcome × BasicContext)} {s : List UInt8}, Kind.ofByte b.toNat = some k → eventCase k = none →
      queryCase k = none → requestCase k = none → swallowedCase k = none → contextCase c k = some p → k ≠ .move →
      encodeBody c (b :: s) = .ok ((o, c1), rest) → KeepsCards e := by
    intro b k p s h1 h2 h3 h4 h5 h6 h7 hb
    rw [body_context' c h1 h2 h3 h4 h5 h6] at hb
    exact fin (contextCase_keeping c k h7 p h6 _ _ _ hb) hx
  cases m <;> simp only [CoreMsg.meaning, reduceCtorEq] at hm
  case move code a b rs =>
    rw [encodeOne_move] at h
    simp only [bind_eq_ok, pure_eq_ok, Except.ok.injEq, Prod.mk.injEq] at h
    obtain ⟨⟨o', c2⟩, h1, h2, _⟩ := h
    rw [← h2] at hx
    exact fin (moveOutcome_keeping c _ _ _ _ hk h1) hx
  all_goals simp only [CoreMsg.bytes, List.append_assoc, List.cons_append, List.nil_append] at hb
  case win => exact go .win rfl rfl rfl rfl rfl rfl (by decide) hb
  case swapGraveDeck => exact go .swapGraveDeck rfl rfl rfl rfl rfl rfl (by decide) hb
  case reverseDeck => exact go .reverseDeck rfl rfl rfl rfl rfl rfl (by decide) hb
  case deckTop => exact go .deckTop rfl rfl rfl rfl rfl rfl (by decide) hb
  case draw => exact go .draw rfl rfl rfl rfl rfl rfl (by decide) hb
  case matchKill => exact go .matchKill rfl rfl rfl rfl rfl rfl (by decide) hb

/-- **C98.** Core messages that do not set up piles and do not say that a card comes from or goes to nowhere leave the same cards on the
tracked board: drawing, moving, swapping, shuffling, exchanging graveyard and deck lose no card and make none. -/
theorem C98_messages (c : BasicContext) (m : CoreMsg) (hf : m.Fits) (hm : KeepsTable m) (more : List UInt8) (c' : BasicContext)
    (h : track c (m.bytes ++ more) = .ok c') : (placed (boardOf c')).Perm (placed (boardOf c)) := by
  refine track_kept h fun r c1 x e h1 hr hev => ?_
  cases hmm : m.meaning with
  | none => exact context_keeping c m hmm hm more r c1 h1 x e hr hev
  | some y =>
    rw [C34_translation c m hf y hmm] at h1
    cases h1
    cases m <;> cases hmm <;> first | exact absurd hm id | (cases hr; done) | (cases hr; cases hev; done) | (cases hr; cases hev; trivial)

/-- **C98.** A card that comes from nowhere is one more card, and a new one. -/
theorem C98_appears (c : BasicContext) (hr : Reachable c.board.frame) (code : UInt32) (src dst : LocInfo) (reason : UInt32)
    (hs : src.place.loc = 0) (hd : dst.place.loc ≠ 0) (more : List UInt8) (c' : BasicContext)
    (h : track c ((CoreMsg.move code src dst reason).bytes ++ more) = .ok c') :
    ∃ x, x ∉ placed (boardOf c) ∧ (placed (boardOf c')).Perm (x :: placed (boardOf c)) := by
  obtain ⟨r, c1, h1, hsm, _, hn, hx⟩ := track_parts h
  rw [C39_added c code src dst reason more ((C39_kinds _ _).2.1.mpr ⟨hs, hd⟩)] at h1
  cases h1
  have hf := parse_frame ((hx _ rfl).1 _ rfl)
  simp only [frameOps, DuelBoard.cardOps, List.map_cons, List.map_nil, runOps, FrameLike.step, Frame.step, bind_eq_ok, pure_eq_ok,
    Except.ok.injEq] at hf
  obtain ⟨g, ⟨⟨g', x⟩, h1, rfl⟩, hg⟩ := hf
  obtain ⟨rfl, _, ho, _⟩ := (C07_card_add _ _ _ _).mp h1
  have i0 := hr.inv
  have i1 := i0.add h1
  refine ⟨c.board.frame.next, fun hm => Nat.lt_irrefl _ (i0.fresh _ (i0.owns.perm.mem_iff.mp hm)), ?_⟩
  unfold boardOf
  rw [← hg]
  exact (i1.owns.perm.trans (by rw [ho])).trans (i0.owns.perm.symm.cons _)

/-- **C98.** A card that goes to nowhere is one card less. -/
theorem C98_disappears (c : BasicContext) (hr : Reachable c.board.frame) (code : UInt32) (src dst : LocInfo) (reason : UInt32)
    (hs : src.place.loc ≠ 0) (hd : dst.place.loc = 0) (more : List UInt8) (c' : BasicContext)
    (h : track c ((CoreMsg.move code src dst reason).bytes ++ more) = .ok c') :
    ∃ x, (placed (boardOf c)).Perm (x :: placed (boardOf c')) := by
  obtain ⟨r, c1, h1, hsm, _, hn, hx⟩ := track_parts h
  rw [C39_removed c code src dst reason more ((C39_kinds _ _).2.2.1.mpr ⟨hs, hd⟩)] at h1
  obtain ⟨n, rfl⟩ : ∃ n, r = reported n reason.toNat (.remove [src.place]) := by
    split at h1 <;> simp only [bind_eq_ok, pure_eq_ok, Except.ok.injEq, Prod.mk.injEq] at h1
    · obtain ⟨_, _, h1, _⟩ := h1; exact ⟨_, h1.symm⟩
    · obtain ⟨_, _, _, _, h1, _⟩ := h1; exact ⟨_, h1.symm⟩
  have hf := parse_frame ((hx _ rfl).1 _ rfl)
  simp only [frameOps, DuelBoard.cardOps, List.map_cons, List.map_nil, runOps, FrameLike.step, Frame.step, bind_eq_ok, pure_eq_ok,
    Except.ok.injEq] at hf
  obtain ⟨g, h1, hg⟩ := hf
  have i0 := hr.inv
  have i1 := i0.remove h1
  obtain ⟨x, hx, ho⟩ : ∃ x, x ∈ c.board.frame.owned ∧ g.owned = c.board.frame.owned.erase x := by
    simp only [Frame.cardRemove, bind_eq_ok] at h1
    obtain ⟨_, _, _, _, ⟨y, l⟩, _, h1⟩ := h1
    obtain ⟨hm, rfl⟩ := Frame.destruct_eq_ok.mp h1
    exact ⟨y, hm, rfl⟩
  refine ⟨x, i0.owns.perm.trans ((List.perm_cons_erase hx).trans ?_)⟩
  unfold boardOf
  rw [← hg]
  refine List.Perm.cons x ?_
  rw [← ho]
  exact i1.owns.perm.symm

/-! ## How many cards there are -/

theorem length_eraseAll_le (cs owned : List CardId) : (Frame.eraseAll cs owned).length ≤ owned.length := by
  induction cs generalizing owned with
  | nil => exact Nat.le_refl _
  | cons c cs ih => exact Nat.le_trans (ih _) (List.length_erase_le)

theorem length_eraseAll (cs owned : List CardId) (h : ∀ x, cs.count x ≤ owned.count x) :
    (Frame.eraseAll cs owned).length + cs.length = owned.length := by
  induction cs generalizing owned with
  | nil => rfl
  | cons c cs ih =>
    have hm : c ∈ owned := by
      have := h c
      simp at this
      exact List.count_pos_iff.mp (by omega)
    have e : Frame.eraseAll (c :: cs) owned = Frame.eraseAll cs (owned.erase c) := rfl
    have := ih (owned.erase c) fun x => by
      have := h x
      rw [count_erase1]; rw [count_cons1 c x cs] at this; omega
    have hl := List.length_erase_of_mem hm
    have hp := List.length_pos_of_mem hm
    rw [e]; simp only [List.length_cons]; omega

theorem resize_owned {f f' : Frame} (hi : Inv f) {p : Place} {k : PileKey} {i n : Nat} (hp : At p (.pile k) i) (h : f.pileResize p n = .ok f') :
    f'.owned.length + (f.layout.pile k).length = f.owned.length + n := by
  obtain ⟨_, ho, _⟩ := Frame.pileResize_at hp h
  have hc : ∀ x, ((f.layout.pile k).drop n).count x ≤ f.owned.count x := by
    intro x
    have a := count_placed_upd (view f.layout) (.pile k) [] x
    have b := hi.count x
    have e : ((f.layout.pile k).take n).count x + ((f.layout.pile k).drop n).count x = (f.layout.pile k).count x := by
      rw [← List.count_append, List.take_append_drop]
    simp at a
    omega
  have hl := length_eraseAll ((f.layout.pile k).drop n).reverse f.owned (by simpa using hc)
  rw [ho]
  simp only [List.length_append, List.length_reverse, List.length_range', List.length_drop] at hl ⊢
  omega

/-- Cards that a call may make. -/
def make : FrameOp → Nat
  | .add _ => 1
  | .resize _ n => n
  | _ => 0

theorem step_owned {f f' : Frame} (hi : Inv f) {op : FrameOp} (h : f.step op = .ok f') :
    f'.owned.length ≤ f.owned.length + make op := by
  cases op with
  | add p =>
    simp only [Frame.step, bind_eq_ok, pure_eq_ok, Except.ok.injEq] at h
    obtain ⟨⟨g, x⟩, h1, rfl⟩ := h
    obtain ⟨_, _, ho, _⟩ := (C07_card_add _ _ _ _).mp h1
    simp only [ho, List.length_cons, make, Nat.le_refl]
  | remove p =>
    simp only [Frame.step, Frame.cardRemove, bind_eq_ok] at h
    obtain ⟨_, _, _, _, ⟨y, l⟩, _, h1⟩ := h
    obtain ⟨_, rfl⟩ := Frame.destruct_eq_ok.mp h1
    exact List.length_erase_le
  | resize p n =>
    obtain ⟨k, hp⟩ := Frame.pileResize_place h
    have := resize_owned hi hp h
    simp only [make]; omega
  | clear =>
    obtain ⟨g, hg, _, _, _, ho⟩ := hi.clear
    simp only [Frame.step, hg, Except.ok.injEq] at h
    subst h; rw [ho]; exact Nat.zero_le _
  | move a b =>
    simp only [Frame.step, Frame.cardMove, bind_eq_ok, pure_eq_ok, Except.ok.injEq] at h
    obtain ⟨⟨g, c⟩, ⟨⟨l, d⟩, h, he⟩, rfl⟩ := h
    cases he; exact Nat.le_refl _
  | _ =>
    simp only [Frame.step, Frame.cardShuffle, Frame.cardSwap, Frame.pileSplice, Frame.pileSwap, bind_eq_ok, pure_eq_ok, Except.ok.injEq] at h
    obtain ⟨l, h, rfl⟩ := h
    exact Nat.le_refl _

/-- Cards that calls may make. -/
def makes (ops : List FrameOp) : Nat := (ops.map make).sum

theorem runOps_owned {f f' : Frame} (hi : Inv f) {ops : List FrameOp} (h : runOps f ops = .ok f') :
    f'.owned.length ≤ f.owned.length + makes ops := by
  induction ops generalizing f with
  | nil => cases h; exact Nat.le_refl _
  | cons op ops ih =>
    simp only [runOps, FrameLike.step, bind_eq_ok] at h
    obtain ⟨g, h1, h2⟩ := h
    have a := step_owned hi h1
    have b := ih (hi.step h1) h2
    simp only [makes, List.map_cons, List.sum_cons] at b ⊢
    omega

theorem makes_append (a b : List FrameOp) : makes (a ++ b) = makes a + makes b := by simp [makes]

theorem makes_add (ps : List Place) : makes (ps.map .add) = ps.length := by
  induction ps with
  | nil => rfl
  | cons p ps ih =>
    have : makes ((p :: ps).map .add) = 1 + makes (ps.map .add) := rfl
    rw [this, ih, List.length_cons, Nat.add_comm]

theorem makes_resize (rs : List ResizeOp) : makes (DuelBoard.resizeOps rs) = (rs.map (·.count)).sum := by
  induction rs with
  | nil => rfl
  | cons p ps ih =>
    have : makes (DuelBoard.resizeOps (p :: ps)) = p.count + makes (DuelBoard.resizeOps ps) := rfl
    rw [this, ih, List.map_cons, List.sum_cons]

theorem makes_zero {ops : List FrameOp} (h : ∀ op ∈ ops, (∀ p, op ≠ .add p) ∧ ∀ p n, op ≠ .resize p n) : makes ops = 0 := by
  induction ops with
  | nil => rfl
  | cons op ops ih =>
    have a := ih fun o ho => h o (List.mem_cons_of_mem _ ho)
    have b := h op List.mem_cons_self
    simp only [makes, List.map_cons, List.sum_cons] at a ⊢
    rw [a]
    cases op <;> first | rfl | exact absurd rfl (b.1 _) | exact absurd rfl (b.2 _ _)

theorem makes_asked (e : Event) : makes (frameOps e) = asked e := by
  cases e with
  | board e =>
    cases e with
    | unset => rfl
    | exchange e =>
      simp only [frameOps, DuelBoard.exchangeOps, makes_append, makes_add, makes_resize, asked]
      rw [makes_zero (ops := e.remove.map .remove)]
      · omega
      · intro op ho; obtain ⟨_, _, rfl⟩ := List.mem_map.mp ho; exact ⟨nofun, nofun⟩
    | state s =>
      show makes ([.clear] ++ s.add.map .add ++ DuelBoard.resizeOps s.resize) = _
      simp only [makes_append, makes_add, makes_resize, asked]
      exact congrArg (· + _) (Nat.zero_add _)
  | card r e =>
    cases e with
    | add ps => exact makes_add ps
    | _ =>
      refine makes_zero fun op ho => ?_
      simp only [frameOps, DuelBoard.cardOps, List.mem_map, List.mem_singleton] at ho
      first
      | cases ho; done
      | (obtain ⟨_, _, rfl⟩ := ho; exact ⟨nofun, nofun⟩)
  | pile r e =>
    cases e <;>
    · refine makes_zero fun op ho => ?_
      simp only [frameOps, DuelBoard.pileOps, List.mem_map, List.mem_singleton] at ho
      first
      | cases ho; done
      | (obtain ⟨_, _, rfl⟩ := ho; exact ⟨nofun, nofun⟩)
  | _ => rfl

theorem asked_inv {b b' : PlainBoard} (hi : Inv b.frame) {e : Event} (h : b.parseEvent e = .ok b') :
    tableSize (view b'.frame.layout) ≤ tableSize (view b.frame.layout) + asked e ∧ (Anew e → tableSize (view b'.frame.layout) ≤ asked e) := by
  have hf := parse_frame h
  have hi' := runOps_inv hi hf
  unfold tableSize
  rw [hi.owns.perm.length_eq, hi'.owns.perm.length_eq, ← makes_asked]
  refine ⟨runOps_owned hi hf, fun ha => ?_⟩
  cases e <;> try exact absurd ha id
  next e =>
  cases e <;> try exact absurd ha id
  next s =>
  simp only [frameOps, DuelBoard.stateOps, List.cons_append, runOps, FrameLike.step, bind_eq_ok] at hf
  obtain ⟨g, h1, h2⟩ := hf
  obtain ⟨g', hg, hi1, _, _, ho⟩ := hi.clear
  simp only [Frame.step, hg, Except.ok.injEq] at h1
  subst h1
  have := runOps_owned hi1 h2
  rw [ho] at this
  simp only [List.length_nil, Nat.zero_add] at this
  have e : makes (frameOps (.board (.state s))) = makes (s.add.map .add ++ DuelBoard.resizeOps s.resize) := Nat.zero_add _
  rw [e]; exact this

/-- **C98.** An event puts at most as many cards on a board as it names; an event that tells the state of the whole board leaves no other
cards than those. -/
theorem C98_asked (b b' : PlainBoard) (hr : ReachablePlain b) (e : Event) (h : b.parseEvent e = .ok b') :
    tableSize (view b'.frame.layout) ≤ tableSize (view b.frame.layout) + asked e ∧ (Anew e → tableSize (view b'.frame.layout) ≤ asked e) :=
  asked_inv hr.inv h

theorem asked_all {es : List Event} {b0 b : PlainBoard} (hi : Inv b0.frame) (h : b0.parseEvents es = .ok b) :
    tableSize (view b.frame.layout) ≤ tableSize (view b0.frame.layout) + (es.map asked).sum := by
  induction es generalizing b0 with
  | nil => cases h; exact Nat.le_refl _
  | cons e es ih =>
    simp only [DuelBoard.parseEvents, bind_eq_ok] at h
    obtain ⟨b1, h1, h2⟩ := h
    have a := (asked_inv hi h1).1
    have b := ih (runOps_inv hi (parse_frame h1)) h2
    simp only [List.map_cons, List.sum_cons]
    omega

/-- **C98.** So a client never has more cards than were named to it. -/
theorem C98_clients (es : List Event) (b : PlainBoard) (h : PlainBoard.init.parseEvents es = .ok b) :
    tableSize (view b.frame.layout) ≤ (es.map asked).sum := by
  have := asked_all Inv.init h
  have e : tableSize (view PlainBoard.init.frame.layout) = 0 := by decide
  omega

/-! ## The account -/

/-- Piles given new sizes. -/
def resizesOf (rs : List (PileKey × Nat)) : List FrameOp := rs.map fun r => .resize ⟨r.1.con.val, r.1.loc.code, 0, -1⟩ r.2

theorem resizes_owned {f f' : Frame} (hi : Inv f) {rs : List (PileKey × Nat)} (hd : (rs.map (·.1)).Nodup)
    (h : runOps f (resizesOf rs) = .ok f') :
    f'.owned.length + (rs.map fun r => (f.layout.pile r.1).length).sum = f.owned.length + (rs.map (·.2)).sum := by
  induction rs generalizing f with
  | nil => cases h; rfl
  | cons r rs ih =>
    obtain ⟨k, n⟩ := r
    simp only [resizesOf, List.map_cons, runOps, FrameLike.step, Frame.step, bind_eq_ok] at h
    obtain ⟨g, h1, h2⟩ := h
    have hp : At ⟨k.con.val, k.loc.code, 0, -1⟩ (.pile k) 0 := .pile k 0 (-1)
    have a := resize_owned hi hp h1
    obtain ⟨hv, _, _⟩ := Frame.pileResize_at hp h1
    simp only [List.map_cons, List.nodup_cons] at hd
    have b := ih (hi.resize h1) hd.2 h2
    have e : (rs.map fun r => (g.layout.pile r.1).length) = rs.map fun r => (f.layout.pile r.1).length := by
      apply List.map_congr_left
      intro r hr
      have hne : r.1 ≠ k := fun he => hd.1 (he ▸ List.mem_map_of_mem hr)
      have := congrFun hv (.pile r.1)
      rw [upd_apply, if_neg (by simpa using hne)] at this
      rw [← view_pile, this]; rfl
    rw [e] at b
    simp only [List.map_cons, List.sum_cons]
    omega

theorem adds_owned {f f' : Frame} {ps : List Place} (hz : ∀ p ∈ ps, p.isPile = false) (h : runOps f (ps.map .add) = .ok f') :
    f'.owned.length = f.owned.length + ps.length ∧ f'.layout.pile = f.layout.pile := by
  induction ps generalizing f with
  | nil => cases h; exact ⟨rfl, rfl⟩
  | cons p ps ih =>
    simp only [List.map_cons, runOps, FrameLike.step, Frame.step, bind_eq_ok, pure_eq_ok, Except.ok.injEq] at h
    obtain ⟨g, ⟨⟨g', x⟩, h1, rfl⟩, h2⟩ := h
    obtain ⟨_, _, ho, C, i, hat, _, hv⟩ := (C07_card_add _ _ _ _).mp h1
    obtain ⟨a, b⟩ := ih (fun q hq => hz q (List.mem_cons_of_mem _ hq)) h2
    refine ⟨by rw [a, ho]; simp only [List.length_cons]; omega, b.trans ?_⟩
    funext k
    have := congrFun hv (.pile k)
    rw [Board.put, upd_apply, if_neg] at this
    · exact this
    · rintro rfl
      have := hat.isPile
      rw [hz p List.mem_cons_self] at this
      cases this

theorem cells_length (con : Int) (loc : Nat) (cs : List FieldCell) (n : Nat) :
    ((cs.mapIdx fun i z => z.places con loc (i + n)).flatten).length = (cs.map fun z => z.cards + z.mats).sum := by
  induction cs generalizing n with
  | nil => rfl
  | cons z cs ih =>
    rw [List.mapIdx_cons, List.flatten_cons, List.length_append, List.map_cons, List.sum_cons]
    have e : (fun i (z : FieldCell) => z.places con loc (i + 1 + n)) = fun i z => z.places con loc (i + (n + 1)) := by
      funext i z; rw [Nat.add_assoc, Nat.add_comm 1 n]
    rw [e, ih (n + 1)]
    congr 1
    cases z with
    | empty => rfl
    | card m p k => simp [FieldCell.places, FieldCell.cards, FieldCell.mats, Nat.add_comm]

theorem side_length (con : Int) (s : FieldSide) :
    (s.places con).length = ((s.monsters ++ s.spells).map fun z => z.cards + z.mats).sum := by
  unfold FieldSide.places
  rw [List.length_append, List.map_append, List.sum_append]
  exact congr (congrArg _ (cells_length con 4 s.monsters 0)) (cells_length con 8 s.spells 0)

theorem cell_zone (con : Int) (loc seq : Nat) (hl : loc = 4 ∨ loc = 8) (z : FieldCell) : ∀ p ∈ z.places con loc seq, p.isPile = false := by
  intro p hp
  cases z with
  | empty => cases hp
  | card m q k =>
    rcases List.mem_cons.mp hp with rfl | hp
    · rcases hl with rfl | rfl
      · have : slot 4 seq = (4, seq) := by simp [slot, Nat.testBit]
        rw [this]; exact show locIsPile 4 = false by decide
      · show locIsPile (slot 8 seq).1 = false
        have : (slot 8 seq).1 = 8 ∨ (slot 8 seq).1 = 0x100 ∨ (slot 8 seq).1 = 0x200 := by
          unfold slot
          repeat' split
          all_goals simp
        rcases this with e | e | e <;> rw [e] <;> decide
    · obtain ⟨o, _, rfl⟩ := List.mem_map.mp hp
      rcases hl with rfl | rfl
      · exact show locIsPile 4 = false by decide
      · exact show locIsPile 8 = false by decide

theorem side_zone (con : Int) (s : FieldSide) : ∀ p ∈ s.places con, p.isPile = false := by
  intro p hp
  unfold FieldSide.places at hp
  rcases List.mem_append.mp hp with hp | hp <;> obtain ⟨l, hl, hp⟩ := List.mem_flatten.mp hp <;>
    obtain ⟨i, hi, rfl⟩ := List.mem_mapIdx.mp hl
  · exact cell_zone _ _ _ (.inl rfl) _ p hp
  · exact cell_zone _ _ _ (.inr rfl) _ p hp

theorem state_owned {f f' : Frame} (hi : Inv f) {s : BoardState} {rs : List (PileKey × Nat)} (hz : ∀ p ∈ s.add, p.isPile = false)
    (hd : (rs.map (·.1)).Nodup) (hs : DuelBoard.resizeOps s.resize = resizesOf rs) (h : runOps f (DuelBoard.stateOps s) = .ok f') :
    f'.owned.length = s.add.length + (rs.map (·.2)).sum := by
  simp only [DuelBoard.stateOps, List.cons_append, runOps, FrameLike.step, bind_eq_ok] at h
  obtain ⟨g, h1, h2⟩ := h
  obtain ⟨g', hg, hi1, _, hv, ho⟩ := hi.clear
  simp only [Frame.step, hg, Except.ok.injEq] at h1
  subst h1
  rw [runOps_append', bind_eq_ok] at h2
  obtain ⟨g1, h2, h3⟩ := h2
  obtain ⟨a, b⟩ := adds_owned hz h2
  have hi2 := runOps_inv hi1 h2
  rw [hs] at h3
  have c := resizes_owned hi2 hd h3
  have z : ∀ r ∈ rs, (g1.layout.pile r.1).length = 0 := by
    intro r _
    rw [b]
    exact congrArg List.length (hv (.pile r.1))
  have z' : (rs.map fun r => (g1.layout.pile r.1).length).sum = 0 := by
    clear c h3 hs hd
    induction rs with
    | nil => rfl
    | cons r rs ih => rw [List.map_cons, List.sum_cons, z r List.mem_cons_self, ih fun q hq => z q (List.mem_cons_of_mem _ hq)]
  rw [ho] at a
  simp only [List.length_nil] at a
  omega

theorem track_owned {c c' : BasicContext} (hr : Reachable c.board.frame) {m : CoreMsg} (hf : m.Fits) {e : Event}
    (hm : m.meaning = some (.event e)) {more : List UInt8} (h : track c (m.bytes ++ more) = .ok c') :
    runOps c.board.frame (frameOps e) = .ok c'.board.frame ∧ tableSize (boardOf c) = c.board.frame.owned.length ∧
      tableSize (boardOf c') = c'.board.frame.owned.length := by
  rw [track_event c m hf e hm] at h
  simp only [bind_eq_ok, pure_eq_ok, Except.ok.injEq] at h
  obtain ⟨b, hb, rfl⟩ := h
  have hp := parse_frame hb
  exact ⟨hp, hr.inv.owns.perm.length_eq, (runOps_inv hr.inv hp).owns.perm.length_eq⟩

/-- **C98.** The account is exact: after every message that can be followed, the cards on the table and those that the message takes away
are as many as the cards before and those that the message brings. -/
theorem C98_account (c : BasicContext) (hr : Reachable c.board.frame) (m : CoreMsg) (hf : m.Fits) (more : List UInt8) (c' : BasicContext)
    (h : track c (m.bytes ++ more) = .ok c') : tableSize (boardOf c') + going (boardOf c) m = tableSize (boardOf c) + coming m := by
  have kept : KeepsTable m → tableSize (boardOf c') = tableSize (boardOf c) := fun hk => (C98_messages c m hf hk more c' h).length_eq
  cases m with
  | start rule lp0 lp1 m0 e0 m1 e1 =>
    obtain ⟨h1, h2, h3⟩ := track_owned hr hf rfl h
    have := state_owned hr.inv (rs := [(⟨0, .mainDeck⟩, m0.toNat), (⟨0, .extraDeck⟩, e0.toNat), (⟨1, .mainDeck⟩, m1.toNat),
      (⟨1, .extraDeck⟩, e1.toNat)]) (by simp) (by simp) rfl h1
    simp only [List.map_cons, List.map_nil, List.sum_cons, List.sum_nil, List.length_nil] at this
    simp only [going, coming]
    omega
  | reloadField flags s0 s1 chains =>
    obtain ⟨h1, h2, h3⟩ := track_owned hr hf rfl h
    have := state_owned hr.inv (rs := [(⟨0, .mainDeck⟩, s0.main.toNat), (⟨0, .hand⟩, s0.hand.toNat), (⟨0, .graveyard⟩, s0.grave.toNat),
      (⟨0, .banished⟩, s0.banished.toNat), (⟨0, .extraDeck⟩, s0.extra.toNat), (⟨1, .mainDeck⟩, s1.main.toNat), (⟨1, .hand⟩, s1.hand.toNat),
      (⟨1, .graveyard⟩, s1.grave.toNat), (⟨1, .banished⟩, s1.banished.toNat), (⟨1, .extraDeck⟩, s1.extra.toNat)]) (by
        intro p hp
        rcases List.mem_append.mp hp with hp | hp
        · exact side_zone _ _ p hp
        · exact side_zone _ _ p hp) (by simp) rfl h1
    simp only [List.length_append, side_length, List.map_cons, List.map_nil, List.sum_cons, List.sum_nil] at this
    simp only [going, coming, FieldSide.total]
    omega
  | tagSwap p main extraP top extra hand =>
    obtain ⟨h1, h2, h3⟩ := track_owned hr hf rfl h
    obtain ⟨q, hq⟩ : ∃ q : Fin 2, p = playerByte q := by
      simp only [frameOps, DuelBoard.exchangeOps, DuelBoard.resizeOps, List.map_cons, List.cons_append, runOps, FrameLike.step, Frame.step,
        bind_eq_ok] at h1
      obtain ⟨g, h1, _⟩ := h1
      obtain ⟨k, hk⟩ := Frame.pileResize_place h1
      generalize hx : (CoreMsg.pileSize (p.toNat : Int) 1 main.toNat).place = x at hk
      cases hk with
      | pile k s o =>
        injection hx with hx
        refine ⟨k.con, UInt8.toNat_inj.mp ?_⟩
        rw [show p.toNat = k.con.val by omega]
        generalize k.con = q
        revert q; decide
    have e : (if p = 0 then 0 else 1 : Fin 2) = q := by rw [hq]; exact (by decide : ∀ q : Fin 2, (if playerByte q = 0 then 0 else 1 : Fin 2) = q) q
    have e' : (p.toNat : Int) = q.val := by rw [hq]; exact (by decide : ∀ q : Fin 2, ((playerByte q).toNat : Int) = q.val) q
    have := resizes_owned hr.inv (rs := [(⟨q, .mainDeck⟩, main.toNat), (⟨q, .extraDeck⟩, extra.length), (⟨q, .hand⟩, hand.length)])
      (f' := c'.board.frame) (by simp) (by rw [← h1, e']; rfl)
    simp only [List.map_cons, List.map_nil, List.sum_cons, List.sum_nil] at this
    simp only [going, coming, e]
    simp only [boardOf, view_pile]
    simp only [boardOf] at h2 h3
    omega
  | move code src dst reason =>
    simp only [going, coming]
    by_cases hs : src.place.loc = 0 <;> by_cases hd : dst.place.loc = 0
    · simp only [hs, hd, not_true, and_false, ne_eq, if_false, false_and]
      have := kept ⟨fun _ => hd, fun _ => hs⟩
      omega
    · obtain ⟨x, _, hx⟩ := C98_appears c hr code src dst reason hs hd more c' h
      simp only [hs, hd, not_true, not_false_eq_true, and_true, and_false, ne_eq, if_false, if_true, false_and]
      have := hx.length_eq
      simpa [tableSize] using this
    · obtain ⟨x, hx⟩ := C98_disappears c hr code src dst reason hs hd more c' h
      simp only [hs, hd, not_true, not_false_eq_true, and_true, and_false, ne_eq, if_false, if_true, false_and]
      have := hx.length_eq
      simpa [tableSize] using this.symm
    · simp only [hs, hd, not_false_eq_true, and_true, and_false, ne_eq, if_false, false_and]
      have := kept ⟨fun h => absurd h hs, fun h => absurd h hd⟩
      omega
  | _ => exact congrArg (· + 0) (kept trivial)

theorem track_reachable {c c' : BasicContext} {data : List UInt8} (hr : Reachable c.board.frame) (h : track c data = .ok c') :
    Reachable c'.board.frame := by
  unfold track at h
  rw [bind_eq_ok] at h
  obtain ⟨⟨r, c1⟩, h1, h2⟩ := h
  have hr1 : Reachable c1.board.frame := by rw [(encodeOne_same h1).board]; exact hr
  dsimp only at h2
  cases hm : r.msg with
  | none => simp only [hm] at h2; cases h2; exact hr1
  | some m => simp only [hm] at h2; exact parse_reachable h2 hr1

/-- **C98.** So in a whole duel there are never more cards on the table than the core's messages brought. -/
theorem C98_duel (c : BasicContext) (hr : Reachable c.board.frame) (ms : List CoreMsg) (hf : ∀ m ∈ ms, m.Fits) (c' : BasicContext)
    (h : trackAll c ms = .ok c') : tableSize (boardOf c') ≤ tableSize (boardOf c) + comingAll ms := by
  induction ms generalizing c with
  | nil => cases h; exact Nat.le_refl _
  | cons m ms ih =>
    rw [trackAll, bind_eq_ok] at h
    obtain ⟨c1, h1, h2⟩ := h
    have a := C98_account c hr m (hf m List.mem_cons_self) [] c1 (by rw [List.append_nil]; exact h1)
    have b := ih c1 (track_reachable hr h1) (fun m hm => hf m (List.mem_cons_of_mem _ hm)) h2
    simp only [comingAll, List.map_cons, List.sum_cons] at b ⊢
    omega

theorem kept_all {c : BasicContext} {ms : List CoreMsg} (hf : ∀ m ∈ ms, m.Fits ∧ KeepsTable m) {c' : BasicContext}
    (h : trackAll c ms = .ok c') : (placed (boardOf c')).Perm (placed (boardOf c)) := by
  induction ms generalizing c with
  | nil => cases h; exact .refl _
  | cons m ms ih =>
    rw [trackAll, bind_eq_ok] at h
    obtain ⟨c1, h1, h2⟩ := h
    obtain ⟨a, b⟩ := hf m List.mem_cons_self
    exact (ih (fun m hm => hf m (List.mem_cons_of_mem _ hm)) h2).trans (C98_messages c m a b [] c1 (by rw [List.append_nil]; exact h1))

/-- **C98.** After the start of a duel, as long as no card comes from nowhere or goes there and neither field nor players are replaced, the
cards on the table are the cards of the four decks: the very same objects, however often they were drawn, played and shuffled. -/
theorem C98_since_start (c : BasicContext) (hr : Reachable c.board.frame) (rule : UInt8) (lp0 lp1 : UInt32) (m0 e0 m1 e1 : UInt16)
    (ms : List CoreMsg) (hf : ∀ m ∈ ms, m.Fits ∧ KeepsTable m) (c' : BasicContext)
    (h : trackAll c (.start rule lp0 lp1 m0 e0 m1 e1 :: ms) = .ok c') :
    (∃ c1, track c (CoreMsg.start rule lp0 lp1 m0 e0 m1 e1).bytes = .ok c1 ∧ (placed (boardOf c')).Perm (placed (boardOf c1))) ∧
      tableSize (boardOf c') = m0.toNat + e0.toNat + m1.toNat + e1.toNat := by
  rw [trackAll, bind_eq_ok] at h
  obtain ⟨c1, h1, h2⟩ := h
  have hk := kept_all hf h2
  refine ⟨⟨c1, h1, hk⟩, ?_⟩
  have a := C98_account c hr (.start rule lp0 lp1 m0 e0 m1 e1) trivial [] c1 (by rw [List.append_nil]; exact h1)
  have b := hk.length_eq
  simp only [going, coming, tableSize] at a b ⊢
  omega

/-- **C98.** What the core says is believed: 22 bytes make any number of cards that fits into 32 bits. -/
theorem C98_believed (c : BasicContext) (hr : Reachable c.board.frame) (n : UInt32) :
    (CoreMsg.tagSwap 0 n 0 0 [] []).bytes.length = 22 ∧
      ∃ c', track c (CoreMsg.tagSwap 0 n 0 0 [] []).bytes = .ok c' ∧ n.toNat ≤ tableSize (boardOf c') := by
  refine ⟨rfl, ?_⟩
  obtain ⟨f, h1, h2, ⟨o, h3, h4, _⟩, _⟩ := C64_tag_swap c hr 0 n 0 0 [] [] (by decide) []
  rw [List.append_nil] at h1
  refine ⟨_, h1, ?_⟩
  have a : (view f.layout (.pile ⟨0, .mainDeck⟩)).length ≤ tableSize (view f.layout) := by
    unfold tableSize placed
    obtain ⟨l, r, e⟩ := List.append_of_mem (mem_containers (.pile ⟨0, .mainDeck⟩))
    rw [e, List.flatMap_append, List.flatMap_cons, List.length_append, List.length_append]
    omega
  rw [h3, List.length_append, List.length_take, h4] at a
  exact Nat.le_trans (by omega) a

/-- A duel with decks of five, in which a card is drawn, played and sent to the graveyard, a token comes and goes. -/
def demoCards : List CoreMsg :=
  [.start 0 8000 8000 5 1 4 2, .draw 0 [(1, 1), (2, 1)], .move 1 ⟨0, 2, 0, 1⟩ ⟨0, 4, 2, 1⟩ 0, .move 9 ⟨0, 0, 0, 0⟩ ⟨1, 4, 0, 1⟩ 0,
   .move 1 ⟨0, 4, 2, 1⟩ ⟨0, 0x10, 0, 1⟩ 0, .move 9 ⟨1, 4, 0, 1⟩ ⟨0, 0, 0, 0⟩ 0, .tagSwap 1 3 0 0 [(1, 1)] [(2, 1), (3, 1)]]

example : ((List.range 8).map fun n => (trackAll BasicContext.init (demoCards.take n)).map fun c => tableSize (boardOf c)) =
    [.ok 0, .ok 12, .ok 12, .ok 12, .ok 13, .ok 13, .ok 12, .ok 12] := by decide +kernel

example : demoCards.map coming = [12, 0, 0, 1, 0, 0, 6] ∧ (∀ m ∈ demoCards, m.Fits) := by
  refine ⟨by decide, ?_⟩
  intro m hm
  simp only [demoCards, List.mem_cons, List.not_mem_nil, or_false] at hm
  rcases hm with rfl | rfl | rfl | rfl | rfl | rfl | rfl <;> simp [CoreMsg.Fits]

/-- A reloaded field with a monster on three materials. -/
example : (track BasicContext.init (CoreMsg.reloadField 0 ⟨8000, .card 1 1 3 :: List.replicate 6 .empty, List.replicate 8 .empty, 2, 1, 0, 0, 1, 0⟩
    ⟨8000, List.replicate 7 .empty, .card 1 1 0 :: List.replicate 7 .empty, 4, 0, 2, 0, 0, 0⟩ []).bytes).map (fun c => tableSize (boardOf c)) =
    .ok 15 := by decide +kernel

/-- Events that keep cards, on a board with cards. -/
example : ((PlainBoard.init.parseEvents (demoEvents.take 7)).map fun b => (tableSize (view b.frame.layout))) = .ok 12 ∧
    (demoEvents.take 7).map asked = [12, 0, 0, 0, 0, 0, 0] := by decide +kernel

end Ygo.Props
