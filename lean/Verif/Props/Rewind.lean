import Verif.Spec.Rewind
import Verif.Props.System

/-!
# Going back and forth in a duel (C68)
-/

set_option linter.unusedSimpArgs false

namespace Ygo.Props
open Ygo Spec P

/-! ### Buffers and positions -/

theorem events_cons (r : Encoded) (rs : List Encoded) : events (r :: rs) = ((r.msg.bind Msg.event?).toList) ++ events rs := by
  simp only [events, messages, List.filterMap_cons]
  cases hm : r.msg with
  | none => rfl
  | some m =>
    simp only [List.filterMap_cons, Option.bind_some]
    cases he : Msg.event? m <;> rfl

theorem feed_cons_ok {c c1 c2 c' : BasicContext} {d : List UInt8} {ds : List (List UInt8)} {r : Encoded} {rs : List Encoded}
    (h1 : encodeOne c d = .ok (r, c1)) (h2 : (match r.msg with | some m => c1.parse m | none => .ok c1) = .ok c2) (h3 : feed c2 ds = .ok (rs, c')) :
    feed c (d :: ds) = .ok (r :: rs, c') := by
  rw [feed, h1, bind_ok]
  dsimp only
  cases hm : r.msg with
  | none => rw [hm] at h2; cases h2; dsimp only; rw [show (pure c1 : Res BasicContext) = .ok c1 from rfl, bind_ok, h3]; rfl
  | some m => rw [hm] at h2; dsimp only at h2 ⊢; rw [h2, bind_ok, h3]; rfl

/-- The server gets through every initial part of the buffers. -/
theorem feed_take {c c' : BasicContext} {ds : List (List UInt8)} {rs : List Encoded} (h : feed c ds = .ok (rs, c')) (k : Nat) :
    ∃ ck, feed c (ds.take k) = .ok (rs.take k, ck) := by
  induction ds generalizing c rs k with
  | nil => cases h; exact ⟨_, by rw [List.take_nil, List.take_nil]; rfl⟩
  | cons d ds ih =>
    cases k with
    | zero => exact ⟨c, rfl⟩
    | succ k =>
      obtain ⟨r, c1, c2, rs', h1, _, h2, h3, rfl⟩ := feed_cons h
      obtain ⟨ck, h4⟩ := ih h3 k
      exact ⟨ck, feed_cons_ok h1 h2 h4⟩

theorem events_take (rs : List Encoded) (k : Nat) : events (rs.take k) = (events rs).take (events (rs.take k)).length := by
  suffices h : events (rs.take k) <+: events rs from List.prefix_iff_eq_take.mp h
  induction rs generalizing k with
  | nil => simp
  | cons r rs ih =>
    cases k with
    | zero => exact List.nil_prefix
    | succ k =>
      rw [List.take_succ_cons, events_cons, events_cons]
      exact (List.prefix_append_right_inj _).mpr (ih k)

/-- There is a buffer after which a given number of events has happened. -/
theorem exists_position (rs : List Encoded) (i : Nat) (hi : i ≤ (events rs).length) : ∃ k, k ≤ rs.length ∧ (events (rs.take k)).length = i := by
  induction rs generalizing i with
  | nil => exact ⟨0, Nat.le_refl _, by simp only [List.take_nil]; exact (Nat.le_zero.mp hi).symm⟩
  | cons r rs ih =>
    cases i with
    | zero => exact ⟨0, Nat.zero_le _, rfl⟩
    | succ i =>
      rw [events_cons] at hi
      cases hm : r.msg.bind Msg.event? with
      | none =>
        rw [hm] at hi
        obtain ⟨k, hk, h⟩ := ih (i + 1) (by simpa using hi)
        exact ⟨k + 1, by simpa using hk, by rw [List.take_succ_cons, events_cons, hm]; simpa using h⟩
      | some e =>
        rw [hm] at hi
        obtain ⟨k, hk, h⟩ := ih i (by simp at hi; omega)
        exact ⟨k + 1, by simpa using hk, by rw [List.take_succ_cons, events_cons, hm]; simp [h]⟩

/-! ### What can be undone on the plain board can be undone -/

theorem rewindableOps_all {g : Frame} {f : Limbo} {Xs : List FrameOp} (hl : LiveFrame f) (hi : Inv g) (hr : Refines g f) (h : RewindableOps g Xs) :
    UndoesAll f Xs := by
  induction Xs generalizing f g with
  | nil => trivial
  | cons X Xs ih =>
    refine ⟨by rw [hr.layout]; exact h.1, fun f' hf => ?_⟩
    obtain ⟨h4, _, g', h5, h6⟩ := Limbo.step_refines hl hi hr hf
    exact ih h4 (hi.step h5) h6 (h.2 _ h5)

theorem rewindableOps_shrinks {g : Frame} {Xs : List FrameOp} (h : RewindableOps g Xs) : ShrinksByHalf g Xs := by
  induction Xs generalizing g with
  | nil => trivial
  | cons X Xs ih =>
    refine ⟨?_, fun f' hf => ih (h.2 f' hf)⟩
    rintro p n k i rfl hp
    rcases h.1 k i hp with h | h
    · exact .inl h
    · exact .inr (Nat.le_of_eq h.symm)

theorem rewindable_followable {p : PlainBoard} {es : List Event} (h : Rewindable p es) : Followable p es := by
  induction es generalizing p with
  | nil => trivial
  | cons e es ih => exact ⟨h.1, rewindableOps_shrinks h.2.1, fun b' hb => ih (h.2.2 b' hb)⟩

theorem rewindable_supported {p : PlainBoard} {u : UndoBoard} {es : List Event} (hs : Shows p u) (hr : Refines p.frame u.frame) (hi : Inv p.frame)
    (hl : Live u) (h : Rewindable p es) : Supported u es := by
  induction es generalizing p u with
  | nil => trivial
  | cons e es ih =>
    refine ⟨rewindableOps_all hl.frame hi hr h.2.1, fun u' hu => ?_⟩
    obtain ⟨p', h1, h2, h3, h4, h5⟩ := parse_shows hs hr hi hl hu
    exact ih h2 h3 h4 h5 (h.2.2 _ h1)

theorem all_rewindableOps {g : Frame} {f f' : Limbo} {Xs : List FrameOp} (hl : LiveFrame f) (hi : Inv g) (hr : Refines g f)
    (hf : runOps f Xs = .ok f') (h : UndoesAll f Xs) : RewindableOps g Xs := by
  induction Xs generalizing f g with
  | nil => trivial
  | cons X Xs ih =>
    simp only [runOps, FrameLike.step, bind_eq_ok] at hf
    obtain ⟨f1, h1, h2⟩ := hf
    obtain ⟨h4, _, g', h5, h6⟩ := Limbo.step_refines hl hi hr h1
    exact ⟨by rw [← hr.layout]; exact h.1, fun g1 hg => by rw [h5] at hg; cases hg; exact ih h4 (hi.step h5) h6 h2 (h.2 _ h1)⟩

theorem supported_rewindable {p : PlainBoard} {u u' : UndoBoard} {es : List Event} (hs : Shows p u) (hr : Refines p.frame u.frame) (hi : Inv p.frame)
    (hl : Live u) (hu : u.parseEvents es = .ok u') (hf : Followable p es) (h : Supported u es) : Rewindable p es := by
  induction es generalizing p u with
  | nil => trivial
  | cons e es ih =>
    simp only [DuelBoard.parseEvents, bind_eq_ok] at hu
    obtain ⟨u1, h1, h2⟩ := hu
    obtain ⟨p', e1, e2, e3, e4, e5⟩ := parse_shows hs hr hi hl h1
    exact ⟨hf.1, all_rewindableOps hl.frame hi hr (parse_frame h1) h.1, fun p1 hp => by
      rw [e1] at hp; cases hp; exact ih e2 e3 e4 e5 h2 (hf.2.2 _ e1) (h.2 _ h1)⟩

theorem live_init : Live UndoBoard.init := ⟨⟨rfl, rfl⟩, rfl, rfl, rfl, fun _ => rfl, rfl, rfl⟩

theorem shows_of_sight {p : PlainBoard} {u v : UndoBoard} (h : Shows p u) (hs : SameSight v u) : Shows p v :=
  ⟨hs.layout.trans h.layout, hs.chainStack.trans h.chainStack, hs.turn.trans h.turn, hs.turnController.trans h.turnController,
    fun i => (hs.lp i).trans (h.lp i), hs.phase.trans h.phase, hs.blockedZones.trans h.blockedZones⟩

/-! ### Buffers whose events can be undone -/

/-- No card is shuffled. -/
def Tame (e : Event) : Prop := ∀ X ∈ frameOps e, ∀ p q n, X ≠ .shuffle p q n

/-- Only events of this kind. -/
def TameOutcome (o : Outcome) : Prop := ∀ m e, o.msg = some m → Msg.event? m = some e → Tame e

theorem tame_event {e : Event} (h : Tame e) : TameOutcome (.event e) := by
  rintro m e' hm he
  cases hm; cases he
  exact h

theorem tame_swallowed : TameOutcome .swallowed := by rintro m e hm; cases hm
theorem tame_unknown : TameOutcome {} := by rintro m e hm; cases hm
theorem tame_request (r : Int) (q : Request) : TameOutcome (.request r q) := by rintro m e hm he; cases hm; cases he
theorem tame_queries (qs : List Query) : TameOutcome (.queries qs) := by rintro m e hm he; cases hm; cases he

theorem tame_state (s : BoardState) : TameOutcome (.event (.board (.state s))) := by
  refine tame_event ?_
  intro X hX
  simp only [frameOps, DuelBoard.stateOps, DuelBoard.resizeOps, List.mem_cons, List.mem_append, List.mem_map] at hX
  rcases hX with (rfl | ⟨_, _, rfl⟩) | ⟨_, _, rfl⟩ <;> exact fun _ _ _ => FrameOp.noConfusion

theorem tame_exchange (s : BoardExchange) : TameOutcome (.event (.board (.exchange s))) := by
  refine tame_event ?_
  intro X hX
  simp only [frameOps, DuelBoard.exchangeOps, DuelBoard.resizeOps, List.mem_append, List.mem_map] at hX
  rcases hX with (⟨_, _, rfl⟩ | ⟨_, _, rfl⟩) | ⟨_, _, rfl⟩ <;> exact fun _ _ _ => FrameOp.noConfusion

theorem tame_card (reason : Nat) (e : CardEvent) (h1 : ∀ p q, e ≠ .shuffle p q) : TameOutcome (.event (.card reason e)) := by
  refine tame_event ?_
  intro X hX
  cases e <;> simp only [frameOps, DuelBoard.cardOps, List.mem_map, List.mem_singleton, List.not_mem_nil] at hX
  case shuffle => exact absurd rfl (h1 _ _)
  all_goals (obtain ⟨_, _, rfl⟩ := hX; exact fun _ _ _ => FrameOp.noConfusion)

theorem tame_pile (reason : Nat) (e : PileEvent) : TameOutcome (.event (.pile reason e)) := by
  refine tame_event ?_
  intro X hX
  cases e <;> simp only [frameOps, DuelBoard.pileOps, List.mem_map, List.mem_singleton, List.not_mem_nil] at hX
  all_goals (obtain ⟨_, _, rfl⟩ := hX; exact fun _ _ _ => FrameOp.noConfusion)

theorem tame_other {e : Event} (h : frameOps e = []) : TameOutcome (.event e) :=
  tame_event (by intro X hX; rw [h] at hX; cases hX)

theorem eventCase_tame (k : Kind) (hk : k ≠ .shuffleSetCard) (p : P Outcome) (h : eventCase k = some p) : Gives TameOutcome p := by
  cases k <;> simp only [Ygo.eventCase, Option.some.injEq, reduceCtorEq] at h
  case shuffleSetCard => exact absurd rfl hk
  all_goals subst h
  all_goals ((try unfold startEvent); (try unfold reloadEvent); (try unfold tagSwapEvent); (try unfold summoningEvent); (try unfold selectedEvent); (try unfold lpEvent))
  all_goals repeat' (first
    | exact Gives.pure (tame_other rfl)
    | exact Gives.pure (tame_state _)
    | exact Gives.pure (tame_exchange _)
    | exact Gives.pure (tame_card _ _ (fun _ _ => CardEvent.noConfusion))
    | exact Gives.pure (tame_pile _ _)
    | with_reducible refine Gives.bind fun _ => ?_)

theorem queryCase_tame (k : Kind) (p : P Outcome) (h : queryCase k = some p) : Gives TameOutcome p := by
  cases k <;> simp only [Ygo.queryCase, Option.some.injEq, reduceCtorEq] at h <;> subst h
  all_goals repeat' (first
    | exact Gives.pure (tame_queries _)
    | with_reducible refine Gives.bind fun _ => ?_)

theorem moveOutcome_tame (c : BasicContext) (prev curr : Place) (reason : Nat) (x : Outcome × BasicContext)
    (h : moveOutcome c prev curr reason = .ok x) : TameOutcome x.1 := by
  have w := tame_swallowed
  have t : ∀ r e, (∀ p q, e ≠ CardEvent.shuffle p q) → TameOutcome (.event (.card r e)) := tame_card
  unfold Ygo.moveOutcome at h
  split at h
  · cases h; exact w
  split at h
  · cases h; exact t _ _ (fun _ _ => CardEvent.noConfusion)
  split at h
  · split at h <;> simp only [bind_eq_ok, pure_eq_ok, Except.ok.injEq] at h <;> obtain ⟨_, _, h⟩ := h
    · subst h; exact t _ _ (fun _ _ => CardEvent.noConfusion)
    · obtain ⟨_, _, rfl⟩ := h; exact t _ _ (fun _ _ => CardEvent.noConfusion)
  split at h
  · cases h; exact w
  split at h
  · cases h; exact t _ _ (fun _ _ => CardEvent.noConfusion)
  split at h
  · simp only [bind_eq_ok, pure_eq_ok, Except.ok.injEq] at h
    obtain ⟨_, _, rfl⟩ := h
    exact t _ _ (fun _ _ => CardEvent.noConfusion)
  · split at h <;> simp only [bind_eq_ok, pure_eq_ok, Except.ok.injEq] at h <;> obtain ⟨_, _, h⟩ := h
    · obtain ⟨_, _, rfl⟩ := h; exact t _ _ (fun _ _ => CardEvent.noConfusion)
    · subst h; exact t _ _ (fun _ _ => CardEvent.noConfusion)

theorem contextCase_tame (c : BasicContext) (k : Kind) (p : P (Outcome × BasicContext)) (h : contextCase c k = some p) :
    Gives (fun x => TameOutcome x.1) p := by
  have kept : ∀ {q : P Outcome}, Gives TameOutcome q → Gives (fun x : Outcome × BasicContext => TameOutcome x.1) (q >>= fun o => Pure.pure (o, c)) :=
    fun hq => Gives.bind' hq fun _ h => Gives.pure h
  cases k <;> simp only [contextCase, Option.some.injEq, reduceCtorEq] at h <;> subst h
  case move =>
    refine Gives.bind fun _ => Gives.bind fun _ => Gives.bind fun _ => Gives.bind fun _ => ?_
    intro s x r e
    exact moveOutcome_tame c _ _ _ x (lift_eq_ok.mp e).1
  case matchKill => exact Gives.bind fun _ => Gives.pure tame_swallowed
  all_goals
    refine kept ?_
    first | unfold winEvent | unfold deckTopEvent | unfold swapGraveDeckEvent | unfold drawEvent | unfold reverseDeckEvent
    repeat' (first
    | exact Gives.pure (tame_other rfl)
    | exact Gives.pure (tame_pile _ _)
    | with_reducible refine Gives.bind fun _ => ?_
    | with_reducible refine Gives.ite ?_ ?_)

theorem kind_byte {x : UInt8} {k : Kind} (h : Kind.ofByte x.toNat = some k) : k = .shuffleSetCard → x = 36 := by
  intro hk
  unfold Kind.ofByte at h
  cases hf : Kind.table.find? fun e => e.1 = x.toNat with
  | none => rw [hf] at h; cases h
  | some y =>
    rw [hf] at h
    cases h
    have h1 := List.find?_some hf
    have h2 := List.mem_of_find?_eq_some hf
    simp only [decide_eq_true_eq] at h1
    have key : ∀ y ∈ Kind.table, y.2 = .shuffleSetCard → y.1 = 36 := by decide
    exact UInt8.toNat_inj.mp (h1.symm.trans (key y h2 hk))

theorem encodeOne_tame {c c' : BasicContext} {data : List UInt8} {r : Encoded} (h : encodeOne c data = .ok (r, c'))
    (hd : ∀ b rest, data = b :: rest → b ≠ 36) : ∀ m e, r.msg = some m → Msg.event? m = some e → Tame e := by
  obtain ⟨o, rest, hb, rfl⟩ := encodeOne_eq h
  suffices hc : TameOutcome o from hc
  unfold encodeBody at hb
  obtain ⟨b, t, h1, h2⟩ := bind_eq_ok_iff.mp hb
  obtain ⟨x, xs, rfl⟩ : ∃ x xs, data = x :: xs := by
    cases data with
    | nil => cases h1
    | cons x xs => exact ⟨x, xs, rfl⟩
  have h36 := hd x xs rfl
  have hb : b = x.toNat ∧ t = xs := by
    simp [P.read] at h1
    rw [← h1.1, ← h1.2]
    simp [leVal]
  obtain ⟨rfl, rfl⟩ := hb
  cases hk : Kind.ofByte x.toNat with
  | none => simp only [hk] at h2; cases h2; exact tame_unknown
  | some k =>
    simp only [hk] at h2
    have k0 := kind_byte hk
    · have hg : Gives (fun x : Outcome × BasicContext => TameOutcome x.1) (encodeCase c k) := by
        unfold encodeCase
        split
        · exact Gives.bind' (eventCase_tame k (fun h => h36 (k0 h)) _ ‹eventCase k = some _›) fun _ h => Gives.pure h
        · exact Gives.bind' (queryCase_tame k _ ‹queryCase k = some _›) fun _ h => Gives.pure h
        · exact Gives.bind fun _ => Gives.bind fun _ => Gives.pure (tame_request _ _)
        · exact Gives.bind fun _ => Gives.pure tame_swallowed
        · exact contextCase_tame c _ _ ‹contextCase c k = some _›
        · exact Gives.pure tame_unknown
      exact hg _ _ _ h2

/-- Operations that return, are tame and do not resize piles can be undone. -/
theorem ops_rewindable {Xs : List FrameOp} {f f' : Frame} (h : runOps f Xs = .ok f')
    (ht : ∀ X ∈ Xs, ∀ p q n, X ≠ .shuffle p q n) (hr : ∀ X ∈ Xs, ∀ p n, X ≠ .resize p n) : RewindableOps f Xs := by
  induction Xs generalizing f with
  | nil => trivial
  | cons X Xs ih =>
    simp only [runOps, FrameLike.step, bind_eq_ok] at h
    obtain ⟨f1, h1, h2⟩ := h
    refine ⟨?_, fun f2 hf => ?_⟩
    · have t1 := ht X (by simp)
      have r1 := hr X (by simp)
      cases X with
      | shuffle p q n => exact absurd rfl (t1 p q n)
      | resize p n => exact absurd rfl (r1 p n)
      | _ => trivial
    · rw [h1] at hf; cases hf
      exact ih h2 (fun X hX => ht X (by simp [hX])) (fun X hX => hr X (by simp [hX]))


theorem resizes_rewind (rs : List (ResizeOp × PileKey)) (ha : ∀ r ∈ rs, At r.1.place (.pile r.2) r.1.place.seq) (hn : (rs.map (·.2)).Nodup)
    (f : Frame) (he : ∀ r ∈ rs, view f.layout (.pile r.2) = []) : RewindableOps f (DuelBoard.resizeOps (rs.map (·.1))) := by
  induction rs generalizing f with
  | nil => trivial
  | cons r rs ih =>
    simp only [List.map_cons, List.nodup_cons] at hn
    refine ⟨?_, ?_⟩
    · intro k i hp
      obtain ⟨hC, _⟩ := At.unique (ha r (by simp)) hp
      cases hC
      have : f.layout.pile r.2 = [] := he r (by simp)
      rw [this]
      exact .inl (Nat.zero_le _)
    · intro f' hf
      have hv := (Frame.pileResize_at (ha r (by simp)) hf).1
      refine ih (fun r hr => ha r (by simp [hr])) hn.2 f' fun r' hr' => ?_
      rw [hv, upd_apply, if_neg]
      · exact he r' (by simp [hr'])
      · intro h
        apply hn.1
        rw [List.mem_map]
        exact ⟨r', hr', by injection h⟩

theorem adds_rewind (ps : List Place) (h : ∀ p ∈ ps, p.isPile = false) (rs : List (ResizeOp × PileKey))
    (ha : ∀ r ∈ rs, At r.1.place (.pile r.2) r.1.place.seq) (hn : (rs.map (·.2)).Nodup) (f : Frame) (he : ∀ k, view f.layout (.pile k) = []) :
    RewindableOps f (ps.map .add ++ DuelBoard.resizeOps (rs.map (·.1))) := by
  induction ps generalizing f with
  | nil => exact resizes_rewind rs ha hn f fun r _ => he r.2
  | cons p ps ih =>
    refine ⟨trivial, ?_⟩
    intro f' hf
    refine ih (fun p hp => h p (by simp [hp])) f' fun k => ?_
    simp only [Frame.step, bind_eq_ok, pure_eq_ok, Except.ok.injEq, Prod.exists] at hf
    obtain ⟨f1, c, hf, rfl⟩ := hf
    obtain ⟨_, _, _, C, i, hp, _, hv⟩ := (C07_card_add _ _ _ _).mp hf
    rw [hv, Board.put, upd_apply, if_neg]
    · exact he k
    · rintro rfl
      have := hp.isPile
      rw [h p (by simp)] at this
      cases this

theorem fromScratch_rewind {e : Event} (h : FromScratch e) {f : Frame} (hi : Inv f) : NoSingleLinks e ∧ RewindableOps f (frameOps e) := by
  obtain ⟨s, rs, rfl, hp, hr, ha, hn⟩ := h
  refine ⟨trivial, trivial, ?_⟩
  intro f' hf
  obtain ⟨g, h1, _, _, h2, _⟩ := hi.clear
  have hf : f.clear = .ok f' := hf
  rw [h1] at hf; cases hf
  rw [hr]
  exact adds_rewind s.add hp rs ha hn _ fun k => h2 _

/-- What the server sends for ordinary buffers can be undone. -/
theorem ordinary_rewindable (ds : List (List UInt8)) (hd : ∀ d ∈ ds, Ordinary d) (rs : List Encoded) (c0 c : BasicContext)
    (hr : Reachable c0.board.frame) (h : feed c0 ds = .ok (rs, c)) : Rewindable c0.board (events rs) := by
  induction ds generalizing c0 rs with
  | nil => cases h; trivial
  | cons d ds ih =>
    obtain ⟨r, c1, c2, rs', h1, hs, h2, h3, rfl⟩ := feed_cons h
    have hr1 : Reachable c1.board.frame := by rw [hs.board]; exact hr
    have hd' : ∀ d ∈ ds, Ordinary d := fun d h => hd d (by simp [h])
    rw [events_cons]
    cases hm : r.msg with
    | none =>
      rw [hm] at h2; cases h2
      rw [← hs.board]
      exact ih hd' rs' c1 hr1 h3
    | some m =>
      rw [hm] at h2
      have hr2 := parse_reachable h2 hr1
      have hrest := ih hd' rs' c2 hr2 h3
      obtain ⟨b, st, hb, _, rfl⟩ := parse_parts h2
      rw [← hs.board, Option.bind_some]
      cases he : Msg.event? m with
      | none =>
        rw [he] at hb; cases hb
        exact hrest
      | some e =>
        rw [he] at hb
        have hb : c1.board.parseEvent e = .ok b := hb
        have ho := hd d (by simp)
        have hc := encodeOne_calm h1 (fun b rest hb => by obtain ⟨_, h70, h73, h161⟩ := ho b rest hb; exact ⟨h70, h73, h161⟩) m e hm he
        have ht := encodeOne_tame h1 (fun b rest hb => (ho b rest hb).1) m e hm he
        have : NoSingleLinks e ∧ RewindableOps c1.board.frame (frameOps e) := by
          rcases hc with hc | hc
          · exact fromScratch_rewind hc hr1.inv
          · exact ⟨hc.1, ops_rewindable (parse_frame hb) ht hc.2⟩
        refine ⟨this.1, this.2, fun b' hb' => ?_⟩
        rw [hb] at hb'; cases hb'
        exact hrest

/-- **C68.** A client goes back and forth over the events of a duel in any way. It always gets through, and shows the board the server
had after the buffers whose events it has seen. -/
theorem C68_rewind (ds : List (List UInt8)) (rs : List Encoded) (c : BasicContext) (h : feed BasicContext.init ds = .ok (rs, c))
    (hr : Rewindable PlainBoard.init (events rs)) (ms : List Move) :
    ∃ u i, scrub (events rs) UndoBoard.init 0 ms = .ok (u, i) ∧
      (∃ k, k ≤ ds.length ∧ ∃ rs' c', feed BasicContext.init (ds.take k) = .ok (rs', c') ∧ (events rs').length = i) ∧
      ∀ k rs' c', feed BasicContext.init (ds.take k) = .ok (rs', c') → (events rs').length = i → Shows c'.board u := by
  obtain ⟨un, hu, _⟩ := C66_undoable_clients_get_through ds rs c h (rewindable_followable hr)
  have hs := rewindable_supported (u := UndoBoard.init) ⟨rfl, rfl, rfl, rfl, fun _ => rfl, rfl, rfl⟩ ⟨rfl, rfl, fun _ h => h⟩ Inv.init live_init hr
  obtain ⟨u, i, ui, h1, h2, h3, h4⟩ := C28_scrub_partial UndoBoard.init un (events rs) live_init hs hu ms
  refine ⟨u, i, h1, ?_, ?_⟩
  · obtain ⟨k, hk, hi⟩ := exists_position rs i h2
    obtain ⟨ck, hc⟩ := feed_take h k
    have hlen : ∀ (ds : List (List UInt8)) (c0 : BasicContext) (rs : List Encoded), feed c0 ds = .ok (rs, c) → rs.length = ds.length := by
      intro ds
      induction ds with
      | nil => intro c0 rs h; cases h; rfl
      | cons d ds ih =>
        intro c0 rs h
        obtain ⟨r, c1, c2, rs', _, _, _, h3, rfl⟩ := feed_cons h
        simp [ih c2 rs' h3]
    exact ⟨k, by rw [← hlen ds _ rs h]; exact hk, _, ck, hc, hi⟩
  · intro k rs' c' hf hi
    obtain ⟨ck, hc⟩ := feed_take h k
    rw [hf] at hc
    cases hc
    have he := events_take rs k
    rw [hi] at he
    refine shows_of_sight (C66_undoable_clients_in_step _ _ _ hf ui ?_) h4
    rw [show (messages (rs.take k)).filterMap Msg.event? = events (rs.take k) from rfl, he]
    exact h3


/-- **C68 (exactly when).** A client can go back and forth over the events of a duel in every way exactly if they can be undone on the
boards they happened on. -/
theorem C68_rewind_exactly (ds : List (List UInt8)) (rs : List Encoded) (c : BasicContext) (h : feed BasicContext.init ds = .ok (rs, c)) :
    (∀ ms, ∃ r, scrub (events rs) UndoBoard.init 0 ms = .ok r) ↔ Rewindable PlainBoard.init (events rs) := by
  constructor
  · intro hs
    obtain ⟨r, h1⟩ := hs (List.replicate (events rs).length .forward)
    have h5 := scrub_forward UndoBoard.init [] (events rs)
    simp only [List.nil_append, List.length_nil, Nat.zero_add] at h5
    rw [h5] at h1
    simp only [bind_eq_ok] at h1
    obtain ⟨un, hu, _⟩ := h1
    have hsup := (C28_scrub_exactly _ un _ live_init hu).mp hs
    exact supported_rewindable ⟨rfl, rfl, rfl, rfl, fun _ => rfl, rfl, rfl⟩ ⟨rfl, rfl, fun _ h => h⟩ Inv.init live_init hu
      ((C66_undoable_clients_exactly ds rs c h).mp ⟨un, hu⟩) hsup
  · intro hr ms
    obtain ⟨u, i, h1, _⟩ := C68_rewind ds rs c h hr ms
    exact ⟨_, h1⟩

/-- **C68.** For ordinary buffers with arbitrary contents nothing else is needed. -/
theorem C68_rewind_partial (ds : List (List UInt8)) (hd : ∀ d ∈ ds, Ordinary d) (rs : List Encoded) (c : BasicContext)
    (h : feed BasicContext.init ds = .ok (rs, c)) (ms : List Move) :
    ∃ u i, scrub (events rs) UndoBoard.init 0 ms = .ok (u, i) ∧
      (∃ k, k ≤ ds.length ∧ ∃ rs' c', feed BasicContext.init (ds.take k) = .ok (rs', c') ∧ (events rs').length = i) ∧
      ∀ k rs' c', feed BasicContext.init (ds.take k) = .ok (rs', c') → (events rs').length = i → Shows c'.board u :=
  C68_rewind ds rs c h (ordinary_rewindable ds hd rs _ c ⟨[], rfl⟩ h) ms

/-- **C68.** It can not be had for all buffers: after two set cards were shuffled the client can not go back. -/
theorem C68_shuffle_is_final : ∃ ds rs c, feed BasicContext.init ds = .ok (rs, c) ∧
    (scrub (events rs) UndoBoard.init 0 [.forward, .forward, .forward]).toOption.isSome = true ∧
    scrub (events rs) UndoBoard.init 0 [.forward, .forward, .forward, .backward] = .error .assert := by
  have key : ∀ (ds : List (List UInt8)), ((feed BasicContext.init ds).toOption.map fun x =>
        ((scrub (events x.1) UndoBoard.init 0 [.forward, .forward, .forward]).toOption.isSome,
         (scrub (events x.1) UndoBoard.init 0 [.forward, .forward, .forward, .backward]).map fun _ => ())) = some (true, .error .assert) →
      ∃ rs c, feed BasicContext.init ds = .ok (rs, c) ∧ (scrub (events rs) UndoBoard.init 0 [.forward, .forward, .forward]).toOption.isSome = true ∧
        scrub (events rs) UndoBoard.init 0 [.forward, .forward, .forward, .backward] = .error .assert := by
    intro ds h
    cases hf : feed BasicContext.init ds with
    | error e' => rw [hf] at h; cases h
    | ok x =>
      refine ⟨x.1, x.2, rfl, ?_⟩
      rw [hf] at h
      simp only [Except.toOption, Option.map_some, Option.some.injEq, Prod.mk.injEq] at h
      refine ⟨h.1, ?_⟩
      cases hp : scrub (events x.1) UndoBoard.init 0 [.forward, .forward, .forward, .backward] with
      | error e' => rw [hp] at h; cases h.2; rfl
      | ok u => rw [hp] at h; cases h.2
  exact ⟨[(CoreMsg.move 0 ⟨0, 0, 0, 0⟩ ⟨0, 8, 1, 8⟩ 0).bytes, (CoreMsg.move 0 ⟨0, 0, 0, 0⟩ ⟨0, 8, 2, 8⟩ 0).bytes,
    (CoreMsg.shuffleSetCard 8 [(⟨0, 8, 1, 8⟩, ⟨0, 8, 2, 8⟩), (⟨0, 8, 2, 8⟩, ⟨0, 8, 1, 8⟩)]).bytes], key _ (by decide +kernel)⟩

/-! ### Examples -/

example : ∀ d ∈ someBuffers, Ordinary d := by
  intro d hd b rest h
  have key : someBuffers.all (fun d => d.head?.all fun b => decide (b ≠ 36 ∧ b ≠ 70 ∧ b ≠ 73 ∧ b ≠ 161)) = true := by decide +kernel
  rw [List.all_eq_true] at key
  have := key d hd
  rw [h] at this
  exact of_decide_eq_true this

/-- Forward to the second draw, back to before the first one, and forward once. -/
example : (feed BasicContext.init someBuffers).toOption.bind (fun x => (scrub (events x.1) UndoBoard.init 0
      [.forward, .forward, .forward, .forward, .forward, .backward, .backward, .backward, .forward]).toOption.map fun y =>
        ((events x.1).length, y.2, view y.1.frame.base.layout (.pile ⟨0, .hand⟩), view y.1.frame.base.layout (.pile ⟨1, .hand⟩))) =
    some (6, 3, [2, 1], []) := by decide +kernel

end Ygo.Props
