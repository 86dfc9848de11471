import Verif.Spec.Unnoticed
import Verif.Lemmas.Unnoticed
import Verif.Props.Noticed
import Verif.Props.ReleaseFeed

/-!
# Clients that have lost track, in builds without asserts (C128)
-/

namespace Ygo.Props
open Ygo Ygo.Spec

/-! ## With enough cards nothing undefined is done -/

theorem runOps_atLeast : ∀ (ops : List FrameOp) {f' g' : Frame} {f : RawFrame}, Inv f' → Full (rawView f.layout) → NoFewer (view f'.layout) (rawView f.layout) →
    runOps f' ops = .ok g' → ∃ g, runOps f ops = .ok g ∧ Full (rawView g.layout) ∧ NoFewer (view g'.layout) (rawView g.layout) := by
  intro ops
  induction ops with
  | nil => intro f' g' f _ hf h hg; cases hg; exact ⟨f, rfl, hf, h⟩
  | cons op ops ih =>
    intro f' g' f hi' hf h hg
    simp only [runOps, bind_eq_ok] at hg ⊢
    obtain ⟨f1', h1, h2⟩ := hg
    obtain ⟨f1, h3, h4, h5⟩ := step_atLeast hi' hf h h1
    obtain ⟨g, h6, h7⟩ := ih (hi'.step h1) h4 h5 h2
    exact ⟨g, ⟨f1, h3, h6⟩, h7⟩

/-- Beside the table only the links of the chain can be missing. -/
theorem raw_event_of {b' c' : PlainBoard} {b : RawBoard} {e : Event} {f : RawFrame} (hch : b'.chainStack.val.length ≤ b.chainStack.val.length)
    (h : b'.parseEvent e = .ok c') (hg : runOps b.frame (frameOps e) = .ok f) :
    ∃ c, RawBoard.parseEvent b e = .ok c ∧ c.frame = f ∧ c'.chainStack.val.length ≤ c.chainStack.val.length := by
  cases e with
  | board e =>
    cases e with
    | unset => cases h; cases hg; exact ⟨_, rfl, rfl, hch⟩
    | exchange e =>
      simp only [RawBoard.parseEvent, DuelBoard.parseEvent, DuelBoard.onFrame, bind_eq_ok, pure_eq_ok, Except.ok.injEq, frameOps] at h hg ⊢
      obtain ⟨f', h, rfl⟩ := h
      exact ⟨_, ⟨_, hg, rfl⟩, rfl, hch⟩
    | state s =>
      simp only [RawBoard.parseEvent, DuelBoard.parseEvent, DuelBoard.parseState, DuelBoard.onFrame, DuelBoard.setLp, bind_eq_ok, pure_eq_ok,
        Except.ok.injEq, frameOps] at h hg ⊢
      obtain ⟨a, ha, c, hc, f', h, rfl⟩ := h
      refine ⟨_, ⟨a, ha, c, hc, f, ?_, rfl⟩, rfl, ?_⟩
      · rw [← hg]; split <;> rfl
      · split <;> exact Nat.le_refl _
  | card r e =>
    simp only [RawBoard.parseEvent, DuelBoard.parseEvent, DuelBoard.onFrame, bind_eq_ok, pure_eq_ok, Except.ok.injEq, frameOps] at h hg ⊢
    obtain ⟨f', h, rfl⟩ := h
    exact ⟨_, ⟨_, hg, rfl⟩, rfl, hch⟩
  | pile r e =>
    simp only [RawBoard.parseEvent, DuelBoard.parseEvent, DuelBoard.onFrame, bind_eq_ok, pure_eq_ok, Except.ok.injEq, frameOps] at h hg ⊢
    obtain ⟨f', h, rfl⟩ := h
    exact ⟨_, ⟨_, hg, rfl⟩, rfl, hch⟩
  | chainStack e =>
    cases e with
    | unset => cases h; cases hg; exact ⟨_, rfl, rfl, hch⟩
    | push c => cases h; cases hg; exact ⟨_, rfl, rfl, by simpa [Cell.push] using hch⟩
    | pop x =>
      cases hg
      by_cases h0 : b'.chainStack.val.length = 0
      · simp [DuelBoard.parseEvent, Cell.pop, guardUb, h0] at h
      · have h1 : b.chainStack.val.length ≠ 0 := by omega
        simp [DuelBoard.parseEvent, Cell.pop, guardUb, h0] at h
        refine ⟨{ b with chainStack := ⟨b.chainStack.val.dropLast⟩ }, ?_, rfl, ?_⟩
        · simp [RawBoard.parseEvent, DuelBoard.parseEvent, Cell.pop, guardUb, h1]
        · rw [← h]
          simp only [List.length_dropLast]
          omega
  | nextTurn c => cases h; cases hg; exact ⟨_, rfl, rfl, hch⟩
  | lp con c =>
    simp only [RawBoard.parseEvent, DuelBoard.parseEvent, DuelBoard.lpIdx, DuelBoard.setLp, bind_eq_ok, pure_eq_ok, Except.ok.injEq] at h ⊢
    obtain ⟨i, ⟨_, _, h1⟩, x, h2, rfl⟩ := h
    cases hg
    exact ⟨_, ⟨i, h1, _, rfl, rfl⟩, rfl, hch⟩
  | nextPhase p => cases h; cases hg; exact ⟨_, rfl, rfl, hch⟩
  | zoneBlock zs => cases h; cases hg; exact ⟨_, rfl, rfl, hch⟩
  | finish => cases h; cases hg; exact ⟨_, rfl, rfl, hch⟩
  | metaInfo => cases h; cases hg; exact ⟨_, rfl, rfl, hch⟩
  | result => cases h; cases hg; exact ⟨_, rfl, rfl, hch⟩
  | unset => cases h; cases hg; exact ⟨_, rfl, rfl, hch⟩

theorem answer_atLeast {l' : Layout} {l : RawLayout} (hf : Full (rawView l)) (h : NoFewer (view l') (rawView l)) (cache : Bool) :
    ∀ (qs : List Query) {st' st u' : CardId → Card Plain}, Client.answer cache l' qs st' = .ok u' → ∃ u, RawClient.answer cache l qs st = .ok u := by
  intro qs
  induction qs with
  | nil => intro st' st u' _; exact ⟨st, rfl⟩
  | cons q qs ih =>
    intro st' st u' hq
    simp only [Client.answer, RawClient.answer, bind_eq_ok] at hq ⊢
    obtain ⟨⟨n, v'⟩, h1, h2⟩ := hq
    simp only [parseQuery, bind_eq_ok, massert_eq_ok] at h1
    obtain ⟨b, hb, _, rfl, -⟩ := h1
    obtain ⟨C, i, ha, hi⟩ := Layout.hasCard_eq_ok.mp hb
    obtain ⟨x, hx⟩ := h.get hf (view_slot_le l') (of_decide_eq_true hi.symm)
    obtain ⟨⟨m, v⟩, h3⟩ := (C90_query l st q cache).2.mpr ⟨C, i, x, ha, hx⟩
    obtain ⟨u, h4⟩ := ih (st := v) h2
    exact ⟨u, ⟨m, v⟩, h3, h4⟩

theorem follow_atLeast (cache : Bool) : ∀ (ms : List Msg) {s' t' : Client} {s : RawClient}, Inv s'.board.frame → RawKeepsUp s' s →
    Client.follow cache s' ms = .ok t' → ∃ t, RawClient.follow cache s ms = .ok t ∧ RawKeepsUp t' t := by
  intro ms
  induction ms with
  | nil => intro s' t' s _ h hf; cases hf; exact ⟨s, rfl, h⟩
  | cons m ms ih =>
    intro s' t' s hi' h hf
    rw [follow_cons] at hf
    simp only [bind_eq_ok] at hf
    obtain ⟨b', h0, st', h1, h2⟩ := hf
    have key : ∃ b, ((match Msg.event? m with | some e => RawBoard.parseEvent s.board e | none => .ok s.board) : Res RawBoard) = .ok b ∧
        RawKeepsUp ⟨b', st'⟩ ⟨b, s.store⟩ ∧ Inv b'.frame := by
      cases he : Msg.event? m with
      | none => simp only [he] at h0 ⊢; cases h0; exact ⟨_, rfl, ⟨h.full, h.table, h.chain⟩, hi'⟩
      | some e =>
        simp only [he] at h0 ⊢
        obtain ⟨g, h3, h4, h5⟩ := runOps_atLeast _ hi' h.full h.table (parse_frame h0)
        obtain ⟨b, h6, rfl, h7⟩ := raw_event_of h.chain h0 h3
        exact ⟨b, h6, ⟨h4, h5, h7⟩, events_inv hi' h0⟩
    obtain ⟨b, h3, h4, h5⟩ := key
    obtain ⟨st, h6⟩ := answer_atLeast h4.full h4.table cache m.queries (st := s.store) h1
    obtain ⟨t, h7, h8⟩ := ih (s' := ⟨b', st'⟩) (s := ⟨b, st⟩) h5 ⟨h4.full, h4.table, h4.chain⟩ h2
    exact ⟨t, (rawFollow_cons _ _ _ _).trans (bind_eq_ok.mpr ⟨b, h3, bind_eq_ok.mpr ⟨st, h6, h7⟩⟩), h8⟩

/-! ## Without them something undefined is done -/

theorem rawFollow_saying {cache : Bool} {s : RawClient} {e : Event} {es : List Event} (h : ∃ t, RawClient.follow cache s ((e :: es).map saying) = .ok t) :
    ∃ b, RawBoard.parseEvent s.board e = .ok b ∧ ∃ t, RawClient.follow cache ⟨b, s.store⟩ (es.map saying) = .ok t := by
  obtain ⟨t, ht⟩ := h
  simp only [List.map_cons, rawFollow_cons, saying, Msg.event?, bind_eq_ok] at ht
  obtain ⟨b, h1, st, h2, h3⟩ := ht
  cases h2
  exact ⟨b, h1, t, h3⟩

theorem _root_.Ygo.Spec.NeverUndefined.event {s' : Client} {s : RawClient} (h : NeverUndefined s' s) {e : Event} {c' : PlainBoard} (hc : s'.board.parseEvent e = .ok c') :
    ∃ b, RawBoard.parseEvent s.board e = .ok b := by
  obtain ⟨b, h1, -⟩ := rawFollow_saying (es := []) (h false [saying e] ((follow_saying false [e] s').mpr ⟨c', by simp only [DuelBoard.parseEvents, hc]; rfl⟩))
  exact ⟨b, h1⟩

theorem run_head {f g : RawFrame} {op : FrameOp} {ops : List FrameOp} (h : runOps f (op :: ops) = .ok g) : ∃ f', f.step op = .ok f' := by
  simp only [runOps, FrameLike.step, bind_eq_ok] at h
  obtain ⟨f', h1, -⟩ := h
  exact ⟨f', h1⟩

theorem _root_.Ygo.Spec.NeverUndefined.full {s' : Client} {s : RawClient} (hi' : Inv s'.board.frame) (h : NeverUndefined s' s) : Full (rawView s.board.frame.layout) := by
  obtain ⟨f, h1, -⟩ := (hi'.step_iff .clear trivial ⟨fun _ => [], s'.board.frame.next⟩).mpr rfl
  have hp : ∃ c, s'.board.parseEvent (.board (.state { lps := [0, 0] })) = .ok c := by
    refine ⟨_, parseEvent_iff.mpr ⟨_, f, rfl, ?_, rfl⟩⟩
    simp only [callsOf, List.map_nil, List.append_nil, runOps, FrameLike.step, h1]
    rfl
  obtain ⟨c, hc⟩ := hp
  obtain ⟨b, hb⟩ := h.event hc
  obtain ⟨g, h3⟩ := run_head (op := .clear) (raw_frame hb)
  obtain ⟨h4, h5, -⟩ := (C88_call s.board.frame .clear (fun h => h) _).mp ⟨g, h3, rfl⟩
  intro C hC
  cases C with
  | slot k => exact absurd rfl (hC k)
  | pile k => exact h4 k
  | mats k => exact h5 k

theorem _root_.Ygo.Spec.NeverUndefined.get {s' : Client} {s : RawClient} (hi' : Inv s'.board.frame) (h : NeverUndefined s' s) {C : Container} {i : Nat}
    (hlt : i < (view s'.board.frame.layout C).length) : ∃ x, (rawView s.board.frame.layout C)[i]? = some (some x) := by
  have ha : At (placeAt C i) C i := at_placeAt (slot_index hlt)
  obtain ⟨f, h1, -⟩ := (hi'.step_iff (.remove (placeAt C i)) trivial _).mpr ⟨C, i, ha, hlt, rfl⟩
  have h2 : s'.board.parseEvent (.card 0 (.remove [placeAt C i])) = .ok { s'.board with frame := f } := by
    rw [probe_parse (op := .remove (placeAt C i)) rfl, h1]
    rfl
  obtain ⟨b, hb⟩ := h.event h2
  obtain ⟨g, h4⟩ := run_head (op := .remove _) (raw_frame hb)
  obtain ⟨D, j, x, hD, hx, -⟩ := (C88_call s.board.frame (.remove (placeAt C i)) (fun h => h) _).mp ⟨g, h4, rfl⟩
  obtain ⟨rfl, rfl⟩ := At.unique ha hD
  exact ⟨x, hx⟩

theorem _root_.Ygo.Spec.NeverUndefined.chain : ∀ (n : Nat) {s' : Client} {s : RawClient}, NeverUndefined s' s → s'.board.chainStack.val.length = n → n ≤ s.board.chainStack.val.length := by
  intro n s' s h hn
  have right : ∀ (n : Nat) (b' : PlainBoard), b'.chainStack.val.length = n → ∃ c, b'.parseEvents (List.replicate n (.chainStack (.pop true))) = .ok c := by
    intro n
    induction n with
    | zero => intro b' _; exact ⟨b', rfl⟩
    | succ n ih =>
      intro b' hb
      have h1 : b'.parseEvent (.chainStack (.pop true)) = .ok { b' with chainStack := ⟨b'.chainStack.val.dropLast⟩ } := by
        simp [DuelBoard.parseEvent, Cell.pop, guardUb, hb]
      obtain ⟨c, hc⟩ := ih { b' with chainStack := ⟨b'.chainStack.val.dropLast⟩ } (by simp [hb])
      exact ⟨c, by simp only [List.replicate_succ, DuelBoard.parseEvents, h1]; exact hc⟩
  have raw : ∀ (n : Nat) (b : RawClient), (∃ t, RawClient.follow false b ((List.replicate n (.chainStack (.pop true))).map saying) = .ok t) →
      n ≤ b.board.chainStack.val.length := by
    intro n
    induction n with
    | zero => intro b _; exact Nat.zero_le _
    | succ n ih =>
      intro b hb
      rw [List.replicate_succ] at hb
      obtain ⟨c, h1, h2⟩ := rawFollow_saying hb
      by_cases h0 : b.board.chainStack.val.length = 0
      · simp [RawBoard.parseEvent, DuelBoard.parseEvent, Cell.pop, guardUb, h0] at h1
      · have e : c = { b.board with chainStack := ⟨b.board.chainStack.val.dropLast⟩ } := by
          simp [RawBoard.parseEvent, DuelBoard.parseEvent, Cell.pop, guardUb, h0] at h1
          exact h1.symm
        have := ih _ h2
        rw [e] at this
        simp at this
        omega
  exact raw n s (h false _ ((follow_saying false _ s').mpr (right n s'.board hn)))

theorem undefined_exactly {s' : Client} {s : RawClient} (hi' : Inv s'.board.frame) : NeverUndefined s' s ↔ RawKeepsUp s' s := by
  constructor
  · intro h
    refine ⟨h.full hi', ⟨fun k hk => ?_, fun C hC => ?_⟩, h.chain _ rfl⟩
    · obtain ⟨x, hx⟩ := h.get hi' (List.length_pos_iff.mpr hk)
      rw [rawView_slot] at hx ⊢
      exact ⟨x, by rw [Option.some.inj hx]⟩
    · by_cases h0 : (view s'.board.frame.layout C).length = 0
      · omega
      · obtain ⟨x, hx⟩ := h.get hi' (C := C) (i := (view s'.board.frame.layout C).length - 1) (by omega)
        have := (List.getElem?_eq_some_iff.mp hx).1
        omega
  · intro h cache ms hg
    obtain ⟨t', ht⟩ := hg
    obtain ⟨t, h1, -⟩ := follow_atLeast cache ms hi' h ht
    exact ⟨t, h1⟩

/-- **C128.** Exactly: whatever a right client gets through, another in a build without asserts gets through without doing anything undefined, if and only if no null
pointer lies in its piles or beneath its zones, it has a card in each zone where the right one has, at least as many beneath each zone and in each pile, and at least
as many links in the chain. -/
theorem C128_exactly (cache : Bool) (ms : List Msg) (s' : Client) (h : Client.follow cache Client.init ms = .ok s') (s : RawClient) :
    NeverUndefined s' s ↔ RawKeepsUp s' s :=
  undefined_exactly (follow_inv cache ms Inv.init h)

/-! ## What asserts find out and what is undefined without them -/

/-- A client with asserts, as one without. -/
def asRawClient (s : Client) : RawClient := ⟨asRawBoard s.board, s.store⟩

theorem keepsUp_raw (s' s : Client) : RawKeepsUp s' (asRawClient s) ↔
    (∀ C, (view s'.board.frame.layout C).length ≤ (view s.board.frame.layout C).length) ∧ s'.board.chainStack.val.length ≤ s.board.chainStack.val.length := by
  have e : ∀ C, (∀ k, C ≠ .slot k) → rawView (asRawClient s).board.frame.layout C = (view s.board.frame.layout C).map some := by
    intro C hC
    cases C with
    | slot k => exact absurd rfl (hC k)
    | pile k => rfl
    | mats k => rfl
  have es : ∀ k, rawView (asRawClient s).board.frame.layout (.slot k) = [(s.board.frame.layout.zone k).card] := fun _ => rfl
  have es2 : ∀ k, view s.board.frame.layout (.slot k) = (s.board.frame.layout.zone k).card.toList := fun _ => rfl
  constructor
  · intro h
    refine ⟨fun C => ?_, h.chain⟩
    cases C with
    | slot k =>
      have h1 := view_slot_le s'.board.frame.layout k
      by_cases h0 : view s'.board.frame.layout (.slot k) = []
      · rw [h0]; exact Nat.zero_le _
      · obtain ⟨x, hx⟩ := h.table.slot k h0
        rw [es] at hx
        rw [es2, List.singleton_inj.mp hx]
        exact h1
    | pile k => simpa [e (.pile k) (fun _ e => by cases e)] using h.table.pile k
    | mats k => simpa [e (.mats k) (fun _ e => by cases e)] using h.table.mats k
  · rintro ⟨h, hc⟩
    refine ⟨fun C hC => ?_, ⟨fun k hk => ?_, fun C hC => ?_⟩, hc⟩
    · rw [e C hC]; simp
    · have h1 := Nat.lt_of_lt_of_le (List.length_pos_iff.mpr hk) (h (.slot k))
      rw [es2] at h1
      rw [es]
      cases hx : (s.board.frame.layout.zone k).card with
      | none => rw [hx] at h1; cases h1
      | some x => exact ⟨x, rfl⟩
    · rw [e C hC, List.length_map]; exact h C

/-- **C128.** For clients without asserts that have done so far only what asserts allow, it is numbers alone: at least as many cards everywhere, and links. -/
theorem C128_counts (cache cache' : Bool) (ms ms' : List Msg) (s' s : Client) (h' : Client.follow cache' Client.init ms' = .ok s')
    (_h : Client.follow cache Client.init ms = .ok s) : NeverUndefined s' (asRawClient s) ↔
      (∀ C, (view s'.board.frame.layout C).length ≤ (view s.board.frame.layout C).length) ∧ s'.board.chainStack.val.length ≤ s.board.chainStack.val.length :=
  (C128_exactly cache' ms' s' h' _).trans (keepsUp_raw s' s)

/-- **C128.** A client that asserts would never find out does nothing undefined without them. -/
theorem C128_of_unnoticed (cache cache' : Bool) (ms ms' : List Msg) (s' s : Client) (h' : Client.follow cache' Client.init ms' = .ok s')
    (h : Client.follow cache Client.init ms = .ok s) (hn : NeverFoundOut s' s) : NeverUndefined s' (asRawClient s) := by
  have hk := (C126_exactly cache cache' ms ms' s' s h' h).mp hn
  exact (C128_counts cache cache' ms ms' s' s h' h).mpr ⟨fun C => (hk.table C).le, hk.chain⟩

/-- **C128.** Someone who missed that a card disappeared does nothing undefined, not even if the card was in a zone or beneath one, where asserts would find it out. -/
theorem C128_disappears (cache : Bool) (ms : List Msg) (s s' : Client) (h : Client.follow cache Client.init ms = .ok s) (m : Msg) (r : Nat) (p : Place)
    (he : Msg.event? m = some (.card r (.remove [p]))) (h' : Client.follow cache s [m] = .ok s') : NeverUndefined s' (asRawClient s) := by
  have hi := follow_inv cache ms Inv.init h
  refine (undefined_exactly (follow_inv cache _ hi h')).mpr ((keepsUp_raw s' s).mpr ⟨fun C => ?_, by rw [one_chain (y := .unset) (.inl he) h']⟩)
  obtain ⟨D, i, -, -, hT⟩ := one_call hi he rfl trivial h'
  have e : view s'.board.frame.layout = (view s.board.frame.layout).take D i := congrArg Table.board hT
  rw [e]
  by_cases hX : C = D
  · subst hX
    rw [Board.take, upd_self]
    exact List.length_eraseIdx_le _ _
  · rw [Board.take, upd_ne hX]

/-- **C128.** Someone who missed that a card moved elsewhere may come to do something undefined. -/
theorem C128_move_partial (cache : Bool) (ms : List Msg) (s s' : Client) (h : Client.follow cache Client.init ms = .ok s) (m : Msg) (r : Nat) (a b : Place)
    (C D : Container) (i j : Nat) (ha : At a C i) (hb : At b D j) (he : Msg.event? m = some (.card r (.move [⟨a, b⟩])))
    (h' : Client.follow cache s [m] = .ok s') : NeverUndefined s' (asRawClient s) ↔ C = D := by
  have hi := follow_inv cache ms Inv.init h
  obtain ⟨hmv, -⟩ := C126_move_partial cache ms s s' h m r a b C D i j ha hb he h'
  constructor
  · intro hn
    have hk := (keepsUp_raw s' s).mp ((undefined_exactly (follow_inv cache _ hi h')).mp hn)
    by_contra hne
    obtain ⟨C1, i1, D1, j1, c, hC, hD, -, -, hx, hs, hj, -, hT⟩ := one_call hi he rfl trivial h'
    obtain ⟨rfl, rfl⟩ := At.unique ha hC
    obtain ⟨rfl, rfl⟩ := At.unique hb hD
    have e : view s'.board.frame.layout = (((view s.board.frame.layout).take C i).put D j c).carry C D := congrArg Table.board hT
    have h1 := (moved_lengths (c := c) hne (lt_of_get hx) hj).2
    have h2 := hk.1 D
    have h3 : ((((view s.board.frame.layout).take C i).put D j c).carry C D D).length = (view s.board.frame.layout D).length + 1 := h1
    rw [e, h3] at h2
    omega
  · intro e
    have hk := (never_exactly (follow_inv cache _ hi h') hi).mp (hmv.mpr e)
    exact (undefined_exactly (follow_inv cache _ hi h')).mpr ((keepsUp_raw s' s).mpr ⟨fun X => (hk.table X).le, hk.chain⟩)

/-! ## Whole states -/

/-- **C128.** A whole state heals a client in a build without asserts, if no null pointer lies in its piles or beneath its zones, and otherwise taking it is undefined. -/
theorem C128_state_heals (cache : Bool) (ms : List Msg) (s' t' : Client) (h : Client.follow cache Client.init ms = .ok s') (x : BoardState)
    (ht : Client.follow cache s' [saying (.board (.state x))] = .ok t') (s : RawClient) :
    (Full (rawView s.board.frame.layout) ∧ ∃ t, RawClient.follow cache s [saying (.board (.state x))] = .ok t ∧ NeverUndefined t' t) ∨
      (¬ Full (rawView s.board.frame.layout) ∧ RawClient.follow cache s [saying (.board (.state x))] = .error .ub) := by
  have hi := follow_inv cache ms Inv.init h
  have hp := follow_one (m := saying (.board (.state x))) rfl ht
  have hcl : ∀ g, s.board.frame.step .clear = .ok g → Full (rawView s.board.frame.layout) := by
    intro g hg
    obtain ⟨h4, h5, -⟩ := (C88_call s.board.frame .clear (fun h => h) _).mp ⟨g, hg, rfl⟩
    intro C hC
    cases C with
    | slot k => exact absurd rfl (hC k)
    | pile k => exact h4 k
    | mats k => exact h5 k
  by_cases hf : Full (rawView s.board.frame.layout)
  · refine .inl ⟨hf, ?_⟩
    obtain ⟨g, h1, h2⟩ := (C88_call s.board.frame .clear (fun h => h) ⟨noCards, s.board.frame.next⟩).mpr
      ⟨fun k => hf (.pile k) (fun _ e => by cases e), fun k => hf (.mats k) (fun _ e => by cases e), rfl⟩
    have hb := parse_frame hp
    have hops : frameOps (.board (.state x)) = .clear :: (frameOps (.board (.state x))).tail := rfl
    rw [hops] at hb
    simp only [runOps, FrameLike.step, bind_eq_ok] at hb
    obtain ⟨g', h3, h4⟩ := hb
    have e' : view g'.layout = fun _ => [] := congrArg Table.board ((hi.step_iff .clear trivial _).mp ⟨g', h3, rfl⟩)
    have e : rawView g.layout = noCards := congrArg PtrTable.board h2
    obtain ⟨f, h5, h6, h7⟩ := runOps_atLeast _ (hi.step h3) (f := g) ((C88_null _ _ _ hf h1).mpr fun h => h)
      (by rw [e', e]; exact ⟨fun k hk => absurd rfl hk, fun C _ => Nat.zero_le _⟩) h4
    have h8 : runOps s.board.frame (frameOps (.board (.state x))) = .ok f := by
      rw [hops]
      simp only [runOps, FrameLike.step, bind_eq_ok]
      exact ⟨g, h1, h5⟩
    -- the links are those of the state
    have hch : ∃ c, RawBoard.parseEvent s.board (.board (.state x)) = .ok c ∧ c.frame = f ∧ t'.board.chainStack.val.length ≤ c.chainStack.val.length := by
      have hp' := hp
      simp only [RawBoard.parseEvent, DuelBoard.parseEvent, DuelBoard.parseState, DuelBoard.onFrame, DuelBoard.setLp, bind_eq_ok, pure_eq_ok,
        Except.ok.injEq, frameOps] at hp' h8 ⊢
      obtain ⟨a, ha, c, hc, f', -, hb'⟩ := hp'
      refine ⟨_, ⟨a, ha, c, hc, f, ?_, rfl⟩, rfl, ?_⟩
      · rw [← h8]; split <;> rfl
      · rw [← hb']; split <;> exact Nat.le_refl _
    obtain ⟨c, h9, rfl, h10⟩ := hch
    refine ⟨⟨c, s.store⟩, ?_, (undefined_exactly (follow_inv cache _ hi ht)).mpr ⟨h6, h7, h10⟩⟩
    simp only [rawFollow_cons, saying, Msg.event?, h9]
    rfl
  · refine .inr ⟨hf, ?_⟩
    have h1 : RawBoard.parseEvent s.board (.board (.state x)) = .error .ub := by
      cases hb : RawBoard.parseEvent s.board (.board (.state x)) with
      | error err => rw [C88_no_stop_event _ _ _ hb]
      | ok b =>
        obtain ⟨g, h3⟩ := run_head (op := .clear) (raw_frame hb)
        exact absurd (hcl g h3) hf
    simp only [rawFollow_cons, saying, Msg.event?, h1]
    rfl

/-! ## How it ends -/

theorem rawAnswer_only (cache : Bool) (l : RawLayout) (qs : List Query) (st : CardId → Card Plain) : OnlyUb (RawClient.answer cache l qs st) := by
  induction qs generalizing st with
  | nil => exact .ok _
  | cons q qs ih =>
    refine .bind (.bind (rawCard_only _ _) fun x => .bind ?_ fun _ => .pure _) fun _ => ih _
    obtain ⟨y, hy⟩ := Card.parseData_returns (useCache := cache) (d := q.data) (c := st x) fun f => ⟨_, rfl⟩
    rw [hy]
    exact .ok _

/-- **C128.** Without asserts no client is stopped: it gets through what it is told or does something undefined. -/
theorem C128_never_stopped (cache : Bool) (s : RawClient) (ms : List Msg) (err : Err) (h : RawClient.follow cache s ms = .error err) : err = .ub := by
  suffices hg : ∀ (ms : List Msg) (s : RawClient), OnlyUb (RawClient.follow cache s ms) from hg ms s err h
  intro ms
  induction ms with
  | nil => intro s; exact .ok _
  | cons m ms ih =>
    intro s
    rw [rawFollow_cons]
    refine .bind ?_ fun b => .bind (rawAnswer_only _ _ _ _) fun _ => ih _
    cases Msg.event? m with
    | none => exact .ok _
    | some e => exact fun err h => C88_no_stop_event _ _ _ h

/-! ## Something undefined -/

/-- The fifth card of player 0's hand is played. -/
def playFifth : Msg := saying (.card 0 (.move [⟨placeAt (.pile ⟨0, .hand⟩) 4, placeAt (.slot ⟨0, .monster, 2, by decide⟩) 0⟩]))

/-- **C128, violated.** A client without asserts that missed that five cards were drawn reads past the end of its hand when one of them is played, which the right
one plays. -/
theorem C128_violated : (∃ t, Client.follow false Client.init [startOfDuel, fiveCards, playFifth] = .ok t) ∧
    RawClient.follow false RawClient.init [startOfDuel, playFifth] = .error .ub := by
  have h1 : (Client.follow false Client.init [startOfDuel, fiveCards, playFifth]).toOption.isSome = true := by decide +kernel
  have h2 : (RawClient.follow false RawClient.init [startOfDuel, playFifth]).toOption.isSome = false := by decide +kernel
  constructor
  · cases h : Client.follow false Client.init [startOfDuel, fiveCards, playFifth] with
    | ok t => exact ⟨t, rfl⟩
    | error e => rw [h] at h1; cases h1
  · cases h : RawClient.follow false RawClient.init [startOfDuel, playFifth] with
    | ok t => rw [h] at h2; cases h2
    | error e => rw [C128_never_stopped _ _ _ _ h]

/-- Someone who missed that a card left its zone: with asserts the next card put there stops the client, without them it replaces the other. -/
example : (Client.follow false Client.init [startOfDuel, fiveCards, playFifth, saying (.card 0 (.remove [placeAt (.slot ⟨0, .monster, 2, by decide⟩) 0])),
      saying (.card 0 (.add [placeAt (.slot ⟨0, .monster, 2, by decide⟩) 0]))]).toOption.isSome = true ∧
    (Client.follow false Client.init [startOfDuel, fiveCards, playFifth,
      saying (.card 0 (.add [placeAt (.slot ⟨0, .monster, 2, by decide⟩) 0]))]).toOption.isSome = false ∧
    (RawClient.follow false RawClient.init [startOfDuel, fiveCards, playFifth,
      saying (.card 0 (.add [placeAt (.slot ⟨0, .monster, 2, by decide⟩) 0]))]).toOption.isSome = true := by
  refine ⟨?_, ?_, ?_⟩ <;> decide +kernel

end Ygo.Props
