import Verif.Props.ReleaseServer

/-!
# C90: what a server and its clients track in builds without asserts
-/

set_option linter.unusedSimpArgs false

namespace Ygo.Props
open Ygo.Spec Ygo.P

/-! ## Encoding does not touch the board -/

/-- What is tracked apart from the deferred materials and the places monsters have left. -/
structure SameRaw (c c' : RawContext) : Prop where
  board : c'.board = c.board
  store : c'.store = c.store

theorem SameRaw.refl (c : RawContext) : SameRaw c c := ⟨rfl, rfl⟩

theorem rawMove_same (c c' : RawContext) (p q : Place) (n : Nat) (o : Outcome) (h : moveOutcome c p q n = .ok (o, c')) : SameRaw c c' := by
  unfold moveOutcome at h
  split at h
  · cases h; exact .refl c
  split at h
  · cases h; exact .refl c
  split at h
  · dsimp only at h
    split at h
    · cases h; exact .refl c
    · cases hh : EncodeContext.hasXyzMat c p with
      | error e => rw [hh] at h; cases h
      | ok b => rw [hh] at h; cases b <;> cases h <;> exact ⟨rfl, rfl⟩
  split at h
  · cases h; exact ⟨rfl, rfl⟩
  split at h
  · cases h; exact ⟨rfl, rfl⟩
  split at h
  · simp only [bind_eq_ok, pure_eq_ok, Except.ok.injEq, Prod.mk.injEq] at h
    obtain ⟨_, _, _, rfl⟩ := h
    exact .refl c
  · dsimp only at h
    split at h
    · cases hh : EncodeContext.hasXyzMat c p with
      | error e => rw [hh] at h; cases h
      | ok b => rw [hh] at h; cases b <;> cases h <;> exact ⟨rfl, rfl⟩
    · cases h; exact .refl c

theorem rawContextCase_same (c : RawContext) (k : Kind) (p : P (Outcome × RawContext)) (h : contextCase c k = some p) :
    Gives (fun x => SameRaw c x.2) p := by
  have kept : ∀ {q : P Outcome}, Gives (fun x : Outcome × RawContext => SameRaw c x.2) (q >>= fun o => Pure.pure (o, c)) :=
    Gives.bind fun _ => Gives.pure (SameRaw.refl c)
  cases k <;> simp only [contextCase, Option.some.injEq, reduceCtorEq] at h <;> subst h
  case move =>
    refine Gives.bind fun _ => Gives.bind fun _ => Gives.bind fun _ => Gives.bind fun _ => ?_
    intro s x r e
    exact rawMove_same c _ _ _ _ x.1 (lift_eq_ok.mp e).1
  case matchKill => exact Gives.bind fun _ => Gives.pure ⟨rfl, rfl⟩
  all_goals exact kept

theorem rawEncode_same {c c' : RawContext} {data : List UInt8} {r : Encoded} (h : rawEncodeOne c data = .ok (r, c')) : SameRaw c c' := by
  suffices hg : Gives (fun x : Outcome × RawContext => SameRaw c x.2) (rawEncodeBody c) by
    unfold rawEncodeOne at h
    split at h <;> cases h
    exact hg _ _ _ ‹_›
  unfold rawEncodeBody
  refine Gives.bind fun b => ?_
  split
  · next k _ =>
    unfold rawEncodeCase
    split
    · exact Gives.bind fun _ => Gives.bind fun _ => Gives.pure (SameRaw.refl c)
    unfold encodeCase
    split
    · exact Gives.bind fun _ => Gives.pure (SameRaw.refl c)
    · exact Gives.bind fun _ => Gives.pure (SameRaw.refl c)
    · exact Gives.bind fun _ => Gives.bind fun _ => Gives.pure (SameRaw.refl c)
    · exact Gives.bind fun _ => Gives.pure (SameRaw.refl c)
    · exact rawContextCase_same c k _ ‹_›
    · exact Gives.pure (SameRaw.refl c)
  · exact Gives.pure (SameRaw.refl c)

theorem rawParse_parts {c c' : RawContext} {m : Msg} (h : c.parse m = .ok c') :
    ∃ b st, (match Msg.event? m with | some e => RawBoard.parseEvent c.board e | none => .ok c.board) = .ok b ∧
      RawContext.parseQueries b.frame.layout m.queries c.store = .ok st ∧ c' = { c with board := b, store := st } := by
  unfold RawContext.parse at h
  unfold Msg.event?
  split at h
  · next e he =>
    simp only [he, bind_eq_ok, pure_eq_ok, Except.ok.injEq] at h ⊢
    obtain ⟨b, hb, st, hs, rfl⟩ := h
    exact ⟨b, st, hb, hs, rfl⟩
  · next he =>
    simp only [bind_eq_ok, pure_eq_ok, Except.ok.injEq] at h
    obtain ⟨b, rfl, st, hs, rfl⟩ := h
    refine ⟨_, st, ?_, hs, rfl⟩
    split
    · split at *
      · rename_i hm _; exact absurd hm (he _)
      · cases ‹none = some _›
    · rfl

/-- What holds of a new server and is kept by parsing holds for ever. -/
theorem rawFeed_keeps {I : RawContext → Prop} (hsame : ∀ c c', I c → SameRaw c c' → I c') (hparse : ∀ c c' m, I c → c.parse m = .ok c' → I c')
    (ds : List (List UInt8)) (c0 c : RawContext) (rs : List Encoded) (hi : I c0) (h : rawFeed c0 ds = .ok (rs, c)) : I c := by
  induction ds generalizing c0 rs with
  | nil => cases h; exact hi
  | cons d ds ih =>
    obtain ⟨r, c1, c2, rs', h1, h2, h3, rfl⟩ := rawFeed_cons.mp h
    have hi1 := hsame _ _ hi (rawEncode_same h1)
    refine ih c2 rs' ?_ h3
    cases hm : r.msg with
    | none => rw [hm] at h2; cases h2; exact hi1
    | some m => rw [hm] at h2; exact hparse _ _ _ hi1 h2

/-- What is kept: pointers are in order, and nothing was said about cards that do not exist yet. -/
def Orderly (c : RawContext) : Prop := PInv c.board.frame ∧ ∀ x, c.board.frame.next ≤ x → c.store x = BasicContext.newCard

theorem next_le {f f' : RawFrame} (hi : PInv f) {ops : List FrameOp} (h : runOps f ops = .ok f') : f.next ≤ f'.next := by
  induction ops generalizing f with
  | nil => cases h; exact Nat.le_refl _
  | cons op ops ih =>
    simp only [Ygo.runOps, FrameLike.step, bind_eq_ok] at h
    obtain ⟨g, h1, h2⟩ := h
    obtain ⟨_, _, _, _, _, _, hn⟩ := hi.step_counts h1 0
    exact Nat.le_trans hn (ih (hi.step h1) h2)

theorem mem_cardsOn_of {B : PtrBoard} {C : Container} {i : Nat} {x : CardId} (h : (B C)[i]? = some (some x)) : x ∈ cardsOn B := by
  unfold cardsOn
  rw [List.mem_flatMap]
  refine ⟨C, mem_containers C, ?_⟩
  rw [List.mem_filterMap]
  exact ⟨some x, List.mem_of_getElem? h, rfl⟩

theorem rawQueries_keep (l : RawLayout) (qs : List Query) (st st' : CardId → Card Plain) (h : RawContext.parseQueries l qs st = .ok st') (y : CardId)
    (hy : y ∉ cardsOn (rawView l)) : st' y = st y := by
  induction qs generalizing st with
  | nil => cases h; rfl
  | cons q qs ih =>
    simp only [RawContext.parseQueries, bind_eq_ok, Prod.exists] at h
    obtain ⟨n, st1, h1, h2⟩ := h
    obtain ⟨C, i, x, _, hx, hk⟩ := (C90_query l st q false).1 _ _ h1
    rw [ih st1 h2]
    exact hk y fun e => hy (e ▸ mem_cardsOn_of hx)

theorem Orderly.parse {c c' : RawContext} {m : Msg} (hi : Orderly c) (h : c.parse m = .ok c') : Orderly c' := by
  obtain ⟨b, st, hb, hs, rfl⟩ := rawParse_parts h
  have hb' : PInv b.frame ∧ c.board.frame.next ≤ b.frame.next := by
    split at hb
    · exact ⟨PInv.runOps hi.1 (raw_frame hb), next_le hi.1 (raw_frame hb)⟩
    · cases hb; exact ⟨hi.1, Nat.le_refl _⟩
  refine ⟨hb'.1, fun x hx => ?_⟩
  have : x ∉ cardsOn (rawView b.frame.layout) := fun hm => by
    have := hb'.1.fresh _ (hb'.1.on_owned hm)
    exact absurd this (by simpa using hx)
  show st x = _
  rw [rawQueries_keep _ _ _ _ hs x this]
  exact hi.2 x (Nat.le_trans hb'.2 hx)

theorem rawFeed_orderly {ds : List (List UInt8)} {rs : List Encoded} {c : RawContext} (h : rawFeed RawContext.init ds = .ok (rs, c)) : Orderly c :=
  rawFeed_keeps (I := Orderly) (fun c c' hi hs => by unfold Orderly; rw [hs.board, hs.store]; exact hi) (fun _ _ _ hi hp => hi.parse hp) ds _ _ _
    ⟨PInv.init, fun _ _ => rfl⟩ h

/-- **C90.** Whatever the core sends, a server that gets through it has no card in two places, and all cards that lie somewhere are alive. -/
theorem C90_no_dangling (ds : List (List UInt8)) (rs : List Encoded) (c : RawContext) (h : rawFeed RawContext.init ds = .ok (rs, c)) :
    (cardsOn (rawView c.board.frame.layout)).Nodup ∧ (∀ x ∈ cardsOn (rawView c.board.frame.layout), x ∈ c.board.frame.owned) ∧
      c.board.frame.owned.Nodup := by
  have hi := (rawFeed_orderly h).1
  exact ⟨hi.nodup_on, fun _ hx => hi.on_owned hx, hi.nodup⟩

/-- **C90.** Nothing was ever said about a card that does not exist yet. -/
theorem C90_new_cards_blank (ds : List (List UInt8)) (rs : List Encoded) (c : RawContext) (h : rawFeed RawContext.init ds = .ok (rs, c)) (x : CardId)
    (hx : c.board.frame.next ≤ x) : c.store x = BasicContext.newCard := (rawFeed_orderly h).2 x hx

/-! ## How it ends -/

theorem rawCard_only (l : RawLayout) (p : Place) : OnlyUb (l.card p) := by
  unfold RawLayout.card
  split
  · exact .bind (Raw.pileOf_only _) fun _ => .bind (.orUb Ygo.isUb _) fun _ => .orUb Ygo.isUb _
  · refine .bind (Raw.zoneOf_only _) fun _ => ?_
    split
    · exact .orUb Ygo.isUb _
    · exact .bind (.orUb Ygo.isUb _) fun _ => .orUb Ygo.isUb _

theorem rawQueries_only (l : RawLayout) (qs : List Query) (st : CardId → Card Plain) : OnlyUb (RawContext.parseQueries l qs st) := by
  induction qs generalizing st with
  | nil => exact .ok _
  | cons q qs ih =>
    refine .bind (.bind (rawCard_only _ _) fun x => .bind ?_ fun _ => .pure _) fun _ => ih _
    obtain ⟨y, hy⟩ := Card.parseData_returns (useCache := false) (d := q.data) (c := st x) fun f => ⟨_, rfl⟩
    rw [hy]
    exact .ok _

theorem rawParse_only (c : RawContext) (m : Msg) : OnlyUb (c.parse m) := by
  unfold RawContext.parse
  dsimp only
  split
  · exact .bind (fun _ h => C88_no_stop_event _ _ _ h) fun _ => .bind (rawQueries_only _ _ _) fun _ => .pure _
  · exact .bind (.pure _) fun _ => .bind (rawQueries_only _ _ _) fun _ => .pure _

/-- How encoding may fail with this server. -/
def FailsWith (c : RawContext) (e : Err) : Prop := e = .ub ∨ e = .hang ∧ ∃ i, 2 ^ 32 ≤ (c.board.frame.layout.pile ⟨i, .graveyard⟩).length

theorem rawEncode_only (c : RawContext) (d : List UInt8) : Only (FailsWith c) (rawEncodeOne c d) := by
  have up : ∀ {α : Type} {x : Res α}, OnlyUb x → Only (FailsWith c) x := fun h e he => .inl (h e he)
  refine Fails.rawOne (.inl rfl) c (fun con loc => ?_) ?_ (fun p => ?_) (fun p => ?_) (fun con n h hn => ?_) d
  · exact up (.bind (Raw.pileKey_only _ _) fun _ => .pure _)
  · exact up (.orUb Ygo.isUb _)
  · exact up (.bind (Raw.zoneOf_only _) fun _ => .pure _)
  · exact up (.orUb Ygo.isUb _)
  · simp only [EncodeContext.pileSize, bind_eq_ok, pure_eq_ok, Except.ok.injEq] at h
    obtain ⟨k, hk, rfl⟩ := h
    refine .inr ⟨rfl, k.con, ?_⟩
    obtain ⟨_, hl⟩ := Raw.pileKey_eq_ok.mp hk
    obtain ⟨i, pl⟩ := k
    cases pl <;> first | exact hn | (exfalso; dsimp only at hl; revert hl; decide)

/-- **C90.** Whatever the core sends, a server without asserts goes on or runs into undefined behaviour; it hangs only with 2³² cards in a
graveyard, and never stops. -/
theorem C90_no_stop (ds : List (List UInt8)) (e : Err) (h : rawFeed RawContext.init ds = .error e) :
    e = .ub ∨ e = .hang ∧ ∃ pre rs c i, pre <+: ds ∧ rawFeed RawContext.init pre = .ok (rs, c) ∧
      2 ^ 32 ≤ (c.board.frame.layout.pile ⟨i, .graveyard⟩).length := by
  suffices hg : ∀ (ds : List (List UInt8)) (c0 : RawContext), rawFeed c0 ds = .error e →
      e = .ub ∨ e = .hang ∧ ∃ pre rs c i, pre <+: ds ∧ rawFeed c0 pre = .ok (rs, c) ∧
        2 ^ 32 ≤ (c.board.frame.layout.pile ⟨i, .graveyard⟩).length from hg ds _ h
  intro ds
  induction ds with
  | nil => intro c0 h; cases h
  | cons d ds ih =>
    intro c0 h
    rw [rawFeed] at h
    cases h1 : rawEncodeOne c0 d with
    | error e' =>
      rw [h1] at h
      cases h
      rcases rawEncode_only c0 d _ h1 with h | ⟨h, i, hi⟩
      · exact .inl h
      · exact .inr ⟨h, [], [], c0, i, List.nil_prefix, rfl, hi⟩
    | ok x =>
      obtain ⟨r, c1⟩ := x
      simp only [h1, bind_ok] at h
      have h2 : ∀ c2, (match r.msg with | some m => c1.parse m | none => .ok c1) = .ok c2 → rawFeed c2 ds = .error e →
          e = .ub ∨ e = .hang ∧ ∃ pre rs c i, pre <+: d :: ds ∧ rawFeed c0 pre = .ok (rs, c) ∧
            2 ^ 32 ≤ (c.board.frame.layout.pile ⟨i, .graveyard⟩).length := by
        intro c2 h2 h3
        rcases ih c2 h3 with h | ⟨h, pre, rs, c, i, hp, hf, hi⟩
        · exact .inl h
        · exact .inr ⟨h, d :: pre, r :: rs, c, i, List.cons_prefix_cons.mpr ⟨rfl, hp⟩, rawFeed_cons.mpr ⟨r, c1, c2, rs, h1, h2, hf, rfl⟩, hi⟩
      cases hm : r.msg with
      | none =>
        simp only [hm, pure_eq_ok, bind_ok] at h h2
        cases h3 : rawFeed c1 ds with
        | error e' => rw [h3] at h; cases h; exact h2 c1 rfl h3
        | ok y => rw [h3] at h; cases h
      | some m =>
        simp only [hm] at h h2
        cases h4 : c1.parse m with
        | error e' => rw [h4] at h; cases h; exact .inl (rawParse_only _ _ _ h4)
        | ok c2 =>
          simp only [h4, bind_ok] at h
          cases h3 : rawFeed c2 ds with
          | error e' => rw [h3] at h; cases h; exact h2 c2 h4 h3
          | ok y => rw [h3] at h; cases h

/-! ## Clients -/

theorem rawFollow_cons (cache : Bool) (s : RawClient) (m : Msg) (ms : List Msg) : RawClient.follow cache s (m :: ms) =
    ((match Msg.event? m with | some e => RawBoard.parseEvent s.board e | none => .ok s.board) : Res RawBoard) >>= fun b =>
      RawClient.answer cache b.frame.layout m.queries s.store >>= fun st => RawClient.follow cache ⟨b, st⟩ ms := by
  rw [RawClient.follow]
  cases Msg.event? m <;> rfl

/-- **C90.** Clients without asserts that follow the messages of a server without show the board that the server tracks. -/
theorem C90_clients (ds : List (List UInt8)) (rs : List Encoded) (c : RawContext) (h : rawFeed RawContext.init ds = .ok (rs, c)) (cache : Bool) :
    RawClient.follow cache RawClient.init (messages rs) = .ok ⟨c.board, c.store⟩ := by
  suffices hg : ∀ (ds : List (List UInt8)) (c0 : RawContext) (rs : List Encoded), rawFeed c0 ds = .ok (rs, c) →
      RawClient.follow cache ⟨c0.board, c0.store⟩ (messages rs) = .ok ⟨c.board, c.store⟩ from hg ds _ rs h
  intro ds
  induction ds with
  | nil => intro c0 rs h; cases h; rfl
  | cons d ds ih =>
    intro c0 rs h
    obtain ⟨r, c1, c2, rs', h1, h2, h3, rfl⟩ := rawFeed_cons.mp h
    have hs := rawEncode_same h1
    have e := ih c2 rs' h3
    rw [← hs.board, ← hs.store]
    cases hm : r.msg with
    | none =>
      rw [hm] at h2
      cases h2
      rw [show messages (r :: rs') = messages rs' by simp [messages, hm]]
      exact e
    | some m =>
      rw [hm] at h2
      rw [show messages (r :: rs') = m :: messages rs' by simp [messages, hm]]
      obtain ⟨b, st, hb, hq, rfl⟩ := rawParse_parts h2
      rw [rawFollow_cons, hb, bind_ok, raw_answer_eq _ _ _ _ hq cache, bind_ok]
      exact e

theorem answer_same (cache : Bool) (f : Frame) (qs : List Query) (st : CardId → Card Plain) :
    (RawClient.answer cache (asRaw f).layout qs st).toOption = (Client.answer cache f.layout qs st).toOption := by
  induction qs generalizing st with
  | nil => rfl
  | cons q qs ih =>
    simp only [RawClient.answer, Client.answer, rawParseQuery, parseQuery]
    cases hc : (asRaw f).layout.card q.place with
    | ok x =>
      have hc' := (card_same f _ _).mp hc
      obtain ⟨C, i, h1, h2⟩ := Layout.card_eq_ok.mp hc'
      have hh : f.layout.hasCard q.place = .ok true := Layout.hasCard_eq_ok.mpr ⟨C, i, h1, by simp [lt_of_getElem?_some h2]⟩
      obtain ⟨⟨n, y⟩, hy⟩ := Card.parseData_returns (useCache := cache) (d := q.data) (c := st x) fun f => ⟨_, rfl⟩
      simp only [hh, hc', hy, bind_ok, massert_true]
      exact ih _
    | error e =>
      cases hh : f.layout.hasCard q.place with
      | error e => rfl
      | ok b =>
        obtain ⟨C, i, h1, h2⟩ := Layout.hasCard_eq_ok.mp hh
        cases b with
        | false => rfl
        | true =>
          have hl : i < (view f.layout C).length := by simpa using h2.symm
          rw [(card_same f _ _).mpr (Layout.card_eq_ok.mpr ⟨C, i, h1, List.getElem?_eq_getElem hl⟩)] at hc
          cases hc

theorem follow_same (cache : Bool) (ms : List Msg) (s s' : Client) (hi : Inv s.board.frame) (h : Client.follow cache s ms = .ok s') :
    RawClient.follow cache ⟨asRawBoard s.board, s.store⟩ ms = .ok ⟨asRawBoard s'.board, s'.store⟩ := by
  induction ms generalizing s with
  | nil => cases h; rfl
  | cons m ms ih =>
    rw [follow_cons] at h
    simp only [bind_eq_ok] at h
    obtain ⟨b, hb, st, hs, h⟩ := h
    have hb' : ((match Msg.event? m with | some e => RawBoard.parseEvent (asRawBoard s.board) e | none => .ok (asRawBoard s.board)) : Res RawBoard) =
        .ok (asRawBoard b) ∧ Inv b.frame := by
      cases he : Msg.event? m with
      | some e => simp only [he] at hb ⊢; exact event_same hi hb
      | none => simp only [he] at hb ⊢; cases hb; exact ⟨rfl, hi⟩
    rw [rawFollow_cons, hb'.1, bind_ok, show (asRawBoard b).frame = asRaw b.frame from rfl, of_option (answer_same cache b.frame _ _) hs, bind_ok]
    exact ih ⟨b, st⟩ hb'.2 h

/-- **C90.** A client with asserts that gets through the messages of a server without shows the board that the server tracks. -/
theorem C90_clients_with_asserts (ds : List (List UInt8)) (rs : List Encoded) (c : RawContext) (h : rawFeed RawContext.init ds = .ok (rs, c))
    (cache : Bool) (s : Client) (hs : Client.follow cache Client.init (messages rs) = .ok s) : asRawBoard s.board = c.board ∧ s.store = c.store := by
  have h1 := follow_same cache _ _ _ Inv.init hs
  have h2 := C90_clients ds rs c h cache
  rw [show (⟨asRawBoard Client.init.board, Client.init.store⟩ : RawClient) = RawClient.init from rfl, h2] at h1
  simp only [Except.ok.injEq, RawClient.mk.injEq] at h1
  exact ⟨h1.1.symm, h1.2.symm⟩

/-- **C90.** A client without asserts that follows the messages of a server with asserts shows the board that the server tracks. -/
theorem C90_clients_of_asserting (ds : List (List UInt8)) (rs : List Encoded) (c : BasicContext) (h : feed BasicContext.init ds = .ok (rs, c))
    (cache : Bool) : RawClient.follow cache RawClient.init (messages rs) = .ok ⟨asRawBoard c.board, c.store⟩ :=
  C90_clients ds rs _ (C90_same ds rs c h) cache

end Ygo.Props
