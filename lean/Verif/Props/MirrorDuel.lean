import Verif.Lemmas.CountsSides
import Verif.Props.Counts

namespace Ygo.Props
open Ygo Ygo.Spec P

set_option linter.unusedSimpArgs false

/-! ## Exchanging twice -/

theorem otherByte_twice (b : UInt8) : otherByte (otherByte b) = b := by
  unfold otherByte
  by_cases h : b = 0
  · simp [h]
  by_cases h1 : b = 1
  · simp [h1]
  · simp [h, h1]

theorem LocInfo.twice (i : LocInfo) : i.mirrored.mirrored = i := by
  by_cases h : i.base = 0
  · simp [LocInfo.mirrored, h]
  · have : ({ i with con := otherByte i.con } : LocInfo).base ≠ 0 := h
    simp [LocInfo.mirrored, h, this, otherByte_twice]

theorem CardLoc.twice (i : CardLoc) : i.mirrored.mirrored = i := by
  by_cases h : i.loc.toNat % 128 = 0 <;> simp [CardLoc.mirrored, h, otherByte_twice]

theorem CardLocS.twice (i : CardLocS) : i.mirrored.mirrored = i := by
  by_cases h : i.loc.toNat % 128 = 0 <;> simp [CardLocS.mirrored, h, otherByte_twice]

theorem CardLocL.twice (i : CardLocL) : i.mirrored.mirrored = i := by
  by_cases h : i.base = 0
  · simp [CardLocL.mirrored, h]
  · have : ({ i with con := otherByte i.con } : CardLocL).base ≠ 0 := h
    simp [CardLocL.mirrored, h, this, otherByte_twice]

theorem QueryItem.twice (i : QueryItem) : i.mirrored.mirrored = i := by
  cases i <;> simp [QueryItem.mirrored, LocInfo.twice, otherByte_twice, Function.comp_def]

theorem halves_twice (m : UInt32) : halvesTurned (halvesTurned m) = m := by
  apply UInt32.toNat_inj.mp
  rw [halves_toNat, halves_toNat]
  have := m.toNat_lt
  omega

theorem hands_twice (h : UInt8) : handsTurned (handsTurned h) = h := by
  have e : ∀ n : Fin 256, handsTurned (handsTurned (UInt8.ofNat n)) = UInt8.ofNat n := by decide +kernel
  have := e ⟨h.toNat, h.toNat_lt⟩
  rwa [UInt8.ofNat_toNat] at this

/-- Exchanging the players twice changes nothing. -/
theorem C106_twice (m : CoreMsg) : m.mirrored.mirrored = m := by
  cases m <;> simp [CoreMsg.mirrored, otherByte_twice, LocInfo.twice, CardLoc.twice, CardLocS.twice, CardLocL.twice, QueryItem.twice, halves_twice,
    hands_twice, Activable.mirrored, Link.mirrored, Function.comp_def]
  case updateData c l ss =>
    by_cases h : l = 0 <;> simp [h, otherByte_twice]

/-! ## Whole duels -/

theorem counts_symm {b b' : PlainBoard} (h : CountsAlike b b') : CountsAlike b' b := ⟨h.table.symm, h.chain.symm, h.turn.symm, h.lp.symm, h.phase.symm⟩
theorem counts_trans {b b' b'' : PlainBoard} (h : CountsAlike b b') (h' : CountsAlike b' b'') : CountsAlike b b'' :=
  ⟨h.table.trans h'.table, h.chain.trans h'.chain, h.turn.trans h'.turn, h.lp.trans h'.lp, h.phase.trans h'.phase⟩
theorem servers_symm {c c' : BasicContext} (h : ServersAlike c c') : ServersAlike c' c := ⟨counts_symm h.board, h.reason.symm, h.left.symm, h.deferred.symm⟩

theorem together_ok {α β : Type} {R : α → β → Prop} {x : Res α} {y : Res β} {a : α} (h : Together R x y) (hx : x = .ok a) : ∃ b, y = .ok b ∧ R a b := by
  subst hx
  cases y with
  | ok b => exact ⟨b, rfl, h⟩
  | error e => exact absurd h id

theorem mirrored_inv {b : PlainBoard} (h : Inv b.frame) : Inv b.mirrored.frame := h.mirrored

/-- Parsing a message and its mirror image on boards that are alike with the players exchanged. -/
theorem parse_image {c c1 c' : BasicContext} (hi : Inv c.board.frame) (hi' : Inv c'.board.frame) (ha : ServersAlike c.mirrored c') {m m' : Msg}
    (hm : MirrorImage m m') (h : c.parse m = .ok c1) : ∃ c1', c'.parse m' = .ok c1' ∧ ServersAlike c1.mirrored c1' := by
  have hp := BasicContext.parse_mirrored hi m
  rw [h] at hp
  rcases hm with rfl | ⟨e, e', rfl, rfl, hr⟩
  · exact together_ok (parse_together (mirrored_inv hi) hi' ha _) hp
  · have hb : ∃ b, c.mirrored.board.parseEvent e.mirrored = .ok b ∧ c1.mirrored = { c.mirrored with board := b } := by
      cases hb : c.mirrored.board.parseEvent e.mirrored with
      | error x =>
        have : c.mirrored.parse (Msg.mirrored ⟨.event e, []⟩) = .error x := by
          show (c.mirrored.board.parseEvent e.mirrored >>= _) = _
          rw [hb]; rfl
        rw [this] at hp; cases hp
      | ok b =>
        have : c.mirrored.parse (Msg.mirrored ⟨.event e, []⟩) = .ok { c.mirrored with board := b } := by
          show (c.mirrored.board.parseEvent e.mirrored >>= _) = _
          rw [hb]; rfl
        rw [this] at hp
        exact ⟨b, rfl, (Except.ok.inj hp).symm⟩
    obtain ⟨b, hb, e1⟩ := hb
    obtain ⟨b2, h2, hc⟩ := parse_sides (mirrored_inv hi) hr hb
    obtain ⟨b3, h3, hc3⟩ := together_ok (parseEvent_together (mirrored_inv hi) hi' ha.board e') h2
    refine ⟨{ c' with board := b3 }, ?_, ?_⟩
    · show (c'.board.parseEvent e' >>= _) = _
      rw [h3]; rfl
    · rw [e1]
      exact ⟨counts_trans hc hc3, ha.reason, ha.left, ha.deferred⟩

/-- Translating a message and the message with the players exchanged. -/
theorem encode_image {c c1 c' : BasicContext} (ha : ServersAlike c.mirrored c') {m : CoreMsg} (hf : m.Fits) {r : Encoded}
    (h : encodeOne c m.bytes = .ok (r, c1)) :
    ∃ r' c1', encodeOne c' m.mirrored.bytes = .ok (r', c1') ∧ EncodedImage r r' ∧ ServersAlike c1.mirrored c1' ∧ c1'.board = c'.board := by
  have key : ∀ r' c2, encodeOne c.mirrored m.mirrored.bytes = .ok (r', c2) → EncodedImage r r' → c2 = c1.mirrored →
      ∃ r' c1', encodeOne c' m.mirrored.bytes = .ok (r', c1') ∧ EncodedImage r r' ∧ ServersAlike c1.mirrored c1' ∧ c1'.board = c'.board := by
    rintro r' c2 h2 hr rfl
    obtain ⟨⟨r3, c3⟩, h3, e3, ha3, _, hb3⟩ := together_ok (encodeOne_together ha _) h2
    simp only at e3 ha3 hb3
    subst e3
    exact ⟨r', c3, h3, hr, ha3, hb3⟩
  by_cases hb : m.BothSides
  · obtain ⟨n, e, e', h1, h2, hr⟩ := C106_both_sides c m hf hb []
    simp only [List.append_nil] at h1 h2
    rw [h] at h1
    cases h1
    exact key _ _ h2 ⟨rfl, rfl, .some (.inr ⟨e, e', rfl, rfl, hr⟩)⟩ rfl
  · have h2 := C106_messages c m hf hb []
    simp only [List.append_nil] at h2
    rw [h] at h2
    refine key _ _ h2 ⟨rfl, rfl, ?_⟩ rfl
    cases hm : r.msg with
    | none => simp only [Encoded.mirrored, hm]; exact .none
    | some t => simp only [Encoded.mirrored, hm]; exact .some (.inl rfl)

theorem feed_image (ms : List CoreMsg) (hm : ∀ m ∈ ms, m.Fits) {c c1 c' : BasicContext} (hi : Inv c.board.frame) (hi' : Inv c'.board.frame)
    (ha : ServersAlike c.mirrored c') {rs : List Encoded} (h : feed c (ms.map fun m => m.bytes) = .ok (rs, c1)) :
    ∃ rs' c1', feed c' (ms.map fun m => m.mirrored.bytes) = .ok (rs', c1') ∧ List.Forall₂ EncodedImage rs rs' ∧ ServersAlike c1.mirrored c1' := by
  induction ms generalizing c c' rs with
  | nil => cases h; exact ⟨[], c', rfl, .nil, ha⟩
  | cons m ms ih =>
    obtain ⟨r, d1, d2, rs', h1, hs, h2, h3, rfl⟩ := feed_cons h
    obtain ⟨r', d1', h1', hr, ha1, hb1⟩ := encode_image ha (hm m (by simp)) h1
    have hi1 : Inv d1.board.frame := by rw [hs.board]; exact hi
    have hi1' : Inv d1'.board.frame := by rw [hb1]; exact hi'
    have rest : ∀ d2' : BasicContext, Inv d2.board.frame → Inv d2'.board.frame → ServersAlike d2.mirrored d2' →
        (match r'.msg with | some m => d1'.parse m | none => pure d1') = .ok d2' →
        ∃ rs'' c1', feed c' ((m :: ms).map fun m => m.mirrored.bytes) = .ok (rs'', c1') ∧ List.Forall₂ EncodedImage (r :: rs') rs'' ∧
          ServersAlike c1.mirrored c1' := by
      intro d2' i2 i2' ha2 hp
      obtain ⟨rs'', c1', hf, hF, hA⟩ := ih (fun m h => hm m (by simp [h])) i2 i2' ha2 h3
      refine ⟨r' :: rs'', c1', ?_, .cons hr hF, hA⟩
      simp only [List.map_cons, feed]
      rw [h1']
      simp only [bind_ok]
      cases hm' : r'.msg with
      | none =>
        rw [hm'] at hp
        cases hp
        simp only [pure_eq_ok, bind_ok, hf]
      | some t =>
        rw [hm'] at hp
        simp only at hp
        simp only [hp, bind_ok, hf, pure_eq_ok]
    obtain ⟨_, _, hmsg⟩ := hr
    cases hq : r.msg with
    | none =>
      rw [hq] at h2 hmsg
      cases h2
      generalize hq' : r'.msg = o at hmsg
      cases hmsg
      exact rest d1' hi1 hi1' ha1 (by rw [hq']; rfl)
    | some t =>
      rw [hq] at h2 hmsg
      simp only at h2
      generalize hq' : r'.msg = o at hmsg
      cases hmsg with
      | some him =>
        obtain ⟨d2', hp, ha2⟩ := parse_image hi1 hi1' ha1 him h2
        exact rest d2' (parse_raw hi1 h2).2 (parse_raw hi1' hp).2 ha2 (by rw [hq']; exact hp)

theorem init_alike : ServersAlike BasicContext.init.mirrored BasicContext.init := by
  refine ⟨⟨fun C => ?_, rfl, rfl, rfl, rfl⟩, rfl, rfl, rfl⟩
  cases C <;> rfl

/-- **C106.** The same duel with the players exchanged, from the start and with messages of all kinds: the server gets as far, every message it
sends is the message with the players exchanged, but for the order in which the sides are listed where both are, and it tracks the same with the
players exchanged, but for which of the cards of a place is which. -/
theorem C106_whole_duel (ms : List CoreMsg) (hm : ∀ m ∈ ms, m.Fits) (rs : List Encoded) (c : BasicContext)
    (h : feed BasicContext.init (ms.map fun m => m.bytes) = .ok (rs, c)) :
    ∃ rs' c', feed BasicContext.init (ms.map fun m => m.mirrored.bytes) = .ok (rs', c') ∧ List.Forall₂ EncodedImage rs rs' ∧ ServersAlike c.mirrored c' :=
  feed_image ms hm Inv.init Inv.init init_alike h

/-- So one duel can be followed exactly if the other can. -/
theorem C106_as_far (ms : List CoreMsg) (hm : ∀ m ∈ ms, m.Fits) :
    (∃ x, feed BasicContext.init (ms.map fun m => m.bytes) = .ok x) ↔ ∃ x, feed BasicContext.init (ms.map fun m => m.mirrored.bytes) = .ok x := by
  constructor
  · rintro ⟨⟨rs, c⟩, h⟩
    obtain ⟨rs', c', h', _⟩ := C106_whole_duel ms hm rs c h
    exact ⟨_, h'⟩
  · rintro ⟨⟨rs, c⟩, h⟩
    obtain ⟨rs', c', h', _⟩ := C106_whole_duel (ms.map CoreMsg.mirrored)
      (by simp only [List.mem_map]; rintro _ ⟨m, h, rfl⟩; exact side_fits (hm m h)) rs c (by rw [List.map_map]; exact h)
    refine ⟨(rs', c'), ?_⟩
    · rw [← h', List.map_map]
      simp [Function.comp_def, C106_twice]

theorem follow_image {cache : Bool} {ms ms' : List Msg} (hm : List.Forall₂ MirrorImage ms ms') {s s1 s' : Client} (hi : Inv s.board.frame)
    (hi' : Inv s'.board.frame) (ha : CountsAlike s.board.mirrored s'.board) (h : Client.follow cache s ms = .ok s1) :
    ∃ s1', Client.follow cache s' ms' = .ok s1' ∧ CountsAlike s1.board.mirrored s1'.board := by
  induction hm generalizing s s' with
  | nil => cases h; exact ⟨s', rfl, ha⟩
  | @cons m m' ms ms' hmm _ ih =>
    simp only [Client.follow] at h ⊢
    have hq : ∀ b b' : PlainBoard, Inv b.frame → Inv b'.frame → CountsAlike b.mirrored b' → ∀ qs' : List Query, qs' = m.queries.map Query.mirrored →
        (Client.answer cache b.frame.layout m.queries s.store >>= fun st => Client.follow cache ⟨b, st⟩ ms) = .ok s1 →
        ∃ s1', (Client.answer cache b'.frame.layout qs' s'.store >>= fun st => Client.follow cache ⟨b', st⟩ ms') = .ok s1' ∧
          CountsAlike s1.board.mirrored s1'.board := by
      rintro b b' ib ib' hb _ rfl h
      simp only [bind_eq_ok] at h
      obtain ⟨st, hst, h⟩ := h
      have ha := answer_mirrored cache b.frame.layout m.queries s.store
      rw [hst] at ha
      obtain ⟨st', hst', _⟩ := together_ok (answer_together hb.table cache cache _ _ s'.store) ha
      rw [hst']
      simp only [bind_ok]
      exact ih (s := ⟨b, st⟩) (s' := ⟨b', st'⟩) ib ib' hb h
    rcases hmm with rfl | ⟨e, e', rfl, rfl, hr⟩
    · rw [event?_mirrored]
      cases he : Msg.event? m with
      | none =>
        rw [he] at h
        exact hq s.board s'.board hi hi' ha _ rfl h
      | some e =>
        rw [he] at h
        simp only [bind_eq_ok] at h
        obtain ⟨b, hb, h⟩ := h
        have hp := DuelBoard.parseEvent_mirrored (b := s.board) (fun ops => runOps_mirrored hi) e
        rw [hb] at hp
        obtain ⟨b', hb', hc⟩ := together_ok (parseEvent_together (mirrored_inv hi) hi' ha e.mirrored) hp
        simp only [Option.map_some, hb', bind_ok]
        exact hq b b' (events_inv hi hb) (events_inv hi' hb') hc _ rfl (by simpa only [bind_eq_ok] using h)
    · simp only [Msg.event?, bind_eq_ok] at h
      obtain ⟨b, hb, h⟩ := h
      have hp := DuelBoard.parseEvent_mirrored (b := s.board) (fun ops => runOps_mirrored hi) e
      rw [hb] at hp
      obtain ⟨b2, hb2, hc2⟩ := parse_sides (mirrored_inv hi) hr hp
      obtain ⟨b', hb', hc⟩ := together_ok (parseEvent_together (mirrored_inv hi) hi' ha e') hb2
      simp only [Msg.event?, hb', bind_ok]
      exact hq b b' (events_inv hi hb) (events_inv hi' hb') (counts_trans hc2 hc) _ rfl (by simpa only [bind_eq_ok] using h)

/-- **C106.** A client that is sent the other duel follows as far and counts the same with the players exchanged. -/
theorem C106_whole_client (cache : Bool) (ms ms' : List Msg) (hm : List.Forall₂ MirrorImage ms ms') (s : Client)
    (h : Client.follow cache Client.init ms = .ok s) :
    ∃ s', Client.follow cache Client.init ms' = .ok s' ∧ CountsAlike s.board.mirrored s'.board :=
  follow_image (s := Client.init) (s' := Client.init) hm Inv.init Inv.init init_alike.board h

/-! ## Not vacuous -/

/-- A duel with every kind of message about both sides. -/
def bothWays : List CoreMsg :=
  [.start 5 8000 4000 3 0 5 1, .draw 0 [(7, 0)], .fieldDisabled 0xFFFEFFFD, .reverseDeck,
   .reloadField 0 ⟨8000, .card 1 7 2 :: List.replicate 6 .empty, List.replicate 8 .empty, 3, 1, 0, 0, 0, 0⟩
     ⟨4000, List.replicate 7 .empty, .card 1 8 0 :: List.replicate 7 .empty, 5, 0, 0, 0, 0, 0⟩ [], .newTurn 1]

example : ∀ m ∈ bothWays, m.Fits := by
  intro m hm
  simp only [bothWays, List.mem_cons, List.not_mem_nil, or_false] at hm
  rcases hm with rfl | rfl | rfl | rfl | rfl | rfl <;> simp [CoreMsg.Fits, FieldSide.Fits, FieldCell.Fits]

example : (feed BasicContext.init (bothWays.map (·.bytes))).toOption.map
      (fun x => ((messages x.1).length, (x.2.board.frame.layout.pile ⟨0, .mainDeck⟩).length, (x.2.board.lp 0).val)) = some (6, 3, 8000) ∧
    (feed BasicContext.init (bothWays.map (·.mirrored.bytes))).toOption.map
      (fun x => ((messages x.1).length, (x.2.board.frame.layout.pile ⟨1, .mainDeck⟩).length, (x.2.board.lp 1).val)) = some (6, 3, 8000) := by
  decide +kernel

end Ygo.Props
