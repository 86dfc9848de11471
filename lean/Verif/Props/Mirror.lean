import Verif.Spec.Mirror
import Verif.Lemmas.MirrorCore
import Verif.Props.ReleaseServer

namespace Ygo.Props
open Ygo Ygo.Spec P

set_option linter.unusedSimpArgs false

/-! ## Tables -/

/-- **C106.** Calls on a new table with the players exchanged fail in the same way and give the same table with the players exchanged. -/
theorem C106_calls (ops : List FrameOp) : runOps Frame.init (ops.map FrameOp.mirrored) = (runOps Frame.init ops).map Frame.mirrored :=
  runOps_mirrored Inv.init

/-- The same for tables that can be undone, from any state. -/
theorem C106_undoable_calls (f : Limbo) (op : FrameOp) :
    f.mirrored.step op.mirrored = (f.step op).map Limbo.mirrored ∧ f.mirrored.undo op.mirrored = (f.undo op).map Limbo.mirrored :=
  ⟨Limbo.mirrored_step f op, Limbo.mirrored_undo f op⟩

/-- Looking at a place shows the same card. -/
theorem C106_look (l : Layout) (p : Place) : l.mirrored.card p.mirrored = l.card p ∧ l.mirrored.hasCard p.mirrored = l.hasCard p :=
  ⟨Layout.mirrored_card l p, Layout.mirrored_hasCard l p⟩

/-! ## Boards -/

theorem events_inv {b b' : PlainBoard} (hi : Inv b.frame) {e : Event} (h : b.parseEvent e = .ok b') : Inv b'.frame := (event_same hi h).2

theorem events_mirrored {b : PlainBoard} (h : Inv b.frame) (es : List Event) :
    DuelBoard.parseEvents b.mirrored (es.map Event.mirrored) = (DuelBoard.parseEvents b es).map PlainBoard.mirrored := by
  induction es generalizing b with
  | nil => rfl
  | cons e es ih =>
    simp only [List.map_cons, DuelBoard.parseEvents]
    rw [DuelBoard.parseEvent_mirrored (fun ops => runOps_mirrored h) e]
    cases he : b.parseEvent e with
    | error x => rfl
    | ok b' => exact ih (events_inv h he)

/-- **C106.** Events with the players exchanged fail in the same way and lead to the same board with the players exchanged. -/
theorem C106_events (es0 es : List Event) (b : PlainBoard) (h : DuelBoard.parseEvents PlainBoard.init es0 = .ok b) :
    DuelBoard.parseEvents b.mirrored (es.map Event.mirrored) = (DuelBoard.parseEvents b es).map PlainBoard.mirrored := by
  refine events_mirrored ?_ es
  have : ∀ (es0 : List Event) (b0 : PlainBoard), Inv b0.frame → DuelBoard.parseEvents b0 es0 = .ok b → Inv b.frame := by
    intro es0
    induction es0 with
    | nil => intro b0 hi h; cases h; exact hi
    | cons e es0 ih =>
      intro b0 hi h
      simp only [DuelBoard.parseEvents, bind_eq_ok] at h
      obtain ⟨b1, h1, h2⟩ := h
      exact ih b1 (events_inv hi h1) h2
  exact this es0 _ Inv.init h

/-- The same for boards that can be undone, forth and back, from any state. -/
theorem C106_undo_boards (b : UndoBoard) (es : List Event) :
    DuelBoard.parseEvents b.mirrored (es.map Event.mirrored) = (DuelBoard.parseEvents b es).map UndoBoard.mirrored ∧
    UndoBoard.undoEvents b.mirrored (es.map Event.mirrored) = (b.undoEvents es).map UndoBoard.mirrored :=
  ⟨UndoBoard.parseEvents_mirrored es, UndoBoard.undoEvents_mirrored b es⟩

/-- **C106.** What queries say about cards, with as many values found unchanged. -/
theorem C106_queries {V : Type → Type} [Cell V] [Inside V] [InsideLaws V] (uc : Bool) (l : Layout) (st : CardId → Card V) (q : Query) :
    parseQuery uc l.mirrored (fun x => (st x).mirrored) q.mirrored = (parseQuery uc l st q).map fun x => (x.1, fun y => (x.2 y).mirrored) :=
  parseQuery_mirrored uc l st q

theorem answer_mirrored (cache : Bool) (l : Layout) (qs : List Query) (st : CardId → Card Plain) :
    Client.answer cache l.mirrored (qs.map Query.mirrored) (fun x => (st x).mirrored) = (Client.answer cache l qs st).map fun st x => (st x).mirrored := by
  induction qs generalizing st with
  | nil => rfl
  | cons q qs ih => simp only [List.map_cons, Client.answer, parseQuery_mirrored, map_bind', bind_map', ih]

theorem event?_mirrored (m : Msg) : Msg.event? m.mirrored = (Msg.event? m).map Event.mirrored := by
  obtain ⟨body, qs⟩ := m
  cases body <;> rfl

theorem follow_mirrored (cache : Bool) (ms : List Msg) {s : Client} (h : Inv s.board.frame) :
    Client.follow cache s.mirrored (ms.map Msg.mirrored) = (Client.follow cache s ms).map Client.mirrored := by
  induction ms generalizing s with
  | nil => rfl
  | cons m ms ih =>
    have hq : ∀ b : PlainBoard, Client.answer cache (b.mirrored).frame.layout (m.queries.map Query.mirrored) (fun x => (s.store x).mirrored) =
        (Client.answer cache b.frame.layout m.queries s.store).map fun st x => (st x).mirrored :=
      fun b => answer_mirrored cache b.frame.layout m.queries s.store
    have hr : ∀ b : PlainBoard, Inv b.frame →
        (Client.answer cache (b.mirrored).frame.layout (m.queries.map Query.mirrored) (fun x => (s.store x).mirrored) >>= fun st =>
          Client.follow cache ⟨b.mirrored, st⟩ (ms.map Msg.mirrored)) =
        (Client.answer cache b.frame.layout m.queries s.store >>= fun st => Client.follow cache ⟨b, st⟩ ms).map Client.mirrored := by
      intro b hb
      rw [hq, map_bind', bind_map']
      exact bind_congr' fun st => ih (s := ⟨b, st⟩) hb
    simp only [List.map_cons, Client.follow, event?_mirrored]
    cases he : Msg.event? m with
    | none => exact hr s.board h
    | some e =>
      simp only [Option.map_some]
      show (DuelBoard.parseEvent (s.board).mirrored e.mirrored >>= _) = _
      rw [DuelBoard.parseEvent_mirrored (fun ops => runOps_mirrored h) e, map_bind', bind_map']
      cases hb : s.board.parseEvent e with
      | error x => rfl
      | ok b => exact hr b (events_inv h hb)

theorem follow_inv (cache : Bool) (ms : List Msg) {s s' : Client} (h : Inv s.board.frame) (hf : Client.follow cache s ms = .ok s') : Inv s'.board.frame := by
  induction ms generalizing s with
  | nil => cases hf; exact h
  | cons m ms ih =>
    simp only [Client.follow] at hf
    cases he : Msg.event? m with
    | none =>
      simp only [he, bind_eq_ok, pure_eq_ok, Except.ok.injEq] at hf
      obtain ⟨b, rfl, st, _, hf⟩ := hf
      exact ih (s := ⟨_, st⟩) h hf
    | some e =>
      simp only [he, bind_eq_ok] at hf
      obtain ⟨b, hb, st, _, hf⟩ := hf
      exact ih (s := ⟨_, st⟩) (events_inv h hb) hf

/-- **C106.** A client that has got this far with any messages gets the others' side of a duel as it gets this side. -/
theorem C106_client (cache : Bool) (ms0 ms : List Msg) (s : Client) (h : Client.follow cache Client.init ms0 = .ok s) :
    Client.follow cache s.mirrored (ms.map Msg.mirrored) = (Client.follow cache s ms).map Client.mirrored :=
  follow_mirrored cache ms (follow_inv cache ms0 Inv.init h)

/-! ## The server -/

/-- **C106.** A message of the core with the players exchanged is translated to the message with the players exchanged. -/
theorem C106_messages (c : BasicContext) (m : CoreMsg) (hf : m.Fits) (hb : ¬ m.BothSides) (more : List UInt8) :
    encodeOne c.mirrored (m.mirrored.bytes ++ more) = (encodeOne c (m.bytes ++ more)).map fun x => (x.1.mirrored, x.2.mirrored) :=
  encode_mirrored c m hf hb more

theorem feed_inv {ds : List (List UInt8)} {c c' : BasicContext} {rs : List Encoded} (hi : Inv c.board.frame) (h : feed c ds = .ok (rs, c')) :
    Inv c'.board.frame := by
  induction ds generalizing c rs with
  | nil => cases h; exact hi
  | cons d ds ih =>
    obtain ⟨r, c1, c2, rs', h1, hs, h2, h3, rfl⟩ := feed_cons h
    have hi1 : Inv c1.board.frame := by rw [hs.board]; exact hi
    refine ih ?_ h3
    cases hm : r.msg with
    | none => rw [hm] at h2; cases h2; exact hi1
    | some m => rw [hm] at h2; exact (parse_raw hi1 h2).2

theorem encodeOne_inv {c c1 : BasicContext} {d : List UInt8} {r : Encoded} (hi : Inv c.board.frame) (h : encodeOne c d = .ok (r, c1)) :
    Inv c1.board.frame := by
  exact (encodeOne_same h).board ▸ hi

theorem feed_mirrored (ms : List CoreMsg) (hm : ∀ m ∈ ms, m.Fits ∧ ¬ m.BothSides) {c : BasicContext} (hi : Inv c.board.frame) :
    feed c.mirrored (ms.map fun m => m.mirrored.bytes) = (feed c (ms.map fun m => m.bytes)).map fun x => (x.1.map Encoded.mirrored, x.2.mirrored) := by
  induction ms generalizing c with
  | nil => rfl
  | cons m ms ih =>
    have he := encode_mirrored c m (hm m (by simp)).1 (hm m (by simp)).2 []
    rw [List.append_nil, List.append_nil] at he
    simp only [List.map_cons, feed]
    rw [he, map_bind', bind_map']
    cases h1 : encodeOne c m.bytes with
    | error e => rfl
    | ok x =>
      obtain ⟨r, c1⟩ := x
      have hi1 := encodeOne_inv hi h1
      simp only [bind_ok, Encoded.mirrored]
      have hrest : ∀ c2 : BasicContext, Inv c2.board.frame →
          (feed c2.mirrored (ms.map fun m => m.mirrored.bytes) >>= fun x => (Except.ok ((r.mirrored) :: x.1, x.2) : Res (List Encoded × BasicContext))) =
          (feed c2 (ms.map fun m => m.bytes) >>= fun x => (Except.ok (r :: x.1, x.2) : Res (List Encoded × BasicContext))).map
            fun x => (x.1.map Encoded.mirrored, x.2.mirrored) := by
        intro c2 h2
        rw [ih (fun m h => hm m (by simp [h])) h2, map_bind', bind_map']
        rfl
      cases hr : r.msg with
      | none =>
        simp only [Option.map_none]
        have := hrest c1 hi1
        simp only [Encoded.mirrored, hr, Option.map_none] at this
        exact this
      | some t =>
        simp only [Option.map_some]
        rw [BasicContext.parse_mirrored hi1 t, map_bind', bind_map']
        cases h2 : c1.parse t with
        | error e => rfl
        | ok c2 =>
          have := hrest c2 (parse_raw hi1 h2).2
          simp only [Encoded.mirrored, hr, Option.map_some] at this
          exact this

/-- **C106.** A server that has got anywhere with any buffers goes on alike with a duel and with the same duel with the players exchanged, as
long as no message is about both sides at once. -/
theorem C106_duel (ds : List (List UInt8)) (rs : List Encoded) (c : BasicContext) (h : feed BasicContext.init ds = .ok (rs, c)) (ms : List CoreMsg)
    (hm : ∀ m ∈ ms, m.Fits ∧ ¬ m.BothSides) :
    feed c.mirrored (ms.map fun m => m.mirrored.bytes) = (feed c (ms.map fun m => m.bytes)).map fun x => (x.1.map Encoded.mirrored, x.2.mirrored) :=
  feed_mirrored ms hm (feed_inv Inv.init h)

/-! ## Messages about both sides -/

theorem clearZones_congr {con : Int} {f g : Nat → Bool} (h : ∀ i < 16, f i = g i) : clearZones con f = clearZones con g := by
  unfold clearZones
  simp only [List.filterMap_cons, List.filterMap_nil]
  simp only [h _ (by decide : 0 < 16), h _ (by decide : 1 < 16), h _ (by decide : 2 < 16), h _ (by decide : 3 < 16), h _ (by decide : 4 < 16),
    h _ (by decide : 5 < 16), h _ (by decide : 6 < 16), h _ (by decide : 8 < 16), h _ (by decide : 9 < 16), h _ (by decide : 10 < 16),
    h _ (by decide : 11 < 16), h _ (by decide : 12 < 16), h _ (by decide : 13 < 16), h _ (by decide : 14 < 16), h _ (by decide : 15 < 16)]

theorem halves_toNat (m : UInt32) : (halvesTurned m).toNat = m.toNat % 2 ^ 16 * 2 ^ 16 + m.toNat / 2 ^ 16 := by
  have := m.toNat_lt
  unfold halvesTurned
  rw [UInt32.toNat_ofNat']
  omega

theorem halves_low (m : UInt32) (i : Nat) (h : i < 16) : (halvesTurned m).toNat.testBit i = m.toNat.testBit (16 + i) := by
  have := m.toNat_lt
  rw [halves_toNat, Nat.mul_comm, Nat.testBit_two_pow_mul_add _ (by omega), if_pos h, Nat.testBit_div_two_pow, Nat.add_comm]

theorem halves_high (m : UInt32) (i : Nat) (h : i < 16) : (halvesTurned m).toNat.testBit (16 + i) = m.toNat.testBit i := by
  have := m.toNat_lt
  rw [halves_toNat, Nat.mul_comm, Nat.testBit_two_pow_mul_add _ (by omega), if_neg (by omega), Nat.testBit_mod_two_pow]
  simp [h]

theorem clearZones_con {con : Int} {f : Nat → Bool} : ∀ p ∈ clearZones con f, p.con = con := by
  intro p hp
  simp only [clearZones, List.mem_filterMap] at hp
  obtain ⟨i, _, hi⟩ := hp
  revert hi
  repeat' split
  all_goals simp
  all_goals (try rintro rfl; try rfl)

theorem blocked_mirrored (m : UInt32) : SidesSwapped (fun p i => p.con = i) (clearBits (halvesTurned m) 0) ((clearBits m 0).map Place.mirrored) := by
  unfold clearBits
  rw [List.map_append, ← clearZones_mirrored, ← clearZones_mirrored, clearZones_congr (halves_low m), clearZones_congr (halves_high m)]
  exact ⟨_, _, rfl, rfl, clearZones_con, clearZones_con⟩

theorem cell_mirrored {con : Int} {loc seq : Nat} (hl : loc = 4 ∨ loc = 8) (z : FieldCell) :
    z.places (other con) loc seq = (z.places con loc seq).map Place.mirrored := by
  cases z with
  | empty => rfl
  | card mark code mats =>
    have h1 : (slot loc seq).1 ≠ 0 := by
      intro h
      have := slot_zero (loc := loc) (seq := seq)
      omega
    simp only [FieldCell.places, List.map_cons, List.map_map, List.cons.injEq]
    refine ⟨by simp [Place.mirrored, h1], List.map_congr_left fun o _ => ?_⟩
    have : loc ≠ 0 := by omega
    simp [Place.mirrored, this]

theorem places_mirrored (con : Int) (s : FieldSide) : s.places (other con) = (s.places con).map Place.mirrored := by
  simp only [FieldSide.places, List.map_append, List.map_flatten]
  congr 2 <;> refine List.ext_getElem (by simp) fun i h1 h2 => ?_ <;> simp [cell_mirrored]

theorem piles_mirrored (con : Int) (s : FieldSide) : s.piles (other con) = (s.piles con).map ResizeOp.mirrored := rfl

theorem places_con (con : Int) (s : FieldSide) : ∀ p ∈ s.places con, p.con = con := by
  have cell : ∀ (z : FieldCell) loc seq, ∀ p ∈ z.places con loc seq, p.con = con := by
    intro z loc seq p hp
    cases z with
    | empty => cases hp
    | card mark code mats =>
      simp only [FieldCell.places, List.mem_cons, List.mem_map] at hp
      rcases hp with rfl | ⟨_, _, rfl⟩ <;> rfl
  intro p hp
  simp only [FieldSide.places, List.mem_append, List.mem_flatten, List.mem_mapIdx] at hp
  rcases hp with ⟨l, ⟨i, h, rfl⟩, hp⟩ | ⟨l, ⟨i, h, rfl⟩, hp⟩ <;> exact cell _ _ _ p hp

theorem piles_con (con : Int) (s : FieldSide) : ∀ o ∈ s.piles con, o.place.con = con := by
  intro o ho
  simp only [FieldSide.piles, List.mem_cons, List.not_mem_nil, or_false] at ho
  rcases ho with rfl | rfl | rfl | rfl | rfl <;> rfl

theorem both {c : BasicContext} {m : CoreMsg} {e e' : Event} (hf : m.Fits) (h : m.meaning = some (.event e)) (h' : m.mirrored.meaning = some (.event e'))
    (hr : SidesReordered e' e.mirrored) (more : List UInt8) :
    ∃ n e e', encodeOne c (m.bytes ++ more) = .ok (⟨.ok, n, some ⟨.event e, []⟩⟩, c) ∧
      encodeOne c.mirrored (m.mirrored.bytes ++ more) = .ok (⟨.ok, n, some ⟨.event e', []⟩⟩, c.mirrored) ∧ SidesReordered e' e.mirrored :=
  ⟨_, e, e', C34_translation c m hf _ h more, mirrored_length m ▸ C34_translation c.mirrored _ (side_fits hf) _ h' more, hr⟩

/-- **C106.** A message about both sides of the field with the players exchanged is translated to the event with the players exchanged,
but for the order in which the two sides are listed. -/
theorem C106_both_sides (c : BasicContext) (m : CoreMsg) (hf : m.Fits) (hb : m.BothSides) (more : List UInt8) :
    ∃ n e e', encodeOne c (m.bytes ++ more) = .ok (⟨.ok, n, some ⟨.event e, []⟩⟩, c) ∧
      encodeOne c.mirrored (m.mirrored.bytes ++ more) = .ok (⟨.ok, n, some ⟨.event e', []⟩⟩, c.mirrored) ∧ SidesReordered e' e.mirrored := by
  cases m <;> try exact absurd hb id
  case start r l0 l1 m0 e0 m1 e1 =>
    refine both hf rfl rfl ?_ more
    refine ⟨rfl, rfl, rfl, rfl, ⟨[], [], rfl, rfl, by simp, by simp⟩, ?_⟩
    exact ⟨[_, _], [_, _], rfl, rfl, by simp [CoreMsg.pileSize], by simp [CoreMsg.pileSize]⟩
  case fieldDisabled mask =>
    refine both hf rfl rfl ?_ more
    exact blocked_mirrored mask
  case reloadField f s0 s1 cs =>
    refine both hf rfl rfl ?_ more
    refine ⟨rfl, rfl, rfl, ?_, ?_, ?_⟩
    · simp [BoardState.mirrored, Link.chain, Link.mirrored, Chain.mirrored, loc_mirrored, cardLoc_mirrored]
    · show SidesSwapped _ (s1.places 0 ++ s0.places 1) ((s0.places 0 ++ s1.places 1).map Place.mirrored)
      rw [List.map_append, ← places_mirrored, ← places_mirrored]
      exact ⟨_, _, rfl, rfl, places_con _ _, places_con _ _⟩
    · show SidesSwapped _ (s1.piles 0 ++ s0.piles 1) ((s0.piles 0 ++ s1.piles 1).map ResizeOp.mirrored)
      rw [List.map_append, ← piles_mirrored, ← piles_mirrored]
      exact ⟨_, _, rfl, rfl, piles_con _ _, piles_con _ _⟩
  case reverseDeck =>
    refine ⟨_, _, _, C34_translation_in_context c .reverseDeck hf _ rfl more, C34_translation_in_context c.mirrored .reverseDeck hf _ rfl more, ?_⟩
    exact ⟨rfl, [_], [_], rfl, rfl, by simp, by simp⟩

/-! ## Answers -/

theorem battle_mirrored (r : Request) : r.mirrored.isBattleCmd = r.isBattleCmd := by cases r <;> rfl
theorem idle_mirrored (r : Request) : r.mirrored.isSelectIdle = r.isSelectIdle := by cases r <;> rfl

theorem zones_mirrored (ps : List Place) (h : ∀ p ∈ ps, (p.con = 0 ∨ p.con = 1) ∧ p.loc ≠ 0) :
    ((ps.map Place.mirrored).flatMap fun p => writeLE 1 p.con ++ writeLE 1 p.loc ++ writeLE 1 p.seq) =
      zonesTurned (ps.flatMap fun p => writeLE 1 p.con ++ writeLE 1 p.loc ++ writeLE 1 p.seq) := by
  induction ps with
  | nil => rfl
  | cons p ps ih =>
    obtain ⟨hc, hl⟩ := h p (by simp)
    have := ih fun q hq => h q (by simp [hq])
    simp only [List.map_cons, List.flatMap_cons, this]
    simp only [writeLE, List.cons_append, List.nil_append, zonesTurned, Place.mirrored, hl, if_false]
    obtain hc | hc := hc <;> rw [hc] <;> rfl

/-- **C106.** The core gets an answer with the players exchanged as the same response with the players exchanged, to the request with
the players exchanged. -/
theorem C106_answers (r : Request) (a : Answer) (ha : a.Players) (out : List UInt8) :
    decodeOneAnswer r.mirrored a.mirrored out = (decodeOneAnswer r a out).map a.turned := by
  have hi : ∀ x : Res (List UInt8), x.map (fun bs => bs) = x := map_id'
  cases a <;> try rfl
  case selectCard a =>
    show _ = (decodeOneAnswer r (.selectCard a) out).map fun bs => bs
    rw [hi]
    cases a <;> try rfl
    case indexes is =>
      cases r <;> try rfl
      case selectCard s => cases s <;> rfl
  case selectIdle a =>
    show _ = (decodeOneAnswer r (.selectIdle a) out).map fun bs => bs
    rw [hi]
    cases a <;> simp only [Answer.mirrored, decodeOneAnswer, battle_mirrored, idle_mirrored]
  case selectToChain a => cases a <;> rfl
  case sort a => cases a <;> rfl
  case selectZone ps =>
    show Except.ok _ = Except.ok (zonesTurned _)
    rw [zones_mirrored ps ha]

/-! ## Not vacuous -/

/-- A table on which calls succeed, and one on which they fail. -/
example : ((runOps Frame.init [.resize ⟨0, 1, 0, -1⟩ 3, .move ⟨0, 1, 2, -1⟩ ⟨1, 4, 0, -1⟩]).map fun f =>
      (f.layout.pile ⟨0, .mainDeck⟩, f.mirrored.layout.pile ⟨0, .mainDeck⟩, f.mirrored.layout.pile ⟨1, .mainDeck⟩)) =
      .ok ([0, 1], [], [0, 1]) ∧
    ([.resize ⟨0, 1, 0, -1⟩ 3, .move ⟨0, 1, 2, -1⟩ ⟨1, 4, 0, -1⟩] : List FrameOp).map FrameOp.mirrored =
      [.resize ⟨1, 1, 0, -1⟩ 3, .move ⟨1, 1, 2, -1⟩ ⟨0, 4, 0, -1⟩] := ⟨rfl, rfl⟩

/-- A server in the middle of a duel, and how the duel goes on: a card is drawn, shown, put onto the field; damage is dealt. -/
def onwards : List CoreMsg :=
  [.draw 0 [(7, 0), (8, 0)], .updateData 0 2 [some [.code 7, .owner 0], some [.code 8]], .move 7 ⟨0, 2, 0, 0⟩ ⟨0, 4, 2, 8⟩ 0x80,
   .damage 1 500, .newTurn 1]

example : (∀ m ∈ onwards, m.Fits ∧ ¬ m.BothSides) ∧ (feed BasicContext.init [(CoreMsg.start 5 8000 4000 3 0 5 0).bytes]).toOption.isSome := by
  refine ⟨?_, by decide +kernel⟩
  intro m hm
  simp only [onwards, List.mem_cons, List.not_mem_nil, or_false] at hm
  rcases hm with rfl | rfl | rfl | rfl | rfl <;>
    simp [CoreMsg.BothSides, CoreMsg.Fits, QueryItem.Fits, QueryItem.slotBytes, QueryItem.blob, QueryItem.bytes, QueryItem.payload, b32, b8, le]

/-- It goes on with success, to unlike sizes of the players' piles and unlike life points. -/
example : ((feed BasicContext.init [(CoreMsg.start 5 8000 4000 3 0 5 0).bytes]).bind fun x => feed x.2 (onwards.map (·.bytes))).toOption.map
      (fun x => ((messages x.1).length, (x.2.board.frame.layout.pile ⟨0, .mainDeck⟩).length, (x.2.board.frame.layout.pile ⟨1, .mainDeck⟩).length,
        (x.2.board.lp 0).val, (x.2.board.lp 1).val)) = some (5, 1, 5, 8000, 3500) ∧
    ((feed BasicContext.init [(CoreMsg.start 5 8000 4000 3 0 5 0).bytes]).bind fun x => feed x.2.mirrored (onwards.map (·.mirrored.bytes))).toOption.map
      (fun x => ((messages x.1).length, (x.2.board.frame.layout.pile ⟨0, .mainDeck⟩).length, (x.2.board.frame.layout.pile ⟨1, .mainDeck⟩).length,
        (x.2.board.lp 0).val, (x.2.board.lp 1).val)) = some (5, 5, 1, 3500, 8000) := by decide +kernel

/-- A message about both sides: blocked zones of both players. -/
example : (CoreMsg.fieldDisabled 0xFFFEFFFF).BothSides ∧ halvesTurned 0xFFFEFFFF = 0xFFFFFFFE := ⟨trivial, by decide⟩

example : clearBits 0xFFFEFFFF 0 = [⟨1, 4, 0, -1⟩] ∧ clearBits (halvesTurned 0xFFFEFFFF) 0 = [⟨0, 4, 0, -1⟩] := by decide +kernel

/-- An answer naming a zone. -/
example : (Answer.selectZone [⟨1, 4, 2, -1⟩]).Players ∧
    decodeOneAnswer (.selectZone false 1 [⟨1, 4, 2, -1⟩]) (.selectZone [⟨1, 4, 2, -1⟩]) [] = .ok [1, 4, 2] ∧
    (Answer.selectZone [⟨1, 4, 2, -1⟩]).turned [1, 4, 2] = [0, 4, 2] :=
  ⟨by simp [Answer.Players], rfl, rfl⟩

end Ygo.Props
