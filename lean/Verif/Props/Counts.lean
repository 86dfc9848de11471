import Verif.Spec.Counts
import Verif.Lemmas.CountsServer
import Verif.Props.Mirror

namespace Ygo.Props
open Ygo Ygo.Spec

set_option linter.unusedSimpArgs false

/-! ## Tables -/

/-- **C107.** Calls on tables with as many cards in each place fail in the same way or leave tables with as many cards in each place. -/
theorem C107_calls (f f' : Frame) (h : Reachable f) (h' : Reachable f') (hc : SameCounts f.layout f'.layout) (ops : List FrameOp) :
    Together (fun g g' => SameCounts g.layout g'.layout) (runOps f ops) (runOps f' ops) := by
  have e := runOps_counted (ops := ops) h.inv
  rw [show f.counted = f'.counted from congrArg CountFrame.mk (blank_iff.mpr hc), runOps_counted h'.inv] at e
  exact (Together.of_map e.symm).mono fun _ _ _ _ h => blank_iff.mp (congrArg CountFrame.layout h)

/-- Looking whether there is a card, and at the card. -/
theorem C107_look (l l' : Layout) (hc : SameCounts l l') (p : Place) :
    l.hasCard p = l'.hasCard p ∧ Together (fun _ _ => True) (l.card p) (l'.card p) := ⟨hc.hasCard p, hc.card p⟩

/-! ## Boards -/

theorem parseEvents_inv {es : List Event} {b b' : PlainBoard} (hi : Inv b.frame) (h : DuelBoard.parseEvents b es = .ok b') : Inv b'.frame := by
  induction es generalizing b with
  | nil => cases h; exact hi
  | cons e es ih =>
    simp only [DuelBoard.parseEvents, bind_eq_ok] at h
    obtain ⟨b1, h1, h2⟩ := h
    exact ih (events_inv hi h1) h2

theorem parseEvents_together {es : List Event} {b b' : PlainBoard} (hi : Inv b.frame) (hi' : Inv b'.frame) (h : CountsAlike b b') :
    Together CountsAlike (DuelBoard.parseEvents b es) (DuelBoard.parseEvents b' es) := by
  induction es generalizing b b' with
  | nil => exact h
  | cons e es ih => exact (parseEvent_together hi hi' h e).bind fun _ _ h1 h2 hc => ih (events_inv hi h1) (events_inv hi' h2) hc

/-- **C107.** Whether and how events fail, how many cards there are where, the chain, the turn, the phase and life points do not depend
on which cards lie where. -/
theorem C107_events (es0 es1 es : List Event) (b b' : PlainBoard) (h : DuelBoard.parseEvents PlainBoard.init es0 = .ok b)
    (h' : DuelBoard.parseEvents PlainBoard.init es1 = .ok b') (hc : CountsAlike b b') :
    Together CountsAlike (DuelBoard.parseEvents b es) (DuelBoard.parseEvents b' es) :=
  parseEvents_together (parseEvents_inv Inv.init h) (parseEvents_inv Inv.init h') hc

/-- **C107.** Nor does it depend on them, or on what is known, whether and how queries fail. -/
theorem C107_queries (l l' : Layout) (hc : SameCounts l l') (cache cache' : Bool) (st st' : CardId → Card Plain) (qs : List Query) :
    Together (fun _ _ => True) (Client.answer cache l qs st) (Client.answer cache' l' qs st') := answer_together hc cache cache' qs st st'

/-! ## Servers and clients -/

theorem feed_together {ds : List (List UInt8)} {c c' : BasicContext} (hi : Inv c.board.frame) (hi' : Inv c'.board.frame) (h : ServersAlike c c') :
    Together (fun x y => x.1 = y.1 ∧ ServersAlike x.2 y.2) (feed c ds) (feed c' ds) := by
  induction ds generalizing c c' with
  | nil => exact ⟨rfl, h⟩
  | cons d ds ih =>
    simp only [feed]
    refine (encodeOne_together h d).bind ?_
    rintro ⟨r, c1⟩ ⟨r', c1'⟩ - - ⟨hr, h1, e, e'⟩
    simp only at hr e e'
    subst hr
    have hi1 : Inv c1.board.frame := e ▸ hi
    have hi1' : Inv c1'.board.frame := e' ▸ hi'
    have rest : ∀ c2 c2' : BasicContext, Inv c2.board.frame → Inv c2'.board.frame → ServersAlike c2 c2' →
        Together (fun x y => x.1 = y.1 ∧ ServersAlike x.2 y.2) (feed c2 ds >>= fun x => (Except.ok (r :: x.1, x.2) : Res (List Encoded × BasicContext)))
          (feed c2' ds >>= fun x => (Except.ok (r :: x.1, x.2) : Res (List Encoded × BasicContext))) := by
      intro c2 c2' hi2 hi2' h2
      refine (ih hi2 hi2' h2).bind fun x y _ _ hx => ?_
      exact ⟨congrArg (r :: ·) hx.1, hx.2⟩
    cases hm : r.msg with
    | none => exact rest c1 c1' hi1 hi1' h1
    | some m => exact (parse_together hi1 hi1' h1 m).bind fun c2 c2' e2 e2' h2 => rest c2 c2' (parse_raw hi1 e2).2 (parse_raw hi1' e2').2 h2

/-- **C107.** What a server sends does not depend on which cards it thinks lie where, nor on what it knows about them, nor on whose turn it thinks
it is or which zones it thinks are blocked. The buffers are arbitrary. -/
theorem C107_server (ds0 ds1 ds : List (List UInt8)) (rs0 rs1 : List Encoded) (c c' : BasicContext)
    (h : feed BasicContext.init ds0 = .ok (rs0, c)) (h' : feed BasicContext.init ds1 = .ok (rs1, c')) (hc : ServersAlike c c') :
    Together (fun x y => x.1 = y.1 ∧ ServersAlike x.2 y.2) (feed c ds) (feed c' ds) :=
  feed_together (feed_inv Inv.init h) (feed_inv Inv.init h') hc

theorem follow_together {cache cache' : Bool} {ms : List Msg} {s s' : Client} (hi : Inv s.board.frame) (hi' : Inv s'.board.frame)
    (h : CountsAlike s.board s'.board) :
    Together (fun t t' => CountsAlike t.board t'.board) (Client.follow cache s ms) (Client.follow cache' s' ms) := by
  induction ms generalizing s s' with
  | nil => exact h
  | cons m ms ih =>
    have rest : ∀ b b' : PlainBoard, Inv b.frame → Inv b'.frame → CountsAlike b b' → Together (fun t t' => CountsAlike t.board t'.board)
        (Client.answer cache b.frame.layout m.queries s.store >>= fun st => Client.follow cache ⟨b, st⟩ ms)
        (Client.answer cache' b'.frame.layout m.queries s'.store >>= fun st => Client.follow cache' ⟨b', st⟩ ms) := by
      intro b b' h1 h2 h3
      exact (answer_together h3.table cache cache' _ _ _).bind fun _ _ _ _ _ => ih h1 h2 h3
    simp only [Client.follow]
    cases Msg.event? m with
    | none => exact rest _ _ hi hi' h
    | some e => exact (parseEvent_together hi hi' h e).bind fun b b' h1 h2 h3 => rest b b' (events_inv hi h1) (events_inv hi' h2) h3

/-- **C107.** A client that mixes up cards follows as long as one that does not, and counts the same; it does not matter either whether
they look values up first. -/
theorem C107_client (cache cache' : Bool) (ms0 ms1 ms : List Msg) (s s' : Client) (h : Client.follow cache Client.init ms0 = .ok s)
    (h' : Client.follow cache' Client.init ms1 = .ok s') (hc : CountsAlike s.board s'.board) :
    Together (fun t t' => CountsAlike t.board t'.board) (Client.follow cache s ms) (Client.follow cache' s' ms) :=
  follow_together (follow_inv cache ms0 Inv.init h) (follow_inv cache' ms1 Inv.init h') hc

/-! ## Not vacuous -/

/-- Two servers whose decks are in another order and who know other cards, of which one has been told of a new turn's player and blocked zones. -/
def server0 : Res (List Encoded × BasicContext) := feed BasicContext.init [(CoreMsg.start 5 8000 8000 3 0 3 0).bytes, (CoreMsg.draw 0 [(7, 0)]).bytes]

def server1 : Res (List Encoded × BasicContext) :=
  feed BasicContext.init [(CoreMsg.start 5 8000 8000 3 0 3 0).bytes, (CoreMsg.draw 0 [(7, 0)]).bytes, (CoreMsg.reverseDeck).bytes,
    (CoreMsg.fieldDisabled 1).bytes]

example : (server0.toOption.map fun x => (x.2.board.frame.layout.pile ⟨0, .mainDeck⟩, x.2.board.frame.layout.pile ⟨0, .hand⟩, x.2.board.blockedZones.val)) =
      some ([0, 1], [2], []) ∧
    ((server1.toOption.map fun x => (x.2.board.frame.layout.pile ⟨0, .mainDeck⟩, x.2.board.frame.layout.pile ⟨0, .hand⟩,
      x.2.board.blockedZones.val.length)) = some ([1, 0], [2], 29)) := by decide +kernel

example : match server0, server1 with
    | .ok (_, c), .ok (_, c') => ServersAlike c c'
    | _, _ => False := by
  have e : (match server0, server1 with
    | .ok (_, c), .ok (_, c') => containers.all fun C => (view c.board.frame.layout C).length == (view c'.board.frame.layout C).length
    | _, _ => false) = true := by decide +kernel
  refine ⟨⟨fun C => ?_, rfl, rfl, rfl, rfl⟩, rfl, rfl, rfl⟩
  exact eq_of_beq (List.all_eq_true.mp e C (mem_containers C))

end Ygo.Props
