import Verif.Spec.Orphans
import Verif.Props.Notes
import Verif.Props.Overlay

/-!
# Where materials whose monster has left can go (C123)
-/

namespace Ygo.Props
open Ygo Ygo.Spec

/-- No card can be moved from such a place: it names a pile and a position beneath a card at once. -/
theorem orphaned_cardMove {a : Place} (h : Orphaned a) (f : Frame) (b : Place) (r : Frame × CardId) : f.cardMove a b ≠ .ok r := by
  intro e
  obtain ⟨-, -, C, i, D, j, h1, -, h3, -⟩ := (C09_card_move f r.1 a b r.2).mp e
  obtain ⟨k, rfl⟩ := (at_isPile h1).mp ((pileLoc_iff _).mpr h.1)
  have := h3 k rfl
  have := h.2
  omega

theorem orphaned_runOps {ops : List PlacePair} {o : PlacePair} (ho : o ∈ ops) (h : Orphaned o.fst) (f f' : Frame) :
    runOps f (DuelBoard.cardOps (.move ops)) ≠ .ok f' := by
  induction ops generalizing f with
  | nil => cases ho
  | cons x ops ih =>
    intro e
    rw [runOps_move, bind_eq_ok] at e
    obtain ⟨⟨g, y⟩, h1, h2⟩ := e
    rcases List.mem_cons.mp ho with rfl | ho
    · exact orphaned_cardMove h _ _ _ h1
    · exact ih ho g h2

theorem track_reported {c c1 c' : BasicContext} {data : List UInt8} {n reason : Nat} {e : CardEvent}
    (h : encodeOne c data = .ok (reported n reason e, c1)) (ht : track c data = .ok c') :
    runOps c1.board.frame (DuelBoard.cardOps e) = .ok c'.board.frame := by
  unfold track at ht
  rw [h] at ht
  have ht : BasicContext.parse c1 ⟨.event (.card reason e), []⟩ = .ok c' := ht
  obtain ⟨B, st, hB, -, rfl⟩ := parse_parts ht
  exact parse_frame hB

theorem encode_of_track {c c' : BasicContext} {data : List UInt8} (h : track c data = .ok c') :
    ∃ r c1, encodeOne c data = .ok (r, c1) ∧ c'.deferred = c1.deferred := by
  unfold track at h
  rw [bind_eq_ok] at h
  obtain ⟨⟨r, c1⟩, h1, h2⟩ := h
  refine ⟨r, c1, h1, ?_⟩
  dsimp only at h2
  split at h2
  · obtain ⟨B, st, -, -, rfl⟩ := parse_parts h2
    rfl
  · cases h2; rfl

/-- **C123.** A material whose monster has left cannot be put into a zone: whatever the server tracks, it does not survive the message. -/
theorem C123_summoned (c : BasicContext) (code : UInt32) (a b : LocInfo) (r : UInt32) (ha : Orphaned a.place)
    (hk : moveKind a.place b.place = .arrival) (c' : BasicContext) : track c (CoreMsg.move code a b r).bytes ≠ .ok c' := by
  intro h
  have e := C40_arrival c code a b r [] hk
  rw [List.append_nil] at e
  exact orphaned_runOps (o := ⟨a.place, b.place⟩) (by simp) ha _ _ (track_reported e h)

/-- No server survives an arrival while such a material waits. -/
theorem waiting_arrival {c : BasicContext} {q : Place} (hq : q ∈ c.deferred) (ho : Orphaned q) (code : UInt32) (a b : LocInfo) (r : UInt32)
    (hk : moveKind a.place b.place = .arrival) (c' : BasicContext) : track c (CoreMsg.move code a b r).bytes ≠ .ok c' := by
  intro h
  have e := C40_arrival c code a b r [] hk
  rw [List.append_nil] at e
  obtain ⟨i, hi⟩ := List.getElem?_of_mem hq
  refine orphaned_runOps (o := ⟨q, { b.place with oseq := (i : Int) }⟩) (List.mem_append.mpr (.inl ?_)) ho _ _ (track_reported e h)
  rw [attachments, List.mem_filter, List.mem_map]
  refine ⟨⟨(q, i), List.mem_zipIdx_iff_getElem?.mpr hi, rfl⟩, ?_⟩
  simp only [ne_eq, decide_eq_true_eq]
  intro h
  obtain ⟨-, -, hb, -⟩ := (C39_kinds _ _).2.2.2.2.1.mp hk
  have hp := ho.1
  rw [h] at hp
  exact hb hp

theorem waiting_dies (ms : List CoreMsg) (hf : ∀ m ∈ ms, m.Fits) (c : BasicContext) (q : Place) (hq : q ∈ c.deferred) (ho : Orphaned q)
    (ha : ∃ m ∈ ms, Arrives m) (c' : BasicContext) : trackAll c ms ≠ .ok c' := by
  induction ms generalizing c with
  | nil => obtain ⟨m, h, -⟩ := ha; cases h
  | cons m ms ih =>
    intro h
    rw [trackAll, bind_eq_ok] at h
    obtain ⟨c1, h1, h2⟩ := h
    by_cases hm : Arrives m
    · obtain ⟨code, a, b, r, rfl, hk⟩ := hm
      exact waiting_arrival hq ho code a b r hk c1 h1
    · obtain ⟨r, c2, e1, e2⟩ := encode_of_track h1
      have e3 := (encodeOne_ctx c m (hf m (by simp)) [] r c2 (by rw [List.append_nil]; exact e1)).2.2
      refine ih (fun m hm => hf m (by simp [hm])) c1 ?_ ?_ h2
      · rw [e2, e3]
        cases m <;> try exact hq
        case move code a b r =>
          have hk : moveKind a.place b.place ≠ .arrival := fun h => hm ⟨_, _, _, _, rfl, h⟩
          unfold deferredAfter
          dsimp only
          split
          · exact List.mem_append.mpr (.inl hq)
          · contradiction
          · exact hq
      · obtain ⟨x, hx, hxa⟩ := ha
        rcases List.mem_cons.mp hx with rfl | hx
        · exact absurd hxa hm
        · exact ⟨x, hx, hxa⟩

/-- **C123.** A material whose monster has left cannot be passed on to another one: the message itself is accepted, but then no server survives
the next arrival of a card in a zone, whichever card it is and whatever came between. -/
theorem C123_passed_on (m : CoreMsg) (hm : PassesOn m) (c : BasicContext) :
    (∃ c', track c m.bytes = .ok c' ∧ Spec.boardOf c' = Spec.boardOf c) ∧
    ∀ ms : List CoreMsg, (∀ m ∈ ms, m.Fits) → (∃ m ∈ ms, Arrives m) → ∀ c', trackAll c (m :: ms) ≠ .ok c' := by
  obtain ⟨code, a, b, r, rfl, ho, hk⟩ := hm
  have e := C40_defer c code a b r [] hk
  rw [List.append_nil] at e
  have e' : track c (CoreMsg.move code a b r).bytes = .ok { c with deferred := c.deferred ++ [a.place] } := by
    unfold track
    rw [e]
    rfl
  refine ⟨⟨_, e', rfl⟩, fun ms hf ha c' h => ?_⟩
  rw [trackAll, e', bind_ok] at h
  exact waiting_dies ms hf _ a.place (by simp) ho ha c' h

/-- **C123.** If a material whose monster has left ceases to exist, the server removes the monster instead: the card in the pile is gone, and
everything beneath zones is as before. -/
theorem C123_removed (c : BasicContext) (hi : Inv c.board.frame) (code : UInt32) (a b : LocInfo) (r : UInt32) (ha : Orphaned a.place)
    (hk : moveKind a.place b.place = .removed) (c' : BasicContext) (h : track c (CoreMsg.move code a b r).bytes = .ok c') :
    ∃ k n x, a.place = { pilePlace k n with oseq := a.place.oseq } ∧ (Spec.boardOf c (.pile k))[n]? = some x ∧
      Spec.boardOf c' = (Spec.boardOf c).take (.pile k) n ∧ (∀ C, x ∉ Spec.boardOf c' C) ∧
      ∀ z, Spec.boardOf c' (.mats z) = Spec.boardOf c (.mats z) := by
  have e := C39_removed c code a b r [] hk
  rw [List.append_nil, if_pos ((pileLoc_iff _).mpr ha.1)] at e
  have e : encodeOne c (CoreMsg.move code a b r).bytes = .ok (reported (CoreMsg.move code a b r).bytes.length r.toNat (.remove [a.place]), c) := e
  have h1 := track_reported e h
  have h1 : c.board.frame.cardRemove a.place = .ok c'.board.frame := by
    cases hr : c.board.frame.cardRemove a.place with
    | error e =>
      have : runOps c.board.frame (DuelBoard.cardOps (.remove [a.place])) = .error e := by
        show (do let f ← c.board.frame.step (.remove a.place); runOps f _) = _
        simp only [Frame.step, hr]
        rfl
      rw [this] at h1
      cases h1
    | ok f =>
      have : runOps c.board.frame (DuelBoard.cardOps (.remove [a.place])) = .ok f := by
        show (do let f ← c.board.frame.step (.remove a.place); runOps f _) = _
        simp only [Frame.step, hr]
        rfl
      rw [this] at h1
      exact h1
  obtain ⟨C, n, x, hC, hx, -, hv, -, -⟩ := Frame.cardRemove_eq_ok.mp h1
  obtain ⟨k, rfl⟩ := (at_isPile hC).mp ((pileLoc_iff _).mpr ha.1)
  have hv : Spec.boardOf c' = (Spec.boardOf c).take (.pile k) n := hv
  refine ⟨k, n, x, ?_, hx, hv, ?_, fun z => ?_⟩
  · generalize a.place = p at hC
    cases hC
    rfl
  · intro C hmem
    obtain ⟨j, hj⟩ := List.getElem?_of_mem hmem
    rw [hv] at hj
    by_cases hD : C = .pile k
    · subst hD
      have hj : ((Spec.boardOf c (.pile k)).eraseIdx n)[j]? = some x := by simpa [Board.take, Board.upd] using hj
      rw [List.getElem?_eraseIdx] at hj
      split at hj
      · have := (position_unique hi hx hj).2; omega
      · have := (position_unique hi hx hj).2; omega
    · have hj : (Spec.boardOf c C)[j]? = some x := by simpa [Board.take, Board.upd, hD] using hj
      exact hD (position_unique hi hx hj).1.symm
  · rw [hv]; simp [Board.take, Board.upd]

/-- **C123.** Exactly: a message about a material whose monster has left changes what is beneath some zone only if it is neither put into a
zone, nor passed on, nor removed. -/
theorem C123_exactly (c : BasicContext) (hi : Inv c.board.frame) (code : UInt32) (a b : LocInfo) (r : UInt32) (ha : Orphaned a.place)
    (c' : BasicContext) (h : track c (CoreMsg.move code a b r).bytes = .ok c') :
    moveKind a.place b.place = .leftBehind ∨ ∀ z, Spec.boardOf c' (.mats z) = Spec.boardOf c (.mats z) := by
  have h0 := inPile_ne_zero ha.1
  cases hk : moveKind a.place b.place with
  | leftBehind => exact .inl rfl
  | removed => obtain ⟨_, _, _, -, -, -, -, h⟩ := C123_removed c hi code a b r ha hk c' h; exact .inr h
  | arrival => exact absurd h (C123_summoned c code a b r ha hk c')
  | deferred =>
    obtain ⟨⟨c1, h1, h2⟩, -⟩ := C123_passed_on _ ⟨code, a, b, r, rfl, ha, hk⟩ c
    rw [h] at h1
    cases h1
    exact .inr fun z => by rw [h2]
  | nothing => exact absurd ((C39_kinds _ _).1.mp hk).1 h0
  | added => exact absurd ((C39_kinds _ _).2.1.mp hk).1 h0
  | plain => exact absurd ha ((C39_kinds _ _).2.2.2.2.2.2.mp hk).2.2.2

/-- **C123.** A material whose monster has left can go to a pile, or beneath another zone: as long as the server knows where the monster was, it
is taken from there, and put where the message says. -/
theorem C123_moves_partial (c : BasicContext) (m : MoveMsg) (k : ZoneKey) (q : Place) (hq : c.left q = some (zonePlace k)) (hqo : q.oseq = -1)
    (hqp : InPile q.loc) (i : Nat) (x : CardId) (hms : m.src.place = { q with oseq := (i : Int) }) (C : Container) (j : Nat)
    (hd : At m.dst.place C j) (pd : PlainPile m.dst.place C) (hC : ∀ k', C ≠ .slot k') (hx : (Spec.boardOf c (.mats k))[i]? = some x)
    (hj : j ≤ ((Spec.boardOf c).take (.mats k) i C).length) :
    Orphaned m.src.place ∧ ∃ c', track c m.msg.bytes = .ok c' ∧ Spec.boardOf c' = ((Spec.boardOf c).take (.mats k) i).put C j x := by
  obtain ⟨l, h1, h2⟩ := C63_material_anywhere c m k q (zonePlace k) hq ⟨rfl, rfl, rfl⟩ hqo hqp i x hms C j hd pd hC hx hj
  exact ⟨by rw [hms]; exact ⟨hqp, by show (0 : Int) ≤ i; omega⟩, _, h1, h2⟩

/-! ## A monster that returned to the extra deck -/

/-- A monster, 0, in the extra deck; its material, 1, is still beneath its zone. -/
def returned : List CoreMsg := pairOfMonsters ++ [CoreMsg.move 0 ⟨0, 4, 0, 1⟩ ⟨0, 0x40, 0, 1⟩ 0]

/-- The zones and the extra deck after more messages. -/
def afterReturn (ms : List CoreMsg) : Option (List (List CardId)) := (trackAll BasicContext.init (returned ++ ms)).toOption.map zoneOneTwo

example : afterReturn [] = some [[], [1], [2], [3], [0]] := by decide +kernel

example : Orphaned (LocInfo.mk 0 0xC0 0 0).place := by
  rw [show (LocInfo.mk 0 0xC0 0 0).place = ⟨0, 0x40, 0, 0⟩ by decide +kernel]
  exact ⟨by simp [InPile]; decide, by decide⟩

/-- **C123.** A material whose monster has left: beneath another monster it arrives, in a zone it does not, passed on to a card in the extra deck
it stops the next arrival, and removed it takes its monster with it. -/
theorem C123_violated :
    afterReturn [.move 0 ⟨0, 0xC0, 0, 0⟩ ⟨0, 0x84, 1, 1⟩ 0] = some [[], [], [2], [3, 1], [0]] ∧
    afterReturn [.move 0 ⟨0, 0xC0, 0, 0⟩ ⟨0, 4, 2, 1⟩ 0] = none ∧
    afterReturn [.move 0 ⟨0, 0xC0, 0, 0⟩ ⟨0, 0xC0, 0, 0⟩ 0] = some [[], [1], [2], [3], [0]] ∧
    afterReturn [.move 0 ⟨0, 0xC0, 0, 0⟩ ⟨0, 0xC0, 0, 0⟩ 0, .move 0 ⟨0, 0x40, 0, 8⟩ ⟨0, 4, 2, 1⟩ 0] = none ∧
    afterReturn [.move 0 ⟨0, 0x40, 0, 8⟩ ⟨0, 4, 2, 1⟩ 0] = some [[], [1], [2], [3], []] ∧
    afterReturn [.move 0 ⟨0, 0xC0, 0, 0⟩ ⟨0, 0, 0, 0⟩ 0] = some [[], [1], [2], [3], []] := by
  refine ⟨?_, ?_, ?_, ?_, ?_, ?_⟩ <;> decide +kernel

end Ygo.Props
