import Verif.Props.EndToEnd
import Verif.Spec.Tracked

/-!
# Monsters with materials, from message to board (C62, C63)
-/

namespace Ygo.Props
open Ygo.Spec Ygo.P

set_option linter.unusedSimpArgs false

/-! ## Boards and layouts -/

/-- A layout that shows a board. -/
def ofBoard (B : Board) : Layout := ⟨fun k => B (.pile k), fun k => ⟨(B (.slot k)).head?, B (.mats k)⟩⟩

theorem view_ofBoard {B : Board} (h : ∀ k, (B (.slot k)).length ≤ 1) : view (ofBoard B) = B := by
  funext C
  cases C with
  | pile k => rfl
  | mats k => rfl
  | slot k =>
    show ((B (.slot k)).head?).toList = B (.slot k)
    have := h k
    match hb : B (.slot k) with
    | [] => rfl
    | [x] => rfl
    | x :: y :: r => rw [hb] at this; simp at this

theorem carry_slot (B : Board) (C1 C2 : Container) (k : ZoneKey) : B.carry C1 C2 (.slot k) = B (.slot k) := by
  cases C1 <;> cases C2 <;> simp [Board.carry, upd_apply]

/-- A move that is possible is done. -/
theorem cardMove_does (f : Frame) {a b : Place} {C1 C2 : Container} {i j : Nat} {x : CardId} (ha : At a C1 i) (hb : At b C2 j)
    (pa : PlainPile a C1) (pb : PlainPile b C2) (hx : (view f.layout C1)[i]? = some x)
    (hs : ∀ k, C2 = .slot k → view f.layout C2 = []) (hj : j ≤ ((view f.layout).take C1 i C2).length)
    (hc : CarryOk (view f.layout) C1 C2) :
    ∃ l, f.cardMove a b = .ok ({ f with layout := l }, x) ∧ view l = (((view f.layout).take C1 i).put C2 j x).carry C1 C2 := by
  have hv : view (ofBoard ((((view f.layout).take C1 i).put C2 j x).carry C1 C2)) =
      (((view f.layout).take C1 i).put C2 j x).carry C1 C2 := by
    apply view_ofBoard
    intro k
    rw [carry_slot]
    have h1 : ∀ k', (view f.layout).take C1 i (.slot k') = view f.layout (.slot k') ∨
        (view f.layout).take C1 i (.slot k') = [] := by
      intro k'
      simp only [Board.take, upd_apply]
      split
      · rename_i h
        subst h
        have := slot_length f.layout k'
        match hb : view f.layout (.slot k') with
        | [] => simp
        | [y] => cases i <;> simp
        | y :: z :: r => rw [hb] at this; simp at this
      · exact .inl rfl
    simp only [Board.put, upd_apply]
    split
    · rename_i h
      subst h
      have h2 := hs k rfl
      have h3 : (view f.layout).take C1 i (.slot k) = [] := by
        rcases h1 k with h | h
        · rw [h, h2]
        · exact h
      rw [h3]
      cases j <;> simp
    · rcases h1 k with h | h
      · rw [h]; exact slot_length _ _
      · rw [h]; simp
  refine ⟨ofBoard ((((view f.layout).take C1 i).put C2 j x).carry C1 C2), ?_, hv⟩
  rw [C09_card_move]
  exact ⟨rfl, rfl, C1, i, C2, j, ha, hb, pa, pb, hx, hs, hj, hc, hv⟩

/-! ## Tracking moves -/

theorem trackAll_append (c : BasicContext) (ms ms' : List CoreMsg) :
    trackAll c (ms ++ ms') = (do trackAll (← trackAll c ms) ms') := by
  induction ms generalizing c with
  | nil => rfl
  | cons m ms ih =>
    simp only [List.cons_append, trackAll]
    cases track c m.bytes with
    | error e => rfl
    | ok c => exact ih c

/-- What is tracked after a message that is translated to moves. -/
theorem track_cards {c c' : BasicContext} {data : List UInt8} {n reason : Nat} {e : CardEvent}
    (h : encodeOne c data = .ok (reported n reason e, c')) {f : Frame} (hr : runOps c'.board.frame (DuelBoard.cardOps e) = .ok f) :
    track c data = .ok { c' with board := { c'.board with frame := f } } := by
  unfold track
  rw [h]
  show BasicContext.parse c' ⟨.event (.card reason e), []⟩ = _
  unfold BasicContext.parse
  simp only [DuelBoard.parseEvent, DuelBoard.onFrame, hr]
  rfl

theorem runOps_move (f : Frame) (o : PlacePair) (ops : List PlacePair) :
    runOps f (DuelBoard.cardOps (.move (o :: ops))) = (do let (f, _) ← f.cardMove o.fst o.snd; runOps f (DuelBoard.cardOps (.move ops))) := by
  show (do let f ← f.step (.move o.fst o.snd); runOps f _) = _
  simp only [Frame.step]
  cases f.cardMove o.fst o.snd <;> rfl

theorem runOps_move_append (f : Frame) (ops ops' : List PlacePair) :
    runOps f (DuelBoard.cardOps (.move (ops ++ ops'))) =
      (do let f ← runOps f (DuelBoard.cardOps (.move ops)); runOps f (DuelBoard.cardOps (.move ops'))) := by
  induction ops generalizing f with
  | nil => rfl
  | cons op ops ih =>
    rw [List.cons_append, runOps_move, runOps_move]
    cases f.cardMove op.fst op.snd with
    | error e => rfl
    | ok f => exact ih f.1

theorem inPile_code (l : PileLoc) : InPile l.code := by
  cases l <;> simp [InPile, PileLoc.code] <;> decide

theorem not_inPile_code (l : ZoneLoc) : ¬ InPile l.code := by
  cases l <;> simp [InPile, ZoneLoc.code] <;> decide

theorem inPile_ne_zero {n : Nat} (h : InPile n) : n ≠ 0 := by
  rintro rfl
  simp [InPile] at h

theorem zone_ne_zero (l : ZoneLoc) : l.code ≠ 0 := by cases l <;> decide

/-! ## C62 -/

/-- Materials that are announced are only remembered. -/
theorem track_deferred (c : BasicContext) (ms : List MoveMsg) (h : ∀ m ∈ ms, moveKind m.src.place m.dst.place = .deferred) :
    trackAll c (ms.map (·.msg)) = .ok { c with deferred := c.deferred ++ ms.map (·.src.place) } := by
  induction ms generalizing c with
  | nil => simp [trackAll]
  | cons m ms ih =>
    have h1 := C40_defer c m.code m.src m.dst m.reason [] (h m (by simp))
    rw [List.append_nil] at h1
    simp only [List.map_cons, trackAll]
    have h2 : track c m.msg.bytes = .ok { c with deferred := c.deferred ++ [m.src.place] } := by
      unfold track MoveMsg.msg
      rw [h1]
      rfl
    rw [h2]
    show trackAll _ _ = _
    rw [ih _ fun m hm => h m (by simp [hm])]
    simp

/-- The cards of some slots become materials of zone `k`, after the ones it has. -/
theorem attach_run (k : ZoneKey) (keys : List ZoneKey) : ∀ (xs : List CardId) (f : Frame) (n : Nat), keys.Nodup →
    keys.map (fun s => view f.layout (.slot s)) = xs.map ([·]) → (view f.layout (.mats k)).length = n →
    ∃ l, runOps f (DuelBoard.cardOps (.move ((keys.zipIdx n).map fun (s, i) =>
        (PlacePair.mk (zonePlace s) { zonePlace k with oseq := (i : Int) })))) = .ok { f with layout := l } ∧
      ∀ C, view l C = match C with
        | .pile p => view f.layout (.pile p)
        | .slot s => if s ∈ keys then [] else view f.layout (.slot s)
        | .mats s => if s = k then view f.layout (.mats k) ++ xs else view f.layout (.mats s) := by
  induction keys with
  | nil =>
    intro xs f n _ hx _
    have : xs = [] := by simpa using hx.symm
    subst this
    refine ⟨f.layout, rfl, ?_⟩
    intro C
    cases C <;> simp
    intro h; rw [h]
  | cons s keys ih =>
    intro xs f n hn hx hl
    cases xs with
    | nil => simp at hx
    | cons x xs =>
      simp only [List.map_cons, List.cons.injEq] at hx
      obtain ⟨l1, h1, v1⟩ := cardMove_does f (a := zonePlace s) (b := { zonePlace k with oseq := (n : Int) }) (C1 := .slot s) (C2 := .mats k)
        (i := 0) (j := n) (x := x) (.slot s (-1) (by decide)) (.mats k n) (by intro p h; cases h) (by intro p h; cases h)
        (by rw [hx.1]; rfl) (by intro p h; cases h) (by rw [takeB_ne (by simp)]; omega) trivial
      have e1 : ∀ C, view l1 C = match C with
          | .pile p => view f.layout (.pile p)
          | .slot t => if t = s then [] else view f.layout (.slot t)
          | .mats t => if t = k then view f.layout (.mats k) ++ [x] else view f.layout (.mats t) := by
        intro C
        rw [v1]
        cases C with
        | pile p => simp [Board.carry, Board.put, Board.take, upd_apply]
        | slot t =>
          simp only [Board.carry, Board.put, Board.take, upd_apply]
          by_cases h : t = s
          · subst h; rw [hx.1]; simp
          · simp [h]
        | mats t =>
          simp only [Board.carry, Board.put, Board.take, upd_apply]
          by_cases h : t = k
          · subst h
            simp [← hl]
          · simp [h]
      obtain ⟨hs, hn'⟩ := List.nodup_cons.mp hn
      obtain ⟨l2, h2, v2⟩ := ih xs { f with layout := l1 } (n + 1) hn'
        (by
          rw [← hx.2]
          apply List.map_congr_left
          intro t ht
          show view l1 (.slot t) = _
          rw [e1]
          have : t ≠ s := by rintro rfl; exact hs ht
          simp [this])
        (by show (view l1 (.mats k)).length = _; rw [e1]; simp; exact hl)
      refine ⟨l2, ?_, ?_⟩
      · rw [List.zipIdx_cons, List.map_cons, runOps_move, h1]
        exact h2
      · intro C
        rw [v2 C]
        cases C with
        | pile p => show view l1 (.pile p) = _; rw [e1]
        | slot t =>
          show (if t ∈ keys then [] else view l1 (.slot t)) = _
          rw [e1]
          by_cases h : t = s <;> by_cases h' : t ∈ keys <;> simp [h, h']
        | mats t =>
          show (if t = k then view l1 (.mats k) ++ xs else view l1 (.mats t)) = _
          rw [e1, e1]
          by_cases h : t = k
          · subst h; simp
          · simp [h]

/-- **C62.** The core announces cards on the field as materials of a monster that is still in a pile, then moves the monster to a zone
that has no materials and is empty, or occupied by one of those cards. On the tracked board the monster is then in the zone, on top of exactly these cards in the order of the
announcements, and everything else is where it was. -/
theorem C62_xyz_summon (c : BasicContext) (hd : c.deferred = []) (ms : List MoveMsg) (keys : List ZoneKey) (xs : List CardId)
    (hsrc : ms.map (·.src.place) = keys.map zonePlace) (hdst : ∀ m ∈ ms, InPile m.dst.place.loc ∧ 0 ≤ m.dst.place.oseq)
    (hn : keys.Nodup) (hxs : keys.map (fun s => boardOf c (.slot s)) = xs.map ([·]))
    (m : MoveMsg) (p : PileKey) (e : Nat) (x : CardId) (k : ZoneKey) (hms : m.src.place = pilePlace p e) (hmd : m.dst.place = zonePlace k)
    (hx : (boardOf c (.pile p))[e]? = some x) (hk : boardOf c (.slot k) = [] ∨ k ∈ keys) (hm : boardOf c (.mats k) = []) :
    ∃ l, trackAll c (ms.map (·.msg) ++ [m.msg]) = .ok (setLayout c l) ∧ view l = overlaid (boardOf c) keys xs p e x k := by
  have hdef : ∀ m ∈ ms, moveKind m.src.place m.dst.place = .deferred := by
    intro m hm
    obtain ⟨h1, h2⟩ := hdst m hm
    have : m.src.place ∈ keys.map zonePlace := by rw [← hsrc]; exact List.mem_map_of_mem hm
    obtain ⟨s, _, hs⟩ := List.mem_map.mp this
    refine (C39_kinds _ _).2.2.2.1.mpr ⟨?_, inPile_ne_zero h1, h1, h2⟩
    rw [← hs]
    exact zone_ne_zero _
  have harr : moveKind m.src.place m.dst.place = .arrival := by
    rw [hms, hmd]
    exact (C39_kinds _ _).2.2.2.2.1.mpr ⟨inPile_ne_zero (inPile_code _), zone_ne_zero _, not_inPile_code _, by show (-1 : Int) < 0; decide⟩
  rw [trackAll_append, track_deferred c ms hdef, hd, List.nil_append, hsrc]
  show ∃ l, trackAll { c with deferred := keys.map zonePlace } [m.msg] = _ ∧ _
  have h1 := C40_arrival { c with deferred := keys.map zonePlace } m.code m.src m.dst m.reason [] harr
  rw [List.append_nil] at h1
  have hat : attachments m.dst.place (keys.map zonePlace) = (keys.zipIdx 0).map fun (s, i) =>
      (PlacePair.mk (zonePlace s) { zonePlace k with oseq := (i : Int) }) := by
    unfold attachments
    rw [hmd, List.filter_eq_self.mpr]
    · rw [List.zipIdx_map, List.map_map]; rfl
    · intro y hy
      rw [List.zipIdx_map, List.map_map] at hy
      obtain ⟨⟨s, i⟩, _, rfl⟩ := List.mem_map.mp hy
      simp only [Function.comp, Prod.map, id, zonePlace, ne_eq, Place.mk.injEq, decide_eq_true_eq]
      omega
  obtain ⟨l1, r1, v1⟩ := attach_run k keys xs c.board.frame 0 hn hxs (by rw [show view c.board.frame.layout (.mats k) = [] from hm]; rfl)
  obtain ⟨l2, r2, v2⟩ := cardMove_does { c.board.frame with layout := l1 } (a := pilePlace p e) (b := zonePlace k) (C1 := .pile p) (C2 := .slot k)
    (i := e) (j := 0) (x := x) (.pile p e (-1)) (.slot k (-1) (by decide)) (fun _ _ => by show (-1 : Int) < 0; decide) (by intro p h; cases h)
    (by show (view l1 (.pile p))[e]? = _; rw [v1]; exact hx)
    (by
      intro k' h
      show view l1 (.slot k) = []
      rw [v1]
      rcases hk with hk | hk
      · have hk : view c.board.frame.layout (.slot k) = [] := hk
        simp [hk]
      · simp [hk])
    (by simp) trivial
  refine ⟨l2, ?_, ?_⟩
  · have := track_cards (f := { c.board.frame with layout := l2 }) h1 (by
      rw [hat, runOps_move_append]
      show (do let f ← runOps c.board.frame _; _) = _
      rw [r1, hms, hmd]
      show runOps _ (DuelBoard.cardOps (.move [_])) = _
      rw [runOps_move, r2]
      rfl)
    unfold trackAll
    unfold MoveMsg.msg
    rw [this]
    obtain ⟨b, s, w, lf, df⟩ := c
    simp only at hd
    subst hd
    rfl
  · rw [v2]
    funext C
    cases C with
    | pile p' =>
      simp only [Board.carry, Board.put, Board.take, upd_apply, overlaid]
      by_cases h : p' = p
      · subst h
        simp only [reduceCtorEq, if_false, if_true]
        rw [v1]
        rfl
      · simp only [reduceCtorEq, if_false, Container.pile.injEq, h]
        rw [v1]
        rfl
    | slot k' =>
      simp only [Board.carry, Board.put, Board.take, upd_apply, overlaid]
      by_cases h : k' = k
      · subst h
        simp only [reduceCtorEq, if_false, if_true]
        rw [v1]
        rcases hk with hk | hk
        · have hk : view c.board.frame.layout (.slot k') = [] := hk
          simp [hk]
        · simp [hk]
      · simp only [reduceCtorEq, if_false, Container.slot.injEq, h]
        rw [v1]
        rfl
    | mats k' =>
      simp only [Board.carry, Board.put, Board.take, upd_apply, overlaid, reduceCtorEq, if_false]
      rw [v1]
      by_cases h : k' = k
      · subst h
        have hm : view c.board.frame.layout (.mats k') = [] := hm
        simp [hm]
      · simp only [h, if_false]
        rfl

/-- Two monsters, and three cards in the extra deck. -/
def xyzBoard : BasicContext := setLayout BasicContext.init
  ⟨fun k => if k = ⟨0, .extraDeck⟩ then [7, 8, 9] else [], fun k => if k = ⟨0, .monster, 1, by decide⟩ then ⟨some 3, []⟩ else
    if k = ⟨0, .monster, 2, by decide⟩ then ⟨some 4, []⟩ else ⟨none, []⟩⟩

/-- The two monsters are overlaid by card 8, in the zone of the first. -/
example : ∃ l, trackAll xyzBoard [.move 0 ⟨0, 4, 1, 1⟩ ⟨0, 0xC0, 1, 0⟩ 0, .move 0 ⟨0, 4, 2, 1⟩ ⟨0, 0xC0, 1, 1⟩ 0,
      .move 0 ⟨0, 0x40, 1, 1⟩ ⟨0, 4, 1, 1⟩ 7] = .ok (setLayout xyzBoard l) ∧
    view l (.pile ⟨0, .extraDeck⟩) = [7, 9] ∧ view l (.slot ⟨0, .monster, 1, by decide⟩) = [8] ∧ view l (.mats ⟨0, .monster, 1, by decide⟩) = [3, 4] ∧
    view l (.slot ⟨0, .monster, 2, by decide⟩) = [] := by
  obtain ⟨l, r, v⟩ := C62_xyz_summon xyzBoard rfl [⟨0, ⟨0, 4, 1, 1⟩, ⟨0, 0xC0, 1, 0⟩, 0⟩, ⟨0, ⟨0, 4, 2, 1⟩, ⟨0, 0xC0, 1, 1⟩, 0⟩]
    [⟨0, .monster, 1, by decide⟩, ⟨0, .monster, 2, by decide⟩] [3, 4] (by decide) (by unfold InPile; decide) (by decide) (by decide)
    ⟨0, ⟨0, 0x40, 1, 1⟩, ⟨0, 4, 1, 1⟩, 7⟩ ⟨0, .extraDeck⟩ 1 8 ⟨0, .monster, 1, by decide⟩ (by decide) (by decide) (by decide) (.inr (by decide)) (by decide)
  exact ⟨l, r, by rw [v]; decide, by rw [v]; decide, by rw [v]; decide, by rw [v]; decide⟩

/-! ## C63 -/

/-- **C63.** A monster with materials goes from its zone to a pile: its card is put there, its materials stay in the zone, and it is
remembered that they belong to the card at that place. -/
theorem C63_monster_leaves (c : BasicContext) (m : MoveMsg) (k : ZoneKey) (p : PileKey) (j : Nat) (x : CardId)
    (hms : m.src.place = zonePlace k) (hmd : m.dst.place = pilePlace p j) (hx : boardOf c (.slot k) = [x])
    (hm : boardOf c (.mats k) ≠ []) (hj : j ≤ (boardOf c (.pile p)).length) :
    ∃ l, track c m.msg.bytes = .ok { setLayout c l with left := fun q => if q = pilePlace p j then some (zonePlace k) else c.left q } ∧
      view l = ((boardOf c).upd (.slot k) []).put (.pile p) j x := by
  have hk : moveKind m.src.place m.dst.place = .plain := by
    rw [hms, hmd]
    exact (C39_kinds _ _).2.2.2.2.2.2.mpr ⟨zone_ne_zero _, inPile_ne_zero (inPile_code _), ⟨fun _ => by show (-1 : Int) < 0; decide,
      fun _ => inPile_code _⟩, fun h => not_inPile_code _ h.1⟩
  have h1 := C39_plain c m.code m.src m.dst m.reason [] hk
  rw [List.append_nil, hms, hmd] at h1
  have e1 : (zonePlace k).isPile = false := (pileLoc_false_iff _).mpr (not_inPile_code _)
  have e2 : (pilePlace p j).isPile = true := (pileLoc_iff _).mpr (inPile_code _)
  have e3 : EncodeContext.hasXyzMat c (zonePlace k) = .ok true := by
    show (do let k ← zoneKey _ _ _; return !(c.board.frame.layout.zone k).materials.isEmpty) = _
    rw [show zoneKey (zonePlace k).con (zonePlace k).loc (zonePlace k).seq = .ok k from zoneKey_mk k]
    show Except.ok _ = _
    have : (c.board.frame.layout.zone k).materials ≠ [] := hm
    cases hc : (c.board.frame.layout.zone k).materials with
    | nil => exact absurd hc this
    | cons => rfl
  rw [if_pos ⟨e1, e2⟩, e3] at h1
  obtain ⟨l, r, v⟩ := cardMove_does c.board.frame (a := zonePlace k) (b := pilePlace p j) (C1 := .slot k) (C2 := .pile p)
    (i := 0) (j := j) (x := x) (.slot k (-1) (by decide)) (.pile p j (-1)) (by intro p h; cases h) (fun _ _ => by show (-1 : Int) < 0; decide)
    (by rw [show view c.board.frame.layout (.slot k) = [x] from hx]; rfl) (by intro k' h; cases h)
    (by rw [takeB_ne (by simp)]; exact hj) trivial
  refine ⟨l, ?_, ?_⟩
  · exact track_cards (f := { c.board.frame with layout := l }) h1 (by
      show runOps c.board.frame (DuelBoard.cardOps (.move [_])) = _
      rw [runOps_move, r]
      rfl)
  · rw [v]
    show ((view c.board.frame.layout).upd _ ((view c.board.frame.layout (.slot k)).eraseIdx 0)).put _ _ _ = _
    rw [show view c.board.frame.layout (.slot k) = [x] from hx]
    rfl

/-- **C63.** The core then speaks of a material by the place of the monster that has left; the card that is moved is the material with
that index in the zone where the monster was. -/
theorem C63_material (c : BasicContext) (m : MoveMsg) (k : ZoneKey) (q : Place) (hq : c.left q = some (zonePlace k)) (hqo : q.oseq = -1)
    (hqp : InPile q.loc) (i : Nat) (x : CardId) (hms : m.src.place = { q with oseq := (i : Int) }) (d : PileKey) (j : Nat)
    (hmd : m.dst.place = pilePlace d j) (hx : (boardOf c (.mats k))[i]? = some x) (hj : j ≤ (boardOf c (.pile d)).length) :
    ∃ l, track c m.msg.bytes = .ok (setLayout c l) ∧ view l = ((boardOf c).take (.mats k) i).put (.pile d) j x := by
  have hk : moveKind m.src.place m.dst.place = .leftBehind := by
    rw [hms, hmd]
    exact (C39_kinds _ _).2.2.2.2.2.1.mpr ⟨inPile_ne_zero hqp, inPile_ne_zero (inPile_code _), ⟨fun _ => by show (-1 : Int) < 0; decide,
      fun _ => inPile_code _⟩, hqp, by show (0 : Int) ≤ i; omega⟩
  have h1 := C39_left_behind c m.code m.src m.dst m.reason [] hk
  rw [List.append_nil, hms, hmd] at h1
  have e : ({ ({ q with oseq := (i : Int) } : Place) with oseq := -1 } : Place) = q := by
    obtain ⟨_, _, _, o⟩ := q
    simp only at hqo
    subst hqo
    rfl
  have e' : EncodeContext.getXyzLeft c q = .ok (zonePlace k) := by
    show orUb (c.left q) = _
    rw [hq]; rfl
  rw [e, e'] at h1
  obtain ⟨l, r, v⟩ := cardMove_does c.board.frame (a := { zonePlace k with oseq := (i : Int) }) (b := pilePlace d j) (C1 := .mats k)
    (C2 := .pile d) (i := i) (j := j) (x := x) (.mats k i) (.pile d j (-1)) (by intro p h; cases h) (fun _ _ => by show (-1 : Int) < 0; decide)
    hx (by intro k' h; cases h) (by rw [takeB_ne (by simp)]; exact hj) trivial
  refine ⟨l, ?_, v⟩
  exact track_cards (f := { c.board.frame with layout := l }) h1 (by
    show runOps c.board.frame (DuelBoard.cardOps (.move [_])) = _
    rw [runOps_move, r]
    rfl)

/-- All materials of the zone are sent on top of piles, first to last. -/
theorem materials_run (k : ZoneKey) (q : Place) (hqo : q.oseq = -1) (hqp : InPile q.loc) (ds : List PileKey) :
    ∀ (c : BasicContext) (ms : List MoveMsg), c.left q = some (zonePlace k) → ms.map (·.src.place) = ds.map (fun _ => { q with oseq := 0 }) →
    (boardOf c (.mats k)).length = ds.length →
    (∀ (i : Nat) (m : MoveMsg) (d : PileKey), ms[i]? = some m → ds[i]? = some d →
      m.dst.place = pilePlace d ((boardOf c (.pile d)).length + (ds.take i).count d)) →
    ∃ l, trackAll c (ms.map (·.msg)) = .ok (setLayout c l) ∧ view l = dispersed (boardOf c) k ds := by
  induction ds with
  | nil =>
    intro c ms hq hms hl hd
    have : ms = [] := by simpa using hms
    subst this
    refine ⟨c.board.frame.layout, rfl, ?_⟩
    funext C
    have h0 : boardOf c (.mats k) = [] := List.eq_nil_of_length_eq_zero hl
    cases C with
    | pile p => simp [dispersed, destined]; rfl
    | slot k' => rfl
    | mats k' =>
      show boardOf c (.mats k') = _
      unfold dispersed
      by_cases h : k' = k
      · subst h; rw [h0]; simp
      · simp [h]
  | cons d ds ih =>
    intro c ms hq hms hl hd
    cases ms with
    | nil => simp at hms
    | cons m ms =>
      simp only [List.map_cons, List.cons.injEq] at hms
      match hx : boardOf c (.mats k) with
      | [] => rw [hx] at hl; simp at hl
      | x :: xs =>
        have hd0 := hd 0 m d rfl rfl
        simp only [List.take_zero, List.count_nil, Nat.add_zero] at hd0
        obtain ⟨l1, r1, v1⟩ := C63_material c m k q hq hqo hqp 0 x hms.1 d _ hd0 (by rw [hx]; rfl) (Nat.le_refl _)
        have b1 : ∀ C, boardOf (setLayout c l1) C = match C with
            | .pile p => if p = d then boardOf c (.pile d) ++ [x] else boardOf c (.pile p)
            | .slot t => boardOf c (.slot t)
            | .mats t => if t = k then xs else boardOf c (.mats t) := by
          intro C
          show view l1 C = _
          rw [v1]
          cases C with
          | pile p =>
            simp only [Board.put, Board.take, upd_apply, Container.pile.injEq, reduceCtorEq, if_false]
            by_cases h : p = d
            · subst h; simp
            · simp [h]
          | slot t => simp [Board.put, Board.take, upd_apply]
          | mats t =>
            simp only [Board.put, Board.take, upd_apply, Container.mats.injEq, reduceCtorEq, if_false, hx]
            rfl
        obtain ⟨l2, r2, v2⟩ := ih (setLayout c l1) ms hq hms.2 (by rw [b1]; rw [hx] at hl; simpa using hl) (by
          intro i m' d' hm' hd'
          rw [hd (i + 1) m' d' hm' hd', b1]
          simp only [List.take_succ_cons, List.count_cons]
          by_cases h : d' = d
          · subst h; simp; congr 1; omega
          · have h' : ¬ d = d' := fun e => h e.symm
            simp [h, h'])
        refine ⟨l2, ?_, ?_⟩
        · simp only [List.map_cons, trackAll, r1]
          exact r2
        · rw [v2]
          funext C
          cases C with
          | pile p =>
            simp only [dispersed, b1, hx, if_true, destined]
            by_cases h : p = d
            · subst h; simp
            · have h' : ¬ d = p := fun e => h e.symm
              simp [h, h']
          | slot t => simp only [dispersed, b1]
          | mats t => simp only [dispersed, b1]; by_cases h : t = k <;> simp [h]

/-- **C63.** A monster with materials leaves for a pile and the core reports, material after material, that each goes on top of the pile
`ds[i]`. Then the monster is in its pile, the materials are on their piles in order, and the zone is completely empty. -/
theorem C63_xyz_leaves (c : BasicContext) (m : MoveMsg) (k : ZoneKey) (p : PileKey) (j : Nat) (x : CardId)
    (hms : m.src.place = zonePlace k) (hmd : m.dst.place = pilePlace p j) (hx : boardOf c (.slot k) = [x])
    (hm : boardOf c (.mats k) ≠ []) (hj : j ≤ (boardOf c (.pile p)).length)
    (ds : List PileKey) (hl : (boardOf c (.mats k)).length = ds.length) (ms : List MoveMsg)
    (hsrc : ms.map (·.src.place) = ds.map (fun _ => { pilePlace p j with oseq := 0 }))
    (hdst : ∀ (i : Nat) (m : MoveMsg) (d : PileKey), ms[i]? = some m → ds[i]? = some d →
      m.dst.place = pilePlace d ((boardOf c (.pile d)).length + (if d = p then 1 else 0) + (ds.take i).count d)) :
    ∃ l lf, trackAll c (m.msg :: ms.map (·.msg)) = .ok { setLayout c l with left := lf } ∧
      view l = dispersed (((boardOf c).upd (.slot k) []).put (.pile p) j x) k ds := by
  obtain ⟨l1, r1, v1⟩ := C63_monster_leaves c m k p j x hms hmd hx hm hj
  generalize hc1 : ({ setLayout c l1 with left := fun q => if q = pilePlace p j then some (zonePlace k) else c.left q } : BasicContext) = c1 at r1
  have hb : boardOf c1 = ((boardOf c).upd (.slot k) []).put (.pile p) j x := by rw [← hc1]; exact v1
  obtain ⟨l2, r2, v2⟩ := materials_run k (pilePlace p j) rfl (inPile_code _) ds c1 ms (by rw [← hc1]; simp) hsrc
    (by rw [hb]; simp [Board.put, upd_apply, hl])
    (by
      intro i m' d h1 h2
      rw [hdst i m' d h1 h2, hb]
      congr 2
      simp only [Board.put, upd_apply, Container.pile.injEq, reduceCtorEq, if_false]
      by_cases h : d = p
      · subst h
        rw [if_pos rfl, if_pos rfl, List.length_insertIdx_of_le_length (by simpa using hj)]
      · rw [if_neg h, if_neg h]; rfl)
  refine ⟨l2, c1.left, ?_, ?_⟩
  · simp only [trackAll, r1]
    show trackAll c1 _ = _
    rw [r2, ← hc1]
    rfl
  · rw [v2, hb]

/-- Card 8 with materials 3 and 4. -/
def xyzBoard' : BasicContext := setLayout BasicContext.init
  ⟨fun k => if k = ⟨0, .graveyard⟩ then [20] else [], fun k => if k = ⟨0, .monster, 1, by decide⟩ then ⟨some 8, [3, 4]⟩ else ⟨none, []⟩⟩

/-- Card 8 goes to the graveyard; one material follows it there, the other is banished. -/
example : ∃ l lf, trackAll xyzBoard' [.move 0 ⟨0, 4, 1, 1⟩ ⟨0, 0x10, 1, 1⟩ 0, .move 0 ⟨0, 0x90, 1, 0⟩ ⟨0, 0x10, 2, 1⟩ 0,
      .move 0 ⟨0, 0x90, 1, 0⟩ ⟨0, 0x20, 0, 1⟩ 0] = .ok { setLayout xyzBoard' l with left := lf } ∧
    view l (.pile ⟨0, .graveyard⟩) = [20, 8, 3] ∧ view l (.pile ⟨0, .banished⟩) = [4] ∧ view l (.slot ⟨0, .monster, 1, by decide⟩) = [] ∧
    view l (.mats ⟨0, .monster, 1, by decide⟩) = [] := by
  obtain ⟨l, lf, r, v⟩ := C63_xyz_leaves xyzBoard' ⟨0, ⟨0, 4, 1, 1⟩, ⟨0, 0x10, 1, 1⟩, 0⟩ ⟨0, .monster, 1, by decide⟩ ⟨0, .graveyard⟩ 1 8
    (by decide) (by decide) (by decide) (by decide) (by decide) [⟨0, .graveyard⟩, ⟨0, .banished⟩] (by decide)
    [⟨0, ⟨0, 0x90, 1, 0⟩, ⟨0, 0x10, 2, 1⟩, 0⟩, ⟨0, ⟨0, 0x90, 1, 0⟩, ⟨0, 0x20, 0, 1⟩, 0⟩] (by decide) (by
      intro i m d h1 h2
      match i with
      | 0 | 1 => cases h1; cases h2; decide
      | n + 2 => cases h1)
  exact ⟨l, lf, r, by rw [v]; decide, by rw [v]; decide, by rw [v]; decide, by rw [v]; decide⟩

end Ygo.Props
