import Verif.Spec.Single
import Verif.Props.Xyz
import Verif.Props.Setup

/-!
# Single cards, from message to board (C71)
-/

set_option linter.unusedSimpArgs false

namespace Ygo.Props
open Ygo Spec P

theorem at_loc_ne_zero {p : Place} {C : Container} {i : Nat} (h : At p C i) : p.loc ≠ 0 := by
  cases h with
  | pile k s o => exact inPile_ne_zero (inPile_code _)
  | slot k o h => exact zone_ne_zero _
  | mats k n => exact zone_ne_zero _

theorem at_isPile {p : Place} {C : Container} {i : Nat} (h : At p C i) : p.isPile = true ↔ ∃ k, C = .pile k := by
  rw [pileLoc_iff]
  cases h with
  | pile k s o => exact ⟨fun _ => ⟨k, rfl⟩, fun _ => inPile_code _⟩
  | slot k o h => exact ⟨fun h => absurd h (not_inPile_code _), fun ⟨_, h⟩ => by cases h⟩
  | mats k n => exact ⟨fun h => absurd h (not_inPile_code _), fun ⟨_, h⟩ => by cases h⟩

/-- Whether a zone has materials, asked with the place of its card or of one of them. -/
theorem hasXyzMat_at (c : BasicContext) {p : Place} {C : Container} {i : Nat} (h : At p C i) (hn : ¬ ∃ k, C = .pile k) :
    (∃ k, (C = .slot k ∨ C = .mats k) ∧ EncodeContext.hasXyzMat c p = .ok (!(boardOf c (.mats k)).isEmpty)) := by
  cases h with
  | pile k s o => exact absurd ⟨k, rfl⟩ hn
  | slot k o h =>
    refine ⟨k, .inl rfl, ?_⟩
    show (do let k ← zoneKey _ _ _; return !(c.board.frame.layout.zone k).materials.isEmpty) = _
    rw [show zoneKey (k.con.val : Int) k.loc.code k.seq = .ok k from zoneKey_mk k]; rfl
  | mats k n =>
    refine ⟨k, .inr rfl, ?_⟩
    show (do let k ← zoneKey _ _ _; return !(c.board.frame.layout.zone k).materials.isEmpty) = _
    rw [show zoneKey (k.con.val : Int) k.loc.code k.seq = .ok k from zoneKey_mk k]; rfl

theorem leavesMats_iff {B : Board} {C : Container} {k : ZoneKey} (h : C = .slot k ∨ C = .mats k) :
    LeavesMats B C ↔ (!(B (.mats k)).isEmpty) = true := by
  constructor
  · rintro ⟨k', h', hn⟩
    have : k' = k := by rcases h with rfl | rfl <;> rcases h' with h' | h' <;> cases h' <;> rfl
    subst this
    cases hb : B (.mats k') with
    | nil => exact absurd hb hn
    | cons => rfl
  · intro hn
    refine ⟨k, h, ?_⟩
    intro hb; rw [hb] at hn; cases hn

/-- **C71.** A card that appears is put at the place named; it is a card not seen before, and nothing else changes. -/
theorem C71_appears (c : BasicContext) (m : MoveMsg) (C : Container) (i : Nat) (hs : m.src.place.loc = 0) (hd : At m.dst.place C i)
    (hf : Fits (boardOf c) C i) :
    ∃ l, track c m.msg.bytes = .ok { c with board := { c.board with frame := ⟨l, c.board.frame.next :: c.board.frame.owned, c.board.frame.next + 1⟩ } } ∧
      view l = (boardOf c).put C i c.board.frame.next := by
  have hk : moveKind m.src.place m.dst.place = .added := (C39_kinds _ _).2.1.mpr ⟨hs, at_loc_ne_zero hd⟩
  have h1 := C39_added c m.code m.src m.dst m.reason [] hk
  rw [List.append_nil] at h1
  have hv : view (ofBoard ((boardOf c).put C i c.board.frame.next)) = (boardOf c).put C i c.board.frame.next := by
    apply view_ofBoard
    intro k
    simp only [Board.put, upd_apply]
    split
    · rename_i h
      subst h
      rw [hf.2 k rfl]
      cases i <;> simp
    · exact slot_length _ _
  refine ⟨_, ?_, hv⟩
  refine track_cards (f := ⟨_, _, _⟩) h1 ?_
  show (do let f ← c.board.frame.step (.add m.dst.place); runOps f []) = _
  have h2 := (C07_card_add c.board.frame m.dst.place ⟨ofBoard ((boardOf c).put C i c.board.frame.next), c.board.frame.next :: c.board.frame.owned,
    c.board.frame.next + 1⟩ c.board.frame.next).mpr ⟨rfl, rfl, rfl, C, i, hd, hf, hv⟩
  simp only [Frame.step, h2]
  rfl

/-- **C71.** A card that ceases to exist is taken away, cards behind it move up, and nothing else changes on the board; materials it had stay
in the zone, which is remembered. -/
theorem C71_disappears (c : BasicContext) (hr : Reachable c.board.frame) (m : MoveMsg) (C : Container) (i : Nat) (x : CardId)
    (hs : At m.src.place C i) (hd : m.dst.place.loc = 0) (hx : (boardOf c C)[i]? = some x) :
    ∃ l lf, track c m.msg.bytes =
        .ok { c with board := { c.board with frame := ⟨l, c.board.frame.owned.erase x, c.board.frame.next⟩ }, left := lf } ∧
      view l = (boardOf c).take C i ∧
      (¬ LeavesMats (boardOf c) C → lf = c.left) ∧
      (LeavesMats (boardOf c) C → ∀ q, lf q = if q = m.src.place then some {} else c.left q) := by
  have hk : moveKind m.src.place m.dst.place = .removed := (C39_kinds _ _).2.2.1.mpr ⟨at_loc_ne_zero hs, hd⟩
  have h1 := C39_removed c m.code m.src m.dst m.reason [] hk
  rw [List.append_nil] at h1
  have hv : view (ofBoard ((boardOf c).take C i)) = (boardOf c).take C i := by
    apply view_ofBoard
    intro k
    simp only [Board.take, upd_apply]
    split
    · rename_i h
      subst h
      have := slot_length c.board.frame.layout k
      have h2 := List.length_eraseIdx_le (boardOf c (.slot k)) i
      exact Nat.le_trans h2 this
    · exact slot_length _ _
  have h2 := (C08_card_remove c.board.frame hr m.src.place ⟨ofBoard ((boardOf c).take C i), c.board.frame.owned.erase x,
    c.board.frame.next⟩).mpr ⟨C, i, x, hs, hx, hv, rfl, rfl⟩
  have go : ∀ lf, encodeOne c m.msg.bytes = .ok (reported m.msg.bytes.length m.reason.toNat (.remove [m.src.place]), { c with left := lf }) →
      track c m.msg.bytes = .ok { c with board := { c.board with frame :=
        ⟨ofBoard ((boardOf c).take C i), c.board.frame.owned.erase x, c.board.frame.next⟩ }, left := lf } := by
    intro lf h1
    refine track_cards (f := ⟨_, _, _⟩) h1 ?_
    show (do let f ← c.board.frame.step (.remove m.src.place); runOps f []) = _
    simp only [Frame.step, h2]
    rfl
  by_cases hp : ∃ k, C = .pile k
  · rw [if_pos ((at_isPile hs).mpr hp)] at h1
    refine ⟨_, c.left, go _ h1, hv, fun _ => rfl, ?_⟩
    rintro ⟨k, h, _⟩
    obtain ⟨k', rfl⟩ := hp
    rcases h with h | h <;> cases h
  · obtain ⟨k, hC, hm⟩ := hasXyzMat_at c hs hp
    rw [if_neg (fun h => hp ((at_isPile hs).mp h)), hm] at h1
    by_cases hl : LeavesMats (boardOf c) C
    · rw [(leavesMats_iff hC).mp hl] at h1
      exact ⟨_, _, go _ h1, hv, fun h => absurd hl h, fun _ q => rfl⟩
    · have : (!(boardOf c (.mats k)).isEmpty) = false := by
        rw [leavesMats_iff hC] at hl
        simpa using hl
      rw [this] at h1
      exact ⟨_, c.left, go _ h1, hv, fun _ => rfl, fun h => absurd h hl⟩

/-- **C71.** A card that goes from any pile, zone or set of materials to any other is put there, and nothing else changes on the board. When
a card goes from a zone with materials to a pile, its old place is remembered with its new one. If it goes to a zone, no materials may be
waiting to follow it. -/
theorem C71_moves (c : BasicContext) (m : MoveMsg) (C1 C2 : Container) (i j : Nat) (x : CardId)
    (hdef : (∃ k, C2 = .slot k) → c.deferred = [])
    (hs : At m.src.place C1 i) (hd : At m.dst.place C2 j) (ps : PlainPile m.src.place C1) (pd : PlainPile m.dst.place C2)
    (hg : CanGo (boardOf c) C1 i C2 j x) :
    ∃ l lf, track c m.msg.bytes = .ok { setLayout c l with left := lf } ∧ view l = gone (boardOf c) C1 i C2 j x ∧
      (¬ (LeavesMats (boardOf c) C1 ∧ ∃ p, C2 = .pile p) → lf = c.left) ∧
      (LeavesMats (boardOf c) C1 → (∃ p, C2 = .pile p) → ∀ q, lf q = if q = m.dst.place then some m.src.place else c.left q) := by
  obtain ⟨l, r, v⟩ := cardMove_does c.board.frame hs hd ps pd hg.there hg.free hg.room hg.carry
  have go : ∀ lf, encodeOne c m.msg.bytes = .ok (reported m.msg.bytes.length m.reason.toNat (.move [⟨m.src.place, m.dst.place⟩]), { c with left := lf }) →
      track c m.msg.bytes = .ok { setLayout c l with left := lf } := by
    intro lf h1
    exact track_cards (f := { c.board.frame with layout := l }) h1 (by
      show runOps c.board.frame (DuelBoard.cardOps (.move [_])) = _
      rw [runOps_move, r]
      rfl)
  have s0 := at_loc_ne_zero hs
  have d0 := at_loc_ne_zero hd
  have sp : InPile m.src.place.loc ↔ ∃ k, C1 = .pile k := by rw [← pileLoc_iff]; exact at_isPile hs
  have dp : InPile m.dst.place.loc ↔ ∃ k, C2 = .pile k := by rw [← pileLoc_iff]; exact at_isPile hd
  by_cases ha : ¬ InPile m.dst.place.loc ∧ m.dst.place.oseq < 0
  · have h1 := C39_arrival c m.code m.src m.dst m.reason [] ((C39_kinds _ _).2.2.2.2.1.mpr ⟨s0, d0, ha⟩)
    rw [List.append_nil] at h1
    have hn : ¬ ∃ p, C2 = .pile p := fun h => ha.1 (dp.mpr h)
    have hz : ∃ k, C2 = .slot k := by
      have slot : ∀ {p : Place}, At p C2 j → p.oseq < 0 → ∃ k, C2 = .slot k := by
        intro p h ho
        cases h with
        | pile k s o => exact absurd ⟨_, rfl⟩ hn
        | slot k o h => exact ⟨k, rfl⟩
        | mats k n => simp only at ho; omega
      exact slot hd ha.2
    have ht : EncodeContext.takeDeferredXyzMat c = ([], c) := by
      show (c.deferred, { c with deferred := [] }) = _
      rw [← hdef hz]
    rw [ht] at h1
    exact ⟨l, c.left, go _ h1, v, fun _ => rfl, fun _ h => absurd h hn⟩
  · have h1 := C39_plain c m.code m.src m.dst m.reason [] ((C39_kinds _ _).2.2.2.2.2.2.mpr ⟨s0, d0,
      ⟨fun h => by obtain ⟨k, hk⟩ := dp.mp h; exact pd k hk, fun h => by by_cases h' : InPile m.dst.place.loc
                                                                         · exact h'
                                                                         · exact absurd ⟨h', h⟩ ha⟩,
      fun ⟨h, h'⟩ => by obtain ⟨k, hk⟩ := sp.mp h; have := ps k hk; omega⟩)
    rw [List.append_nil] at h1
    by_cases hc : m.src.place.isPile = false ∧ m.dst.place.isPile = true
    · rw [if_pos hc] at h1
      have h2 : ∃ p, C2 = .pile p := (at_isPile hd).mp hc.2
      obtain ⟨k, hC, hm⟩ := hasXyzMat_at c hs (fun h => by rw [(at_isPile hs).mpr h] at hc; cases hc.1)
      rw [hm] at h1
      by_cases hl : LeavesMats (boardOf c) C1
      · rw [(leavesMats_iff hC).mp hl] at h1
        exact ⟨_, _, go _ h1, v, fun h => absurd ⟨hl, h2⟩ h, fun _ _ q => rfl⟩
      · have : (!(boardOf c (.mats k)).isEmpty) = false := by
          rw [leavesMats_iff hC] at hl
          simpa using hl
        rw [this] at h1
        exact ⟨_, c.left, go _ h1, v, fun _ => rfl, fun h => absurd h hl⟩
    · rw [if_neg hc] at h1
      refine ⟨l, c.left, go _ h1, v, fun _ => rfl, ?_⟩
      rintro ⟨k, h, _⟩ h2
      refine absurd ⟨?_, (at_isPile hd).mpr h2⟩ hc
      cases hb : m.src.place.isPile with
      | false => rfl
      | true => obtain ⟨k', rfl⟩ := (at_isPile hs).mp hb; rcases h with h | h <;> cases h

/-- **C71.** A message that two cards change places makes them do so, with their materials if both are in zones, and nothing else changes. -/
theorem C71_swap (c : BasicContext) (ca cb : UInt32) (a b : LocInfo) (C1 C2 : Container) (i j : Nat) (x y : CardId) (ha : At a.place C1 i)
    (hb : At b.place C2 j) (pa : PlainPile a.place C1) (pb : PlainPile b.place C2) (hok : SwapIndexOk a.place C1 C2 i)
    (hs : SwapOk (boardOf c) C1 C2) (hx : (boardOf c C1)[i]? = some x) (hy : (boardOf c C2)[j]? = some y) :
    ∃ l, track c (CoreMsg.swap ca a cb b).bytes = .ok (setLayout c l) ∧
      view l = ((boardOf c).exchange C1 i C2 j x y).swapMats C1 C2 := by
  have hv : view (ofBoard (((boardOf c).exchange C1 i C2 j x y).swapMats C1 C2)) = ((boardOf c).exchange C1 i C2 j x y).swapMats C1 C2 := by
    apply view_ofBoard
    intro k
    have h1 : ((boardOf c).exchange C1 i C2 j x y).swapMats C1 C2 (.slot k) = (boardOf c).exchange C1 i C2 j x y (.slot k) := by
      cases C1 <;> cases C2 <;> simp [Board.swapMats, upd_apply]
    have h2 : ((boardOf c).exchange C1 i C2 j x y (.slot k)).length = (boardOf c (.slot k)).length := by
      simp only [Board.exchange, upd_apply]
      split
      · rename_i h; subst h
        rw [List.length_set]
        split
        · rename_i h; subst h; rw [List.length_set]
        · rfl
      · split
        · rename_i h; subst h; rw [List.length_set]
        · rfl
    rw [h1, h2]
    exact slot_length _ _
  have h2 := (C11_card_swap_partial c.board.frame { c.board.frame with layout := ofBoard (((boardOf c).exchange C1 i C2 j x y).swapMats C1 C2) }
    a.place b.place C1 C2 i j ha hb hok).mpr ⟨rfl, rfl, pa, pb, hs, x, y, hx, hy, hv⟩
  refine ⟨_, ?_, hv⟩
  have h1 := track_event c (.swap ca a cb b) trivial _ rfl []
  rw [List.append_nil] at h1
  rw [h1]
  have : FrameLike.step c.board.frame (.swap a.place b.place) = .ok { c.board.frame with layout := ofBoard (((boardOf c).exchange C1 i C2 j x y).swapMats C1 C2) } := h2
  simp only [DuelBoard.parseEvent, DuelBoard.onFrame, DuelBoard.cardOps, List.map_cons, List.map_nil, runOps, this]
  rfl

theorem zonePlace_names {k k' : ZoneKey} : Names (zonePlace k) k' ↔ k' = k := by
  constructor
  · rintro ⟨h1, h2, h3⟩
    exact (zoneKey_eq_ok.mpr ⟨h1, h2, h3⟩ |>.symm.trans (zoneKey_mk k) |> Except.ok.inj)
  · rintro rfl; exact ⟨rfl, rfl, rfl⟩

/-- **C71.** When set cards of one row of zones are shuffled, cards (with their materials) change zones within the row: each card that the
core tells the new zone of is there, zones not named are as before, and so are the piles. -/
theorem C71_shuffle (c : BasicContext) (loc : UInt8) (cs : List (LocInfo × LocInfo)) (con : Fin 2) (row : ZoneLoc) (hne : cs ≠ [])
    (hn : cs.length ≤ 7) (olds : List ZoneKey) (news : List (Option ZoneKey)) (hl : news.length = cs.length)
    (hfrom : cs.map (·.1.place) = olds.map zonePlace)
    (hto : ∀ (i : Nat) (x : LocInfo × LocInfo) (t : Option ZoneKey), cs[i]? = some x → news[i]? = some t → targetPlace t x.2.place)
    (hcards : ∀ k ∈ olds, k.con = con ∧ k.loc = row ∧ boardOf c (.slot k) ≠ [])
    (hrow : ∀ k, some k ∈ news → k.con = con ∧ k.loc = row) (dfrom : olds.Nodup)
    (dto : ∀ (i j : Nat) (k : ZoneKey), news[i]? = some (some k) → news[j]? = some (some k) → i = j) :
    ∃ l, track c (CoreMsg.shuffleSetCard loc cs).bytes = .ok (setLayout c l) ∧ (∀ p, view l (.pile p) = boardOf c (.pile p)) ∧
      ∃ T U : ZoneKey → ZoneKey, (∀ k, U (T k) = k) ∧ (∀ k, T (U k) = k) ∧
        (∀ k, view l (.slot (T k)) = boardOf c (.slot k) ∧ view l (.mats (T k)) = boardOf c (.mats k)) ∧
        (∀ (i : Nat) (a b : ZoneKey), olds[i]? = some a → news[i]? = some (some b) → T a = b) ∧
        (∀ k, k ∉ olds → some k ∉ news → T k = k) := by
  have hlf : olds.length = cs.length := by simpa using (congrArg List.length hfrom).symm
  have gp : ∀ (i : Nat) (p : Place), (cs.map (·.1.place))[i]? = some p → ∃ k, olds[i]? = some k ∧ p = zonePlace k := by
    intro i p h
    rw [hfrom, List.getElem?_map] at h
    cases hk : olds[i]? with
    | none => rw [hk] at h; cases h
    | some k => rw [hk] at h; exact ⟨k, rfl, (Option.some.inj h).symm⟩
  have gc : ∀ (i : Nat) (p : Place), (cs.map (·.2.place))[i]? = some p → p.isEmpty = false → ∃ k, news[i]? = some (some k) ∧ p = zonePlace k := by
    intro i p h he
    rw [List.getElem?_map] at h
    cases hx : cs[i]? with
    | none => rw [hx] at h; cases h
    | some x =>
      rw [hx] at h
      cases h
      have hi : i < news.length := by rw [hl]; exact (List.getElem?_eq_some_iff.mp hx).1
      have ht := hto i x news[i] hx (List.getElem?_eq_getElem hi)
      cases hti : news[i] with
      | none =>
        rw [hti] at ht
        have ht : x.2.place.loc = 0 := ht
        rw [Place.isEmpty, ht] at he
        exact absurd he (by decide)
      | some k =>
        rw [hti] at ht
        exact ⟨k, by rw [List.getElem?_eq_getElem hi, hti], ht⟩
  have nzp : ∀ k, (zonePlace k).isEmpty = false := by
    intro k
    have := zone_ne_zero k.loc
    simp [Place.isEmpty, zonePlace, this]
  obtain ⟨f', hf⟩ := C12_returns c.board.frame (cs.map (·.1.place)) (cs.map (·.2.place)) cs.length con row (by simpa using hne) hn (by simp) (by simp)
    (by
      intro p hp
      obtain ⟨i, hi⟩ := List.getElem?_of_mem hp
      obtain ⟨k, hk, rfl⟩ := gp i p hi
      obtain ⟨rfl, rfl, _⟩ := hcards k (List.mem_of_getElem? hk)
      exact ⟨rfl, rfl⟩)
    (by
      intro p hp
      obtain ⟨i, hi⟩ := List.getElem?_of_mem hp
      obtain ⟨k, hk, rfl⟩ := gp i p hi
      obtain ⟨_, _, hb⟩ := hcards k (List.mem_of_getElem? hk)
      obtain ⟨x, xs, hx⟩ := List.exists_cons_of_ne_nil hb
      exact ⟨x, Layout.card_eq_ok.mpr ⟨.slot k, 0, .slot k (-1) (by decide), by rw [show view c.board.frame.layout (.slot k) = x :: xs from hx]; rfl⟩⟩)
    (by
      intro p hp he
      obtain ⟨i, hi⟩ := List.getElem?_of_mem hp
      obtain ⟨k, hk, rfl⟩ := gc i p hi he
      obtain ⟨h1, h2⟩ := hrow k (List.mem_of_getElem? hk)
      exact ⟨k, h1, h2, zonePlace_names.mpr rfl⟩)
  obtain ⟨h1, h2, T, U, a1, a2, a3, a4, a5⟩ := C12_card_shuffle c.board.frame f' (cs.map (·.1.place)) (cs.map (·.2.place)) cs.length con row
    (by
      intro i p _ hi
      obtain ⟨k, hk, rfl⟩ := gp i p hi
      obtain ⟨rfl, rfl, _⟩ := hcards k (List.mem_of_getElem? hk)
      exact ⟨rfl, rfl⟩)
    (by
      intro i p _ hi he
      obtain ⟨k, hk, rfl⟩ := gc i p hi he
      obtain ⟨rfl, rfl⟩ := hrow k (List.mem_of_getElem? hk)
      exact ⟨rfl, rfl⟩)
    (by
      intro i j p q hij _ hi hj hs
      obtain ⟨k, hk, rfl⟩ := gp i p hi
      obtain ⟨k', hk', rfl⟩ := gp j q hj
      have e1 := hcards k (List.mem_of_getElem? hk)
      have e2 := hcards k' (List.mem_of_getElem? hk')
      have : k' = k := zonePlace_names.mp ⟨by show (k.con.val : Int) = _; rw [e1.1, e2.1], by show k.loc.code = _; rw [e1.2.1, e2.2.1], hs⟩
      subst this
      obtain ⟨li, hi'⟩ := List.getElem?_eq_some_iff.mp hk
      obtain ⟨lj, hj'⟩ := List.getElem?_eq_some_iff.mp hk'
      exact (List.pairwise_iff_getElem.mp dfrom i j li lj hij) (hi'.trans hj'.symm))
    (by
      intro i j p q hij _ hi hj hp hq hs
      obtain ⟨k, hk, rfl⟩ := gc i p hi hp
      obtain ⟨k', hk', rfl⟩ := gc j q hj hq
      have e1 := hrow k (List.mem_of_getElem? hk)
      have e2 := hrow k' (List.mem_of_getElem? hk')
      have : k' = k := zonePlace_names.mp ⟨by show (k.con.val : Int) = _; rw [e1.1, e2.1], by show k.loc.code = _; rw [e1.2, e2.2], hs⟩
      subst this
      have := dto i j k' hk hk'
      omega)
    hf
  have hf' : f' = { c.board.frame with layout := f'.layout } := by
    simp only [Frame.cardShuffle, bind_eq_ok, pure_eq_ok, Except.ok.injEq] at hf
    obtain ⟨l, _, rfl⟩ := hf
    rfl
  refine ⟨f'.layout, ?_, ?_, T, U, a1, a2, ?_, ?_, ?_⟩
  · have h1 := track_event c (.shuffleSetCard loc cs) (by show cs.length < 2 ^ 8; omega) _ rfl []
    rw [List.append_nil] at h1
    rw [h1]
    have : FrameLike.step c.board.frame (.shuffle (cs.map (·.1.place)) (cs.map (·.2.place)) (cs.map (·.1.place)).length) = .ok f' := by
      rw [List.length_map]; exact hf
    simp only [DuelBoard.parseEvent, DuelBoard.onFrame, DuelBoard.cardOps, runOps, this]
    show Except.ok _ = Except.ok _
    congr 1
    unfold setLayout
    rw [← hf']
  · intro p; show f'.layout.pile p = _; rw [h2]; rfl
  · intro k
    exact ⟨by show (f'.layout.zone (T k)).card.toList = _; rw [a3]; rfl, by show (f'.layout.zone (T k)).materials = _; rw [a3]; rfl⟩
  · intro i a b ha hb
    have hi : i < cs.length := by rw [← hl]; exact (List.getElem?_eq_some_iff.mp hb).1
    have hx := List.getElem?_eq_getElem hi
    have ht := hto i _ _ hx hb
    have ht : cs[i].2.place = zonePlace b := ht
    have := a4 i (zonePlace a) (zonePlace b) a hi (by rw [hfrom, List.getElem?_map, ha]; rfl) (by rw [List.getElem?_map, hx, ← ht]; rfl) (nzp b)
      (zonePlace_names.mpr rfl)
    exact zonePlace_names.mp this
  · intro k hk hk'
    refine a5 k ?_
    intro i p _ hp hnm
    rcases hp with hp | ⟨hp, he⟩
    · obtain ⟨k', h, rfl⟩ := gp i p hp
      cases zonePlace_names.mp hnm
      exact hk (List.mem_of_getElem? h)
    · obtain ⟨k', h, rfl⟩ := gc i p hp he
      cases zonePlace_names.mp hnm
      exact hk' (List.mem_of_getElem? h)

/-! ### Examples -/

/-- A token appears next to the monsters of `xyzBoard`. -/
example : ∃ l, track xyzBoard (CoreMsg.move 9 ⟨0, 0, 0, 0⟩ ⟨0, 4, 4, 1⟩ 0).bytes = .ok { xyzBoard with board := { xyzBoard.board with
      frame := ⟨l, xyzBoard.board.frame.next :: xyzBoard.board.frame.owned, xyzBoard.board.frame.next + 1⟩ } } ∧
    view l (.slot ⟨0, .monster, 4, by decide⟩) = [xyzBoard.board.frame.next] := by
  obtain ⟨l, r, v⟩ := C71_appears xyzBoard ⟨9, ⟨0, 0, 0, 0⟩, ⟨0, 4, 4, 1⟩, 0⟩ (.slot ⟨0, .monster, 4, by decide⟩) 0 (by decide)
    (.slot ⟨0, .monster, 4, by decide⟩ (-1) (by decide)) ⟨by decide, by intro k h; cases h; decide⟩
  exact ⟨l, r, by rw [v]; decide⟩

/-- There are boards with a monster that leaves its materials behind. -/
example : ∃ c : BasicContext, Reachable c.board.frame ∧ (boardOf c (.slot ⟨0, .monster, 0, by decide⟩))[0]? = some 10 ∧
    LeavesMats (boardOf c) (.slot ⟨0, .monster, 0, by decide⟩) := by
  obtain ⟨f, hf⟩ := demo_ok
  have h1 : (demo.map fun f => view f.layout (.slot ⟨0, .monster, 0, by decide⟩)) = .ok [10] := by decide
  have h2 : (demo.map fun f => view f.layout (.mats ⟨0, .monster, 0, by decide⟩)) = .ok [12, 14] := by decide
  rw [hf] at h1 h2
  simp only [Except.map, Except.ok.injEq] at h1 h2
  refine ⟨{ BasicContext.init with board := { BasicContext.init.board with frame := f } }, ⟨demoOps, hf⟩, ?_, _, .inl rfl, ?_⟩
  · show (view f.layout _)[0]? = _; rw [h1]; rfl
  · show view f.layout _ ≠ _; rw [h2]; simp

/-- A card of `xyzBoard` goes from the extra deck to a zone and one from a zone to the graveyard. -/
example : ∃ l lf, track xyzBoard (CoreMsg.move 9 ⟨0, 0x40, 1, 1⟩ ⟨0, 4, 4, 1⟩ 0).bytes = .ok { setLayout xyzBoard l with left := lf } ∧
    view l (.slot ⟨0, .monster, 4, by decide⟩) = [8] ∧ view l (.pile ⟨0, .extraDeck⟩) = [7, 9] := by
  obtain ⟨l, lf, r, v, _⟩ := C71_moves xyzBoard ⟨9, ⟨0, 0x40, 1, 1⟩, ⟨0, 4, 4, 1⟩, 0⟩ (.pile ⟨0, .extraDeck⟩) (.slot ⟨0, .monster, 4, by decide⟩) 1 0 8 (fun _ => rfl)
    (.pile ⟨0, .extraDeck⟩ 1 (-1)) (.slot ⟨0, .monster, 4, by decide⟩ (-1) (by decide)) (fun _ _ => by decide) (fun _ h => by cases h)
    ⟨by decide, by intro k h; cases h; decide, by decide, trivial⟩
  exact ⟨l, lf, r, by rw [v]; decide, by rw [v]; decide⟩

/-- Two monsters of `xyzBoard` are swapped. -/
example : ∃ l, track xyzBoard (CoreMsg.swap 1 ⟨0, 4, 1, 1⟩ 2 ⟨0, 4, 2, 1⟩).bytes = .ok (setLayout xyzBoard l) ∧
    view l (.slot ⟨0, .monster, 1, by decide⟩) = [4] ∧ view l (.slot ⟨0, .monster, 2, by decide⟩) = [3] := by
  obtain ⟨l, r, v⟩ := C71_swap xyzBoard 1 2 ⟨0, 4, 1, 1⟩ ⟨0, 4, 2, 1⟩ (.slot ⟨0, .monster, 1, by decide⟩) (.slot ⟨0, .monster, 2, by decide⟩) 0 0 3 4
    (.slot ⟨0, .monster, 1, by decide⟩ (-1) (by decide)) (.slot ⟨0, .monster, 2, by decide⟩ (-1) (by decide)) (fun _ h => by cases h)
    (fun _ h => by cases h) (by rintro ⟨k, h⟩; cases h) trivial (by decide) (by decide)
  exact ⟨l, r, by rw [v]; decide, by rw [v]; decide⟩

/-- They are shuffled, the first one ending up where the second one was. -/
example : ∃ l, track xyzBoard (CoreMsg.shuffleSetCard 4 [(⟨0, 4, 1, 8⟩, ⟨0, 4, 2, 8⟩), (⟨0, 4, 2, 8⟩, ⟨0, 0, 0, 0⟩)]).bytes =
      .ok (setLayout xyzBoard l) ∧ view l (.slot ⟨0, .monster, 2, by decide⟩) = [3] := by
  obtain ⟨l, r, _, T, U, _, _, a, b, _⟩ := C71_shuffle xyzBoard 4 [(⟨0, 4, 1, 8⟩, ⟨0, 4, 2, 8⟩), (⟨0, 4, 2, 8⟩, ⟨0, 0, 0, 0⟩)] 0 .monster (by decide) (by decide)
    [⟨0, .monster, 1, by decide⟩, ⟨0, .monster, 2, by decide⟩] [some ⟨0, .monster, 2, by decide⟩, none] rfl (by decide)
    (by
      intro i x t h1 h2
      match i with
      | 0 | 1 => cases h1; cases h2; unfold targetPlace; decide
      | n + 2 => cases h1)
    (by decide) (by
      intro k h
      simp only [List.mem_cons, Option.some.injEq, reduceCtorEq, List.not_mem_nil, or_false] at h
      subst h; exact ⟨rfl, rfl⟩) (by decide)
    (by
      intro i j k h1 h2
      match i, j with
      | 0, 0 => rfl
      | 1, _ => cases h1
      | n + 2, _ => cases h1
      | _, 1 => cases h2
      | _, n + 2 => cases h2)
  refine ⟨l, r, ?_⟩
  have h := (a ⟨0, .monster, 1, by decide⟩).1
  rw [b 0 ⟨0, .monster, 1, by decide⟩ ⟨0, .monster, 2, by decide⟩ rfl rfl] at h
  rw [h]; decide

end Ygo.Props
