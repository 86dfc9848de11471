import Verif.Spec.Overlay
import Verif.Props.Single
import Verif.Props.Score
import Verif.Props.Inert

/-!
# Monsters that take other cards as materials, from message to board (C85)
-/

set_option linter.unusedSimpArgs false

namespace Ygo.Props
open Ygo Spec P

/-! ## Other messages in between -/

theorem track_ctx {c c' : BasicContext} {m : CoreMsg} (hf : m.Fits) (h : track c m.bytes = .ok c') :
    c'.matchWinReason = reasonAfter c.matchWinReason m ∧ c'.deferred = deferredAfter c.deferred m := by
  unfold track at h
  rw [bind_eq_ok] at h
  obtain ⟨⟨r, c1⟩, h1, h⟩ := h
  have e := (encodeOne_ctx c m hf [] r c1 (by rw [List.append_nil]; exact h1)).2
  dsimp only at h
  cases hm : r.msg with
  | none => simp only [hm] at h; cases h; exact e
  | some x =>
    simp only [hm] at h
    have := C46_parse_keeps _ _ _ h
    exact ⟨this.1.trans e.1, this.2.trans e.2⟩

/-- Asides get through. -/
theorem aside_returns (c : BasicContext) (m : CoreMsg) (hf : m.Fits) (ha : Aside m) : ∃ c', track c m.bytes = .ok c' := by
  obtain ⟨hm, ht, ha⟩ := ha
  by_cases hs : (scoreOf c).Allows m
  · obtain ⟨c', h1, _⟩ := C69_score_returns c m hs hf []
    rw [List.append_nil] at h1
    exact ⟨c', h1⟩
  cases hmm : m.meaning with
  | some y =>
    unfold track
    rw [← List.append_nil m.bytes, C34_translation c m hf y hmm]
    cases m <;> cases hmm <;> first | exact absurd trivial hm | exact absurd trivial ht | exact absurd trivial hs | exact ha.elim | exact ⟨_, rfl⟩
  | none =>
    cases hc : m.inContext c with
    | none => cases m <;> first | exact absurd trivial hm | (cases hmm; done) | simp [CoreMsg.inContext] at hc
    | some y =>
      unfold track
      rw [← List.append_nil m.bytes, C34_translation_in_context c m hf y hc]
      cases m <;> simp only [CoreMsg.inContext, reduceCtorEq] at hc <;> cases hc
      case none.some.matchKill.refl => exact ⟨_, rfl⟩
      all_goals first | exact ha.elim | exact absurd trivial hm

/-- Asides leave positions, values and everything remembered about materials alone. -/
theorem aside_keeps {c c' : BasicContext} {m : CoreMsg} (hf : m.Fits) (ha : Aside m) (h : track c m.bytes = .ok c') :
    c'.board.frame = c.board.frame ∧ c'.store = c.store ∧ c'.left = c.left ∧ c'.deferred = c.deferred := by
  have h' : track c (m.bytes ++ []) = .ok c' := by rwa [List.append_nil]
  refine ⟨C70_positions c m hf ha.1 [] c' h', C70_data c m hf ha.2.1 [] c' h', C70_left c m hf (fun hi => ?_) [] c' h', ?_⟩
  · cases m <;> first | exact hi.elim | exact ha.1 trivial
  · rw [(track_ctx hf h).2]
    cases m <;> first | exact absurd trivial ha.1 | rfl

/-! ## The announcements -/

/-- The places a list of announcements names, without the rest. -/
inductive Listed (k : ZoneKey) : Nat → Board → List Place → List CardId → Board → Prop
  | done (n : Nat) (B : Board) : Listed k n B [] [] B
  | card {n : Nat} {B B' : Board} {ps : List Place} {xs : List CardId} (p : Place) (C : Container) (i : Nat) (x : CardId)
      (hs : At p C i) (pp : PlainPile p C) (hx : (B C)[i]? = some x) (hC : C = .mats k → n = 0)
      (h : Listed k (n + 1) (B.take C i) ps xs B') : Listed k n B (p :: ps) (x :: xs) B'

theorem gathered_run {k : ZoneKey} {n : Nat} {B B' : Board} {ms : List CoreMsg} {xs : List CardId} (h : Gathered k n B ms xs B') :
    ∀ c : BasicContext, (∀ m ∈ ms, m.Fits) → ∃ ps c', trackAll c ms = .ok c' ∧ Listed k n B ps xs B' ∧
      c'.board.frame = c.board.frame ∧ c'.store = c.store ∧ c'.left = c.left ∧ c'.deferred = c.deferred ++ ps := by
  induction h with
  | done n B => exact fun c _ => ⟨[], c, rfl, .done n B, rfl, rfl, rfl, by simp⟩
  | aside m ha _ ih =>
    intro c hf
    obtain ⟨c1, h1⟩ := aside_returns c m (hf m (by simp)) ha
    obtain ⟨k1, k2, k3, k4⟩ := aside_keeps (hf m (by simp)) ha h1
    obtain ⟨ps, c', r, l, e1, e2, e3, e4⟩ := ih c1 fun m hm => hf m (by simp [hm])
    exact ⟨ps, c', by rw [trackAll, h1, bind_ok, r], l, e1.trans k1, e2.trans k2, e3.trans k3, by rw [e4, k4]⟩
  | card m C i x hs ps hd hx hC _ ih =>
    intro c hf
    have h1 : trackAll c [m.msg] = .ok { c with deferred := c.deferred ++ [m.src.place] } :=
      track_deferred c [m] (by
        intro m' hm'
        rw [List.mem_singleton.mp hm']
        exact (C39_kinds _ _).2.2.2.1.mpr ⟨at_loc_ne_zero hs, inPile_ne_zero hd.1, hd.1, hd.2⟩)
    obtain ⟨ps', c', r, l, e1, e2, e3, e4⟩ := ih { c with deferred := c.deferred ++ [m.src.place] } fun m hm => hf m (by simp [hm])
    refine ⟨m.src.place :: ps', c', ?_, .card _ C i x hs ps hx hC l, e1, e2, e3, by rw [e4]; simp⟩
    rw [← List.singleton_append, trackAll_append, h1, bind_ok, r]

/-! ## The attachments -/

/-- Attachments, counted from `n`. -/
def attachFrom (n : Nat) (curr : Place) (ds : List Place) : List PlacePair :=
  ((ds.zipIdx n).map fun (d, i) => (PlacePair.mk d { curr with oseq := (i : Int) })).filter fun x => x.fst ≠ x.snd

theorem attachFrom_zero (curr : Place) (ds : List Place) : attachFrom 0 curr ds = attachments curr ds := rfl

theorem attachFrom_cons (n : Nat) (curr d : Place) (ds : List Place) : attachFrom n curr (d :: ds) =
    (if d = { curr with oseq := (n : Int) } then [] else [⟨d, { curr with oseq := (n : Int) }⟩]) ++ attachFrom (n + 1) curr ds := by
  unfold attachFrom
  simp only [List.zipIdx_cons, List.map_cons, List.filter_cons]
  by_cases h : d = { curr with oseq := (n : Int) } <;> simp [h]

theorem insertIdx_length (l r : List CardId) (x : CardId) : (l ++ r).insertIdx l.length x = l ++ x :: r := by
  induction l with
  | nil => rfl
  | cons a l ih => simp [ih]

theorem attach_listed {k : ZoneKey} {n : Nat} {B B' : Board} {ps : List Place} {xs : List CardId} (h : Listed k n B ps xs B') :
    ∀ (f : Frame) (done : List CardId), done.length = n → view f.layout = B.upd (.mats k) (done ++ B (.mats k)) →
    ∃ l, runOps f (DuelBoard.cardOps (.move (attachFrom n (zonePlace k) ps))) = .ok { f with layout := l } ∧
      view l = B'.upd (.mats k) (done ++ xs ++ B' (.mats k)) := by
  induction h with
  | done n B =>
    intro f done _ hv
    exact ⟨f.layout, rfl, by rw [hv]; simp⟩
  | @card n B B' ps xs p C i x hs pp hx hC _ ih =>
    intro f done hn hv
    rw [attachFrom_cons]
    by_cases hp : p = { zonePlace k with oseq := (n : Int) }
    · rw [if_pos hp, List.nil_append]
      obtain ⟨rfl, rfl⟩ := At.unique hs (show At p (.mats k) n by rw [hp]; exact .mats k n)
      have hn0 := hC rfl
      subst hn0
      have hd : done = [] := List.eq_nil_of_length_eq_zero hn
      subst hd
      obtain ⟨l, r, v⟩ := ih f [x] rfl (by
        rw [hv]
        funext D
        simp only [Board.upd, Board.take]
        split
        · rename_i h
          cases hb : B (.mats k) with
          | nil => rw [hb] at hx; cases hx
          | cons y ys => rw [hb] at hx; cases hx; simp
        · rfl)
      exact ⟨l, r, by simpa using v⟩
    · rw [if_neg hp, List.singleton_append, runOps_move]
      obtain ⟨l1, r1, v1⟩ := cardMove_does f (a := p) (b := { zonePlace k with oseq := (n : Int) }) (C1 := C) (C2 := .mats k) (i := i) (j := n)
        (x := x) hs (.mats k n) pp (by intro p h; cases h)
        (by
          rw [hv, upd_apply]
          split
          · rename_i h
            have := hC h
            subst this
            rw [List.eq_nil_of_length_eq_zero hn, ← h]
            exact hx
          · exact hx)
        (by intro p h; cases h)
        (by
          rw [hv]
          simp only [Board.take, upd_apply]
          by_cases h : .mats k = C
          · have := hC h.symm
            omega
          · rw [if_neg h]
            simp only [if_true, List.length_append]
            omega)
        (by cases C <;> trivial)
      rw [r1]
      obtain ⟨l, r, v⟩ := ih { f with layout := l1 } (done ++ [x]) (by simp [hn]) (by
        show view l1 = _
        rw [v1, hv]
        have hcar : ∀ B : Board, B.carry C (.mats k) = B := by intro B; cases C <;> rfl
        rw [hcar]
        funext D
        simp only [Board.put, Board.take, upd_apply]
        by_cases hD : D = .mats k
        · subst hD
          simp only [if_true]
          by_cases h : .mats k = C
          · have := hC h.symm
            subst this
            rw [List.eq_nil_of_length_eq_zero hn, ← h]
            simp
          · rw [if_neg h, if_neg h, ← hn, insertIdx_length]
            simp
        · simp only [hD, if_false]
          split
          · rename_i h; subst h; simp [hD]
          · rfl)
      exact ⟨l, r, by simpa using v⟩

/-- **C85.** The core takes cards as materials of a monster, one after the other and from anywhere: hands, graveyards, zones, under other monsters.
Then the monster goes to zone `k`, which by then is empty. On the tracked board it is there, on top of exactly these cards in this order, the cards
are gone from where they were, and nothing else changed, whatever was said or asked in between. -/
theorem C85_overlay_partial (c : BasicContext) (hdef : c.deferred = []) (k : ZoneKey) (ms : List CoreMsg) (xs : List CardId) (B : Board)
    (ho : Gathered k 0 (boardOf c) ms xs B) (hf : ∀ m ∈ ms, m.Fits) (m : MoveMsg) (C : Container) (e : Nat) (x : CardId)
    (hs : At m.src.place C e) (ps : PlainPile m.src.place C) (hd : m.dst.place = zonePlace k) (hC : ∀ k', C ≠ .slot k') (hCk : C ≠ .mats k)
    (hx : (B C)[e]? = some x) (hk : B (.slot k) = []) :
    ∃ c', trackAll c (ms ++ [m.msg]) = .ok c' ∧ boardOf c' = summoned B xs C e x k ∧
      c'.store = c.store ∧ c'.left = c.left ∧ c'.deferred = [] := by
  obtain ⟨qs, c1, r1, l1, e1, e2, e3, e4⟩ := gathered_run ho c hf
  rw [hdef, List.nil_append] at e4
  obtain ⟨l, r, v⟩ := attach_listed l1 c1.board.frame [] rfl (by rw [e1]; funext D; simp only [Board.upd]; split
                                                                 · rename_i h; rw [h]; rfl
                                                                 · rfl)
  have harr : moveKind m.src.place m.dst.place = .arrival := by
    rw [hd]
    exact (C39_kinds _ _).2.2.2.2.1.mpr ⟨at_loc_ne_zero hs, zone_ne_zero _, not_inPile_code _, by show (-1 : Int) < 0; decide⟩
  have h1 := C40_arrival c1 m.code m.src m.dst m.reason [] harr
  rw [List.append_nil, e4, hd] at h1
  obtain ⟨l2, r2, v2⟩ := cardMove_does { c1.board.frame with layout := l } (a := m.src.place) (b := zonePlace k) (C1 := C) (C2 := .slot k)
    (i := e) (j := 0) (x := x) hs (.slot k (-1) (by decide)) ps (by intro p h; cases h)
    (by show (view l C)[e]? = _; rw [v, upd_apply, if_neg hCk]; exact hx)
    (by intro k' _; show view l _ = []; rw [v, upd_apply, if_neg (by simp)]; exact hk) (by simp)
    (by cases C <;> first | trivial | exact absurd rfl (hC _))
  refine ⟨{ c1 with deferred := [], board := { c1.board with frame := { c1.board.frame with layout := l2 } } }, ?_, ?_, e2, e3, rfl⟩
  · rw [trackAll_append, r1, bind_ok]
    have := track_cards (f := { c1.board.frame with layout := l2 }) h1 (by
      rw [← attachFrom_zero, runOps_move_append]
      show (do let f ← runOps c1.board.frame _; _) = _
      rw [r]
      show runOps _ (DuelBoard.cardOps (.move [_])) = _
      rw [runOps_move, r2]
      rfl)
    unfold trackAll MoveMsg.msg
    rw [this]
    rfl
  · show view l2 = _
    rw [v2]
    have hcar : ∀ B : Board, B.carry C (.slot k) = B := by intro B; cases C <;> first | rfl | exact absurd rfl (hC _)
    rw [hcar]
    show (((view l).take C e).put (.slot k) 0 x) = _
    rw [v]
    funext D
    have hCs := hC k
    simp only [summoned, Board.put, Board.take, upd_apply, hCk, if_false, List.nil_append]
    by_cases h1 : D = .mats k
    · subst h1
      have : ¬ .mats k = C := fun h => hCk h.symm
      simp [this]
    · by_cases h2 : D = .slot k
      · subst h2
        have : ¬ .slot k = C := fun h => hCs h.symm
        simp [this, hk]
      · simp only [h1, h2, if_false]

/-! ## When the monster takes the place of another one with materials -/

theorem track_arrival {c : BasicContext} (m : MoveMsg) (k : ZoneKey) (p : PileKey) (e : Nat) (hms : m.src.place = pilePlace p e)
    (hmd : m.dst.place = zonePlace k) : trackAll c [m.msg] = (do
      let f ← runOps c.board.frame (DuelBoard.cardOps (.move (attachFrom 0 (zonePlace k) c.deferred ++ [⟨pilePlace p e, zonePlace k⟩])))
      return { c with deferred := [], board := { c.board with frame := f } }) := by
  have harr : moveKind m.src.place m.dst.place = .arrival := by
    rw [hms, hmd]
    exact (C39_kinds _ _).2.2.2.2.1.mpr ⟨inPile_ne_zero (inPile_code _), zone_ne_zero _, not_inPile_code _, by show (-1 : Int) < 0; decide⟩
  have h1 := C40_arrival c m.code m.src m.dst m.reason [] harr
  rw [List.append_nil, hms, hmd, ← attachFrom_zero] at h1
  unfold trackAll track MoveMsg.msg
  rw [h1]
  show (do let c ← BasicContext.parse _ ⟨.event (.card _ _), []⟩; trackAll c []) = _
  unfold BasicContext.parse
  simp only [DuelBoard.parseEvent, DuelBoard.onFrame]
  cases runOps c.board.frame (DuelBoard.cardOps (.move (attachFrom 0 (zonePlace k) c.deferred ++ [⟨pilePlace p e, zonePlace k⟩]))) <;> rfl

/-- Each time the first material goes a place further than the time before. -/
theorem turn_run (k : ZoneKey) (Q : List CardId) : ∀ (f : Frame) (P : List CardId), P ≠ [] → view f.layout (.mats k) = P ++ Q →
    ∃ l F, runOps f (DuelBoard.cardOps (.move ((Q.zipIdx P.length).map fun (_, i) => ⟨matPlace k 0, matPlace k i⟩))) = .ok { f with layout := l } ∧
      view l = (view f.layout).upd (.mats k) F ∧ F.Perm (P ++ Q) ∧ ∀ Q1 z, Q = Q1 ++ [z] → ∃ F' h, F = F' ++ [h] ∧ h ∈ P ++ Q1 := by
  induction Q with
  | nil =>
    intro f P _ hv
    refine ⟨f.layout, P, rfl, ?_, by simp, ?_⟩
    · funext D
      rw [upd_apply]
      split
      · rename_i h; rw [h, hv]; simp
      · rfl
    · intro Q1 z h
      simp at h
  | cons q Q ih =>
    intro f P hP hv
    cases P with
    | nil => exact absurd rfl hP
    | cons h P =>
      obtain ⟨l1, r1, v1⟩ := cardMove_does f (a := matPlace k 0) (b := matPlace k (h :: P).length) (C1 := .mats k) (C2 := .mats k) (i := 0)
        (j := (h :: P).length) (x := h) (.mats k 0) (.mats k _) (by intro p h; cases h) (by intro p h; cases h) (by rw [hv]; rfl)
        (by intro p h; cases h) (by simp [Board.take, upd_apply, hv]) trivial
      have hl1 : view l1 = (view f.layout).upd (.mats k) ((P ++ [q, h]) ++ Q) := by
        rw [v1]
        funext D
        simp only [Board.carry, Board.put, Board.take, upd_apply, hv]
        by_cases hD : D = .mats k
        · simp only [hD, if_true, List.cons_append, List.eraseIdx_cons_zero, List.length_cons]
          have := insertIdx_length (P ++ [q]) Q h
          simpa using this
        · simp [hD]
      obtain ⟨l, F, r, v, hp, hz⟩ := ih { f with layout := l1 } (P ++ [q, h]) (by simp) (by show view l1 _ = _; rw [hl1, upd_apply, if_pos rfl])
      refine ⟨l, F, ?_, ?_, ?_, ?_⟩
      · rw [List.zipIdx_cons, List.map_cons, runOps_move, r1]
        have e : (P ++ [q, h]).length = (h :: P).length + 1 := by simp
        rw [e] at r
        exact r
      · rw [v]
        show (view l1).upd _ _ = _
        rw [hl1]
        funext D
        simp only [upd_apply]
        split <;> rfl
      · refine hp.trans ?_
        have : (P ++ [q, h]).Perm (h :: P ++ [q]) := by
          have h1 : (P ++ [q, h]).Perm (P ++ [h, q]) := List.Perm.append_left _ (List.Perm.swap _ _ _)
          have h2 : (P ++ [h, q]).Perm (h :: (P ++ [q])) := List.perm_middle
          exact h1.trans h2
        have h3 := this.append_right Q
        simpa using h3
      · intro Q1 z hQ
        cases Q1 with
        | nil =>
          simp only [List.nil_append, List.cons.injEq] at hQ
          obtain ⟨rfl, rfl⟩ := hQ
          refine ⟨P ++ [q], h, ?_, by simp⟩
          have hr : runOps { f with layout := l1 } (DuelBoard.cardOps (.move [])) = .ok { f with layout := l } := r
          cases hr
          have := congrFun v (.mats k)
          rw [upd_apply, if_pos rfl] at this
          rw [← this]
          show view l1 _ = _
          rw [hl1, upd_apply, if_pos rfl]
          simp
        | cons q' Q1 =>
          simp only [List.cons_append, List.cons.injEq] at hQ
          obtain ⟨rfl, rfl⟩ := hQ
          obtain ⟨F', h', hF, hm⟩ := hz Q1 z rfl
          refine ⟨F', h', hF, ?_⟩
          simp only [List.mem_append, List.mem_cons, List.not_mem_nil, or_false] at hm ⊢
          rcases hm with (h | h | h) | h <;> simp [h]

theorem attachFrom_append (n : Nat) (curr : Place) (ds es : List Place) :
    attachFrom n curr (ds ++ es) = attachFrom n curr ds ++ attachFrom (n + ds.length) curr es := by
  induction ds generalizing n with
  | nil => simp [attachFrom]
  | cons d ds ih =>
    rw [List.cons_append, attachFrom_cons, attachFrom_cons, ih, List.append_assoc]
    congr 3
    simp only [List.length_cons]
    omega

theorem attachFrom_front (k : ZoneKey) (L : List CardId) (n : Nat) (hn : 0 < n) :
    attachFrom n (zonePlace k) (L.map fun _ => matPlace k 0) = (L.zipIdx n).map fun (_, i) => ⟨matPlace k 0, matPlace k i⟩ := by
  induction L generalizing n with
  | nil => rfl
  | cons a L ih =>
    rw [List.map_cons, attachFrom_cons, ih (n + 1) (by omega), List.zipIdx_cons, List.map_cons, if_neg]
    · rfl
    · simp only [matPlace, zonePlace, Place.mk.injEq, true_and]
      omega

theorem attachFrom_skip (k : ZoneKey) (n : Nat) (ds : List Place) :
    attachFrom n (zonePlace k) (matPlace k n :: ds) = attachFrom (n + 1) (zonePlace k) ds := by
  rw [attachFrom_cons]
  simp [matPlace]

theorem attachFrom_index (k : ZoneKey) (L : List CardId) (n : Nat) :
    attachFrom n (zonePlace k) ((L.zipIdx n).map fun x => matPlace k x.2) = [] := by
  induction L generalizing n with
  | nil => rfl
  | cons a L ih =>
    rw [List.zipIdx_cons, List.map_cons, attachFrom_skip, ih]

theorem attachFrom_elsewhere (k k0 : ZoneKey) (hk : k0 ≠ k) (L : List CardId) (n : Nat) :
    attachFrom n (zonePlace k) ((L.zipIdx n).map fun x => matPlace k0 x.2) = (L.zipIdx n).map fun x => ⟨matPlace k0 x.2, matPlace k x.2⟩ := by
  induction L generalizing n with
  | nil => rfl
  | cons a L ih =>
    rw [List.zipIdx_cons, List.map_cons, attachFrom_cons, ih, List.map_cons, if_neg]
    · rfl
    · intro h
      have h1 : At (matPlace k0 n) (.mats k0) n := .mats k0 n
      have h2 : At (matPlace k n) (.mats k) n := .mats k n
      have h : matPlace k0 n = matPlace k n := h
      rw [h] at h1
      have := (At.unique h1 h2).1
      cases this
      exact hk rfl

/-- Materials are announced, then the monster comes. -/
theorem track_announced (c : BasicContext) (hdef : c.deferred = []) (ms : List MoveMsg) (qs : List Place) (hsrc : ms.map (·.src.place) = qs)
    (h0 : ∀ q ∈ qs, q.loc ≠ 0) (hdst : ∀ m ∈ ms, InPile m.dst.place.loc ∧ 0 ≤ m.dst.place.oseq) (m : MoveMsg) (k : ZoneKey) (p : PileKey) (e : Nat)
    (hms : m.src.place = pilePlace p e) (hmd : m.dst.place = zonePlace k) :
    trackAll c (ms.map (·.msg) ++ [m.msg]) = (do
      let f ← runOps c.board.frame (DuelBoard.cardOps (.move (attachFrom 0 (zonePlace k) qs ++ [⟨pilePlace p e, zonePlace k⟩])))
      return { c with board := { c.board with frame := f } }) := by
  rw [trackAll_append, track_deferred c ms (by
    intro m hm
    obtain ⟨h1, h2⟩ := hdst m hm
    exact (C39_kinds _ _).2.2.2.1.mpr ⟨h0 _ (by rw [← hsrc]; exact List.mem_map_of_mem hm), inPile_ne_zero h1, h1, h2⟩), bind_ok,
    track_arrival m k p e hms hmd, hdef, hsrc]
  obtain ⟨b, s, w, lf, df⟩ := c
  simp only at hdef
  subst hdef
  rfl

/-- What is left to do once the materials are where they are. -/
theorem take_over (f : Frame) (k : ZoneKey) (p : PileKey) (e : Nat) (x y : CardId) (F : List CardId) (hk : view f.layout (.slot k) = [y])
    (hF : view f.layout (.mats k) = F) (hx : (view f.layout (.pile p))[e]? = some x) :
    ∃ l, runOps f (DuelBoard.cardOps (.move ([⟨zonePlace k, matPlace k F.length⟩] ++ [⟨pilePlace p e, zonePlace k⟩]))) = .ok { f with layout := l } ∧
      view l = (((view f.layout).take (.pile p) e).upd (.slot k) [x]).upd (.mats k) (F ++ [y]) := by
  obtain ⟨l1, r1, v1⟩ := cardMove_does f (a := zonePlace k) (b := matPlace k F.length) (C1 := .slot k) (C2 := .mats k) (i := 0) (j := F.length)
    (x := y) (.slot k (-1) (by decide)) (.mats k _) (by intro p h; cases h) (by intro p h; cases h) (by rw [hk]; rfl) (by intro p h; cases h)
    (by rw [takeB_ne (by simp), hF]) trivial
  have e1 : view l1 = ((view f.layout).upd (.slot k) []).upd (.mats k) (F ++ [y]) := by
    rw [v1]
    funext D
    simp only [Board.carry, Board.put, Board.take, upd_apply, hk, hF]
    have := insertIdx_length F [] y
    rw [List.append_nil] at this
    simp [this]
  obtain ⟨l2, r2, v2⟩ := cardMove_does { f with layout := l1 } (a := pilePlace p e) (b := zonePlace k) (C1 := .pile p) (C2 := .slot k)
    (i := e) (j := 0) (x := x) (.pile p e (-1)) (.slot k (-1) (by decide)) (fun _ _ => by show (-1 : Int) < 0; decide) (by intro p h; cases h)
    (by show (view l1 (.pile p))[e]? = _; rw [e1]; simpa [upd_apply] using hx)
    (by intro k' _; show view l1 (.slot k) = []; rw [e1]; simp [upd_apply]) (by simp) trivial
  refine ⟨l2, ?_, ?_⟩
  · rw [List.singleton_append, runOps_move, r1]
    show runOps _ (DuelBoard.cardOps (.move [_])) = _
    rw [runOps_move, r2]
    rfl
  · rw [v2]
    show (((view l1).take (.pile p) e).put (.slot k) 0 x).carry _ _ = _
    rw [e1]
    funext D
    cases D <;> simp only [Board.carry, Board.put, Board.take, upd_apply, reduceCtorEq, if_false, if_true]
    split <;> simp

theorem mats_loc (k : ZoneKey) (i : Nat) : (matPlace k i).loc ≠ 0 := zone_ne_zero _

/-- **C85.** The monster takes the place of one with two or more materials, in the same zone. If the core names each material by the number it
has when it goes, which is 0 as the ones before it have gone, then the materials end up in a wrong order on the board. -/
theorem C85_in_place_wrong_order (c : BasicContext) (hdef : c.deferred = []) (k : ZoneKey) (L : List CardId) (hL : boardOf c (.mats k) = L)
    (hn : L.Nodup) (h2 : 2 ≤ L.length) (y : CardId) (hy : boardOf c (.slot k) = [y]) (ms : List MoveMsg)
    (hsrc : ms.map (·.src.place) = L.map (fun _ => matPlace k 0) ++ [zonePlace k])
    (hdst : ∀ m ∈ ms, InPile m.dst.place.loc ∧ 0 ≤ m.dst.place.oseq) (m : MoveMsg) (p : PileKey) (e : Nat) (x : CardId)
    (hms : m.src.place = pilePlace p e) (hmd : m.dst.place = zonePlace k) (hx : (boardOf c (.pile p))[e]? = some x) :
    ∃ l F, trackAll c (ms.map (·.msg) ++ [m.msg]) = .ok (setLayout c l) ∧
      view l = (((boardOf c).take (.pile p) e).upd (.slot k) [x]).upd (.mats k) (F ++ [y]) ∧ F.Perm L ∧ F ≠ L := by
  rw [track_announced c hdef ms _ hsrc (by
    intro q hq
    rcases List.mem_append.mp hq with h | h
    · obtain ⟨_, _, rfl⟩ := List.mem_map.mp h
      exact mats_loc k 0
    · rw [List.mem_singleton.mp h]
      exact zone_ne_zero _) hdst m k p e hms hmd]
  cases L with
  | nil => simp at h2
  | cons a L =>
    have hq : attachFrom 0 (zonePlace k) ((a :: L).map (fun _ => matPlace k 0) ++ [zonePlace k]) =
        ((L.zipIdx 1).map fun (_, i) => ⟨matPlace k 0, matPlace k i⟩) ++ [⟨zonePlace k, matPlace k (a :: L).length⟩] := by
      rw [attachFrom_append, List.map_cons, attachFrom_skip]
      congr 1
      · exact attachFrom_front k L 1 (by omega)
      · rw [attachFrom_cons, if_neg]
        · simp [attachFrom, matPlace]
        · simp only [zonePlace, Place.mk.injEq, true_and]
          omega
    obtain ⟨l1, F, r1, v1, hp, hz⟩ := turn_run k L c.board.frame [a] (by simp) (by rw [List.singleton_append]; exact hL)
    obtain ⟨l2, r2, v2⟩ := take_over { c.board.frame with layout := l1 } k p e x y F
      (by show view l1 _ = _; rw [v1, upd_apply, if_neg (by simp)]; exact hy) (by show view l1 _ = _; rw [v1, upd_apply, if_pos rfl])
      (by show (view l1 _)[e]? = _; rw [v1, upd_apply, if_neg (by simp)]; exact hx)
    have hlen : F.length = (a :: L).length := by rw [hp.length_eq]; simp
    refine ⟨l2, F, ?_, ?_, by simpa using hp, ?_⟩
    · rw [hq, List.append_assoc, runOps_move_append]
      have r1' : runOps c.board.frame (DuelBoard.cardOps (.move ((L.zipIdx 1).map fun (_, i) => ⟨matPlace k 0, matPlace k i⟩))) =
        .ok { c.board.frame with layout := l1 } := r1
      rw [r1', bind_ok, ← hlen, r2]
      rfl
    · rw [v2]
      show ((((view l1).take _ _).upd _ _).upd _ _) = _
      rw [v1]
      funext D
      simp only [Board.take, upd_apply, boardOf]
      split <;> rfl
    · rintro rfl
      have hne : L ≠ [] := by rintro rfl; simp at h2
      obtain ⟨F', h, hF, hm⟩ := hz L.dropLast (L.getLast hne) (List.dropLast_concat_getLast hne).symm
      have e : a :: L = ([a] ++ L.dropLast) ++ [L.getLast hne] := by simp [List.dropLast_concat_getLast hne]
      rw [e] at hF hn
      obtain ⟨_, h3⟩ := List.append_inj' hF rfl
      cases h3
      exact (List.nodup_append.mp hn).2.2 _ hm _ (by simp) rfl

/-- Each time the first material goes a place further than the time before: the order that comes of it. -/
theorem wheeled_run (k : ZoneKey) (Q : List CardId) : ∀ (f : Frame) (P : List CardId), P ≠ [] → view f.layout (.mats k) = P ++ Q →
    ∃ l, runOps f (DuelBoard.cardOps (.move ((Q.zipIdx P.length).map fun (_, i) => ⟨matPlace k 0, matPlace k i⟩))) = .ok { f with layout := l } ∧
      view l = (view f.layout).upd (.mats k) (wheeled P Q) := by
  induction Q with
  | nil =>
    intro f P _ hv
    refine ⟨f.layout, rfl, ?_⟩
    have ht : wheeled P [] = P := by cases P <;> simp [wheeled]
    funext D
    rw [upd_apply, ht]
    split
    · rename_i h; rw [h, hv]; simp
    · rfl
  | cons q Q ih =>
    intro f P hP hv
    cases P with
    | nil => exact absurd rfl hP
    | cons h P =>
      obtain ⟨l1, r1, v1⟩ := cardMove_does f (a := matPlace k 0) (b := matPlace k (h :: P).length) (C1 := .mats k) (C2 := .mats k) (i := 0)
        (j := (h :: P).length) (x := h) (.mats k 0) (.mats k _) (by intro p h; cases h) (by intro p h; cases h) (by rw [hv]; rfl)
        (by intro p h; cases h) (by simp [Board.take, upd_apply, hv]) trivial
      have hl1 : view l1 = (view f.layout).upd (.mats k) ((P ++ [q, h]) ++ Q) := by
        rw [v1]
        funext D
        simp only [Board.carry, Board.put, Board.take, upd_apply, hv]
        by_cases hD : D = .mats k
        · simp only [hD, if_true, List.cons_append, List.eraseIdx_cons_zero, List.length_cons]
          have := insertIdx_length (P ++ [q]) Q h
          simpa using this
        · simp [hD]
      obtain ⟨l, r, v⟩ := ih { f with layout := l1 } (P ++ [q, h]) (by simp) (by show view l1 _ = _; rw [hl1, upd_apply, if_pos rfl])
      refine ⟨l, ?_, ?_⟩
      · rw [List.zipIdx_cons, List.map_cons, runOps_move, r1]
        have e : (P ++ [q, h]).length = (h :: P).length + 1 := by simp
        rw [e] at r
        exact r
      · rw [v]
        show (view l1).upd _ _ = _
        rw [hl1]
        funext D
        simp only [upd_apply, wheeled]
        split <;> rfl

theorem wheeled_length (P Q : List CardId) : (wheeled P Q).length = P.length + Q.length := by
  induction Q generalizing P with
  | nil => cases P <;> simp [wheeled]
  | cons q Q ih =>
    cases P with
    | nil => simp [wheeled]
    | cons h P => rw [wheeled, ih]; simp; omega

/-- **C85.** Whatever number of materials there is, with the numbers they have when they go: exactly the order `inPlaceOrder`, which is the right one
exactly if there is at most one. -/
theorem C85_in_place_exactly (c : BasicContext) (hdef : c.deferred = []) (k : ZoneKey) (L : List CardId) (hL : boardOf c (.mats k) = L)
    (hn : L.Nodup) (y : CardId) (hy : boardOf c (.slot k) = [y]) (ms : List MoveMsg)
    (hsrc : ms.map (·.src.place) = L.map (fun _ => matPlace k 0) ++ [zonePlace k])
    (hdst : ∀ m ∈ ms, InPile m.dst.place.loc ∧ 0 ≤ m.dst.place.oseq) (m : MoveMsg) (p : PileKey) (e : Nat) (x : CardId)
    (hms : m.src.place = pilePlace p e) (hmd : m.dst.place = zonePlace k) (hx : (boardOf c (.pile p))[e]? = some x) :
    ∃ l, trackAll c (ms.map (·.msg) ++ [m.msg]) = .ok (setLayout c l) ∧
      view l = (((boardOf c).take (.pile p) e).upd (.slot k) [x]).upd (.mats k) (inPlaceOrder L ++ [y]) ∧
      (inPlaceOrder L = L ↔ L.length ≤ 1) := by
  have key : ∃ l, trackAll c (ms.map (·.msg) ++ [m.msg]) = .ok (setLayout c l) ∧
      view l = (((boardOf c).take (.pile p) e).upd (.slot k) [x]).upd (.mats k) (inPlaceOrder L ++ [y]) := by
    rw [track_announced c hdef ms _ hsrc (by
      intro q hq
      rcases List.mem_append.mp hq with h | h
      · obtain ⟨_, _, rfl⟩ := List.mem_map.mp h
        exact mats_loc k 0
      · rw [List.mem_singleton.mp h]
        exact zone_ne_zero _) hdst m k p e hms hmd]
    cases L with
    | nil =>
      obtain ⟨l2, r2, v2⟩ := take_over c.board.frame k p e x y [] hy hL hx
      refine ⟨l2, ?_, ?_⟩
      · have hq : attachFrom 0 (zonePlace k) (([] : List CardId).map (fun _ => matPlace k 0) ++ [zonePlace k]) = [⟨zonePlace k, matPlace k 0⟩] := by
          rw [List.map_nil, List.nil_append, attachFrom_cons, if_neg]
          · simp [attachFrom, matPlace]
          · simp only [zonePlace, Place.mk.injEq, true_and]
            omega
        rw [hq]
        rw [List.length_nil] at r2
        rw [r2]
        rfl
      · rw [v2]
        simp [inPlaceOrder, wheeled, boardOf]
    | cons a L =>
      have hq : attachFrom 0 (zonePlace k) ((a :: L).map (fun _ => matPlace k 0) ++ [zonePlace k]) =
          ((L.zipIdx 1).map fun (_, i) => ⟨matPlace k 0, matPlace k i⟩) ++ [⟨zonePlace k, matPlace k (a :: L).length⟩] := by
        rw [attachFrom_append, List.map_cons, attachFrom_skip]
        congr 1
        · exact attachFrom_front k L 1 (by omega)
        · rw [attachFrom_cons, if_neg]
          · simp [attachFrom, matPlace]
          · simp only [zonePlace, Place.mk.injEq, true_and]
            omega
      obtain ⟨l1, r1, v1⟩ := wheeled_run k L c.board.frame [a] (by simp) (by rw [List.singleton_append]; exact hL)
      obtain ⟨l2, r2, v2⟩ := take_over { c.board.frame with layout := l1 } k p e x y (wheeled [a] L)
        (by show view l1 _ = _; rw [v1, upd_apply, if_neg (by simp)]; exact hy) (by show view l1 _ = _; rw [v1, upd_apply, if_pos rfl])
        (by show (view l1 _)[e]? = _; rw [v1, upd_apply, if_neg (by simp)]; exact hx)
      have hlen : (wheeled [a] L).length = (a :: L).length := by rw [wheeled_length]; simp; omega
      refine ⟨l2, ?_, ?_⟩
      · rw [hq, List.append_assoc, runOps_move_append]
        have r1' : runOps c.board.frame (DuelBoard.cardOps (.move ((L.zipIdx 1).map fun (_, i) => ⟨matPlace k 0, matPlace k i⟩))) =
          .ok { c.board.frame with layout := l1 } := r1
        rw [r1', bind_ok, ← hlen, r2]
        rfl
      · rw [v2]
        show ((((view l1).take _ _).upd _ _).upd _ _) = _
        rw [v1]
        funext D
        simp only [Board.take, upd_apply, boardOf, inPlaceOrder, List.take_succ_cons, List.take_zero, List.drop_succ_cons, List.drop_zero]
        split <;> rfl
  obtain ⟨l, h1, h2⟩ := key
  refine ⟨l, h1, h2, ?_, ?_⟩
  · intro he
    apply Classical.byContradiction
    intro hlt
    obtain ⟨l', F, h3, h4, _, h5⟩ := C85_in_place_wrong_order c hdef k L hL hn (by omega) y hy ms hsrc hdst m p e x hms hmd hx
    rw [h1] at h3
    have hl : l = l' := congrArg (fun c : BasicContext => c.board.frame.layout) (Except.ok.inj h3)
    subst hl
    rw [h2] at h4
    have := congrFun h4 (.mats k)
    simp only [upd_apply, if_true] at this
    rw [he] at this
    exact h5 (List.append_cancel_right this).symm
  · intro hlen
    match L, hlen with
    | [], _ => simp [inPlaceOrder, wheeled]
    | [a], _ => simp [inPlaceOrder, wheeled]

example : inPlaceOrder [3, 4, 5, 6] = [5, 4, 6, 3] := by simp [inPlaceOrder, wheeled]

/-- **C85.** If the core named the materials by the numbers they had before, that would be right for a monster that takes the place of another. -/
theorem C85_in_place_old_numbers (c : BasicContext) (hdef : c.deferred = []) (k : ZoneKey) (L : List CardId) (hL : boardOf c (.mats k) = L)
    (y : CardId) (hy : boardOf c (.slot k) = [y]) (ms : List MoveMsg)
    (hsrc : ms.map (·.src.place) = L.zipIdx.map (fun x => matPlace k x.2) ++ [zonePlace k])
    (hdst : ∀ m ∈ ms, InPile m.dst.place.loc ∧ 0 ≤ m.dst.place.oseq) (m : MoveMsg) (p : PileKey) (e : Nat) (x : CardId)
    (hms : m.src.place = pilePlace p e) (hmd : m.dst.place = zonePlace k) (hx : (boardOf c (.pile p))[e]? = some x) :
    ∃ l, trackAll c (ms.map (·.msg) ++ [m.msg]) = .ok (setLayout c l) ∧
      view l = (((boardOf c).take (.pile p) e).upd (.slot k) [x]).upd (.mats k) (L ++ [y]) := by
  rw [track_announced c hdef ms _ hsrc (by
    intro q hq
    rcases List.mem_append.mp hq with h | h
    · obtain ⟨_, _, rfl⟩ := List.mem_map.mp h
      exact mats_loc k _
    · rw [List.mem_singleton.mp h]
      exact zone_ne_zero _) hdst m k p e hms hmd]
  have hq : attachFrom 0 (zonePlace k) (L.zipIdx.map (fun x => matPlace k x.2) ++ [zonePlace k]) =
      [⟨zonePlace k, matPlace k L.length⟩] := by
    rw [attachFrom_append]
    have := attachFrom_index k L 0
    rw [this, List.nil_append, attachFrom_cons, if_neg]
    · simp [attachFrom, matPlace]
    · simp only [zonePlace, Place.mk.injEq, true_and]
      omega
  obtain ⟨l2, r2, v2⟩ := take_over c.board.frame k p e x y L hy hL hx
  refine ⟨l2, ?_, v2⟩
  rw [hq, r2]
  rfl

/-- Materials that are looked for by old numbers are not found. -/
theorem old_numbers_short (k k0 : ZoneKey) (hk : k0 ≠ k) (L : List CardId) : ∀ (n : Nat) (f f' : Frame), L ≠ [] →
    runOps f (DuelBoard.cardOps (.move ((L.zipIdx n).map fun x => ⟨matPlace k0 x.2, matPlace k x.2⟩))) = .ok f' →
    n + 2 * L.length ≤ (view f.layout (.mats k0)).length + 1 := by
  induction L with
  | nil => intro n f f' h; exact absurd rfl h
  | cons a L ih =>
    intro n f f' _ h
    rw [List.zipIdx_cons, List.map_cons, runOps_move, bind_eq_ok] at h
    obtain ⟨⟨f1, z⟩, h1, h⟩ := h
    rw [C09_card_move] at h1
    obtain ⟨_, _, C1, i, C2, j, ha, hb, _, _, hz, _, _, _, hv⟩ := h1
    obtain ⟨rfl, hi⟩ := At.unique ha (.mats k0 n)
    obtain ⟨rfl, hj⟩ := At.unique hb (.mats k n)
    rw [hi] at hz hv
    have hlt := (List.getElem?_eq_some_iff.mp hz).1
    have hl : (view f1.layout (.mats k0)).length = (view f.layout (.mats k0)).length - 1 := by
      rw [hv]
      simp only [Board.carry, Board.put, Board.take, upd_apply, Container.mats.injEq, hk, if_false, if_true, List.length_eraseIdx, hlt]
    by_cases hL : L = []
    · subst hL; simp only [List.length_cons, List.length_nil]; omega
    · have := ih (n + 1) f1 f' hL h
      rw [hl] at this
      simp only [List.length_cons]
      omega

/-- **C85.** But then a monster that takes the two or more materials of one in another zone could not be shown: the translation aborts. -/
theorem C85_elsewhere_old_numbers (c : BasicContext) (hdef : c.deferred = []) (k k0 : ZoneKey) (hk : k0 ≠ k) (L : List CardId)
    (hL : boardOf c (.mats k0) = L) (h2 : 2 ≤ L.length) (ms : List MoveMsg)
    (hsrc : ms.map (·.src.place) = L.zipIdx.map (fun x => matPlace k0 x.2) ++ [zonePlace k0])
    (hdst : ∀ m ∈ ms, InPile m.dst.place.loc ∧ 0 ≤ m.dst.place.oseq) (m : MoveMsg) (p : PileKey) (e : Nat)
    (hms : m.src.place = pilePlace p e) (hmd : m.dst.place = zonePlace k) :
    ∀ c', trackAll c (ms.map (·.msg) ++ [m.msg]) ≠ .ok c' := by
  intro c' h
  rw [track_announced c hdef ms _ hsrc (by
    intro q hq
    rcases List.mem_append.mp hq with h | h
    · obtain ⟨_, _, rfl⟩ := List.mem_map.mp h
      exact mats_loc k0 _
    · rw [List.mem_singleton.mp h]
      exact zone_ne_zero _) hdst m k p e hms hmd, bind_eq_ok] at h
  obtain ⟨f, h, _⟩ := h
  rw [attachFrom_append] at h
  have := attachFrom_elsewhere k k0 hk L 0
  rw [this, List.append_assoc, runOps_move_append, bind_eq_ok] at h
  obtain ⟨f1, h, _⟩ := h
  have hL' : L ≠ [] := by rintro rfl; simp at h2
  have := old_numbers_short k k0 hk L 0 c.board.frame f1 hL' h
  rw [show view c.board.frame.layout (.mats k0) = L from hL] at this
  omega

/-! ## Materials left behind -/

/-- **C63.** A material of a monster that has left its zone goes to any pile or under any monster. -/
theorem C63_material_anywhere (c : BasicContext) (m : MoveMsg) (k : ZoneKey) (q p : Place) (hq : c.left q = some p) (hp : Names p k)
    (hqo : q.oseq = -1) (hqp : InPile q.loc) (i : Nat) (x : CardId) (hms : m.src.place = { q with oseq := (i : Int) }) (C : Container) (j : Nat)
    (hd : At m.dst.place C j) (pd : PlainPile m.dst.place C) (hC : ∀ k', C ≠ .slot k') (hx : (boardOf c (.mats k))[i]? = some x)
    (hj : j ≤ ((boardOf c).take (.mats k) i C).length) :
    ∃ l, track c m.msg.bytes = .ok (setLayout c l) ∧ view l = gone (boardOf c) (.mats k) i C j x := by
  have hk : moveKind m.src.place m.dst.place = .leftBehind := by
    rw [hms]
    refine (C39_kinds _ _).2.2.2.2.2.1.mpr ⟨inPile_ne_zero hqp, at_loc_ne_zero hd, ⟨?_, ?_⟩, hqp, by show (0 : Int) ≤ i; omega⟩
    · intro h
      obtain ⟨k', rfl⟩ := (at_isPile hd).mp ((pileLoc_iff _).mpr h)
      exact pd k' rfl
    · intro h
      generalize m.dst.place = b at hd h
      cases hd with
      | pile k s o => exact inPile_code _
      | slot k' o h => exact absurd rfl (hC k')
      | mats k' n => simp only at h; omega
  have h1 := C39_left_behind c m.code m.src m.dst m.reason [] hk
  rw [List.append_nil, hms] at h1
  have e : ({ ({ q with oseq := (i : Int) } : Place) with oseq := -1 } : Place) = q := by
    obtain ⟨_, _, _, o⟩ := q
    simp only at hqo
    subst hqo
    rfl
  have e' : EncodeContext.getXyzLeft c q = .ok p := by
    show orUb (c.left q) = _
    rw [hq]; rfl
  have e2 : ({ p with oseq := (i : Int) } : Place) = matPlace k i := by
    obtain ⟨h1, h2, h3⟩ := hp
    simp only [matPlace, zonePlace, Place.mk.injEq]
    exact ⟨h1, h2, h3, trivial⟩
  rw [e, e'] at h1
  change encodeOne c _ = .ok (reported _ _ (.move [⟨{ p with oseq := (i : Int) }, _⟩]), c) at h1
  rw [e2] at h1
  obtain ⟨l, r, v⟩ := cardMove_does c.board.frame (a := matPlace k i) (b := m.dst.place) (C1 := .mats k)
    (C2 := C) (i := i) (j := j) (x := x) (.mats k i) hd (by intro p h; cases h) pd hx (fun k' h => absurd h (hC k')) hj
    (by cases C <;> trivial)
  refine ⟨l, ?_, v⟩
  exact track_cards (f := { c.board.frame with layout := l }) h1 (by
    show runOps c.board.frame (DuelBoard.cardOps (.move [_])) = _
    rw [runOps_move, r]
    rfl)

/-! ## Examples -/

/-- Card 5 with materials 3 and 4, three cards in the extra deck, and a hand. -/
def rankBoard : BasicContext := setLayout BasicContext.init
  ⟨fun k => if k = ⟨0, .extraDeck⟩ then [7, 8, 9] else if k = ⟨0, .hand⟩ then [6, 10] else [],
   fun k => if k = ⟨0, .monster, 1, by decide⟩ then ⟨some 5, [3, 4]⟩ else ⟨none, []⟩⟩

def rankZone : ZoneKey := ⟨0, .monster, 1, by decide⟩
def freeZone : ZoneKey := ⟨0, .monster, 2, by decide⟩

/-- Both materials, the monster itself and a card of the hand become materials of card 8 in another zone; the player is asked for the position
in between. -/
example : ∃ c', trackAll rankBoard ([.move 0 ⟨0, 0x84, 1, 0⟩ ⟨0, 0xC0, 1, 0⟩ 0, .move 0 ⟨0, 0x84, 1, 0⟩ ⟨0, 0xC0, 1, 1⟩ 0,
      .move 0 ⟨0, 4, 1, 1⟩ ⟨0, 0xC0, 1, 2⟩ 0, .move 0 ⟨0, 2, 0, 1⟩ ⟨0, 0xC0, 1, 3⟩ 0, .selectPosition 0 8 5] ++ [.move 0 ⟨0, 0x40, 1, 1⟩ ⟨0, 4, 2, 1⟩ 7]) = .ok c' ∧
    boardOf c' (.slot freeZone) = [8] ∧ boardOf c' (.mats freeZone) = [3, 4, 5, 6] ∧ boardOf c' (.slot rankZone) = [] ∧
    boardOf c' (.mats rankZone) = [] ∧ boardOf c' (.pile ⟨0, .hand⟩) = [10] ∧ boardOf c' (.pile ⟨0, .extraDeck⟩) = [7, 9] := by
  have hd : ∀ m : MoveMsg, m.dst = ⟨0, 0xC0, 1, 0⟩ ∨ m.dst = ⟨0, 0xC0, 1, 1⟩ ∨ m.dst = ⟨0, 0xC0, 1, 2⟩ ∨ m.dst = ⟨0, 0xC0, 1, 3⟩ →
      InPile m.dst.place.loc ∧ 0 ≤ m.dst.place.oseq := by
    intro m h
    rcases h with h | h | h | h <;> rw [h] <;> unfold InPile <;> decide
  have nm : ∀ {p : Place} {k : ZoneKey}, PlainPile p (.mats k) := by intro p k k' h; cases h
  have ns : ∀ {p : Place} {k : ZoneKey}, PlainPile p (.slot k) := by intro p k k' h; cases h
  have a1 : At (⟨0, 0x84, 1, 0⟩ : LocInfo).place (.mats rankZone) 0 := by
    rw [show (⟨0, 0x84, 1, 0⟩ : LocInfo).place = matPlace rankZone 0 by decide]; exact .mats rankZone 0
  have a2 : At (⟨0, 4, 1, 1⟩ : LocInfo).place (.slot rankZone) 0 := by
    rw [show (⟨0, 4, 1, 1⟩ : LocInfo).place = zonePlace rankZone by decide]; exact .slot rankZone (-1) (by decide)
  have a3 : At (⟨0, 2, 0, 1⟩ : LocInfo).place (.pile ⟨0, .hand⟩) 0 := by
    rw [show (⟨0, 2, 0, 1⟩ : LocInfo).place = pilePlace ⟨0, .hand⟩ 0 by decide]; exact .pile ⟨0, .hand⟩ 0 (-1)
  have a4 : At (⟨0, 0x40, 1, 1⟩ : LocInfo).place (.pile ⟨0, .extraDeck⟩) 1 := by
    rw [show (⟨0, 0x40, 1, 1⟩ : LocInfo).place = pilePlace ⟨0, .extraDeck⟩ 1 by decide]; exact .pile ⟨0, .extraDeck⟩ 1 (-1)
  obtain ⟨c', r, v, _⟩ := C85_overlay_partial rankBoard rfl freeZone _ _ _
    (.card ⟨0, ⟨0, 0x84, 1, 0⟩, ⟨0, 0xC0, 1, 0⟩, 0⟩ (.mats rankZone) 0 3 a1 nm (hd _ (by simp)) rfl (by intro h; cases h)
    (.card ⟨0, ⟨0, 0x84, 1, 0⟩, ⟨0, 0xC0, 1, 1⟩, 0⟩ (.mats rankZone) 0 4 a1 nm (hd _ (by simp)) rfl (by intro h; cases h)
    (.card ⟨0, ⟨0, 4, 1, 1⟩, ⟨0, 0xC0, 1, 2⟩, 0⟩ (.slot rankZone) 0 5 a2 ns (hd _ (by simp)) rfl (by intro h; cases h)
    (.card ⟨0, ⟨0, 2, 0, 1⟩, ⟨0, 0xC0, 1, 3⟩, 0⟩ (.pile ⟨0, .hand⟩) 0 6 a3 (by intro _ _; decide) (hd _ (by simp)) rfl (by intro h; cases h)
    (.aside (.selectPosition 0 8 5) ⟨id, id, trivial⟩ (.done _ _))))))
    (by simp [CoreMsg.Fits, MoveMsg.msg]) ⟨0, ⟨0, 0x40, 1, 1⟩, ⟨0, 4, 2, 1⟩, 7⟩ (.pile ⟨0, .extraDeck⟩) 1 8 a4
    (by intro _ _; decide) (by decide) (by intro _ h; cases h) (by intro h; cases h) rfl rfl
  refine ⟨c', r, ?_⟩
  rw [v]
  decide

set_option maxRecDepth 8000 in
/-- In the zone of the monster itself the two materials change places. -/
example : ∃ l, trackAll rankBoard [.move 0 ⟨0, 0x84, 1, 0⟩ ⟨0, 0xC0, 1, 0⟩ 0, .move 0 ⟨0, 0x84, 1, 0⟩ ⟨0, 0xC0, 1, 1⟩ 0,
      .move 0 ⟨0, 4, 1, 1⟩ ⟨0, 0xC0, 1, 2⟩ 0, .move 0 ⟨0, 0x40, 1, 1⟩ ⟨0, 4, 1, 1⟩ 7] = .ok (setLayout rankBoard l) ∧
    view l (.slot rankZone) = [8] ∧ view l (.mats rankZone) = [4, 3, 5] := ⟨_, rfl, by decide, by decide⟩

/-- The hypotheses can be met. -/
example : ∃ l F, trackAll rankBoard ([⟨0, ⟨0, 0x84, 1, 0⟩, ⟨0, 0xC0, 1, 0⟩, 0⟩, ⟨0, ⟨0, 0x84, 1, 0⟩, ⟨0, 0xC0, 1, 1⟩, 0⟩,
      ⟨0, ⟨0, 4, 1, 1⟩, ⟨0, 0xC0, 1, 2⟩, 0⟩].map MoveMsg.msg ++ [MoveMsg.msg ⟨0, ⟨0, 0x40, 1, 1⟩, ⟨0, 4, 1, 1⟩, 7⟩]) = .ok (setLayout rankBoard l) ∧
    view l (.mats rankZone) = F ++ [5] ∧ F.Perm [3, 4] ∧ F ≠ [3, 4] := by
  obtain ⟨l, F, r, v, h⟩ := C85_in_place_wrong_order rankBoard rfl rankZone [3, 4] rfl (by decide) (by decide) 5 rfl
    [⟨0, ⟨0, 0x84, 1, 0⟩, ⟨0, 0xC0, 1, 0⟩, 0⟩, ⟨0, ⟨0, 0x84, 1, 0⟩, ⟨0, 0xC0, 1, 1⟩, 0⟩, ⟨0, ⟨0, 4, 1, 1⟩, ⟨0, 0xC0, 1, 2⟩, 0⟩] (by decide)
    (by unfold InPile; decide) ⟨0, ⟨0, 0x40, 1, 1⟩, ⟨0, 4, 1, 1⟩, 7⟩ ⟨0, .extraDeck⟩ 1 8 (by decide) (by decide) rfl
  exact ⟨l, F, r, by rw [v, upd_apply, if_pos rfl], h⟩

set_option maxRecDepth 8000 in
/-- With old numbers the same summon is shown right, -/
example : ∃ l, trackAll rankBoard [.move 0 ⟨0, 0x84, 1, 0⟩ ⟨0, 0xC0, 1, 0⟩ 0, .move 0 ⟨0, 0x84, 1, 1⟩ ⟨0, 0xC0, 1, 1⟩ 0,
      .move 0 ⟨0, 4, 1, 1⟩ ⟨0, 0xC0, 1, 2⟩ 0, .move 0 ⟨0, 0x40, 1, 1⟩ ⟨0, 4, 1, 1⟩ 7] = .ok (setLayout rankBoard l) ∧
    view l (.slot rankZone) = [8] ∧ view l (.mats rankZone) = [3, 4, 5] := ⟨_, rfl, by decide, by decide⟩

/-- but not one in another zone. -/
example : ∀ c', trackAll rankBoard ([⟨0, ⟨0, 0x84, 1, 0⟩, ⟨0, 0xC0, 1, 0⟩, 0⟩, ⟨0, ⟨0, 0x84, 1, 1⟩, ⟨0, 0xC0, 1, 1⟩, 0⟩,
      ⟨0, ⟨0, 4, 1, 1⟩, ⟨0, 0xC0, 1, 2⟩, 0⟩].map MoveMsg.msg ++ [MoveMsg.msg ⟨0, ⟨0, 0x40, 1, 1⟩, ⟨0, 4, 2, 1⟩, 7⟩]) ≠ .ok c' :=
  C85_elsewhere_old_numbers rankBoard rfl freeZone rankZone (by decide) [3, 4] rfl (by decide)
    [⟨0, ⟨0, 0x84, 1, 0⟩, ⟨0, 0xC0, 1, 0⟩, 0⟩, ⟨0, ⟨0, 0x84, 1, 1⟩, ⟨0, 0xC0, 1, 1⟩, 0⟩, ⟨0, ⟨0, 4, 1, 1⟩, ⟨0, 0xC0, 1, 2⟩, 0⟩] (by decide)
    (by unfold InPile; decide) ⟨0, ⟨0, 0x40, 1, 1⟩, ⟨0, 4, 2, 1⟩, 7⟩ ⟨0, .extraDeck⟩ 1 (by decide) (by decide)

end Ygo.Props
