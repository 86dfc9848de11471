import Verif.Lemmas.ReleaseSound
import Verif.Props.Rewind
import Verif.Props.Release

/-!
# Undoable boards in builds without asserts (C89)
-/

set_option linter.unusedSimpArgs false

namespace Ygo.Props
open Ygo Spec P

/-! ## Where asserts hold they make no difference -/

/-- **C89.** A call that gets through with asserts does the same without them. -/
theorem C89_same (f f' : Limbo) (hl : Logged f) (op : FrameOp) (h : f.step op = .ok f') : (asRawLimbo f).step op = .ok (asRawLimbo f') :=
  Limbo.step_same hl h

/-- **C89.** So does undoing one. -/
theorem C89_same_undo (f f' : Limbo) (op : FrameOp) (h : f.undo op = .ok f') : (asRawLimbo f).undo op = .ok (asRawLimbo f') :=
  Limbo.undo_same h

/-- **C89.** So does an event. -/
theorem C89_same_event (b b' : UndoBoard) (hl : Logged b.frame) (e : Event) (h : b.parseEvent e = .ok b') :
    RawUndoBoard.parseEvent (asRawUndo b) e = .ok (asRawUndo b') := (parseEvent_same hl h).1

/-- **C89.** So does undoing one. -/
theorem C89_same_undo_event (b b' : UndoBoard) (hl : Logged b.frame) (e : Event) (h : b.undoParseEvent e = .ok b') :
    RawUndoBoard.undoParseEvent (asRawUndo b) e = .ok (asRawUndo b') := (undoParseEvent_same hl h).1

theorem undoInit_same : asRawUndo UndoBoard.init = RawUndoBoard.init := rfl

/-- **C89.** So does going back and forth over any events, from the beginning. -/
theorem C89_same_walk (es : List Event) (ms : List Move) (b : UndoBoard) (i : Nat) (h : scrub es UndoBoard.init 0 ms = .ok (b, i)) :
    rawScrub es RawUndoBoard.init 0 ms = .ok (asRawUndo b, i) := (scrub_same Limbo.logged_init h).1

/-! ## Following a duel -/

/-- Events that can be followed are followed. -/
theorem follow_plain {es : List Event} {p p' : PlainBoard} {u : UndoBoard} (hs : Shows p u) (hr : Refines p.frame u.frame) (hi : Inv p.frame)
    (hl : Live u) (h : p.parseEvents es = .ok p') (hf : Followable p es) : ∃ u', u.parseEvents es = .ok u' ∧ Shows p' u' := by
  induction es generalizing p u with
  | nil => cases h; exact ⟨u, rfl, hs⟩
  | cons e es ih =>
    simp only [DuelBoard.parseEvents, bind_eq_ok] at h
    obtain ⟨p1, h1, h2⟩ := h
    obtain ⟨u1, h4⟩ := parse_of_plain hs hr hi hl h1 hf.1 hf.2.1
    obtain ⟨p2, h5, h6, h7, h8, h9⟩ := parse_shows hs hr hi hl h4
    rw [h1] at h5; cases h5
    obtain ⟨u', h10, h11⟩ := ih h6 h7 h8 h9 h2 (hf.2.2 _ h1)
    exact ⟨u', by simp only [DuelBoard.parseEvents, h4, bind_ok]; exact h10, h11⟩

theorem shows_init : Shows PlainBoard.init UndoBoard.init := ⟨rfl, rfl, rfl, rfl, fun _ => rfl, rfl, rfl⟩
theorem refines_init : Refines PlainBoard.init.frame UndoBoard.init.frame := ⟨rfl, rfl, fun _ h => h⟩

theorem init_withChain : withChain PlainBoard.init [] = PlainBoard.init := rfl

/-- **C89.** A client whose board can be undone, in a build without asserts, follows all events of a board that shrink piles only by at
least half. It shows that board, except for the chain: that is the one of the last state. -/
theorem C89_follow (es : List Event) (p : PlainBoard) (h : PlainBoard.init.parseEvents es = .ok p) (hh : HalvesAll PlainBoard.init es) :
    ∃ u, RawUndoBoard.parseEvents RawUndoBoard.init es = .ok u ∧ RawShows p (lastChain [] es) u := by
  have hm := parseEvents_withChain [] h
  rw [init_withChain] at hm
  obtain ⟨u, h1, h2⟩ := follow_plain shows_init refines_init Inv.init live_init hm ((halvesAll_mute [] h).mpr hh)
  obtain ⟨h3, _⟩ := parseEvents_same Limbo.logged_init h1
  rw [undoInit_same, raw_events_mute] at h3
  exact ⟨_, h3, rawShows_of h2⟩

theorem raw_resize_ub {f : Limbo} {p : Place} {n : Nat} {k : PileKey} {i : Nat} (hl : LiveFrame f) (hp : At p (.pile k) i)
    (h1 : n < (f.base.layout.pile k).length) (h2 : (f.base.layout.pile k).length < 2 * n) : (asRawLimbo f).step (.resize p n) = .error .ub := by
  obtain ⟨⟨L, ow, nx⟩, op, q, pre⟩ := f
  obtain ⟨ha, hb⟩ := hl
  simp only at ha hb h1 h2
  subst ha hb
  have h3 : ¬ (L.pile k).length < n := by omega
  have hk : Raw.pileOf p = .ok k := by rw [Raw.pileOf_iff]; exact Spec.At.pileKey hp
  have hc : RawLimbo.copyOver (((L.pile k).map some).drop ((L.pile k).length - n)) (RawLimbo.resizeSlice [] ((L.pile k).length - n)) = .error .ub := by
    have : ¬ (L.pile k).length - ((L.pile k).length - n) ≤ (L.pile k).length - n := by omega
    simp [RawLimbo.copyOver, RawLimbo.resizeSlice, guardUb, this]
  simp [RawLimbo.step, RawLimbo.pileResize, RawLimbo.advance, asRawLimbo, asRaw, hk, RawLimbo.resizeOp, RawLimbo.emplace, RawLimbo.setAt, h3, h1, hc]

theorem raw_runOps_shrinks {Xs : List FrameOp} {g g' : Frame} {f : Limbo} {r : RawLimbo} (hl : LiveFrame f) (hi : Inv g) (hr : Refines g f)
    (h : runOps g Xs = .ok g') (hx : runOps (asRawLimbo f) Xs = .ok r) : ShrinksByHalf g Xs := by
  induction Xs generalizing f g with
  | nil => trivial
  | cons X Xs ih =>
    simp only [runOps, FrameLike.step, bind_eq_ok] at h hx
    obtain ⟨g1, h1, h2⟩ := h
    obtain ⟨r1, h3, h4⟩ := hx
    have hX : ∀ p n k i, X = .resize p n → At p (.pile k) i → (view g.layout (.pile k)).length ≤ n ∨ 2 * n ≤ (view g.layout (.pile k)).length := by
      rintro p n k i rfl hp
      have e : view g.layout (.pile k) = f.base.layout.pile k := by rw [hr.layout]; rfl
      rw [e]
      by_cases hn : n < (f.base.layout.pile k).length ∧ (f.base.layout.pile k).length < 2 * n
      · rw [raw_resize_ub hl hp hn.1 hn.2] at h3; cases h3
      · omega
    refine ⟨hX, fun g2 hg => ?_⟩
    rw [h1] at hg; cases hg
    obtain ⟨f1, h5⟩ := Limbo.step_of_plain hl hr.layout.symm hr.next.symm h1 hX
    obtain ⟨h6, _, g2, h7, h8⟩ := Limbo.step_refines hl hi hr h5
    rw [h1] at h7; cases h7
    rw [Limbo.step_same hl.2 h5] at h3; cases h3
    exact ih h6 (hi.step h1) h8 h2 h4

theorem rawUndo_frame {b b' : RawUndoBoard} {e : Event} (h : RawUndoBoard.parseEvent b e = .ok b') : runOps b.frame (frameOps e) = .ok b'.frame := by
  cases e with
  | lp con c =>
    simp only [RawUndoBoard.parseEvent, bind_eq_ok, pure_eq_ok, Except.ok.injEq] at h
    obtain ⟨_, _, _, _, rfl⟩ := h
    rfl
  | _ => exact parse_frame h

/-- **C89 (exactly when).** It follows exactly these. -/
theorem C89_follow_exactly (es : List Event) (p : PlainBoard) (h : PlainBoard.init.parseEvents es = .ok p) :
    (∃ u, RawUndoBoard.parseEvents RawUndoBoard.init es = .ok u) ↔ HalvesAll PlainBoard.init es := by
  refine ⟨?_, fun hh => (C89_follow es p h hh).imp fun _ h => h.1⟩
  suffices hg : ∀ (es : List Event) (q p : PlainBoard) (ch : List Chain) (u : UndoBoard) (r : RawUndoBoard), Shows (withChain q ch) u →
      Refines q.frame u.frame → Inv q.frame → Live u → q.parseEvents es = .ok p → RawUndoBoard.parseEvents (asRawUndo u) es = .ok r →
      HalvesAll q es by
    rintro ⟨r, hr⟩
    exact hg es PlainBoard.init p [] UndoBoard.init r shows_init refines_init Inv.init live_init h hr
  intro es
  induction es with
  | nil => intros; trivial
  | cons e es ih =>
    intro q p ch u r hs hr hi hl h hx
    simp only [DuelBoard.parseEvents, RawUndoBoard.parseEvents, bind_eq_ok] at h hx
    obtain ⟨q1, h1, h2⟩ := h
    obtain ⟨r1, h3, h4⟩ := hx
    have hb : ShrinksByHalf q.frame (frameOps e) := raw_runOps_shrinks hl.frame hi hr (parse_frame h1) (rawUndo_frame h3)
    refine ⟨hb, fun q2 hq => ?_⟩
    rw [h1] at hq; cases hq
    have h5 := parse_withChain ch h1
    obtain ⟨u1, h6⟩ := parse_of_plain (p := withChain q ch) hs hr hi hl h5 (noSingleLinks_mute e) (by rw [frameOps_mute]; exact hb)
    obtain ⟨q2, h7, h8, h9, h10, h11⟩ := parse_shows (p := withChain q ch) hs hr hi hl h6
    rw [h5] at h7; cases h7
    have h12 := (parseEvent_same hl.frame.2 h6).1
    rw [raw_mute, h3] at h12; cases h12
    exact ih _ p _ u1 r h8 h9 h10 h11 h2 h4

/-! ## Going back and forth -/

theorem parseEvents_take {es : List Event} {p p' : PlainBoard} (h : p.parseEvents es = .ok p') (i : Nat) : ∃ q, p.parseEvents (es.take i) = .ok q := by
  induction es generalizing p i with
  | nil => exact ⟨p, by simp only [List.take_nil]; rfl⟩
  | cons e es ih =>
    cases i with
    | zero => exact ⟨p, rfl⟩
    | succ i =>
      simp only [DuelBoard.parseEvents, bind_eq_ok] at h
      obtain ⟨p1, h1, h2⟩ := h
      obtain ⟨q, hq⟩ := ih h2 i
      exact ⟨q, by simp only [List.take_succ_cons, DuelBoard.parseEvents, h1, bind_ok, hq]⟩

/-- **C89.** A client in a build without asserts goes back and forth in any way over events whose frame operations can be undone. It
always gets through, and shows the board after the events it has seen, except for the chain: that is the one of the last state among
them. -/
theorem C89_walk_events (es : List Event) (p : PlainBoard) (h : PlainBoard.init.parseEvents es = .ok p)
    (hr : FrameRewindable PlainBoard.init es) (ms : List Move) :
    ∃ u i q, rawScrub es RawUndoBoard.init 0 ms = .ok (u, i) ∧ i ≤ es.length ∧ PlainBoard.init.parseEvents (es.take i) = .ok q ∧
      RawShows q (lastChain [] (es.take i)) u := by
  have hm := parseEvents_withChain [] h
  have hrw : Rewindable PlainBoard.init (es.map mute) := (frameRewindable_mute [] h).mpr hr
  rw [init_withChain] at hm
  obtain ⟨un, hu, _⟩ := follow_plain shows_init refines_init Inv.init live_init hm (rewindable_followable hrw)
  have hs := rewindable_supported (u := UndoBoard.init) shows_init refines_init Inv.init live_init hrw
  obtain ⟨u, i, ui, h1, h2, h3, h4⟩ := C28_scrub_partial UndoBoard.init un (es.map mute) live_init hs hu ms
  obtain ⟨q, hq⟩ := parseEvents_take h i
  refine ⟨asRawUndo u, i, q, ?_, by simpa using h2, hq, rawShows_of (shows_of_sight ?_ h4)⟩
  · have := (scrub_same Limbo.logged_init h1).1
    rwa [undoInit_same, rawScrub_mute] at this
  · obtain ⟨q', h5, h6⟩ := C58_same_as_plain _ ui h3
    have h7 := parseEvents_withChain [] hq
    rw [init_withChain, List.map_take, h5] at h7
    cases h7
    exact h6

/-- **C89.** So a client in a build without asserts goes back and forth over a duel, and shows what the server had after the buffers
whose events it has seen, except for the chain. -/
theorem C89_walk (ds : List (List UInt8)) (rs : List Encoded) (c : BasicContext) (h : feed BasicContext.init ds = .ok (rs, c))
    (hr : FrameRewindable PlainBoard.init (events rs)) (ms : List Move) :
    ∃ u i, rawScrub (events rs) RawUndoBoard.init 0 ms = .ok (u, i) ∧ i ≤ (events rs).length ∧
      ∀ k rs' c', feed BasicContext.init (ds.take k) = .ok (rs', c') → (events rs').length = i → RawShows c'.board (lastChain [] (events rs')) u := by
  have hp := follow_events (C66_clients_in_step ds rs c h false)
  obtain ⟨u, i, q, h1, h2, h3, h4⟩ := C89_walk_events (events rs) _ hp hr ms
  refine ⟨u, i, h1, h2, ?_⟩
  intro k rs' c' hf hi
  obtain ⟨ck, hc⟩ := feed_take h k
  rw [hf] at hc; cases hc
  have he := events_take rs k
  rw [hi] at he
  have h5 := follow_events (C66_clients_in_step _ _ _ hf false)
  rw [show (messages (rs.take k)).filterMap Msg.event? = events (rs.take k) from rfl, he, show Client.init.board = PlainBoard.init from rfl, h3] at h5
  cases h5
  rw [he]
  exact h4

/-! ### Buffers over which one can go back and forth -/

/-- No pile is resized, except on an empty board. -/
def QuietEvent (e : Event) : Prop := FromScratch e ∨ ∀ X ∈ frameOps e, ∀ p n, X ≠ .resize p n

theorem encodeOne_quiet {c c' : BasicContext} {data : List UInt8} {r : Encoded} (h : encodeOne c data = .ok (r, c'))
    (hd : ∀ b rest, data = b :: rest → b ≠ 161) : ∀ m e, r.msg = some m → Msg.event? m = some e → QuietEvent e := by
  by_cases hb : ∀ b rest, data = b :: rest → b ≠ 70 ∧ b ≠ 73
  · intro m e hm he
    rcases encodeOne_calm h (fun b rest e => ⟨(hb b rest e).1, (hb b rest e).2, hd b rest e⟩) m e hm he with h | h
    · exact .inl h
    · exact .inr h.2
  · obtain ⟨b, rest, rfl, hb'⟩ : ∃ b rest, data = b :: rest ∧ (b = 70 ∨ b = 73) := by
      simp only [Classical.not_forall, not_and_or, ne_eq, Classical.not_not] at hb
      obtain ⟨b, rest, e, hb⟩ := hb
      exact ⟨b, rest, e, hb⟩
    obtain ⟨o, t, h1, rfl⟩ := encodeOne_eq h
    suffices hq : ∀ m e, o.msg = some m → Msg.event? m = some e → frameOps e = [] by
      intro m e hm he
      exact .inr (by rw [hq m e hm he]; nofun)
    have h2 : ∃ k, (k = .chaining ∨ k = .chainSolved) ∧ encodeCase c k rest = .ok ((o, c'), t) := by
      rcases hb' with rfl | rfl
      · exact ⟨.chaining, .inl rfl, h1⟩
      · exact ⟨.chainSolved, .inr rfl, h1⟩
    obtain ⟨k, hk, h2⟩ := h2
    have hg : Gives (fun x : Outcome × BasicContext => ∀ m e, x.1.msg = some m → Msg.event? m = some e → frameOps e = []) (encodeCase c k) := by
      rcases hk with rfl | rfl
      · refine Gives.bind' (Q := fun o => ∀ m e, o.msg = some m → Msg.event? m = some e → frameOps e = [])
          (Gives.bind fun _ => Gives.bind fun _ => Gives.pure ?_) fun _ h => Gives.pure h
        rintro m e hm he
        cases hm; cases he; rfl
      · refine Gives.bind' (Q := fun o => ∀ m e, o.msg = some m → Msg.event? m = some e → frameOps e = [])
          (Gives.bind fun _ => Gives.pure ?_) fun _ h => Gives.pure h
        rintro m e hm he
        cases hm; cases he; rfl
    exact hg _ _ _ h2

theorem quiet_rewindable (ds : List (List UInt8)) (hd : ∀ d ∈ ds, NoShuffleNoSwap d) (rs : List Encoded) (c0 c : BasicContext)
    (hr : Reachable c0.board.frame) (h : feed c0 ds = .ok (rs, c)) : FrameRewindable c0.board (events rs) := by
  induction ds generalizing c0 rs with
  | nil => cases h; trivial
  | cons d ds ih =>
    obtain ⟨r, c1, c2, rs', h1, hs, h2, h3, rfl⟩ := feed_cons h
    have hr1 : Reachable c1.board.frame := by rw [hs.board]; exact hr
    have hd' : ∀ d ∈ ds, NoShuffleNoSwap d := fun d h => hd d (by simp [h])
    rw [events_cons]
    cases hm : r.msg with
    | none =>
      rw [hm] at h2; cases h2
      rw [← hs.board]
      exact ih hd' rs' c1 hr1 h3
    | some m =>
      rw [hm] at h2
      have hr2 := parse_reachable h2 hr1
      have hrest := ih hd' rs' c2 hr2 h3
      obtain ⟨b, st, hb, _, rfl⟩ := parse_parts h2
      rw [← hs.board, Option.bind_some]
      cases he : Msg.event? m with
      | none =>
        rw [he] at hb; cases hb
        exact hrest
      | some e =>
        rw [he] at hb
        have hb : c1.board.parseEvent e = .ok b := hb
        have ho := hd d (by simp)
        have hc := encodeOne_quiet h1 (fun b rest hb => (ho b rest hb).2) m e hm he
        have ht := encodeOne_tame h1 (fun b rest hb => (ho b rest hb).1) m e hm he
        have : RewindableOps c1.board.frame (frameOps e) := by
          rcases hc with hc | hc
          · exact (fromScratch_rewind hc hr1.inv).2
          · exact ops_rewindable (parse_frame hb) ht hc
        refine ⟨this, fun b' hb' => ?_⟩
        rw [hb] at hb'; cases hb'
        exact hrest

/-- **C89.** That holds for all buffers that do not shuffle set cards or swap tag partners, whatever they contain; chain links do not
matter. -/
theorem C89_walk_partial (ds : List (List UInt8)) (hd : ∀ d ∈ ds, NoShuffleNoSwap d) (rs : List Encoded) (c : BasicContext)
    (h : feed BasicContext.init ds = .ok (rs, c)) (ms : List Move) :
    ∃ u i, rawScrub (events rs) RawUndoBoard.init 0 ms = .ok (u, i) ∧ i ≤ (events rs).length ∧
      ∀ k rs' c', feed BasicContext.init (ds.take k) = .ok (rs', c') → (events rs').length = i → RawShows c'.board (lastChain [] (events rs')) u :=
  C89_walk ds rs c h (quiet_rewindable ds hd rs _ c ⟨[], rfl⟩ h) ms

theorem quiet_halves (ds : List (List UInt8)) (hd : ∀ d ∈ ds, ∀ b rest, d = b :: rest → b ≠ 161) (rs : List Encoded) (c0 c : BasicContext)
    (hr : Reachable c0.board.frame) (h : feed c0 ds = .ok (rs, c)) : HalvesAll c0.board (events rs) := by
  induction ds generalizing c0 rs with
  | nil => cases h; trivial
  | cons d ds ih =>
    obtain ⟨r, c1, c2, rs', h1, hs, h2, h3, rfl⟩ := feed_cons h
    have hr1 : Reachable c1.board.frame := by rw [hs.board]; exact hr
    have hd' : ∀ d ∈ ds, ∀ b rest, d = b :: rest → b ≠ 161 := fun d h => hd d (by simp [h])
    rw [events_cons]
    cases hm : r.msg with
    | none =>
      rw [hm] at h2; cases h2
      rw [← hs.board]
      exact ih hd' rs' c1 hr1 h3
    | some m =>
      rw [hm] at h2
      have hr2 := parse_reachable h2 hr1
      have hrest := ih hd' rs' c2 hr2 h3
      obtain ⟨b, st, hb, _, rfl⟩ := parse_parts h2
      rw [← hs.board, Option.bind_some]
      cases he : Msg.event? m with
      | none =>
        rw [he] at hb; cases hb
        exact hrest
      | some e =>
        rw [he] at hb
        have hb : c1.board.parseEvent e = .ok b := hb
        have : ShrinksByHalf c1.board.frame (frameOps e) := by
          rcases encodeOne_quiet h1 (hd d (by simp)) m e hm he with hc | hc
          · exact (fromScratch_shrinks hc hr1.inv).2
          · exact noResize_shrinks _ hc _
        refine ⟨this, fun b' hb' => ?_⟩
        rw [hb] at hb'; cases hb'
        exact hrest

/-- **C89.** A client in a build without asserts follows whatever the core sends, except for the swap of tag partners; chain links and
shuffles do not matter. It shows the server's board except for the chain. -/
theorem C89_follow_partial (ds : List (List UInt8)) (hd : ∀ d ∈ ds, ∀ b rest, d = b :: rest → b ≠ 161) (rs : List Encoded) (c : BasicContext)
    (h : feed BasicContext.init ds = .ok (rs, c)) :
    ∃ u, RawUndoBoard.parseEvents RawUndoBoard.init (events rs) = .ok u ∧ RawShows c.board (lastChain [] (events rs)) u :=
  C89_follow _ _ (follow_events (C66_clients_in_step ds rs c h false)) (quiet_halves ds hd rs _ c ⟨[], rfl⟩ h)

/-! ## What does nothing -/

/-- **C89.** Links of a chain are neither added nor removed, and neither is undone. -/
theorem C89_chain_ignored (b : RawUndoBoard) (e : ChainEvent) :
    RawUndoBoard.parseEvent b (.chainStack e) = .ok b ∧ RawUndoBoard.undoParseEvent b (.chainStack e) = .ok b := by
  cases e <;> exact ⟨rfl, rfl⟩

/-- **C89.** Shuffles are not undone. -/
theorem C89_shuffle_not_undone (b : RawUndoBoard) (reason : Nat) (prev cur : List Place) :
    RawUndoBoard.undoParseEvent b (.card reason (.shuffle prev cur)) = .ok b := rfl

/-! ## Values that can be undone -/

/-- Assignments (`some v`) and undos (`none`) of a value that can be undone, in order. -/
def assignsUndos {α : Type} (u : RawUndoable α) : List (Option α) → Res (RawUndoable α)
  | [] => .ok u
  | some v :: l => assignsUndos (u.set v) l
  | none :: l => do assignsUndos (← u.undo) l

theorem assignsUndos_ub {α : Type} (u : RawUndoable α) (l : List (Option α)) :
    assignsUndos u l = .error .ub ↔ ∃ n, u.current + (l.take n).countP Option.isSome < (l.take n).countP Option.isNone := by
  induction l generalizing u with
  | nil => simp [assignsUndos]
  | cons e l ih =>
    have step : (∃ n, u.current + ((e :: l).take n).countP Option.isSome < ((e :: l).take n).countP Option.isNone) ↔
        ∃ n, u.current + (e :: l.take n).countP Option.isSome < (e :: l.take n).countP Option.isNone := by
      constructor
      · rintro ⟨n, hn⟩
        cases n with
        | zero => simp at hn
        | succ n => exact ⟨n, by simpa using hn⟩
      · rintro ⟨n, hn⟩
        exact ⟨n + 1, by simpa using hn⟩
    rw [step]
    cases e with
    | some v =>
      rw [assignsUndos, ih]
      simp only [List.countP_cons, Option.isSome_some, Option.isNone_some, if_true, Ygo.RawUndoable.set]
      constructor <;> (rintro ⟨n, hn⟩; exact ⟨n, by simp at hn ⊢; omega⟩)
    | none =>
      rw [assignsUndos, Ygo.RawUndoable.undo]
      by_cases h0 : u.current = 0
      · simp only [guardUb, h0, ne_eq, not_true, decide_false]
        exact ⟨fun _ => ⟨0, by simp⟩, fun _ => rfl⟩
      · simp only [guardUb, h0, ne_eq, not_false_iff, decide_true]
        refine (ih _).trans ?_
        simp only [List.countP_cons, Option.isSome_none, Option.isNone_none]
        constructor <;> (rintro ⟨n, hn⟩; exact ⟨n, by simp at hn ⊢; omega⟩)

/-- **C89.** Assigning and undoing a value that can be undone is undefined exactly when at some point more was undone than assigned. -/
theorem C89_undo_undefined {α : Type} (v : α) (l : List (Option α)) : assignsUndos (RawUndoable.init v) l = .error .ub ↔
    ∃ n, (l.take n).countP Option.isSome < (l.take n).countP Option.isNone := by
  rw [assignsUndos_ub]
  simp [Ygo.RawUndoable.init]

example : assignsUndos (RawUndoable.init 1) [some 2, none, none, some 3] = .error .ub := rfl
example : ((assignsUndos (RawUndoable.init 1) [some 2, none, some 3]).bind RawUndoable.get) = .ok 2 := rfl

/-! ## Pointers -/

theorem alive_of {f : RawLimbo} (h : f.Sound) :
    (∀ x ∈ cardsOn (rawView f.base.layout), x ∈ f.base.owned) ∧ (∀ o ∈ f.ops, ∀ x, inEntry x o → x ∈ f.base.owned) ∧
      f.processed = f.ops.length ∧ f.op ≤ f.processed :=
  ⟨fun x hx => by obtain ⟨C, hC⟩ := mem_cardsOn.mp hx; exact (h.alive x).mpr (h.board C x hC), fun o ho x hx => (h.alive x).mpr (h.log o ho x hx),
    h.len, h.cursor⟩

/-- **C89.** Whatever calls were made, forward or undoing, with history erased in between: every card on the board and in the log is
alive, every operation has its entry in the log, and the cursor is not beyond the end. -/
theorem C89_no_dangling (cs : List LimboCall) (f : RawLimbo) (h : rawCalls RawLimbo.init cs = .ok f) :
    (∀ x ∈ cardsOn (rawView f.base.layout), x ∈ f.base.owned) ∧ (∀ o ∈ f.ops, ∀ x, inEntry x o → x ∈ f.base.owned) ∧
      f.processed = f.ops.length ∧ f.op ≤ f.processed := alive_of (RawLimbo.Sound.init.calls h)

/-- **C89.** So erasing the history is never undefined. -/
theorem C89_erase_defined (cs : List LimboCall) (f : RawLimbo) (h : rawCalls RawLimbo.init cs = .ok f) : f.eraseHistory ≠ .error .ub :=
  (RawLimbo.Sound.init.calls h).erase_not_ub

/-- The cursor of a value that can be undone is at one of its values. -/
def RawUndoable.Valid {α : Type} (u : RawUndoable α) : Prop := u.current < u.values.length

theorem RawUndoable.Valid.set {α : Type} {u : RawUndoable α} (h : RawUndoable.Valid u) (v : α) : RawUndoable.Valid (u.set v) := by
  unfold RawUndoable.Valid at h ⊢
  simp only [Ygo.RawUndoable.set]
  split
  · simp; omega
  · omega

theorem RawUndoable.Valid.undo {α : Type} {u u' : RawUndoable α} (h : RawUndoable.Valid u) (hu : u.undo = .ok u') : RawUndoable.Valid u' := by
  simp only [Ygo.RawUndoable.undo, bind_eq_ok, guardUb_eq_ok, pure_eq_ok, Except.ok.injEq] at hu
  obtain ⟨_, _, rfl⟩ := hu
  unfold RawUndoable.Valid at h ⊢
  simp only; omega

theorem RawUndoable.Valid.get {α : Type} {u : RawUndoable α} (h : RawUndoable.Valid u) : ∃ v, u.get = .ok v :=
  ⟨u.values[u.current], by unfold Ygo.RawUndoable.get; rw [List.getElem?_eq_getElem h]; rfl⟩

/-- What holds of boards after every call. -/
structure BoardSound (b : RawUndoBoard) : Prop where
  frame : b.frame.Sound
  chainStack : RawUndoable.Valid b.chainStack
  turn : RawUndoable.Valid b.turn
  turnController : RawUndoable.Valid b.turnController
  lp : ∀ i, RawUndoable.Valid (b.lp i)
  phase : RawUndoable.Valid b.phase
  blockedZones : RawUndoable.Valid b.blockedZones

theorem sound_runOps {f f' : RawLimbo} {ops : List FrameOp} (hs : f.Sound) (h : runOps f ops = .ok f') : f'.Sound := by
  induction ops generalizing f with
  | nil => cases h; exact hs
  | cons op ops ih =>
    simp only [runOps, FrameLike.step, bind_eq_ok] at h
    obtain ⟨g, h1, h2⟩ := h
    exact ih (hs.step h1) h2

theorem sound_undoOps {f f' : RawLimbo} {ops : List FrameOp} (hs : f.Sound) (h : RawUndoBoard.undoOps f ops = .ok f') : f'.Sound := by
  induction ops generalizing f with
  | nil => cases h; exact hs
  | cons op ops ih =>
    simp only [RawUndoBoard.undoOps, bind_eq_ok] at h
    obtain ⟨g, h1, h2⟩ := h
    exact ih (hs.undo h1) h2

namespace BoardSound
variable {b b' : RawUndoBoard}

theorem init : BoardSound RawUndoBoard.init :=
  ⟨RawLimbo.Sound.init, Nat.zero_lt_one, Nat.zero_lt_one, Nat.zero_lt_one, fun _ => Nat.zero_lt_one, Nat.zero_lt_one, Nat.zero_lt_one⟩

theorem onFrame {ops : List FrameOp} (hb : BoardSound b) (h : b.onFrame ops = .ok b') : BoardSound b' := by
  simp only [DuelBoard.onFrame, bind_eq_ok, pure_eq_ok, Except.ok.injEq] at h
  obtain ⟨f, h1, rfl⟩ := h
  exact ⟨sound_runOps hb.frame h1, hb.2, hb.3, hb.4, hb.5, hb.6, hb.7⟩

theorem undoFrame {ops : List FrameOp} (hb : BoardSound b) (h : RawUndoBoard.undoFrame b ops = .ok b') : BoardSound b' := by
  simp only [RawUndoBoard.undoFrame, bind_eq_ok, pure_eq_ok, Except.ok.injEq] at h
  obtain ⟨f, h1, rfl⟩ := h
  exact ⟨sound_undoOps hb.frame h1, hb.2, hb.3, hb.4, hb.5, hb.6, hb.7⟩

theorem setLp {i : Fin 2} {v : RawUndoable Nat} (hb : BoardSound b) (hv : RawUndoable.Valid v) : BoardSound (b.setLp i v) :=
  ⟨hb.1, hb.2, hb.3, hb.4, fun j => by simp only [DuelBoard.setLp]; split; exacts [hv, hb.5 j], hb.6, hb.7⟩

theorem parse {e : Event} (hb : BoardSound b) (h : RawUndoBoard.parseEvent b e = .ok b') : BoardSound b' := by
  cases e with
  | board e =>
    cases e with
    | unset => cases h; exact hb
    | exchange e => exact hb.onFrame h
    | state s =>
      simp only [RawUndoBoard.parseEvent, DuelBoard.parseEvent, DuelBoard.parseState, bind_eq_ok, orUb_eq_ok] at h
      obtain ⟨x, _, y, _, h⟩ := h
      refine onFrame ?_ h
      have h1 : BoardSound (if 0 ≤ s.turnCounter then { b with turn := Cell.set b.turn s.turnCounter.toNat } else b) := by
        split
        · exact ⟨hb.1, hb.2, hb.turn.set _, hb.4, hb.5, hb.6, hb.7⟩
        · exact hb
      revert h1
      generalize (if 0 ≤ s.turnCounter then { b with turn := Cell.set b.turn s.turnCounter.toNat } else b) = a
      intro h1
      have h2 : BoardSound (a.setLp 0 (Cell.set (a.lp 0) x)) := h1.setLp ((h1.lp 0).set _)
      have h3 := h2.setLp (i := 1) (v := Cell.set (a.lp 1) y) ((h1.lp 1).set _)
      exact ⟨h3.1, h3.chainStack.set _, h3.3, h3.4, h3.5, h3.6, h3.7⟩
  | card r e => exact hb.onFrame h
  | chainStack e => cases e <;> (cases h; exact hb)
  | nextTurn c =>
    simp only [RawUndoBoard.parseEvent, DuelBoard.parseEvent, bind_eq_ok, pure_eq_ok, Except.ok.injEq] at h
    obtain ⟨x, _, rfl⟩ := h
    exact ⟨hb.1, hb.2, hb.turn.set _, hb.turnController.set _, hb.5, hb.6, hb.7⟩
  | lp con c =>
    simp only [RawUndoBoard.parseEvent, bind_eq_ok, pure_eq_ok, Except.ok.injEq] at h
    obtain ⟨i, _, x, _, rfl⟩ := h
    exact hb.setLp ((hb.lp i).set _)
  | nextPhase ph => cases h; exact ⟨hb.1, hb.2, hb.3, hb.4, hb.5, hb.phase.set _, hb.7⟩
  | pile r e => exact hb.onFrame h
  | zoneBlock zs => cases h; exact ⟨hb.1, hb.2, hb.3, hb.4, hb.5, hb.6, hb.blockedZones.set _⟩
  | finish | metaInfo | result | unset => cases h; exact hb

theorem undo {e : Event} (hb : BoardSound b) (h : RawUndoBoard.undoParseEvent b e = .ok b') : BoardSound b' := by
  cases e with
  | board e =>
    cases e with
    | unset => cases h; exact hb
    | exchange e => exact hb.undoFrame h
    | state s =>
      simp only [RawUndoBoard.undoParseEvent, RawUndoBoard.undoState, bind_eq_ok] at h
      obtain ⟨b1, h1, c, h2, l1, h3, l0, h4, h5⟩ := h
      have hb1 := hb.undoFrame h1
      have hb2 : BoardSound { b1 with chainStack := c } := ⟨hb1.1, hb1.chainStack.undo h2, hb1.3, hb1.4, hb1.5, hb1.6, hb1.7⟩
      have hb3 : BoardSound ({ b1 with chainStack := c }.setLp 1 l1) := hb2.setLp ((hb2.lp 1).undo h3)
      have hb4 : BoardSound (({ b1 with chainStack := c }.setLp 1 l1).setLp 0 l0) := hb3.setLp ((hb3.lp 0).undo h4)
      split at h5
      · simp only [bind_eq_ok, pure_eq_ok, Except.ok.injEq] at h5
        obtain ⟨t, h6, rfl⟩ := h5
        exact ⟨hb4.1, hb4.2, hb4.turn.undo h6, hb4.4, hb4.5, hb4.6, hb4.7⟩
      · cases h5; exact hb4
  | card r e => exact hb.undoFrame h
  | chainStack e => cases h; exact hb
  | nextTurn c =>
    simp only [RawUndoBoard.undoParseEvent, bind_eq_ok, pure_eq_ok, Except.ok.injEq] at h
    obtain ⟨x, h1, y, h2, rfl⟩ := h
    exact ⟨hb.1, hb.2, hb.turn.undo h1, hb.turnController.undo h2, hb.5, hb.6, hb.7⟩
  | lp con c =>
    simp only [RawUndoBoard.undoParseEvent, bind_eq_ok, pure_eq_ok, Except.ok.injEq] at h
    obtain ⟨i, _, x, h1, rfl⟩ := h
    exact hb.setLp ((hb.lp i).undo h1)
  | nextPhase ph =>
    simp only [RawUndoBoard.undoParseEvent, bind_eq_ok, pure_eq_ok, Except.ok.injEq] at h
    obtain ⟨x, h1, rfl⟩ := h
    exact ⟨hb.1, hb.2, hb.3, hb.4, hb.5, hb.phase.undo h1, hb.7⟩
  | pile r e => exact hb.undoFrame h
  | zoneBlock zs =>
    simp only [RawUndoBoard.undoParseEvent, bind_eq_ok, pure_eq_ok, Except.ok.injEq] at h
    obtain ⟨x, h1, rfl⟩ := h
    exact ⟨hb.1, hb.2, hb.3, hb.4, hb.5, hb.6, hb.blockedZones.undo h1⟩
  | finish | metaInfo | result | unset => cases h; exact hb

theorem calls {cs : List BoardCall} (hb : BoardSound b) (h : rawBoardCalls b cs = .ok b') : BoardSound b' := by
  induction cs generalizing b with
  | nil => cases h; exact hb
  | cons c cs ih =>
    cases c with
    | «do» e =>
      simp only [rawBoardCalls, bind_eq_ok] at h
      obtain ⟨g, h1, h2⟩ := h
      exact ih (hb.parse h1) h2
    | undo e =>
      simp only [rawBoardCalls, bind_eq_ok] at h
      obtain ⟨g, h1, h2⟩ := h
      exact ih (hb.undo h1) h2

end BoardSound

/-- **C89.** Whatever events were parsed or undone, in any order: every card on the board and in the log is alive, and every value of the
board can be read. -/
theorem C89_no_dangling_board (cs : List BoardCall) (b : RawUndoBoard) (h : rawBoardCalls RawUndoBoard.init cs = .ok b) :
    (∀ x ∈ cardsOn (rawView b.frame.base.layout), x ∈ b.frame.base.owned) ∧ (∀ o ∈ b.frame.ops, ∀ x, inEntry x o → x ∈ b.frame.base.owned) ∧
      (∃ v, b.chainStack.get = .ok v) ∧ (∃ v, b.turn.get = .ok v) ∧ (∃ v, b.turnController.get = .ok v) ∧ (∀ i, ∃ v, (b.lp i).get = .ok v) ∧
      (∃ v, b.phase.get = .ok v) ∧ ∃ v, b.blockedZones.get = .ok v := by
  have hb := BoardSound.init.calls h
  obtain ⟨h1, h2, _⟩ := alive_of hb.frame
  exact ⟨h1, h2, hb.chainStack.get, hb.turn.get, hb.turnController.get, fun i => (hb.lp i).get, hb.phase.get, hb.blockedZones.get⟩

/-! ## What goes wrong -/

/-- From a computation to a duel. -/
theorem of_computed {α : Type} {ds : List (List UInt8)} {g : List Encoded → BasicContext → Option α} {v : α}
    (h : (feed BasicContext.init ds).toOption.bind (fun x => g x.1 x.2) = some v) :
    ∃ rs c, feed BasicContext.init ds = .ok (rs, c) ∧ g rs c = some v := by
  cases hf : feed BasicContext.init ds with
  | error e => rw [hf] at h; cases h
  | ok x => rw [hf] at h; exact ⟨x.1, x.2, rfl, h⟩

theorem toOption_map_some {α β : Type} {r : Res α} {g : α → β} {v : β} (h : r.toOption.map g = some v) : ∃ x, r = .ok x ∧ g x = v := by
  cases r with
  | error e => cases h
  | ok x => exact ⟨x, rfl, by simpa [Except.toOption] using h⟩

/-- **C89.** The chain that is shown need not be the server's: a link was added and the client shows none. -/
theorem C89_chain_not_shown : ∃ ds rs c u, feed BasicContext.init ds = .ok (rs, c) ∧ RawUndoBoard.parseEvents RawUndoBoard.init (events rs) = .ok u ∧
    c.board.chainStack.val.length = 1 ∧ u.chainStack.get = .ok [] := by
  obtain ⟨rs, c, h1, h2⟩ := of_computed (ds := [(CoreMsg.chaining ⟨5, ⟨0, 4, 1, 1⟩, ⟨0, 4, 1⟩, 7⟩ 1).bytes])
    (g := fun rs c => (RawUndoBoard.parseEvents RawUndoBoard.init (events rs)).toOption.map fun u =>
      (c.board.chainStack.val.length, u.chainStack.get.toOption.map (·.length)))
    (v := (1, some 0)) (by decide +kernel)
  obtain ⟨u, h3, h4⟩ := toOption_map_some h2
  simp only [Prod.mk.injEq] at h4
  obtain ⟨x, h5, h6⟩ := toOption_map_some h4.2
  exact ⟨_, rs, c, u, h1, h3, h4.1, by rw [h5, List.length_eq_zero_iff.mp h6]⟩

/-- Two zones for spells. -/
def spell1 : Container := .slot ⟨0, .spell, 1, by decide⟩
def spell2 : Container := .slot ⟨0, .spell, 2, by decide⟩

/-- **C89.** Going back over a shuffle shows a board that never was there: two set cards stay exchanged, and going forward again
exchanges them once more. -/
theorem C89_shuffle_wrong : ∃ ds rs c, feed BasicContext.init ds = .ok (rs, c) ∧
    ∀ (n : Nat) (ms : List Move) (i : Nat) (x y : CardId), (n, ms, i, x, y) ∈
      [(0, [.forward, .forward], 2, 0, 1), (1, [.forward, .forward, .forward], 3, 1, 0),
       (2, [.forward, .forward, .forward, .backward], 2, 1, 0), (3, [.forward, .forward, .forward, .backward, .forward], 3, 0, 1)] →
    ∃ u, rawScrub (events rs) RawUndoBoard.init 0 ms = .ok (u, i) ∧ rawView u.frame.base.layout spell1 = [some x] ∧
      rawView u.frame.base.layout spell2 = [some y] := by
  obtain ⟨rs, c, h1, h2⟩ := of_computed (ds := [(CoreMsg.move 0 ⟨0, 0, 0, 0⟩ ⟨0, 8, 1, 8⟩ 0).bytes, (CoreMsg.move 0 ⟨0, 0, 0, 0⟩ ⟨0, 8, 2, 8⟩ 0).bytes,
      (CoreMsg.shuffleSetCard 8 [(⟨0, 8, 1, 8⟩, ⟨0, 8, 2, 8⟩), (⟨0, 8, 2, 8⟩, ⟨0, 8, 1, 8⟩)]).bytes])
    (g := fun rs _ => some (([[.forward, .forward], [.forward, .forward, .forward], [.forward, .forward, .forward, .backward],
        [.forward, .forward, .forward, .backward, .forward]] : List (List Move)).map fun ms =>
      (rawScrub (events rs) RawUndoBoard.init 0 ms).toOption.map fun u =>
        (u.2, rawView u.1.frame.base.layout spell1 ++ rawView u.1.frame.base.layout spell2)))
    (v := [some (2, [some 0, some 1]), some (3, [some 1, some 0]), some (2, [some 1, some 0]), some (3, [some 0, some 1])]) (by decide +kernel)
  refine ⟨_, rs, c, h1, ?_⟩
  simp only [Option.some.injEq, List.map_cons, List.map_nil, List.cons.injEq, and_true] at h2
  obtain ⟨k1, k2, k3, k4⟩ := h2
  have out : ∀ {ms i x y}, ((rawScrub (events rs) RawUndoBoard.init 0 ms).toOption.map fun u =>
        (u.2, rawView u.1.frame.base.layout spell1 ++ rawView u.1.frame.base.layout spell2)) = some (i, [some x, some y]) →
      ∃ u, rawScrub (events rs) RawUndoBoard.init 0 ms = .ok (u, i) ∧ rawView u.frame.base.layout spell1 = [some x] ∧
        rawView u.frame.base.layout spell2 = [some y] := by
    intro ms i x y h
    obtain ⟨u, h3, h4⟩ := toOption_map_some h
    simp only [Prod.mk.injEq] at h4
    obtain ⟨h7, h4⟩ := h4
    simp only [spell1, spell2, rawView_slot, List.cons_append, List.nil_append, List.cons.injEq, and_true] at h4 ⊢
    exact ⟨u.1, by rw [h3, ← h7], h4.1, h4.2⟩
  intro n ms i x y hm
  simp only [List.mem_cons, Prod.mk.injEq, List.not_mem_nil, or_false] at hm
  rcases hm with ⟨_, rfl, rfl, rfl, rfl⟩ | ⟨_, rfl, rfl, rfl, rfl⟩ | ⟨_, rfl, rfl, rfl, rfl⟩ | ⟨_, rfl, rfl, rfl, rfl⟩
  exacts [out k1, out k2, out k3, out k4]

/-- **C89.** Going back over a swap of tag partners that left one of three cards of a deck puts a null pointer into it and loses a card. -/
theorem C89_shrink_wrong : ∃ ds rs c u v, feed BasicContext.init ds = .ok (rs, c) ∧
    rawScrub (events rs) RawUndoBoard.init 0 [.forward] = .ok (u, 1) ∧
    rawView u.frame.base.layout (.pile ⟨0, .mainDeck⟩) = [some 0, some 1, some 2] ∧
    rawScrub (events rs) RawUndoBoard.init 0 [.forward, .forward, .backward] = .ok (v, 1) ∧
    rawView v.frame.base.layout (.pile ⟨0, .mainDeck⟩) = [some 0, some 2, none] := by
  obtain ⟨rs, c, h1, h2⟩ := of_computed (ds := [(CoreMsg.start 0 8000 8000 3 0 0 0).bytes, (CoreMsg.tagSwap 0 1 0 0 [] []).bytes])
    (g := fun rs _ => some (([[.forward], [.forward, .forward, .backward]] : List (List Move)).map fun ms =>
      (rawScrub (events rs) RawUndoBoard.init 0 ms).toOption.map fun u => (u.2, rawView u.1.frame.base.layout (.pile ⟨0, .mainDeck⟩))))
    (v := [some (1, [some 0, some 1, some 2]), some (1, [some 0, some 2, none])]) (by decide +kernel)
  simp only [Option.some.injEq, List.map_cons, List.map_nil, List.cons.injEq, and_true] at h2
  obtain ⟨u, h3, h4⟩ := toOption_map_some h2.1
  obtain ⟨v, h5, h6⟩ := toOption_map_some h2.2
  simp only [Prod.mk.injEq] at h4 h6
  exact ⟨_, rs, c, u.1, v.1, h1, by rw [h3, ← h4.1], h4.2, by rw [h5, ← h6.1], h6.2⟩

/-! ### Examples -/

/-- A duel with a link of a chain. -/
def chainBuffers : List (List UInt8) :=
  [(CoreMsg.start 0 8000 8000 3 1 2 0).bytes, (CoreMsg.draw 0 [(1, 1), (2, 1)]).bytes, (CoreMsg.chaining ⟨5, ⟨0, 4, 1, 1⟩, ⟨0, 4, 1⟩, 7⟩ 1).bytes,
   (CoreMsg.damage 0 500).bytes, (CoreMsg.draw 1 [(0, 1)]).bytes]

example : ∀ d ∈ chainBuffers, NoShuffleNoSwap d := by
  intro d hd b rest h
  have key : chainBuffers.all (fun d => d.head?.all fun b => decide (b ≠ 36 ∧ b ≠ 161)) = true := by decide +kernel
  rw [List.all_eq_true] at key
  have := key d hd
  rw [h] at this
  exact of_decide_eq_true this

/-- With asserts the link stops the client; without, it goes on and back again. -/
example : (feed BasicContext.init chainBuffers).toOption.bind (fun x =>
      (rawScrub (events x.1) RawUndoBoard.init 0 [.forward, .forward, .forward, .forward, .forward, .backward, .backward, .backward, .forward]).toOption.map
        fun y => ((events x.1).length, y.2, rawView y.1.frame.base.layout (.pile ⟨0, .hand⟩), rawView y.1.frame.base.layout (.pile ⟨1, .hand⟩),
          (scrub (events x.1) UndoBoard.init 0 [.forward, .forward, .forward]).toOption.isSome)) =
    some (5, 3, [some 2, some 1], [], false) := by decide +kernel

/-- All its events can be followed and gone back over. -/
example : ∃ rs c, feed BasicContext.init chainBuffers = .ok (rs, c) ∧ (events rs).length = 5 ∧ HalvesAll PlainBoard.init (events rs) := by
  obtain ⟨rs, c, h1, h2⟩ := of_computed (ds := chainBuffers)
    (g := fun rs _ => (RawUndoBoard.parseEvents RawUndoBoard.init (events rs)).toOption.map fun _ => (events rs).length) (v := 5) (by decide +kernel)
  obtain ⟨u, h3, h4⟩ := toOption_map_some h2
  exact ⟨rs, c, h1, h4, (C89_follow_exactly _ _ (follow_events (C66_clients_in_step _ _ _ h1 false))).mp ⟨u, h3⟩⟩

/-- A history with everything in it. -/
def someCalls : List LimboCall :=
  [.do (.resize ⟨0, Loc.mainDeck, 0, -1⟩ 4), .do (.move ⟨0, Loc.mainDeck, 0, -1⟩ ⟨0, Loc.hand, 0, -1⟩), .do (.remove ⟨0, Loc.hand, 0, -1⟩),
   .undo (.remove ⟨0, Loc.hand, 0, -1⟩), .erase, .do .clear, .undo .clear, .do .clear, .do (.add ⟨1, Loc.monsterZone, 2, -1⟩)]

example : (rawCalls RawLimbo.init someCalls).toOption.map (fun f => (f.op, f.processed, f.base.owned, rawView f.base.layout (.pile ⟨0, .hand⟩))) =
    some (3, 3, [4, 3, 2, 1, 0], []) := by decide +kernel

/-- Nothing stops undoing what was not done: the cursor goes below zero, and the next call is undefined. -/
example : (rawCalls RawLimbo.init [.do (.shuffle [] [] 0), .undo (.resize ⟨0, Loc.mainDeck, 0, -1⟩ 4)]).toOption.isSome = false := by decide +kernel

/-- Erasing the history forgets an undone operation only. -/
example : (rawCalls RawLimbo.init [.do .clear, .do .clear, .undo .clear, .erase]).toOption.map (fun f => (f.op, f.processed, f.ops.length)) =
    some (1, 1, 1) := by decide +kernel

end Ygo.Props
