import Verif.Props.ReleaseFeed
import Verif.Props.Table

/-!
# C90: what is only done in builds without asserts
-/

set_option linter.unusedSimpArgs false

namespace Ygo.Props
open Ygo.Spec Ygo.P

/-! ## Selections that offer nothing -/

theorem peek_limbo (s : List UInt8) : peek (do skip 5; return (← P.read 1) != 0) s =
    if s.length < 6 then .error .ub else .ok (decide (s[5]? ≠ some 0), s) := by
  match s with
  | [] | [_] | [_, _] | [_, _, _] | [_, _, _, _] | [_, _, _, _, _] => rfl
  | a :: b :: c :: d :: e :: f :: r =>
    have h : ¬ (a :: b :: c :: d :: e :: f :: r).length < 6 := by simp
    rw [if_neg h]
    have h1 : skip 5 (a :: b :: c :: d :: e :: f :: r) = .ok ((), f :: r) := by simp [skip]
    have h2 : P.read 1 (f :: r) = .ok (f.toNat, r) := read_b8 f r
    unfold peek
    rw [bind_run_ok h1, bind_run_ok h2]
    have : (f.toNat != 0) = decide (f ≠ 0) := by
      by_cases hf : f = 0
      · subst hf; rfl
      · have : f.toNat ≠ 0 := fun e => hf (UInt8.toNat_inj.mp e)
        simp [this, hf]
    simp [this, pure_run]

theorem rawSelect_empty (cancel : UInt8) (min max : UInt32) (rest : List UInt8) :
    rawSelectCard (b8 cancel ++ (b32 min ++ (b32 max ++ (b32 0 ++ rest)))) = if rest.length < 6 then .error .ub else
      .ok (if rest[5]? = some 0 then .limbo (decide (cancel ≠ 0)) min.toNat max.toNat [] else
        .uniqueRange (decide (cancel ≠ 0)) min.toNat max.toNat [], rest) := by
  unfold rawSelectCard
  rw [bind_run_ok (readBool_b8 _ _), bind_run_ok (read_b32 _ _), bind_run_ok (read_b32 _ _), bind_run_ok (read_b32 _ _), bind_run, peek_limbo]
  by_cases hl : rest.length < 6
  · simp only [if_pos hl]
  · simp only [if_neg hl]
    by_cases h0 : rest[5]? = some 0
    · simp only [h0, ne_eq, not_true_eq_false, decide_false, Bool.false_eq_true, if_false, if_true]; rfl
    · simp only [h0, ne_eq, not_false_eq_true, decide_true, if_false, if_true]; rfl

theorem emptySelection_eq (who cancel : UInt8) (min max : UInt32) (rest : List UInt8) :
    emptySelection who cancel min max rest = b8 15 ++ (b8 who ++ (b8 cancel ++ (b32 min ++ (b32 max ++ (b32 0 ++ rest))))) := by
  simp [emptySelection, b8]

/-- **C90.** A selection that offers no cards: asserts stop it; without them, it becomes a request, whose kind is decided by what happens to
follow it, and it is undefined if not enough does. -/
theorem C90_empty_selection (c : RawContext) (who cancel : UInt8) (min max : UInt32) (rest : List UInt8) :
    rawEncodeOne c (emptySelection who cancel min max rest) =
      if rest.length < 6 then .error .ub else .ok (emptyRequest who cancel min max rest, c) := by
  have hl : (emptySelection who cancel min max rest).length = rest.length + 15 := by simp [emptySelection_eq]; omega
  have hb : rawEncodeBody c (emptySelection who cancel min max rest) =
      if rest.length < 6 then .error .ub else .ok ((⟨.ok, (emptyRequest who cancel min max rest).msg⟩, c), rest) := by
    rw [emptySelection_eq]
    unfold rawEncodeBody
    rw [bind_run_ok (read_b8 _ _)]
    simp only [show Kind.ofByte (15 : UInt8).toNat = some .selectCard from rfl]
    unfold rawEncodeCase
    rw [if_pos rfl, bind_run_ok (readCon_b8 _ _), bind_run, rawSelect_empty]
    by_cases hl : rest.length < 6
    · simp only [if_pos hl]
    · simp only [if_neg hl]; rfl
  unfold rawEncodeOne
  rw [hb]
  by_cases h6 : rest.length < 6
  · simp only [if_pos h6]
  · simp only [if_neg h6, hl, emptyRequest, Nat.add_sub_cancel_left]

/-- With asserts, it stops. -/
theorem empty_stops (c : BasicContext) (who cancel : UInt8) (min max : UInt32) (rest : List UInt8) :
    encodeOne c (emptySelection who cancel min max rest) = .error .assert := by
  have h : selectCardRequest (b8 cancel ++ (b32 min ++ (b32 max ++ (b32 0 ++ rest)))) = .error .assert := by
    unfold selectCardRequest
    rw [bind_run_ok (readBool_b8 _ _), bind_run_ok (read_b32 _ _), bind_run_ok (read_b32 _ _), bind_run_ok (read_b32 _ _)]
    rfl
  have hb : encodeBody c (emptySelection who cancel min max rest) = .error .assert := by
    rw [emptySelection_eq]
    unfold encodeBody
    rw [bind_run_ok (read_b8 _ _)]
    simp only [show Kind.ofByte (15 : UInt8).toNat = some .selectCard from rfl]
    unfold encodeCase
    simp only [eventCase, queryCase, requestCase]
    rw [bind_run_ok (readCon_b8 _ _), bind_run, bind_run, h]
  unfold encodeOne
  rw [hb]

theorem kind_select {b : UInt8} (h : Kind.ofByte b.toNat = some .selectCard) : b = 15 := by
  have hall : ∀ x : Fin 256, Kind.ofByte x.val = some .selectCard → x = 15 := by decide +kernel
  have := hall ⟨b.toNat, b.toNat_lt⟩ h
  exact UInt8.toNat_inj.mp (congrArg Fin.val this)

/-- **C90.** A server without asserts takes a buffer that one with asserts does not exactly if it is a selection that offers no cards with enough
bytes behind it. -/
theorem C90_encode_more (c : BasicContext) (d : List UInt8) :
    ((∃ r, rawEncodeOne (asRawContext c) d = .ok r) ∧ ¬ ∃ r, encodeOne c d = .ok r) ↔
      ∃ who cancel min max rest, d = emptySelection who cancel min max rest ∧ 6 ≤ rest.length := by
  constructor
  · rintro ⟨⟨r, h⟩, hno⟩
    cases d with
    | nil => cases h
    | cons b s =>
      have hr : P.read 1 (b :: s) = .ok (b.toNat, s) := read_b8 b s
      have noBody : ∀ x, encodeBody c (b :: s) ≠ .ok x := fun x hx => hno ⟨_, by unfold encodeOne; rw [hx]⟩
      obtain ⟨x, hx⟩ : ∃ x, rawEncodeBody (asRawContext c) (b :: s) = .ok x := by
        unfold rawEncodeOne at h
        split at h <;> cases h
        exact ⟨_, ‹_›⟩
      unfold rawEncodeBody at hx
      unfold encodeBody at noBody
      rw [bind_run_ok hr] at hx
      rw [bind_run_ok hr] at noBody
      cases hk : Kind.ofByte b.toNat with
      | none => simp only [hk] at noBody; exact absurd rfl (noBody _)
      | some k =>
        simp only [hk] at noBody hx
        unfold rawEncodeCase at hx
        split at hx
        · rename_i e
          subst e
          obtain rfl := kind_select hk
          obtain ⟨y, t⟩ := x
          obtain ⟨w, s1, h1, hx⟩ := bind_eq_ok_iff.mp hx
          obtain ⟨q, s2, h2, hx⟩ := bind_eq_ok_iff.mp hx
          have h2' := h2
          unfold rawSelectCard at h2
          obtain ⟨ca, s3, h3, h2⟩ := bind_eq_ok_iff.mp h2
          obtain ⟨mi, s4, h4, h2⟩ := bind_eq_ok_iff.mp h2
          obtain ⟨ma, s5, h5, h2⟩ := bind_eq_ok_iff.mp h2
          obtain ⟨n, s6, h6, h2⟩ := bind_eq_ok_iff.mp h2
          have hn : n = 0 := by
            by_contra hne
            have : selectCardRequest s1 = .ok (q, s2) := by
              unfold selectCardRequest
              rw [bind_run_ok h3, bind_run_ok h4, bind_run_ok h5, bind_run_ok h6,
                bind_run_ok (a := ()) (lift_eq_ok.mpr ⟨massert_eq_ok.mpr (Nat.pos_of_ne_zero hne), rfl⟩)]
              exact h2
            refine noBody ((Outcome.request w (.selectCard q), c), s2) ?_
            unfold encodeCase
            simp only [eventCase, queryCase, requestCase]
            rw [bind_run_ok h1, bind_run, bind_run, this]
            rfl
          subst hn
          obtain ⟨who, _, rfl⟩ := Shape.readCon _ _ _ h1
          obtain ⟨cancel, _, rfl⟩ := Shape.readBool _ _ _ h3
          obtain ⟨min, _, rfl⟩ := Shape.r32 _ _ _ h4
          obtain ⟨max, _, rfl⟩ := Shape.r32 _ _ _ h5
          have e6 := (read_inv h6).2
          subst e6
          have e0 : le 4 0 = b32 0 := rfl
          rw [e0] at h2' ⊢
          rw [rawSelect_empty] at h2'
          refine ⟨who, cancel, min, max, s6, by rw [emptySelection_eq]; rfl, ?_⟩
          by_contra hlt
          rw [if_pos (by omega)] at h2'
          cases h2'
        · have := Alike.encodeCase c k s
          rw [hx] at this
          cases hy : encodeCase c k s with
          | ok y => exact absurd hy (noBody _)
          | error e => rw [hy] at this; cases this
  · rintro ⟨who, cancel, min, max, rest, rfl, hl⟩
    constructor
    · exact ⟨_, by rw [C90_empty_selection, if_neg (by omega)]⟩
    · rintro ⟨r, h⟩
      rw [empty_stops] at h
      cases h

/-! ## Messages -/

theorem raw_beside {b : PlainBoard} {b' : RawBoard} {e : Event} (h : RawBoard.parseEvent (asRawBoard b) e = .ok b') :
    (∃ H, (gameOf b).beside e = some H) ∧ ∃ f, runOps (asRaw b.frame) (callsOf e) = .ok f := by
  have hops : callsOf e = frameOps e := by
    cases e with
    | board e => cases e <;> rfl
    | card r e => cases e <;> rfl
    | pile r e => cases e <;> rfl
    | _ => rfl
  refine ⟨?_, _, by rw [hops]; exact raw_frame h⟩
  cases e with
  | board e =>
    cases e with
    | state s =>
      simp only [RawBoard.parseEvent, DuelBoard.parseEvent, DuelBoard.parseState, bind_eq_ok, orUb_eq_ok] at h
      obtain ⟨x, hx, y, hy, _⟩ := h
      match hl : s.lps with
      | [] => rw [hl] at hx; cases hx
      | [_] => rw [hl] at hy; cases hy
      | _ :: _ :: _ => simp only [Game.beside, hl]; exact ⟨_, rfl⟩
    | _ => exact ⟨_, rfl⟩
  | chainStack e =>
    cases e with
    | pop x =>
      simp only [RawBoard.parseEvent, DuelBoard.parseEvent, bind_eq_ok, Cell.pop, guardUb_eq_ok] at h
      obtain ⟨_, ⟨_, hne, _⟩, _⟩ := h
      have : (gameOf b).chain ≠ [] := fun e => hne (by show (asRawBoard b).chainStack.val.length = 0; exact List.length_eq_zero_iff.mpr e)
      simp only [Game.beside, if_neg this]
      exact ⟨_, rfl⟩
    | _ => exact ⟨_, rfl⟩
  | lp con c =>
    simp only [RawBoard.parseEvent, bind_eq_ok] at h
    obtain ⟨i, hi, _⟩ := h
    simp only [Game.beside]
    by_cases h0 : con = 0
    · simp [h0]
    · by_cases h1 : con = 1
      · simp [h1]
      · simp [conIdx, h0, h1] at hi
  | _ => exact ⟨_, rfl⟩

/-- The first call that fails with asserts. -/
theorem first_failing {f : Frame} (hi : Inv f) (ops : List FrameOp) (hno : ¬ ∃ f', runOps f ops = .ok f')
    (h : ∃ f', runOps (asRaw f) ops = .ok f') :
    ∃ pre op post g e, ops = pre ++ op :: post ∧ runOps f pre = .ok g ∧ Inv g ∧ g.step op = .error e ∧ ∃ g', (asRaw g).step op = .ok g' := by
  induction ops generalizing f with
  | nil => exact absurd ⟨f, rfl⟩ hno
  | cons op ops ih =>
    obtain ⟨f', h⟩ := h
    simp only [runOps, FrameLike.step, bind_eq_ok] at h
    obtain ⟨g', h1, h2⟩ := h
    cases hs : f.step op with
    | error e => exact ⟨[], op, ops, f, e, rfl, rfl, hi, hs, g', h1⟩
    | ok g =>
      rw [hi.step_same hs] at h1
      cases h1
      obtain ⟨pre, op', post, g2, e, rfl, h3, h4⟩ := ih (hi.step hs) (fun ⟨f', hf⟩ => hno ⟨f', by simp [runOps, FrameLike.step, hs, hf]⟩) ⟨f', h2⟩
      exact ⟨op :: pre, op', post, g2, e, rfl, by simp [runOps, FrameLike.step, hs, h3], h4⟩

theorem reachable_runOps {f g : Frame} (hr : Reachable f) {ops : List FrameOp} (h : runOps f ops = .ok g) : Reachable g := by
  rw [runOps_run] at h
  obtain ⟨xs, hx⟩ := hr
  exact ⟨xs ++ ops, by rw [run_append, hx]; exact h⟩

/-- **C90.** An event that only a board without asserts parses asks the frame for a call that is tolerated, or for a shuffle, after calls that
asserts let pass. -/
theorem C90_event_more (b : PlainBoard) (hr : Reachable b.frame) (e : Event) (hno : ¬ ∃ b', b.parseEvent e = .ok b')
    (h : ∃ b', RawBoard.parseEvent (asRawBoard b) e = .ok b') :
    ∃ pre op post g, callsOf e = pre ++ op :: post ∧ runOps b.frame pre = .ok g ∧ (Tolerated (view g.layout) op ∨ IsShuffle op) := by
  obtain ⟨b', h⟩ := h
  obtain ⟨⟨H, hH⟩, hf⟩ := raw_beside h
  obtain ⟨pre, op, post, g, err, h1, h2, _, h3, h4⟩ := first_failing hr.inv (callsOf e)
    (fun ⟨f', hf'⟩ => hno ⟨_, parseEvent_iff.mpr ⟨H, f', hH, hf', rfl⟩⟩) hf
  refine ⟨pre, op, post, g, h1, h2, ?_⟩
  by_cases hs : IsShuffle op
  · exact .inr hs
  · exact .inl ((tolerated_aux g (reachable_runOps hr h2) op hs err).1 ⟨h3, h4⟩)

/-- A message that only a server without asserts parses brings an event that only it parses. -/
theorem message_more {c : BasicContext} {m : Msg} (hi : Inv c.board.frame) (hno : ¬ ∃ c', c.parse m = .ok c')
    (h : ∃ c', (asRawContext c).parse m = .ok c') :
    ∃ e, m.body = .event e ∧ (¬ ∃ b', c.board.parseEvent e = .ok b') ∧ ∃ b', RawBoard.parseEvent (asRawBoard c.board) e = .ok b' := by
  obtain ⟨c', h⟩ := h
  obtain ⟨b, st, hb, hs, rfl⟩ := rawParse_parts h
  have done : ∀ b0 : PlainBoard, asRawBoard b0 = b → (match Msg.event? m with | some e => c.board.parseEvent e | none => .ok c.board) = .ok b0 →
      False := by
    rintro b0 rfl h0
    have hq : BasicContext.parseQueries b0.frame.layout m.queries c.store = .ok st := of_option (parseQueries_same b0.frame _ _).symm hs
    refine hno ⟨{ c with board := b0, store := st }, ?_⟩
    unfold Msg.event? at h0
    unfold BasicContext.parse
    cases hm : m.body with
    | event e => simp only [hm] at h0 ⊢; simp only [h0, hq, bind_ok]; rfl
    | _ => simp only [hm] at h0 ⊢; cases h0; simp only [hq, bind_ok, pure_eq_ok]
  cases he : Msg.event? m with
  | none =>
    simp only [he] at hb done
    cases hb
    exact (done c.board rfl rfl).elim
  | some e =>
    simp only [he] at hb done
    have hm : m.body = .event e := by
      unfold Msg.event? at he
      split at he
      · cases he; assumption
      · cases he
    refine ⟨e, hm, fun ⟨b0, h0⟩ => ?_, b, hb⟩
    rw [show (asRawContext c).board = asRawBoard c.board from rfl, (event_same hi h0).1] at hb
    cases hb
    exact done b0 rfl h0

/-- **C90.** If only a server without asserts gets through what the core sends, then the first buffer that one with asserts does not get through is
a selection that offers no cards, or its event asks the frame for a call that is tolerated, or for a shuffle, after calls that asserts let pass. -/
theorem C90_differences (ds : List (List UInt8)) (h : ∃ x, rawFeed RawContext.init ds = .ok x) (hno : ¬ ∃ x, feed BasicContext.init ds = .ok x) :
    ∃ pre d post rs c, ds = pre ++ d :: post ∧ feed BasicContext.init pre = .ok (rs, c) ∧
      ((∃ who cancel min max rest, d = emptySelection who cancel min max rest ∧ 6 ≤ rest.length) ∨
       ∃ r c1 m e ops op more g, encodeOne c d = .ok (r, c1) ∧ r.msg = some m ∧ m.body = .event e ∧ callsOf e = ops ++ op :: more ∧
         runOps c.board.frame ops = .ok g ∧ (Tolerated (view g.layout) op ∨ IsShuffle op)) := by
  suffices hg : ∀ (ds : List (List UInt8)) (c0 : BasicContext), Reachable c0.board.frame → (∃ x, rawFeed (asRawContext c0) ds = .ok x) →
      (¬ ∃ x, feed c0 ds = .ok x) → ∃ pre d post rs c, ds = pre ++ d :: post ∧ feed c0 pre = .ok (rs, c) ∧
      ((∃ who cancel min max rest, d = emptySelection who cancel min max rest ∧ 6 ≤ rest.length) ∨
       ∃ r c1 m e ops op more g, encodeOne c d = .ok (r, c1) ∧ r.msg = some m ∧ m.body = .event e ∧ callsOf e = ops ++ op :: more ∧
         runOps c.board.frame ops = .ok g ∧ (Tolerated (view g.layout) op ∨ IsShuffle op)) from hg ds _ ⟨[], rfl⟩ h hno
  intro ds
  induction ds with
  | nil => intro c0 _ _ hno; exact absurd ⟨_, rfl⟩ hno
  | cons d ds ih =>
    intro c0 hr hok hno
    obtain ⟨⟨rs', c'⟩, hok⟩ := hok
    obtain ⟨r, k1, k2, rs', h1, h2, h3, rfl⟩ := rawFeed_cons.mp hok
    by_cases he : ∃ x, encodeOne c0 d = .ok x
    · obtain ⟨⟨r', c1⟩, he⟩ := he
      have := encodeOne_raw he
      rw [h1] at this
      cases this
      have hs := encodeOne_same he
      have hr1 : Reachable c1.board.frame := by rw [hs.board]; exact hr
      have goOn : ∀ c2 : BasicContext, asRawContext c2 = k2 → Reachable c2.board.frame →
          ((match r.msg with | some m => c1.parse m | none => .ok c1) : Res BasicContext) = .ok c2 →
          ∃ pre d' post rs c, d :: ds = pre ++ d' :: post ∧ feed c0 pre = .ok (rs, c) ∧
          ((∃ who cancel min max rest, d' = emptySelection who cancel min max rest ∧ 6 ≤ rest.length) ∨
           ∃ r c1 m e ops op more g, encodeOne c d' = .ok (r, c1) ∧ r.msg = some m ∧ m.body = .event e ∧ callsOf e = ops ++ op :: more ∧
             runOps c.board.frame ops = .ok g ∧ (Tolerated (view g.layout) op ∨ IsShuffle op)) := by
        rintro c2 rfl hr2 hp
        have join : ∀ ds rs c, feed c2 ds = .ok (rs, c) → feed c0 (d :: ds) = .ok (r :: rs, c) := by
          intro ds rs c hf
          rw [feed, he, bind_ok]
          dsimp only
          cases hm : r.msg with
          | none => rw [hm] at hp; cases hp; simp only [hf, bind_ok, pure_eq_ok]
          | some m => rw [hm] at hp; simp only [hp, hf, bind_ok, pure_eq_ok]
        obtain ⟨pre, d', post, rs, c, rfl, h4, h5⟩ := ih c2 hr2 ⟨_, h3⟩ fun ⟨⟨rs, c⟩, hf⟩ => hno ⟨_, join _ _ _ hf⟩
        exact ⟨d :: pre, d', post, r :: rs, c, rfl, join _ _ _ h4, h5⟩
      cases hm : r.msg with
      | none =>
        rw [hm] at h2
        cases h2
        exact goOn c1 rfl hr1 (by rw [hm])
      | some m =>
        rw [hm] at h2
        by_cases hp : ∃ c2, c1.parse m = .ok c2
        · obtain ⟨c2, hp⟩ := hp
          have := (parse_raw hr1.inv hp).1
          dsimp only at h2
          rw [h2] at this
          cases this
          exact goOn c2 rfl (parse_reachable hp hr1) (by rw [hm]; exact hp)
        · obtain ⟨e, hme, hn, hy⟩ := message_more hr1.inv hp ⟨_, h2⟩
          obtain ⟨ops, op, more, g, q1, q2, q3⟩ := C90_event_more c1.board hr1 e hn hy
          rw [hs.board] at q2
          exact ⟨[], d, ds, [], c0, rfl, rfl, .inr ⟨r, c1, m, e, ops, op, more, g, he, hm, hme, q1, q2, q3⟩⟩
    · exact ⟨[], d, ds, [], c0, rfl, rfl, .inl ((C90_encode_more c0 d).mp ⟨⟨_, h1⟩, he⟩)⟩

/-! ## Answers -/

/-- **C90.** Answers that are not misplaced are taken as with asserts. -/
theorem C90_decode_same (q : Request) (a : Answer) (out : List UInt8) (h : ¬ Misplaced q a) :
    rawDecodeOneAnswer q a out = decodeOneAnswer q a out := by
  cases a with
  | selectCard a =>
    cases a with
    | indexes is =>
      simp only [Misplaced, not_or, Classical.not_not] at h
      cases is with
      | nil => exact absurd rfl h.1
      | cons i is =>
        cases q with
        | selectCard k => cases k <;> rfl
        | _ => exact h.2.elim
    | _ => rfl
  | selectIdle a =>
    simp only [Misplaced, not_or, Classical.not_not, asksAction_iff] at h
    cases a with
    | cardAction act i =>
      have h1 : act ≠ .shuffle := fun e => h.2 ⟨i, .inl (by rw [e])⟩
      have h2 : act ≠ .phase := fun e => h.2 ⟨i, .inr (by rw [e])⟩
      simp only [rawDecodeOneAnswer, decodeOneAnswer, massert, h.1, h1, h2, ne_eq, not_false_eq_true, if_true, bind_ok]
      rfl
    | phase p =>
      simp only [rawDecodeOneAnswer, decodeOneAnswer, massert, h.1, if_true, bind_ok]
      split
      · rfl
      · split
        · rfl
        · split <;> rfl
    | shuffle b => simp only [rawDecodeOneAnswer, decodeOneAnswer, massert, h.1, if_true, bind_ok]; rfl
    | unset => simp only [rawDecodeOneAnswer, decodeOneAnswer, massert, h.1, if_true, bind_ok]; rfl
  | _ => rfl

/-- **C90.** Without asserts, an answer is undefined exactly if it names no card where one card is to be named; all others are taken. -/
theorem C90_decode_undefined_iff (q : Request) (a : Answer) (out : List UInt8) (e : Err) :
    rawDecodeOneAnswer q a out = .error e ↔ e = .ub ∧ a = .selectCard (.indexes []) ∧ OneByOne q := by
  have key : ∀ (a : Answer), ¬ Misplaced q a → ∀ e, rawDecodeOneAnswer q a out ≠ .error e := by
    intro a h e he
    obtain ⟨r, hr⟩ := C80_taken q a out h
    rw [C90_decode_same q a out h, hr] at he
    cases he
  cases a with
  | selectCard a =>
    cases a with
    | indexes is =>
      have hrec : q.isRecursive = true ↔ OneByOne q := by
        cases q with
        | selectCard k => cases k <;> simp [Request.isRecursive, OneByOne]
        | _ => simp [Request.isRecursive, OneByOne]
      simp only [rawDecodeOneAnswer, ← hrec]
      cases is with
      | nil =>
        cases q.isRecursive with
        | true =>
          constructor
          · intro h; cases h; exact ⟨rfl, rfl, rfl⟩
          · rintro ⟨rfl, _⟩; rfl
        | false => simp
      | cons i is => cases q.isRecursive <;> simp [orUb, pure_eq_ok]
    | _ => simpa using key _ (by simp [Misplaced]) e
  | selectIdle a =>
    cases a with
    | phase p =>
      simp only [rawDecodeOneAnswer]
      split
      · simp
      · split
        · simp
        · split <;> simp
    | _ => simp [rawDecodeOneAnswer]
  | _ => simpa using key _ (by simp [Misplaced]) e

/-- **C90.** Indexes in answer to a request that is not a selection card by card are read by the core as a selection at once, even if there are
none of them or the request was about something else. -/
theorem C90_decode_cards (q : Request) (hq : ¬ OneByOne q) (is : List Nat) (hn : is.length < 2 ^ 32) (out : List UInt8) :
    ∃ bs, rawDecodeOneAnswer q (.selectCard (.indexes is)) out = .ok bs ∧ selectedCards bs = some (is.map (· % 2 ^ 16)) := by
  have : q.isRecursive = false := by
    cases q with
    | selectCard k => cases k <;> first | rfl | exact absurd trivial hq
    | _ => rfl
  refine ⟨_, ?_, selectedCards_bytes is hn⟩
  simp only [rawDecodeOneAnswer, this, Bool.false_eq_true, if_false]

/-- **C90.** What is chosen in answer to a request about something else is taken as a choice outside of the battle phase. -/
theorem C90_decode_action (q : Request) (hq : ¬ AsksAction q) (s : SelectIdle) (hs : s.isBattleCmd = false) (a : AnswerIdle) (out : List UInt8) :
    rawDecodeOneAnswer q (.selectIdle a) out = rawDecodeOneAnswer (.selectIdle s) (.selectIdle a) out := by
  have h : q.isBattleCmd = (Request.selectIdle s).isBattleCmd := by
    cases q with
    | selectIdle s => exact absurd trivial hq
    | _ => exact hs.symm
  cases a <;> simp only [rawDecodeOneAnswer, h]

/-- **C90.** The actions that are no actions with a card are read as a special summon, or as an attack in the battle phase. -/
theorem C90_decode_no_action (s : SelectIdle) (act : IdleAction) (ha : act = .shuffle ∨ act = .phase) (i : Nat) (hi : i < 2 ^ 16) (out : List UInt8) :
    ∃ bs, rawDecodeOneAnswer (.selectIdle s) (.selectIdle (.cardAction act i)) out = .ok bs ∧
      (s.isBattleCmd = false → readIdle bs = some (.spsummon i)) ∧ (s.isBattleCmd = true → readBattle bs = some (.attack i)) := by
  have hc : ∀ b, actionCode b act = 1 := by rcases ha with rfl | rfl <;> exact fun _ => rfl
  obtain ⟨h1, h2, h3⟩ := packed i 1 hi (by decide)
  refine ⟨_, by simp only [rawDecodeOneAnswer, hc]; rfl, fun _ => ?_, fun _ => ?_⟩
  · unfold readIdle; rw [if_pos h3]; simp only [h1, h2]
  · unfold readBattle; rw [if_pos h3]; simp only [h1, h2]

/-! ## Examples -/

/-- Two monsters appear in one zone, then a selection that offers nothing is asked for, then the player goes to the next turn. -/
def carelessBuffers : List (List UInt8) :=
  [(CoreMsg.move 5 ⟨0, 0, 0, 0⟩ ⟨0, 4, 0, 1⟩ 0).bytes, (CoreMsg.move 6 ⟨0, 0, 0, 0⟩ ⟨0, 4, 0, 1⟩ 0).bytes,
   emptySelection 0 1 0 0 [0, 0, 0, 0, 0, 7], emptySelection 1 0 2 3 [0, 0, 0, 0, 0, 0], (CoreMsg.newTurn 1).bytes]

/-- Without asserts, all five are taken: the first monster is lost, the two selections become requests of two kinds. -/
example : (rawFeed RawContext.init carelessBuffers).toOption.map (fun x => ((messages x.1).length, cardsOn (rawView x.2.board.frame.layout),
    x.2.board.frame.owned)) = some (5, [1], [1, 0]) := by decide +kernel
example : (rawFeed RawContext.init carelessBuffers).toOption.map (fun x => (messages x.1).filterMap fun m => match m.body with
    | .request w (.selectCard (.limbo b lo hi cs)) => some (w, false, b, lo + hi + cs.length)
    | .request w (.selectCard (.uniqueRange b lo hi cs)) => some (w, true, b, lo + hi + cs.length)
    | _ => none) = some [(0, true, true, 0), (1, false, false, 5)] := by decide +kernel

/-- With asserts, the second stops. -/
example : (match feed BasicContext.init (carelessBuffers.take 1) with | .ok _ => true | _ => false) = true ∧
    (match feed BasicContext.init (carelessBuffers.take 2) with | .error .assert => true | _ => false) = true := by decide +kernel

/-- A selection that offers nothing at the end of a buffer is undefined. -/
example : (match rawFeed RawContext.init [emptySelection 0 1 0 0 []] with | .error .ub => true | _ => false) = true := by decide +kernel

/-- Two cards named in answer to a question for a number. -/
example : (rawDecodeOneAnswer (.selectNumber 1 [4]) (.selectCard (.indexes [3, 70000])) []).toOption.bind selectedCards = some [3, 4464] := by decide +kernel
example : Misplaced (.selectNumber 1 [4]) (.selectCard (.indexes [3, 70000])) := .inr (fun h => h)

end Ygo.Props
