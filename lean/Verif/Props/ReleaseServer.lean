import Verif.Lemmas.ReleaseServer
import Verif.Lemmas.Shape
import Verif.Props.Release
import Verif.Props.System
import Verif.Props.Exact
import Verif.Props.Decode

/-!
# C90: servers, clients and answers in builds without asserts
-/

set_option linter.unusedSimpArgs false

namespace Ygo

/-! ## Looking at a card -/

theorem RawLayout.card_eq_ok {l : RawLayout} {p : Place} {c : CardId} :
    l.card p = .ok c ↔ ∃ C i, Spec.At p C i ∧ (Spec.rawView l C)[i]? = some (some c) := by
  constructor
  · intro h
    unfold RawLayout.card at h
    split at h
    · rename_i hp
      simp only [bind_eq_ok, orUb_eq_ok] at h
      obtain ⟨k, hk, x, hx, rfl⟩ := h
      obtain ⟨con, loc, s, o⟩ := p
      obtain ⟨rfl, rfl⟩ := Raw.pileKey_eq_ok.mp hk
      exact ⟨_, _, .pile k s o, hx⟩
    · rename_i hp
      simp only [bind_eq_ok] at h
      obtain ⟨k, hk, h⟩ := h
      obtain ⟨con, loc, s, o⟩ := p
      obtain ⟨rfl, rfl, rfl⟩ := Raw.zoneKey_eq_ok.mp hk
      split at h
      · rename_i ho
        rw [orUb_eq_ok] at h
        exact ⟨_, _, .slot k o ho, by simp [h]⟩
      · rename_i ho
        simp only [bind_eq_ok, orUb_eq_ok] at h
        obtain ⟨x, hx, rfl⟩ := h
        have hn : (0 : Int) ≤ o := by simpa using ho
        obtain ⟨n, rfl⟩ := Int.eq_ofNat_of_zero_le hn
        exact ⟨_, _, .mats k n, by simpa using hx⟩
  · rintro ⟨C, i, hat, h⟩
    cases hat with
    | pile k s o => simp_all [RawLayout.card]
    | slot k o ho => simp_all [RawLayout.card]
    | mats k n =>
      have hn : ¬ ((i : Int) < 0) := by omega
      rw [rawView_mats] at h
      simp [RawLayout.card, hn, h]

namespace Props
open Ygo.Spec P

theorem parseData_cache {d : QueryData} {c c' c'' : Card Plain} {h h' : Nat} (h1 : c.parseData false d = .ok (h, c'))
    (h2 : c.parseData true d = .ok (h', c'')) : c'' = c' := by
  let l : Layout := ⟨fun _ => [0], fun _ => {}⟩
  let q : Query := ⟨⟨0, 1, 0, -1⟩, d⟩
  have key : ∀ cache x n, c.parseData cache d = .ok (n, x) → parseQuery cache l (fun _ => c) q = .ok (n, fun y => if y = 0 then x else c) := by
    intro cache x n hx
    have hat : At q.place (.pile ⟨0, .mainDeck⟩) 0 := .pile ⟨0, .mainDeck⟩ 0 (-1)
    have hh : l.hasCard q.place = .ok true := Layout.hasCard_eq_ok.mpr ⟨_, _, hat, rfl⟩
    have hc : l.card q.place = .ok 0 := Layout.card_eq_ok.mpr ⟨_, _, hat, rfl⟩
    simp only [parseQuery, hh, hc, bind_ok, massert_true, q, hx]
    rfl
  have := C31_cache_harmless l _ _ _ q _ _ (key true _ _ h2) (key false _ _ h1)
  have := congrFun this 0
  simpa using this

theorem raw_answer_eq (l : RawLayout) (qs : List Query) (st st' : CardId → Card Plain) (h : RawContext.parseQueries l qs st = .ok st')
    (cache : Bool) : RawClient.answer cache l qs st = .ok st' := by
  induction qs generalizing st with
  | nil => exact h
  | cons q qs ih =>
    simp only [RawContext.parseQueries, rawParseQuery, bind_eq_ok, Prod.exists, pure_eq_ok, Except.ok.injEq, Prod.mk.injEq] at h
    obtain ⟨_, st1, ⟨c, hc, n, x, hx, rfl, rfl⟩, h2⟩ := h
    obtain ⟨n', hx'⟩ : ∃ n', (st c).parseData cache q.data = .ok (n', x) := by
      cases cache with
      | false => exact ⟨_, hx⟩
      | true =>
        obtain ⟨⟨n', y⟩, hy⟩ := Card.parseData_returns (useCache := true) (d := q.data) (c := st c) fun f => ⟨_, rfl⟩
        exact ⟨n', by rw [hy, parseData_cache hx hy]⟩
    simp only [RawClient.answer, rawParseQuery, hc, hx', bind_ok]
    exact ih _ h2

/-- **C90.** A query is applied exactly if a card lies at its place; it changes nothing but what the query says about this card. -/
theorem C90_query (l : RawLayout) (st : CardId → Card Plain) (q : Query) (cache : Bool) :
    (∀ hits st', rawParseQuery cache l st q = .ok (hits, st') →
      ∃ C i x, At q.place C i ∧ (rawView l C)[i]? = some (some x) ∧ ∀ y, y ≠ x → st' y = st y) ∧
    ((∃ r, rawParseQuery cache l st q = .ok r) ↔ ∃ C i x, At q.place C i ∧ (rawView l C)[i]? = some (some x)) := by
  refine ⟨?_, ?_, ?_⟩
  · intro hits st' h
    simp only [rawParseQuery, bind_eq_ok, Prod.exists, pure_eq_ok, Except.ok.injEq, Prod.mk.injEq] at h
    obtain ⟨c, hc, n, x, hx, rfl, rfl⟩ := h
    obtain ⟨C, i, h1, h2⟩ := RawLayout.card_eq_ok.mp hc
    exact ⟨C, i, c, h1, h2, fun y hy => by simp [hy]⟩
  · rintro ⟨r, h⟩
    simp only [rawParseQuery, bind_eq_ok] at h
    obtain ⟨c, hc, _⟩ := h
    obtain ⟨C, i, h1, h2⟩ := RawLayout.card_eq_ok.mp hc
    exact ⟨C, i, c, h1, h2⟩
  · rintro ⟨C, i, c, h1, h2⟩
    have hc := RawLayout.card_eq_ok.mpr ⟨C, i, h1, h2⟩
    obtain ⟨⟨n', y⟩, hy⟩ := Card.parseData_returns (useCache := cache) (d := q.data) (c := st c) fun f => ⟨_, rfl⟩
    exact ⟨_, by simp only [rawParseQuery, hc, hy, bind_ok]; rfl⟩

theorem card_same (f : Frame) (p : Place) (x : CardId) : (asRaw f).layout.card p = .ok x ↔ f.layout.card p = .ok x := by
  rw [RawLayout.card_eq_ok, Layout.card_eq_ok, rawView_asRaw]
  simp only [ptrs_get_iff (view_slot_le f.layout)]


theorem parseQueries_same (f : Frame) (qs : List Query) (st : CardId → Card Plain) :
    (RawContext.parseQueries (asRaw f).layout qs st).toOption = (BasicContext.parseQueries f.layout qs st).toOption := by
  induction qs generalizing st with
  | nil => rfl
  | cons q qs ih =>
    simp only [RawContext.parseQueries, BasicContext.parseQueries, rawParseQuery, parseQuery]
    cases hc : (asRaw f).layout.card q.place with
    | ok x =>
      have hc' := (card_same f _ _).mp hc
      obtain ⟨C, i, h1, h2⟩ := Layout.card_eq_ok.mp hc'
      have hh : f.layout.hasCard q.place = .ok true := Layout.hasCard_eq_ok.mpr ⟨C, i, h1, by simp [lt_of_getElem?_some h2]⟩
      obtain ⟨⟨n, y⟩, hy⟩ := Card.parseData_returns (useCache := false) (d := q.data) (c := st x) fun f => ⟨_, rfl⟩
      simp only [hh, hc', hy, bind_ok, massert_true]
      exact ih _
    | error e =>
      cases hh : f.layout.hasCard q.place with
      | error e => rfl
      | ok b =>
        obtain ⟨C, i, h1, h2⟩ := Layout.hasCard_eq_ok.mp hh
        cases b with
        | false => rfl
        | true =>
          have hl : i < (view f.layout C).length := by simpa using h2.symm
          rw [(card_same f _ _).mpr (Layout.card_eq_ok.mpr ⟨C, i, h1, List.getElem?_eq_getElem hl⟩)] at hc
          cases hc

theorem of_option {α : Type} {x y : Res α} (h : y.toOption = x.toOption) {a : α} (hx : x = .ok a) : y = .ok a := by
  rw [hx] at h
  cases y with
  | ok b => cases h; rfl
  | error e => cases h

/-! ## The server -/

/-- A buffer that asserts let pass is encoded to the same without them. -/
theorem selectCard_same {s r : List UInt8} {x : SelectCard} (h : selectCardRequest s = .ok (x, r)) : rawSelectCard s = .ok (x, r) := by
  unfold selectCardRequest at h
  unfold rawSelectCard
  obtain ⟨a, s1, h1, h⟩ := bind_eq_ok_iff.mp h
  obtain ⟨b, s2, h2, h⟩ := bind_eq_ok_iff.mp h
  obtain ⟨c, s3, h3, h⟩ := bind_eq_ok_iff.mp h
  obtain ⟨d, s4, h4, h⟩ := bind_eq_ok_iff.mp h
  obtain ⟨u, s5, h5, h⟩ := bind_eq_ok_iff.mp h
  obtain ⟨_, rfl⟩ := lift_eq_ok.mp h5
  rw [bind_run_ok h1, bind_run_ok h2, bind_run_ok h3, bind_run_ok h4]
  exact h

theorem body_same {c : BasicContext} {d rest : List UInt8} {x : Outcome × BasicContext} (h : encodeBody c d = .ok (x, rest)) :
    rawEncodeBody (asRawContext c) d = .ok (withRaw x, rest) := by
  unfold encodeBody at h
  unfold rawEncodeBody
  obtain ⟨b, s, h1, h⟩ := bind_eq_ok_iff.mp h
  rw [bind_run_ok h1]
  cases hk : Kind.ofByte b with
  | some k =>
    simp only [hk] at h ⊢
    unfold rawEncodeCase
    split
    · rename_i e
      subst e
      unfold encodeCase at h
      simp only [eventCase, queryCase, requestCase] at h
      obtain ⟨w, s1, h2, h⟩ := bind_eq_ok_iff.mp h
      rw [bind_run_ok h2]
      obtain ⟨y, s2, h3, h⟩ := bind_eq_ok_iff.mp h
      obtain ⟨z, s3, h4, h5⟩ := bind_eq_ok_iff.mp h3
      rw [bind_run_ok (selectCard_same h4)]
      cases h5
      cases h
      rfl
    · have := Alike.encodeCase c k s
      rw [h] at this
      cases hy : encodeCase (asRawContext c) k s with
      | ok y => rw [hy] at this; cases this; rfl
      | error e => rw [hy] at this; cases this
  | none =>
    simp only [hk] at h ⊢
    cases h
    rfl

theorem encodeOne_raw {c c' : BasicContext} {d : List UInt8} {r : Encoded} (h : encodeOne c d = .ok (r, c')) :
    rawEncodeOne (asRawContext c) d = .ok (r, asRawContext c') := by
  obtain ⟨o, rest, hb, rfl⟩ := encodeOne_eq h
  unfold rawEncodeOne
  rw [body_same hb]
  rfl

theorem parse_raw {c c' : BasicContext} {m : Msg} (hi : Inv c.board.frame) (h : c.parse m = .ok c') :
    (asRawContext c).parse m = .ok (asRawContext c') ∧ Inv c'.board.frame := by
  obtain ⟨b, st, hb, hs, rfl⟩ := parse_parts h
  have : RawContext.parseQueries (asRawBoard b).frame.layout m.queries c.store = .ok st := of_option (parseQueries_same b.frame _ _) hs
  unfold Msg.event? at hb
  unfold RawContext.parse
  split at hb
  · rename_i e he
    split at he
    · rename_i e' hm
      cases he
      obtain ⟨h1, h2⟩ := event_same hi hb
      refine ⟨?_, h2⟩
      rw [hm]
      simp only [asRawContext, h1, this, bind_ok]
      rfl
    · cases he
  · rename_i he
    cases hb
    refine ⟨?_, hi⟩
    split at he
    · cases he
    · split
      · rename_i hm; simp_all
      · show (RawContext.parseQueries (asRawBoard c.board).frame.layout m.queries c.store >>= _) = _
        rw [this]
        rfl

theorem rawFeed_cons {c c' : RawContext} {d : List UInt8} {ds : List (List UInt8)} {rs : List Encoded} : rawFeed c (d :: ds) = .ok (rs, c') ↔
    ∃ r c1 c2 rs', rawEncodeOne c d = .ok (r, c1) ∧ (match r.msg with | some m => c1.parse m | none => .ok c1) = .ok c2 ∧
      rawFeed c2 ds = .ok (rs', c') ∧ rs = r :: rs' := by
  rw [rawFeed]
  cases h1 : rawEncodeOne c d with
  | error e => simp
  | ok x =>
    obtain ⟨r, c1⟩ := x
    simp only [bind_ok, Except.ok.injEq, Prod.mk.injEq]
    constructor
    · intro h
      cases hm : r.msg with
      | none =>
        simp only [hm, bind_eq_ok, pure_eq_ok, Except.ok.injEq, Prod.exists, Prod.mk.injEq] at h
        obtain ⟨c2, rfl, rs', c3, h3, rfl, rfl⟩ := h
        exact ⟨r, _, _, rs', ⟨rfl, rfl⟩, by rw [hm], h3, rfl⟩
      | some m =>
        simp only [hm, bind_eq_ok, pure_eq_ok, Except.ok.injEq, Prod.exists, Prod.mk.injEq] at h
        obtain ⟨c2, h2, rs', c3, h3, rfl, rfl⟩ := h
        exact ⟨r, _, c2, rs', ⟨rfl, rfl⟩, by rw [hm]; exact h2, h3, rfl⟩
    · rintro ⟨_, _, c2, rs', ⟨rfl, rfl⟩, h2, h3, rfl⟩
      cases hm : r.msg with
      | none => rw [hm] at h2; cases h2; simp only [hm, h3, bind_ok, pure_eq_ok]
      | some m => rw [hm] at h2; simp only [hm, h2, h3, bind_ok, pure_eq_ok]

/-- **C90.** What a server with asserts gets through, one without gets through with the same results and the same board. -/
theorem C90_same (ds : List (List UInt8)) (rs : List Encoded) (c : BasicContext) (h : feed BasicContext.init ds = .ok (rs, c)) :
    rawFeed RawContext.init ds = .ok (rs, asRawContext c) := by
  suffices hg : ∀ (ds : List (List UInt8)) (c0 : BasicContext) (rs : List Encoded), Inv c0.board.frame → feed c0 ds = .ok (rs, c) →
      rawFeed (asRawContext c0) ds = .ok (rs, asRawContext c) from hg ds _ rs Inv.init h
  intro ds
  induction ds with
  | nil => intro c0 rs _ h; cases h; rfl
  | cons d ds ih =>
    intro c0 rs hi h
    obtain ⟨r, c1, c2, rs', h1, hs, h2, h3, rfl⟩ := feed_cons h
    have hi1 : Inv c1.board.frame := by rw [hs.board]; exact hi
    refine rawFeed_cons.mpr ⟨r, asRawContext c1, asRawContext c2, rs', encodeOne_raw h1, ?_, ?_, rfl⟩
    · cases hm : r.msg with
      | none => rw [hm] at h2; cases h2; rfl
      | some m => rw [hm] at h2; exact (parse_raw hi1 h2).1
    · refine ih c2 rs' ?_ h3
      cases hm : r.msg with
      | none => rw [hm] at h2; cases h2; exact hi1
      | some m => rw [hm] at h2; exact (parse_raw hi1 h2).2

end Props
end Ygo
