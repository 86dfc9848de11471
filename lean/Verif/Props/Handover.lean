import Verif.Spec.Handover
import Verif.Props.CatchUp
import Verif.Props.Counts

namespace Ygo.Props
open Ygo Ygo.Spec Ygo.Pb

set_option linter.unusedSimpArgs false

/-- A client with a server's board follows what the server sends. -/
theorem follow_feed (cache : Bool) {ds : List (List UInt8)} {c0 c : BasicContext} {rs : List Encoded} (h : feed c0 ds = .ok (rs, c)) :
    Client.follow cache (clientOf c0) (messages rs) = .ok (clientOf c) := by
  induction ds generalizing c0 rs with
  | nil => cases h; rfl
  | cons d ds ih =>
    obtain ⟨r, c1, c2, rs', _, hs, h2, h3, rfl⟩ := feed_cons h
    have e := ih h3
    rw [clientOf, ← hs.board, ← hs.store]
    cases hm : r.msg with
    | none =>
      rw [hm] at h2; cases h2
      simp only [messages, List.filterMap_cons, hm]
      exact e
    | some m =>
      rw [hm] at h2
      simp only [messages, List.filterMap_cons, hm]
      rw [parse_eq c1 c2 m h2 cache]
      exact e

theorem parseQueries_eq (l : Layout) (qs : List Query) (st : CardId → Card Plain) : BasicContext.parseQueries l qs st = Client.answer false l qs st := by
  induction qs generalizing st with
  | nil => rfl
  | cons q qs ih =>
    simp only [BasicContext.parseQueries, Client.answer]
    cases parseQuery false l st q with
    | error x => rfl
    | ok y => exact ih _

/-- A server follows messages as a client does; what it has noted stays. -/
theorem tracks_of_follow {ms : List Msg} {c : BasicContext} {t : Client} (h : Client.follow false (clientOf c) ms = .ok t) :
    ∃ c', tracks c ms = .ok c' ∧ clientOf c' = t ∧ c' = { c with board := t.board, store := t.store } := by
  induction ms generalizing c with
  | nil => cases h; exact ⟨c, rfl, rfl, rfl⟩
  | cons m ms ih =>
    have key : ∀ (b : PlainBoard) (st : CardId → Card Plain), (Client.follow false ⟨b, st⟩ ms = .ok t) → c.parse m = .ok { c with board := b, store := st } →
        ∃ c', tracks c (m :: ms) = .ok c' ∧ clientOf c' = t ∧ c' = { c with board := t.board, store := t.store } := by
      intro b st h1 h2
      obtain ⟨c', k1, k2, k3⟩ := ih (c := { c with board := b, store := st }) h1
      exact ⟨c', by simp only [tracks, h2, bind_ok]; exact k1, k2, k3⟩
    simp only [Client.follow, Msg.event?] at h
    cases hb : m.body with
    | event e =>
      simp only [hb, bind_eq_ok] at h
      obtain ⟨b, h1, st, h2, h3⟩ := h
      refine key b st h3 ?_
      rw [← parseQueries_eq] at h2
      simp only [BasicContext.parse, hb]
      rw [show c.board.parseEvent e = .ok b from h1]
      simp only [bind_ok]
      rw [show BasicContext.parseQueries b.frame.layout m.queries c.store = .ok st from h2]
      rfl
    | unset =>
      simp only [hb, bind_eq_ok, pure_eq_ok, Except.ok.injEq] at h
      obtain ⟨b, rfl, st, h2, h3⟩ := h
      refine key _ st h3 ?_
      rw [← parseQueries_eq] at h2
      simp only [BasicContext.parse, hb, pure_eq_ok, bind_ok]
      rw [show BasicContext.parseQueries c.board.frame.layout m.queries c.store = .ok st from h2]
      rfl
    | request w r =>
      simp only [hb, bind_eq_ok, pure_eq_ok, Except.ok.injEq] at h
      obtain ⟨b, rfl, st, h2, h3⟩ := h
      refine key _ st h3 ?_
      rw [← parseQueries_eq] at h2
      simp only [BasicContext.parse, hb, pure_eq_ok, bind_ok]
      rw [show BasicContext.parseQueries c.board.frame.layout m.queries c.store = .ok st from h2]
      rfl

theorem _root_.Ygo.Spec.LookSame.alike {c c' : BasicContext} (h : LookSame (clientOf c) (clientOf c')) : CountsAlike c.board c'.board :=
  ⟨h.counts, h.chain, h.turn, h.lp, h.phase⟩

/-- **C111.** Servers that look alike and have noted the same send the same and go on looking alike, or fail in the same way. -/
theorem C111_alike (ds0 : List (List UInt8)) (ms1 : List Msg) (rs0 : List Encoded) (c c' : BasicContext) (h : feed BasicContext.init ds0 = .ok (rs0, c))
    (h' : tracks BasicContext.init ms1 = .ok c') (hl : LookSame (clientOf c') (clientOf c)) (ds : List (List UInt8)) :
    Together (fun x y => x.1 = y.1 ∧ LookSame (clientOf x.2) (clientOf y.2)) (feed (withNotes c' c) ds) (feed c ds) := by
  have hs : Sound (clientOf c) := follow_sound .init (follow_feed false h)
  have hs' : Sound (clientOf c') := by
    have key : ∀ (ms : List Msg) (d d' : BasicContext), Sound (clientOf d) → tracks d ms = .ok d' → Sound (clientOf d') := by
      intro ms
      induction ms with
      | nil => intro d d' hd h; cases h; exact hd
      | cons m ms ih =>
        intro d d' hd h
        simp only [tracks, bind_eq_ok] at h
        obtain ⟨d1, h1, h2⟩ := h
        refine ih d1 d' ?_ h2
        have := parse_eq d d1 m h1 false
        exact follow_sound hd (this [])
    exact key ms1 BasicContext.init _ Sound.init h'
  have k := feed_together (ds := ds) (c := withNotes c' c) (c' := c) hs'.inv hs.inv ⟨hl.alike, rfl, rfl, rfl⟩
  refine k.mono fun x y hx hy hxy => ⟨hxy.1, ?_⟩
  obtain ⟨rs, d⟩ := x
  obtain ⟨rs', d'⟩ := y
  have e : rs = rs' := hxy.1
  subst e
  have f1 := follow_feed false hx
  have f2 := follow_feed false hy
  have l := follow_look hs' hs hl false false (messages rs)
  rw [show Client.follow false (clientOf c') (messages rs) = .ok (clientOf d) from f1, f2] at l
  exact l.1

/-- **C111.** A server that is told four messages by another one, and what that one has noted, can go on in its place: from then on it sends the same
and shows the same. The buffers before and after are arbitrary. -/
theorem C111_handover (ds0 ds : List (List UInt8)) (rs0 : List Encoded) (c : BasicContext) (h : feed BasicContext.init ds0 = .ok (rs0, c)) :
    ∃ c', tracks BasicContext.init (catchUp (clientOf c)) = .ok c' ∧ LookSame (clientOf c') (clientOf c) ∧
      Together (fun x y => x.1 = y.1 ∧ LookSame (clientOf x.2) (clientOf y.2)) (feed (withNotes c' c) ds) (feed c ds) := by
  have f := follow_feed false h
  obtain ⟨_, t, h1, h2⟩ := C110_catch_up false false _ [] (clientOf c) .init f rfl
  obtain ⟨c', k1, k2, _⟩ := tracks_of_follow (c := BasicContext.init) h1
  have hl : LookSame (clientOf c') (clientOf c) := k2 ▸ h2
  exact ⟨c', k1, hl, C111_alike ds0 _ rs0 c c' h k1 hl ds⟩

/-- **C111.** If nothing has been noted the four messages are enough. -/
theorem C111_nothing_noted (ds0 ds : List (List UInt8)) (rs0 : List Encoded) (c : BasicContext) (h : feed BasicContext.init ds0 = .ok (rs0, c))
    (hr : c.matchWinReason = none) (hl : ∀ p, c.left p = none) (hd : c.deferred = []) :
    ∃ c', tracks BasicContext.init (catchUp (clientOf c)) = .ok c' ∧
      Together (fun x y => x.1 = y.1 ∧ LookSame (clientOf x.2) (clientOf y.2)) (feed c' ds) (feed c ds) := by
  have f := follow_feed false h
  obtain ⟨_, t, h1, h2⟩ := C110_catch_up false false _ [] (clientOf c) .init f rfl
  obtain ⟨c', k1, k2, k3⟩ := tracks_of_follow (c := BasicContext.init) h1
  have hl' : LookSame (clientOf c') (clientOf c) := k2 ▸ h2
  have e : withNotes c' c = c' := by
    have hl : c.left = fun _ => none := funext hl
    subst k3
    simp only [withNotes, hr, hl, hd]
    rfl
  refine ⟨c', k1, ?_⟩
  have := C111_alike ds0 _ rs0 c c' h k1 hl' ds
  rwa [e] at this

/-! ## Not vacuous -/

/-- The first server: a duel with one card drawn, and a reason for the end of the match. -/
def first : Res (List Encoded × BasicContext) :=
  feed BasicContext.init [(CoreMsg.start 5 8000 8000 3 0 3 0).bytes, (CoreMsg.draw 0 [(7, 0)]).bytes, (CoreMsg.matchKill 9).bytes]

/-- The second server, with and without what the first one has noted. -/
def second (notes : Bool) : Res BasicContext := do
  let (_, c) ← first
  let c' ← tracks BasicContext.init (catchUp (clientOf c))
  return if notes then withNotes c' c else c'

/-- It calls the card in hand something else. -/
example : (first.toOption.map fun x => x.2.board.frame.layout.pile ⟨0, .hand⟩) = some [2] ∧
    ((second true).toOption.map fun c => c.board.frame.layout.pile ⟨0, .hand⟩) = some [5] := by
  decide +kernel

/-- What was noted has to be handed over too. -/
theorem C111_notes_needed :
    (first.bind fun x => (feed x.2 [(CoreMsg.win 0 1).bytes]).map fun y => y.1.map (·.msg.isSome)) = .ok [true] ∧
    ((second true).bind fun c => (feed c [(CoreMsg.win 0 1).bytes]).map fun y => y.1.map (·.msg.isSome)) = .ok [true] ∧
    ((second false).bind fun c => (feed c [(CoreMsg.win 0 1).bytes]).map fun y => y.1.map (·.msg.isSome)) = .error .ub := by
  decide +kernel

end Ygo.Props
