import Verif.Spec.Noticed
import Verif.Lemmas.Noticed
import Verif.Lemmas.CatchUp
import Verif.Props.Table
import Verif.Props.Mirror
import Verif.Props.Setup
import Verif.Props.CatchUp

/-!
# Clients that have lost track are found out (C126)
-/

namespace Ygo.Props
open Ygo Ygo.Spec

/-! ## With enough cards nobody is found out -/

theorem runOps_enough : ∀ (ops : List FrameOp) {f' f g' : Frame}, Inv f' → Inv f → Enough (view f'.layout) (view f.layout) → runOps f' ops = .ok g' →
    ∃ g, runOps f ops = .ok g ∧ Enough (view g'.layout) (view g.layout) := by
  intro ops
  induction ops with
  | nil => intro f' f g' _ _ h hg; cases hg; exact ⟨f, rfl, h⟩
  | cons op ops ih =>
    intro f' f g' hi' hi h hg
    simp only [runOps, bind_eq_ok] at hg ⊢
    obtain ⟨f1', h1, h2⟩ := hg
    obtain ⟨f1, h3, h4⟩ := step_enough hi' hi h h1
    obtain ⟨g, h5, h6⟩ := ih (hi'.step h1) (hi.step h3) h4 h2
    exact ⟨g, ⟨f1, h3, h5⟩, h6⟩

/-- Enough cards, and links. -/
def BoardKeepsUp (b' b : PlainBoard) : Prop := Enough (view b'.frame.layout) (view b.frame.layout) ∧ b'.chainStack.val.length ≤ b.chainStack.val.length

theorem beside_enough {G' G H' : Game} {e : Event} (h : G'.chain.length ≤ G.chain.length) (hh : G'.beside e = some H') :
    ∃ H, G.beside e = some H ∧ H'.chain.length ≤ H.chain.length := by
  cases e with
  | board e =>
    cases e with
    | unset => cases hh; exact ⟨G, rfl, h⟩
    | exchange e => cases hh; exact ⟨G, rfl, h⟩
    | state s =>
      simp only [Game.beside] at hh ⊢
      match s.lps, hh with
      | _ :: _ :: _, hh => cases hh; exact ⟨_, rfl, Nat.le_refl _⟩
  | chainStack e =>
    cases e with
    | unset => cases hh; exact ⟨G, rfl, h⟩
    | push c => cases hh; exact ⟨_, rfl, by simpa using h⟩
    | pop x =>
      simp only [Game.beside] at hh ⊢
      split at hh
      · cases hh
      · next hn =>
        cases hh
        have : G.chain ≠ [] := by
          intro e
          rw [e] at h
          exact hn (List.eq_nil_of_length_eq_zero (Nat.le_zero.mp h))
        rw [if_neg this]
        exact ⟨_, rfl, by simpa using by omega⟩
  | lp con c =>
    simp only [Game.beside] at hh ⊢
    split at hh
    · next h0 => cases hh; rw [if_pos h0]; exact ⟨_, rfl, h⟩
    · next h0 =>
      rw [if_neg h0]
      split at hh
      · next h1 => cases hh; rw [if_pos h1]; exact ⟨_, rfl, h⟩
      · cases hh
  | card r e => cases hh; exact ⟨G, rfl, h⟩
  | nextTurn con => cases hh; exact ⟨_, rfl, h⟩
  | nextPhase p => cases hh; exact ⟨_, rfl, h⟩
  | pile r e => cases hh; exact ⟨G, rfl, h⟩
  | zoneBlock zs => cases hh; exact ⟨_, rfl, h⟩
  | finish x => cases hh; exact ⟨G, rfl, h⟩
  | metaInfo x => cases hh; exact ⟨G, rfl, h⟩
  | result x => cases hh; exact ⟨G, rfl, h⟩
  | unset => cases hh; exact ⟨G, rfl, h⟩

theorem parse_enough {b' b c' : PlainBoard} {e : Event} (hi' : Inv b'.frame) (hi : Inv b.frame) (h : BoardKeepsUp b' b) (hp : b'.parseEvent e = .ok c') :
    ∃ c, b.parseEvent e = .ok c ∧ BoardKeepsUp c' c := by
  obtain ⟨H', f', h1, h2, rfl⟩ := parseEvent_iff.mp hp
  obtain ⟨H, h3, h4⟩ := beside_enough (G := gameOf b) h.2 h1
  obtain ⟨f, h5, h6⟩ := runOps_enough _ hi' hi h.1 h2
  exact ⟨boardOf H f, parseEvent_iff.mpr ⟨H, f, h3, h5, rfl⟩, h6, h4⟩

theorem query_enough {l' l : Layout} (h : Enough (view l') (view l)) (cache : Bool) {st' st u' : CardId → Card Plain} {q : Query} {n : Nat}
    (hq : parseQuery cache l' st' q = .ok (n, u')) : ∃ r, parseQuery cache l st q = .ok r := by
  simp only [parseQuery, bind_eq_ok, massert_eq_ok] at hq
  obtain ⟨b, hb, _, hm, -⟩ := hq
  subst hm
  have h1 := h.hasCard hb
  obtain ⟨C, i, ha, hi⟩ := Layout.hasCard_eq_ok.mp h1
  obtain ⟨x, hx⟩ := get_some (of_decide_eq_true hi.symm)
  obtain ⟨z, hz⟩ := Card.parseData_returns (useCache := cache) (d := q.data) (c := st x) fun f => ⟨_, rfl⟩
  refine ⟨(z.1, fun y => if y = x then z.2 else st y), ?_⟩
  simp only [parseQuery, h1, Layout.card_eq_ok.mpr ⟨C, i, ha, hx⟩, hz, massert, bind_ok, if_true]
  rfl

theorem answer_enough {l' l : Layout} (h : Enough (view l') (view l)) (cache : Bool) : ∀ (qs : List Query) {st' st u' : CardId → Card Plain},
    Client.answer cache l' qs st' = .ok u' → ∃ u, Client.answer cache l qs st = .ok u := by
  intro qs
  induction qs with
  | nil => intro st' st u' _; exact ⟨st, rfl⟩
  | cons q qs ih =>
    intro st' st u' hq
    simp only [Client.answer, bind_eq_ok] at hq ⊢
    obtain ⟨⟨n, v'⟩, h1, h2⟩ := hq
    obtain ⟨⟨m, v⟩, h3⟩ := query_enough h cache (st := st) h1
    obtain ⟨u, h4⟩ := ih (st := v) h2
    exact ⟨u, ⟨m, v⟩, h3, h4⟩

theorem follow_enough (cache : Bool) : ∀ (ms : List Msg) {s' s t' : Client}, Inv s'.board.frame → Inv s.board.frame → KeepsUp s' s →
    Client.follow cache s' ms = .ok t' → ∃ t, Client.follow cache s ms = .ok t ∧ KeepsUp t' t := by
  intro ms
  induction ms with
  | nil => intro s' s t' _ _ h hf; cases hf; exact ⟨s, rfl, h⟩
  | cons m ms ih =>
    intro s' s t' hi' hi h hf
    simp only [Client.follow] at hf ⊢
    cases he : Msg.event? m with
    | none =>
      simp only [he, bind_eq_ok, pure_eq_ok, Except.ok.injEq] at hf ⊢
      obtain ⟨_, rfl, st', h1, h2⟩ := hf
      obtain ⟨st, h3⟩ := answer_enough h.table cache m.queries (st := s.store) h1
      obtain ⟨t, h4, h5⟩ := ih (s' := ⟨s'.board, st'⟩) (s := ⟨s.board, st⟩) hi' hi ⟨h.table, h.chain⟩ h2
      exact ⟨t, ⟨_, rfl, st, h3, h4⟩, h5⟩
    | some e =>
      simp only [he, bind_eq_ok] at hf ⊢
      obtain ⟨b', h0, st', h1, h2⟩ := hf
      obtain ⟨b, h3, h4⟩ := parse_enough hi' hi ⟨h.table, h.chain⟩ h0
      obtain ⟨st, h5⟩ := answer_enough h4.1 cache m.queries (st := s.store) h1
      obtain ⟨t, h6, h7⟩ := ih (s' := ⟨b', st'⟩) (s := ⟨b, st⟩) (events_inv hi' h0) (events_inv hi h3) ⟨h4.1, h4.2⟩ h2
      exact ⟨t, ⟨b, h3, st, h5, h6⟩, h7⟩

/-! ## Without enough cards somebody is found out -/

/-- A message with an event only. -/
def saying (e : Event) : Msg := ⟨.event e, []⟩

theorem follow_saying (cache : Bool) : ∀ (es : List Event) (s : Client), GetsThrough cache s (es.map saying) ↔ ∃ b, s.board.parseEvents es = .ok b := by
  intro es
  induction es with
  | nil => intro s; exact ⟨fun _ => ⟨_, rfl⟩, fun _ => ⟨_, rfl⟩⟩
  | cons e es ih =>
    intro s
    cases h : s.board.parseEvent e with
    | error x =>
      constructor
      · rintro ⟨t, ht⟩
        simp only [List.map_cons, Client.follow, saying, Msg.event?, h] at ht
        cases ht
      · rintro ⟨b, hb⟩
        simp only [DuelBoard.parseEvents, h] at hb
        cases hb
    | ok b =>
      have := ih ⟨b, s.store⟩
      have e1 : Client.follow cache s ((e :: es).map saying) = Client.follow cache ⟨b, s.store⟩ (es.map saying) := by
        simp only [List.map_cons, Client.follow, saying, Msg.event?, h]
        rfl
      have e2 : s.board.parseEvents (e :: es) = b.parseEvents es := by
        simp only [DuelBoard.parseEvents, h]
        rfl
      rw [GetsThrough, e1, e2]
      exact this

/-- The calls used to find somebody out. -/
def probe : FrameOp → Option Event
  | .add p => some (.card 0 (.add [p]))
  | .remove p => some (.card 0 (.remove [p]))
  | .swap a b => some (.card 0 (.exchange [⟨a, b⟩]))
  | _ => none

theorem probe_parse {op : FrameOp} {e : Event} (h : probe op = some e) (b : PlainBoard) :
    b.parseEvent e = do return { b with frame := ← b.frame.step op } := by
  have key : ∀ op : FrameOp, b.onFrame [op] = do return { b with frame := ← b.frame.step op } := by
    intro op
    simp only [DuelBoard.onFrame, runOps, FrameLike.step]
    cases b.frame.step op <;> rfl
  cases op <;> simp only [probe, Option.some.injEq, reduceCtorEq] at h <;> subst h <;> exact key _

/-- Whatever the one board gets through, the other does. -/
def BoardNever (b' b : PlainBoard) : Prop := ∀ es, (∃ c, b'.parseEvents es = .ok c) → ∃ c, b.parseEvents es = .ok c

theorem BoardNever.step {b' b c' : PlainBoard} (h : BoardNever b' b) {e : Event} (hc : b'.parseEvent e = .ok c') :
    ∃ c, b.parseEvent e = .ok c ∧ BoardNever c' c := by
  obtain ⟨c, h1⟩ := h [e] ⟨c', by simp only [DuelBoard.parseEvents, hc]; rfl⟩
  cases hb : b.parseEvent e with
  | error x => simp only [DuelBoard.parseEvents, hb] at h1; cases h1
  | ok d =>
    refine ⟨d, rfl, fun es hes => ?_⟩
    have := h (e :: es)
    simp only [DuelBoard.parseEvents, hc, hb] at this
    exact this hes

/-- A call the one can make, the other can make. -/
theorem BoardNever.call {b' b : PlainBoard} (hi' : Inv b'.frame) (hi : Inv b.frame) (h : BoardNever b' b) {op : FrameOp} {e : Event} (hp : probe op = some e)
    {T' : Table} (hT : (tableOf b'.frame).Step op T') :
    ∃ c' c T, (tableOf b.frame).Step op T ∧ tableOf c'.frame = T' ∧ tableOf c.frame = T ∧ Inv c'.frame ∧ Inv c.frame ∧ BoardNever c' c := by
  have ht : Tidy op := by cases op <;> trivial
  obtain ⟨f', h1, rfl⟩ := (hi'.step_iff op ht T').mpr hT
  have h2 : b'.parseEvent e = .ok { b' with frame := f' } := by rw [probe_parse hp, h1]; rfl
  obtain ⟨c, h3, h4⟩ := h.step h2
  rw [probe_parse hp] at h3
  simp only [bind_eq_ok, pure_eq_ok, Except.ok.injEq] at h3
  obtain ⟨f, h5, rfl⟩ := h3
  exact ⟨_, _, tableOf f, (hi.step_iff op ht _).mp ⟨f, h5, rfl⟩, rfl, rfl, hi'.step h1, hi.step h5, h4⟩

theorem slot_index {f : Frame} {C : Container} {n : Nat} (h : n < (view f.layout C).length) : ∀ k, C = .slot k → n = 0 := by
  rintro k rfl
  have := view_slot_le f.layout k
  omega

/-- Nobody has less. -/
theorem BoardNever.le {b' b : PlainBoard} (hi' : Inv b'.frame) (hi : Inv b.frame) (h : BoardNever b' b) (C : Container) :
    (view b'.frame.layout C).length ≤ (view b.frame.layout C).length := by
  by_cases h0 : (view b'.frame.layout C).length = 0
  · omega
  have hlt : (view b'.frame.layout C).length - 1 < (view b'.frame.layout C).length := by omega
  have ha : At (placeAt C ((view b'.frame.layout C).length - 1)) C ((view b'.frame.layout C).length - 1) := at_placeAt (slot_index hlt)
  obtain ⟨_, _, T, ⟨D, i, hD, hlen, -⟩, -⟩ := h.call hi' hi (op := .remove _) rfl ⟨C, _, ha, hlt, rfl⟩
  obtain ⟨rfl, rfl⟩ := At.unique ha hD
  have : (view b'.frame.layout C).length - 1 < (view b.frame.layout C).length := hlen
  omega

/-- A zone that is empty for the one is empty for the other. -/
theorem BoardNever.slot {b' b : PlainBoard} (hi' : Inv b'.frame) (hi : Inv b.frame) (h : BoardNever b' b) (k : ZoneKey) (he : view b'.frame.layout (.slot k) = []) :
    view b.frame.layout (.slot k) = [] := by
  have ha : At (placeAt (.slot k) 0) (.slot k) 0 := at_placeAt fun _ _ => rfl
  obtain ⟨_, _, T, ⟨D, i, hD, ⟨-, hf⟩, -⟩, -⟩ := h.call hi' hi (op := .add _) rfl ⟨_, _, ha, ⟨Nat.zero_le _, fun _ _ => he⟩, rfl⟩
  obtain ⟨rfl, rfl⟩ := At.unique ha hD
  exact hf k rfl

/-- Nor has the other more beneath a zone: a card without materials can be exchanged with one in a pile, others cannot. -/
theorem BoardNever.mats (k : ZoneKey) : ∀ (n : Nat) {b' b : PlainBoard}, Inv b'.frame → Inv b.frame → BoardNever b' b →
    (view b'.frame.layout (.mats k)).length = n → (view b.frame.layout (.mats k)).length = n := by
  intro n
  induction n with
  | zero =>
    -- a card in the zone, a card in the hand, and the exchange
    have last : ∀ {b' b : PlainBoard}, Inv b'.frame → Inv b.frame → BoardNever b' b → view b'.frame.layout (.mats k) = [] →
        view b'.frame.layout (.slot k) ≠ [] → view b'.frame.layout (.pile ⟨0, .hand⟩) ≠ [] → view b.frame.layout (.mats k) = [] := by
      intro b' b hi' hi h hm hs hh
      have ha : At (placeAt (.slot k) 0) (.slot k) 0 := at_placeAt fun _ _ => rfl
      have hb : At (placeAt (.pile ⟨0, .hand⟩) 0) (.pile ⟨0, .hand⟩) 0 := at_placeAt fun _ _ => rfl
      obtain ⟨x, hx⟩ := get_some (List.length_pos_iff.mpr hs)
      obtain ⟨y, hy⟩ := get_some (List.length_pos_iff.mpr hh)
      obtain ⟨_, _, T, ⟨C1, i, C2, j, c1, c2, h1, h2, -, -, hk, -⟩, -⟩ := h.call hi' hi (op := .swap _ _) rfl
        ⟨_, _, _, _, x, y, ha, hb, fun _ e => (by cases e), fun _ _ => (by decide), hm, List.length_pos_iff.mpr hs, hx, hy, rfl⟩
      obtain ⟨rfl, rfl⟩ := At.unique ha h1
      obtain ⟨rfl, rfl⟩ := At.unique hb h2
      exact hk
    have hand : ∀ {b' b : PlainBoard}, Inv b'.frame → Inv b.frame → BoardNever b' b → view b'.frame.layout (.mats k) = [] →
        view b'.frame.layout (.slot k) ≠ [] → view b.frame.layout (.mats k) = [] := by
      intro b' b hi' hi h hm hs
      have hb : At (placeAt (.pile ⟨0, .hand⟩) 0) (.pile ⟨0, .hand⟩) 0 := at_placeAt fun _ _ => rfl
      obtain ⟨c', c, T, ⟨C, i, hC, -, rfl⟩, h2, h3, hi2', hi2, h4⟩ := h.call hi' hi (op := .add _) rfl
        ⟨_, _, hb, ⟨Nat.zero_le _, fun _ e => (by cases e)⟩, rfl⟩
      obtain ⟨rfl, rfl⟩ := At.unique hb hC
      have e' : view c'.frame.layout = (view b'.frame.layout).put (.pile ⟨0, .hand⟩) 0 b'.frame.next := congrArg Table.board h2
      have e : view c.frame.layout = (view b.frame.layout).put (.pile ⟨0, .hand⟩) 0 b.frame.next := congrArg Table.board h3
      have := last hi2' hi2 h4 (by rw [e', put_ne (by simp)]; exact hm) (by rw [e', put_ne (by simp)]; exact hs) (by rw [e']; simp [Board.put])
      rw [e, put_ne (by simp)] at this
      exact this
    intro b' b hi' hi h hn
    have hm : view b'.frame.layout (.mats k) = [] := List.eq_nil_of_length_eq_zero hn
    rw [List.length_eq_zero_iff]
    by_cases hs : view b'.frame.layout (.slot k) = []
    · have ha : At (placeAt (.slot k) 0) (.slot k) 0 := at_placeAt fun _ _ => rfl
      obtain ⟨c', c, T, ⟨C, i, hC, -, rfl⟩, h2, h3, hi2', hi2, h4⟩ := h.call hi' hi (op := .add _) rfl
        ⟨_, _, ha, ⟨Nat.zero_le _, fun _ _ => hs⟩, rfl⟩
      obtain ⟨rfl, rfl⟩ := At.unique ha hC
      have e' : view c'.frame.layout = (view b'.frame.layout).put (.slot k) 0 b'.frame.next := congrArg Table.board h2
      have e : view c.frame.layout = (view b.frame.layout).put (.slot k) 0 b.frame.next := congrArg Table.board h3
      have := hand hi2' hi2 h4 (by rw [e', put_ne (by simp)]; exact hm) (by rw [e']; simp [Board.put])
      rw [e, put_ne (by simp)] at this
      exact this
    · exact hand hi' hi h hm hs
  | succ n ih =>
    intro b' b hi' hi h hn
    have ha : At (placeAt (.mats k) 0) (.mats k) 0 := at_placeAt fun _ e => (by cases e)
    have hlt : 0 < (view b'.frame.layout (.mats k)).length := by omega
    obtain ⟨c', c, T, ⟨C, i, hC, hlen, rfl⟩, h2, h3, hi2', hi2, h4⟩ := h.call hi' hi (op := .remove _) rfl ⟨_, _, ha, hlt, rfl⟩
    obtain ⟨rfl, rfl⟩ := At.unique ha hC
    have e' : view c'.frame.layout = (view b'.frame.layout).take (.mats k) 0 := congrArg Table.board h2
    have e : view c.frame.layout = (view b.frame.layout).take (.mats k) 0 := congrArg Table.board h3
    have hlen' : 0 < (view b.frame.layout (.mats k)).length := hlen
    have := ih hi2' hi2 h4 (by rw [e', Board.take, upd_self, List.length_eraseIdx_of_lt hlt]; omega)
    rw [e, Board.take, upd_self, List.length_eraseIdx_of_lt hlen'] at this
    omega

/-- Nor fewer links. -/
theorem BoardNever.chain : ∀ (n : Nat) {b' b : PlainBoard}, BoardNever b' b → b'.chainStack.val.length = n → n ≤ b.chainStack.val.length := by
  intro n
  induction n with
  | zero => intro b' b _ _; exact Nat.zero_le _
  | succ n ih =>
    intro b' b h hn
    have h1 : b'.parseEvent (.chainStack (.pop true)) = .ok { b' with chainStack := ⟨b'.chainStack.val.dropLast⟩ } := by
      simp [DuelBoard.parseEvent, Cell.pop, guardUb, hn]
    obtain ⟨c, h2, h3⟩ := h.step h1
    by_cases h0 : b.chainStack.val.length = 0
    · simp [DuelBoard.parseEvent, Cell.pop, guardUb, h0] at h2
    · have e : c = { b with chainStack := ⟨b.chainStack.val.dropLast⟩ } := by
        simp [DuelBoard.parseEvent, Cell.pop, guardUb, h0] at h2
        exact h2.symm
      have := ih h3 (by simp [hn])
      rw [e] at this
      simp at this
      omega

theorem never_exactly {s' s : Client} (hi' : Inv s'.board.frame) (hi : Inv s.board.frame) : NeverFoundOut s' s ↔ KeepsUp s' s := by
  constructor
  · intro h
    have hb : BoardNever s'.board s.board := fun es hes => (follow_saying false es s).mp (h false _ ((follow_saying false es s').mpr hes))
    refine ⟨fun C => ?_, hb.chain _ rfl⟩
    have hle := hb.le hi' hi C
    cases C with
    | pile k => exact hle
    | mats k => exact (hb.mats k _ hi' hi rfl).symm
    | slot k =>
      have h1 := view_slot_le s.board.frame.layout k
      by_cases h0 : (view s'.board.frame.layout (.slot k)).length = 0
      · show _ = _
        rw [h0, hb.slot hi' hi k (List.eq_nil_of_length_eq_zero h0)]
        rfl
      · show _ = _
        omega
  · intro h cache ms hg
    obtain ⟨t', ht⟩ := hg
    obtain ⟨t, h1, -⟩ := follow_enough cache ms hi' hi h ht
    exact ⟨t, h1⟩

/-- **C126.** Exactly: a client gets through everything that a right one gets through if and only if it has as many cards as that one in and beneath each zone, at
least as many in each pile, and at least as many links in the chain. Neither which cards these are nor life points, turns, phases and blocked zones matter. -/
theorem C126_exactly (cache cache' : Bool) (ms0 ms1 : List Msg) (s' s : Client) (h' : Client.follow cache' Client.init ms1 = .ok s')
    (h : Client.follow cache Client.init ms0 = .ok s) : NeverFoundOut s' s ↔ KeepsUp s' s :=
  never_exactly (follow_inv cache' ms1 Inv.init h') (follow_inv cache ms0 Inv.init h)

/-! ## One message missed, one message got twice -/

theorem follow_one {cache : Bool} {s s' : Client} {m : Msg} {e : Event} (he : Msg.event? m = some e) (h : Client.follow cache s [m] = .ok s') :
    s.board.parseEvent e = .ok s'.board := by
  simp only [Client.follow, he, bind_eq_ok, Except.ok.injEq] at h
  obtain ⟨b, h1, st, -, rfl⟩ := h
  exact h1

/-- **C126.** A client that missed a message which leaves no zone different in number, no pile larger and no link more is never found out, and no other is. -/
theorem C126_missed (cache : Bool) (ms : List Msg) (s s' : Client) (h : Client.follow cache Client.init ms = .ok s) (m : Msg)
    (h' : Client.follow cache s [m] = .ok s') : NeverFoundOut s' s ↔ KeepsUp s' s := by
  have hi := follow_inv cache ms Inv.init h
  exact never_exactly (follow_inv cache _ hi h') hi

/-- **C126.** A client that got a message twice which leaves no zone different in number, no pile smaller and no link less gets through the second time and is
never found out. -/
theorem C126_twice (cache : Bool) (ms : List Msg) (s s' : Client) (h : Client.follow cache Client.init ms = .ok s) (m : Msg)
    (h' : Client.follow cache s [m] = .ok s') (hk : KeepsUp s s') : ∃ s'', Client.follow cache s' [m] = .ok s'' ∧ NeverFoundOut s' s'' := by
  have hi := follow_inv cache ms Inv.init h
  have hi' := follow_inv cache _ hi h'
  obtain ⟨s'', h1, h2⟩ := follow_enough cache [m] hi hi' hk h'
  exact ⟨s'', h1, (never_exactly hi' (follow_inv cache _ hi' h1)).mpr h2⟩

/-! ### Values -/

theorem values_keep {b b' : PlainBoard} {e : Event} (hv : AboutValues e) (h : b.parseEvent e = .ok b') :
    b'.frame = b.frame ∧ b'.chainStack = b.chainStack := by
  obtain ⟨H, f, h1, h2, rfl⟩ := parseEvent_iff.mp h
  cases e with
  | board e =>
    cases e with
    | unset => cases h1; cases h2; exact ⟨rfl, rfl⟩
    | exchange e => cases hv
    | state s => cases hv
  | chainStack e => cases hv; cases h1; cases h2; exact ⟨rfl, rfl⟩
  | lp con c =>
    simp only [Game.beside] at h1
    split at h1
    · cases h1; cases h2; exact ⟨rfl, rfl⟩
    · split at h1
      · cases h1; cases h2; exact ⟨rfl, rfl⟩
      · cases h1
  | card r e => cases hv; cases h1; cases h2; exact ⟨rfl, rfl⟩
  | nextTurn con => cases h1; cases h2; exact ⟨rfl, rfl⟩
  | nextPhase p => cases h1; cases h2; exact ⟨rfl, rfl⟩
  | pile r e => cases hv; cases h1; cases h2; exact ⟨rfl, rfl⟩
  | zoneBlock zs => cases h1; cases h2; exact ⟨rfl, rfl⟩
  | finish x => cases h1; cases h2; exact ⟨rfl, rfl⟩
  | metaInfo x => cases h1; cases h2; exact ⟨rfl, rfl⟩
  | result x => cases h1; cases h2; exact ⟨rfl, rfl⟩
  | unset => cases h1; cases h2; exact ⟨rfl, rfl⟩

theorem values_keepsUp {cache : Bool} {s s' : Client} {m : Msg} {e : Event} (he : Msg.event? m = some e) (hv : AboutValues e)
    (h : Client.follow cache s [m] = .ok s') : KeepsUp s' s ∧ KeepsUp s s' := by
  obtain ⟨h1, h2⟩ := values_keep hv (follow_one he h)
  refine ⟨⟨?_, ?_⟩, ⟨?_, ?_⟩⟩
  · rw [h1]; exact Enough.refl _
  · rw [h2]
  · rw [h1]; exact Enough.refl _
  · rw [h2]

/-- **C126.** A client that missed a change of life points, of the turn, of the phase or of the blocked zones is never found out, whatever it is told afterwards;
nor is one that got it twice. -/
theorem C126_values (cache : Bool) (ms : List Msg) (s s' : Client) (h : Client.follow cache Client.init ms = .ok s) (m : Msg) (e : Event)
    (he : Msg.event? m = some e) (hv : AboutValues e) (h' : Client.follow cache s [m] = .ok s') :
    NeverFoundOut s' s ∧ ∃ s'', Client.follow cache s' [m] = .ok s'' ∧ NeverFoundOut s' s'' := by
  obtain ⟨h1, h2⟩ := values_keepsUp he hv h'
  exact ⟨(C126_missed cache ms s s' h m h').mpr h1, C126_twice cache ms s s' h m h' h2⟩

/-! ### Cards -/

/-- One call: what it is on the table. -/
theorem one_call {cache : Bool} {s s' : Client} {m : Msg} {e : Event} {op : FrameOp} (hi : Inv s.board.frame) (he : Msg.event? m = some e)
    (hc : callsOf e = [op]) (ht : Tidy op) (h : Client.follow cache s [m] = .ok s') : (tableOf s.board.frame).Step op (tableOf s'.board.frame) := by
  obtain ⟨H, f, -, h2, h3⟩ := parseEvent_iff.mp (follow_one he h)
  rw [hc] at h2
  simp only [runOps, bind_eq_ok, Except.ok.injEq] at h2
  obtain ⟨g, h4, rfl⟩ := h2
  rw [h3]
  exact (hi.step_iff op ht _).mp ⟨g, h4, rfl⟩

theorem one_chain {cache : Bool} {s s' : Client} {m : Msg} {r : Nat} {x : CardEvent} {y : PileEvent} (he : Msg.event? m = some (.card r x) ∨ Msg.event? m = some (.pile r y))
    (h : Client.follow cache s [m] = .ok s') : s'.board.chainStack = s.board.chainStack := by
  rcases he with he | he
  all_goals
    obtain ⟨H, f, h1, -, h3⟩ := parseEvent_iff.mp (follow_one he h)
    cases h1
    rw [h3]
    rfl

/-- Cards that moved between containers: one less, one more. -/
theorem moved_lengths {B : Board} {C D : Container} {i j : Nat} {c : CardId} (hne : C ≠ D) (hc : i < (B C).length) (hj : j ≤ (B.take C i D).length) :
    ((((B.take C i).put D j c).carry C D) C).length + 1 = (B C).length ∧ ((((B.take C i).put D j c).carry C D) D).length = (B D).length + 1 := by
  have h1 : (((B.take C i).put D j c) C).length + 1 = (B C).length := by
    rw [put_ne hne, Board.take, upd_self, List.length_eraseIdx_of_lt hc]
    omega
  have h2 : (((B.take C i).put D j c) D).length = (B D).length + 1 := by
    rw [Board.put, upd_self, List.length_insertIdx_of_le_length hj, Board.take, upd_ne hne.symm]
  have h3 : ∀ X, (X = C ∨ X = D) → (((B.take C i).put D j c).carry C D) X = ((B.take C i).put D j c) X := by
    intro X hX
    cases C <;> cases D <;> try rfl
    rw [Board.carry, upd_ne (by rcases hX with rfl | rfl <;> simp), upd_ne (by rcases hX with rfl | rfl <;> simp)]
  rw [h3 C (.inl rfl), h3 D (.inr rfl)]
  exact ⟨h1, h2⟩

/-- Cards that moved within a container: as many as before. -/
theorem moved_same {B : Board} {C : Container} {i j : Nat} {c : CardId} (hc : i < (B C).length) (hs : ∀ k, C = .slot k → B C = []) (hj : j ≤ (B.take C i C).length)
    (X : Container) : ((((B.take C i).put C j c).carry C C) X).length = (B X).length := by
  have hn : ∀ k, C ≠ .slot k := by
    intro k e
    rw [hs k e] at hc
    cases hc
  have : ((B.take C i).put C j c).carry C C = (B.take C i).put C j c := by
    cases C with
    | slot k => exact absurd rfl (hn k)
    | _ => rfl
  rw [this]
  by_cases hX : X = C
  · subst hX
    have e : (B.take X i X).length = (B X).length - 1 := by rw [Board.take, upd_self, List.length_eraseIdx_of_lt hc]
    rw [Board.put, upd_self, List.length_insertIdx_of_le_length hj, e]
    omega
  · rw [put_ne hX, Board.take, upd_ne hX]

theorem _root_.Ygo.Spec.EnoughIn.of_eq {C : Container} {a b : Nat} (h : a = b) : EnoughIn C a b := h ▸ EnoughIn.refl C a

/-- **C126.** A client that missed the move of a card, or got it twice, is found out or could be, unless the card stayed in its pile or beneath its monster: there
is something that the right one gets through and that client does not. -/
theorem C126_move_partial (cache : Bool) (ms : List Msg) (s s' : Client) (h : Client.follow cache Client.init ms = .ok s) (m : Msg) (r : Nat) (a b : Place)
    (C D : Container) (i j : Nat) (ha : At a C i) (hb : At b D j) (he : Msg.event? m = some (.card r (.move [⟨a, b⟩])))
    (h' : Client.follow cache s [m] = .ok s') :
    (NeverFoundOut s' s ↔ C = D) ∧ ∀ s'', Client.follow cache s' [m] = .ok s'' → (NeverFoundOut s' s'' ↔ C = D) := by
  have hi := follow_inv cache ms Inv.init h
  have hi' := follow_inv cache _ hi h'
  have step : ∀ {t t' : Client}, Inv t.board.frame → Client.follow cache t [m] = .ok t' →
      (C ≠ D → (view t'.board.frame.layout C).length + 1 = (view t.board.frame.layout C).length ∧
        (view t'.board.frame.layout D).length = (view t.board.frame.layout D).length + 1) ∧
      (C = D → ∀ X, (view t'.board.frame.layout X).length = (view t.board.frame.layout X).length) := by
    intro t t' ht hf
    obtain ⟨C1, i1, D1, j1, c, hC, hD, -, -, hx, hs, hj, -, hT⟩ := one_call ht he rfl trivial hf
    obtain ⟨rfl, rfl⟩ := At.unique ha hC
    obtain ⟨rfl, rfl⟩ := At.unique hb hD
    have e : view t'.board.frame.layout = (((view t.board.frame.layout).take C i).put D j c).carry C D := congrArg Table.board hT
    rw [e]
    refine ⟨fun hne => moved_lengths hne (lt_of_get hx) hj, ?_⟩
    rintro rfl
    exact moved_same (lt_of_get hx) hs hj
  have chain := fun {t t' : Client} (hf : Client.follow cache t [m] = .ok t') => one_chain (y := .unset) (.inl he) hf
  refine ⟨(never_exactly hi' hi).trans ⟨fun hk => ?_, fun e => ⟨fun X => ?_, ?_⟩⟩, fun s'' h2 =>
    (never_exactly hi' (follow_inv cache _ hi' h2)).trans ⟨fun hk => ?_, fun e => ⟨fun X => ?_, ?_⟩⟩⟩
  · by_contra hne
    have h1 := (step hi h').1 hne
    have h2 := (hk.table D).le
    omega
  · exact .of_eq ((step hi h').2 e X)
  · rw [chain h']
  · by_contra hne
    have h1 := (step hi' h2).1 hne
    have h2 := (hk.table C).le
    omega
  · exact .of_eq ((step hi' h2).2 e X).symm
  · rw [chain h2]

/-- **C126.** Likewise cards drawn, or moved from one pile to another in any number: unnoticed if and only if there were none or they stayed in their pile. -/
theorem C126_splice_partial (cache : Bool) (ms : List Msg) (s s' : Client) (h : Client.follow cache Client.init ms = .ok s) (m : Msg) (r : Nat) (sp : SpliceOp)
    (k1 k2 : PileKey) (i j : Nat) (ha : At sp.src (.pile k1) i) (hb : At sp.dst (.pile k2) j) (he : Msg.event? m = some (.pile r (.splice [sp])))
    (h' : Client.follow cache s [m] = .ok s') :
    (NeverFoundOut s' s ↔ k1 = k2 ∨ sp.count = 0) ∧ ∀ s'', Client.follow cache s' [m] = .ok s'' → (NeverFoundOut s' s'' ↔ k1 = k2 ∨ sp.count = 0) := by
  have hi := follow_inv cache ms Inv.init h
  have hi' := follow_inv cache _ hi h'
  have step : ∀ {t t' : Client}, Inv t.board.frame → Client.follow cache t [m] = .ok t' →
      (k1 ≠ k2 → (view t'.board.frame.layout (.pile k1)).length + sp.count = (view t.board.frame.layout (.pile k1)).length ∧
        (view t'.board.frame.layout (.pile k2)).length = (view t.board.frame.layout (.pile k2)).length + sp.count) ∧
      (k1 = k2 ∨ sp.count = 0 → ∀ X, (view t'.board.frame.layout X).length = (view t.board.frame.layout X).length) := by
    intro t t' ht hf
    obtain ⟨k1', i1, k2', j1, hC, hD, hx, hj, hT⟩ := one_call ht he rfl trivial hf
    obtain ⟨e1, rfl⟩ := At.unique ha hC
    obtain ⟨e2, rfl⟩ := At.unique hb hD
    cases e1
    cases e2
    have e : view t'.board.frame.layout = ((view t.board.frame.layout).cut (.pile k1) i sp.count).paste (.pile k2) j
        ((view t.board.frame.layout).block (.pile k1) i sp.count sp.reverse) := congrArg Table.board hT
    have hlen := block_length (rev := sp.reverse) hx
    have hcut := cut_length hx
    have hx' : i + sp.count ≤ (view t.board.frame.layout (.pile k1)).length := hx
    have other : ∀ X, X ≠ .pile k2 → view t'.board.frame.layout X = (view t.board.frame.layout).cut (.pile k1) i sp.count X := by
      intro X hX
      rw [e, Board.paste, upd_ne hX]
    have dst : (view t'.board.frame.layout (.pile k2)).length = ((view t.board.frame.layout).cut (.pile k1) i sp.count (.pile k2)).length + sp.count := by
      have hj' : j ≤ ((view t.board.frame.layout).cut (.pile k1) i sp.count (.pile k2)).length := hj
      have hlen' : ((view t.board.frame.layout).block (.pile k1) i sp.count sp.reverse).length = sp.count := hlen
      rw [e, Board.paste, upd_self]
      simp only [List.length_append, List.length_take, List.length_drop, hlen']
      omega
    have cutOther : ∀ X, X ≠ .pile k1 → (view t.board.frame.layout).cut (.pile k1) i sp.count X = view t.board.frame.layout X := by
      intro X hX
      rw [Board.cut, upd_ne hX]
    have hcut' : ((view t.board.frame.layout).cut (.pile k1) i sp.count (.pile k1)).length = (view t.board.frame.layout (.pile k1)).length - sp.count := hcut
    constructor
    · intro hne
      have n1 : Container.pile k1 ≠ .pile k2 := fun e => hne (by cases e; rfl)
      rw [dst, other _ n1, cutOther _ n1.symm, hcut']
      omega
    · intro hor X
      by_cases hX : X = .pile k2
      · subst hX
        rw [dst]
        by_cases hk : k1 = k2
        · subst hk
          rw [hcut']
          omega
        · rw [cutOther _ (fun e => hk (by cases e; rfl))]
          rcases hor with h | h
          · exact absurd h hk
          · omega
      · rw [other X hX]
        by_cases hY : X = .pile k1
        · subst hY
          rw [hcut']
          rcases hor with h | h
          · exact absurd (by rw [h]) hX
          · omega
        · rw [cutOther X hY]
  have chain := fun {t t' : Client} (hf : Client.follow cache t [m] = .ok t') => one_chain (x := .unset) (.inr he) hf
  refine ⟨(never_exactly hi' hi).trans ⟨fun hk => ?_, fun e => ⟨fun X => ?_, ?_⟩⟩, fun s'' h2 =>
    (never_exactly hi' (follow_inv cache _ hi' h2)).trans ⟨fun hk => ?_, fun e => ⟨fun X => ?_, ?_⟩⟩⟩
  · by_contra hne
    have h1 := (step hi h').1 (fun e => hne (.inl e))
    have h2 := (hk.table (.pile k2)).le
    exact hne (.inr (by omega))
  · exact .of_eq ((step hi h').2 e X)
  · rw [chain h']
  · by_contra hne
    have h1 := (step hi' h2).1 (fun e => hne (.inl e))
    have h2 := (hk.table (.pile k1)).le
    exact hne (.inr (by omega))
  · exact .of_eq ((step hi' h2).2 e X).symm
  · rw [chain h2]

/-- **C126.** A card that appears: who missed it can be found out; who got it twice is found out at once or could be, unless it appeared in a pile. -/
theorem C126_appears (cache : Bool) (ms : List Msg) (s s' : Client) (h : Client.follow cache Client.init ms = .ok s) (m : Msg) (r : Nat) (p : Place)
    (C : Container) (i : Nat) (hp : At p C i) (he : Msg.event? m = some (.card r (.add [p]))) (h' : Client.follow cache s [m] = .ok s') :
    ¬ NeverFoundOut s' s ∧ ∀ s'', Client.follow cache s' [m] = .ok s'' → (NeverFoundOut s' s'' ↔ ∃ k, C = .pile k) := by
  have hi := follow_inv cache ms Inv.init h
  have hi' := follow_inv cache _ hi h'
  have step : ∀ {t t' : Client}, Inv t.board.frame → Client.follow cache t [m] = .ok t' →
      (view t'.board.frame.layout C).length = (view t.board.frame.layout C).length + 1 ∧ ∀ X, X ≠ C → view t'.board.frame.layout X = view t.board.frame.layout X := by
    intro t t' ht hf
    obtain ⟨C1, i1, hC, ⟨hj, -⟩, hT⟩ := one_call ht he rfl trivial hf
    obtain ⟨rfl, rfl⟩ := At.unique hp hC
    have e : view t'.board.frame.layout = (view t.board.frame.layout).put C i t.board.frame.next := congrArg Table.board hT
    have hj' : i ≤ (view t.board.frame.layout C).length := hj
    rw [e]
    exact ⟨by rw [Board.put, upd_self, List.length_insertIdx_of_le_length hj'], fun X hX => put_ne hX⟩
  refine ⟨fun hn => ?_, fun s'' h2 => (never_exactly hi' (follow_inv cache _ hi' h2)).trans ⟨fun hk => ?_, ?_⟩⟩
  · have h1 := (((never_exactly hi' hi).mp hn).table C).le
    have := (step hi h').1
    omega
  · have h1 := (step hi' h2).1
    have h3 := hk.table C
    cases C with
    | pile k => exact ⟨k, rfl⟩
    | slot k => have h4 : _ = _ := h3; omega
    | mats k => have h4 : _ = _ := h3; omega
  · rintro ⟨k, rfl⟩
    refine ⟨fun X => ?_, by rw [one_chain (y := .unset) (.inl he) h2]⟩
    by_cases hX : X = .pile k
    · subst hX
      show _ ≤ _
      have := (step hi' h2).1
      omega
    · exact .of_eq (by rw [(step hi' h2).2 X hX])

/-- **C126.** A card that disappears: who missed it can be found out unless it was in a pile; who got it twice is found out at once or could be. -/
theorem C126_disappears (cache : Bool) (ms : List Msg) (s s' : Client) (h : Client.follow cache Client.init ms = .ok s) (m : Msg) (r : Nat) (p : Place)
    (C : Container) (i : Nat) (hp : At p C i) (he : Msg.event? m = some (.card r (.remove [p]))) (h' : Client.follow cache s [m] = .ok s') :
    (NeverFoundOut s' s ↔ ∃ k, C = .pile k) ∧ ∀ s'', Client.follow cache s' [m] = .ok s'' → ¬ NeverFoundOut s' s'' := by
  have hi := follow_inv cache ms Inv.init h
  have hi' := follow_inv cache _ hi h'
  have step : ∀ {t t' : Client}, Inv t.board.frame → Client.follow cache t [m] = .ok t' →
      (view t'.board.frame.layout C).length + 1 = (view t.board.frame.layout C).length ∧ ∀ X, X ≠ C → view t'.board.frame.layout X = view t.board.frame.layout X := by
    intro t t' ht hf
    obtain ⟨C1, i1, hC, hj, hT⟩ := one_call ht he rfl trivial hf
    obtain ⟨rfl, rfl⟩ := At.unique hp hC
    have e : view t'.board.frame.layout = (view t.board.frame.layout).take C i := congrArg Table.board hT
    have hj' : i < (view t.board.frame.layout C).length := hj
    rw [e]
    exact ⟨by rw [Board.take, upd_self, List.length_eraseIdx_of_lt hj']; omega, fun X hX => by rw [Board.take, upd_ne hX]⟩
  refine ⟨(never_exactly hi' hi).trans ⟨fun hk => ?_, ?_⟩, fun s'' h2 hn => ?_⟩
  · have h1 := (step hi h').1
    have h3 := hk.table C
    cases C with
    | pile k => exact ⟨k, rfl⟩
    | slot k => have h4 : _ = _ := h3; omega
    | mats k => have h4 : _ = _ := h3; omega
  · rintro ⟨k, rfl⟩
    refine ⟨fun X => ?_, by rw [one_chain (y := .unset) (.inl he) h']⟩
    by_cases hX : X = .pile k
    · subst hX
      show _ ≤ _
      have := (step hi h').1
      omega
    · exact .of_eq (by rw [(step hi h').2 X hX])
  · have h1 := (((never_exactly hi' (follow_inv cache _ hi' h2)).mp hn).table C).le
    have := (step hi' h2).1
    omega

/-! ### Links of the chain -/

/-- **C126.** A link of the chain: who missed one can be found out, who got one twice never. -/
theorem C126_link (cache : Bool) (ms : List Msg) (s s' : Client) (h : Client.follow cache Client.init ms = .ok s) (m : Msg) (x : Chain)
    (he : Msg.event? m = some (.chainStack (.push x))) (h' : Client.follow cache s [m] = .ok s') :
    ¬ NeverFoundOut s' s ∧ ∃ s'', Client.follow cache s' [m] = .ok s'' ∧ NeverFoundOut s' s'' := by
  obtain ⟨H, f, h1, h2, h3⟩ := parseEvent_iff.mp (follow_one he h')
  cases h1
  cases h2
  have e1 : s'.board.chainStack.val = s.board.chainStack.val ++ [x] := by rw [h3]; rfl
  have e2 : s'.board.frame = s.board.frame := by rw [h3]; rfl
  refine ⟨fun hn => ?_, C126_twice cache ms s s' h m h' ⟨?_, ?_⟩⟩
  · have := ((C126_missed cache ms s s' h m h').mp hn).chain
    rw [e1] at this
    simp at this
  · rw [e2]; exact Enough.refl _
  · rw [e1]; simp

/-- **C126.** The end of a link: who missed it is never found out, who got it twice is found out at once or could be. -/
theorem C126_unlink (cache : Bool) (ms : List Msg) (s s' : Client) (h : Client.follow cache Client.init ms = .ok s) (m : Msg) (x : Bool)
    (he : Msg.event? m = some (.chainStack (.pop x))) (h' : Client.follow cache s [m] = .ok s') :
    NeverFoundOut s' s ∧ ∀ s'', Client.follow cache s' [m] = .ok s'' → ¬ NeverFoundOut s' s'' := by
  have pop : ∀ {t t' : Client}, Client.follow cache t [m] = .ok t' →
      t.board.chainStack.val ≠ [] ∧ t'.board.chainStack.val = t.board.chainStack.val.dropLast ∧ t'.board.frame = t.board.frame := by
    intro t t' hf
    obtain ⟨H, f, h1, h2, h3⟩ := parseEvent_iff.mp (follow_one he hf)
    cases h2
    simp only [Game.beside] at h1
    split at h1
    · cases h1
    · next hne =>
      cases h1
      exact ⟨hne, by rw [h3]; rfl, by rw [h3]; rfl⟩
  obtain ⟨-, e1, e2⟩ := pop h'
  refine ⟨(C126_missed cache ms s s' h m h').mpr ⟨?_, ?_⟩, fun s'' h2 hn => ?_⟩
  · rw [e2]; exact Enough.refl _
  · rw [e1]; simp
  · have hi' := follow_inv cache _ (follow_inv cache ms Inv.init h) h'
    have h3 := ((never_exactly hi' (follow_inv cache _ hi' h2)).mp hn).chain
    obtain ⟨e3, e4, -⟩ := pop h2
    rw [e4, List.length_dropLast] at h3
    have := List.length_pos_iff.mpr e3
    omega

/-! ### Whole states -/

theorem clear_runs {f f' : Frame} (hi : Inv f) {ops : List FrameOp} (h : runOps f (.clear :: ops) = .ok f') {g : Frame} (hg : Inv g) :
    ∃ g', runOps g (.clear :: ops) = .ok g' ∧ Enough (view f'.layout) (view g'.layout) ∧ Enough (view g'.layout) (view f'.layout) := by
  simp only [runOps, bind_eq_ok] at h
  obtain ⟨f1, h1, h2⟩ := h
  obtain ⟨g1, h3, h4⟩ := (hg.step_iff .clear trivial ⟨fun _ => [], g.next⟩).mpr rfl
  have e1 : view f1.layout = fun _ => [] := congrArg Table.board ((hi.step_iff .clear trivial _).mp ⟨f1, h1, rfl⟩)
  have e2 : view g1.layout = fun _ => [] := congrArg Table.board h4
  obtain ⟨g', h5, h6⟩ := runOps_enough ops (hi.step h1) (hg.step h3) (by rw [e1, e2]; exact Enough.refl _) h2
  obtain ⟨f2, h7, h8⟩ := runOps_enough ops (hg.step h3) (hi.step h1) (by rw [e1, e2]; exact Enough.refl _) h5
  rw [h2] at h7
  cases h7
  refine ⟨g', ?_, h6, h8⟩
  simp only [runOps, bind_eq_ok]
  exact ⟨g1, h3, h5⟩

/-- **C126.** A whole state can be got twice by anyone: the second time it is taken, and the client is never found out. -/
theorem C126_twice_state (cache : Bool) (ms : List Msg) (s s' : Client) (h : Client.follow cache Client.init ms = .ok s) (x : BoardState)
    (h' : Client.follow cache s [saying (.board (.state x))] = .ok s') :
    ∃ s'', Client.follow cache s' [saying (.board (.state x))] = .ok s'' ∧ NeverFoundOut s' s'' ∧ NeverFoundOut s'' s' := by
  have hi := follow_inv cache ms Inv.init h
  have hi' := follow_inv cache _ hi h'
  obtain ⟨H', f', h1, h2, h3⟩ := parseEvent_iff.mp (follow_one (m := saying (.board (.state x))) rfl h')
  obtain ⟨g, h4, h5, h6⟩ := clear_runs hi h2 hi'
  have hs : ∃ l0 l1 ls, x.lps = l0 :: l1 :: ls := by
    simp only [Game.beside] at h1
    split at h1
    · next l0 l1 ls e => exact ⟨l0, l1, ls, e⟩
    · cases h1
  obtain ⟨l0, l1, ls, hl⟩ := hs
  simp only [Game.beside, hl, Option.some.injEq] at h1
  obtain ⟨H, hH, hc⟩ : ∃ H, (gameOf s'.board).beside (.board (.state x)) = some H ∧ H.chain = x.chains := by
    simp only [Game.beside, hl]
    exact ⟨_, rfl, rfl⟩
  have h7 : s'.board.parseEvent (.board (.state x)) = .ok (boardOf H g) := parseEvent_iff.mpr ⟨H, g, hH, h4, rfl⟩
  have h8 : Client.follow cache s' [saying (.board (.state x))] = .ok ⟨boardOf H g, s'.store⟩ := by
    simp only [Client.follow, saying, Msg.event?, h7]
    rfl
  have hi2 := follow_inv cache _ hi' h8
  refine ⟨_, h8, (never_exactly hi' hi2).mpr ⟨?_, ?_⟩, (never_exactly hi2 hi').mpr ⟨?_, ?_⟩⟩
  · rw [h3]; exact h5
  · rw [h3, ← h1]; show _ ≤ H.chain.length; rw [hc]; exact Nat.le_refl _
  · rw [h3]; exact h6
  · rw [h3, ← h1]; show H.chain.length ≤ _; rw [hc]; exact Nat.le_refl _

/-- **C126.** A whole state heals: every client takes it that any other takes, whatever the two have missed, and afterwards each has the cards, life points and
links of the other, and neither is found out any more. -/
theorem C126_state_heals (cache : Bool) (ms0 ms1 : List Msg) (s1 s2 : Client) (h1 : Client.follow cache Client.init ms0 = .ok s1)
    (h2 : Client.follow cache Client.init ms1 = .ok s2) (x : BoardState) (t1 : Client) (ht : Client.follow cache s1 [saying (.board (.state x))] = .ok t1) :
    ∃ t2, Client.follow cache s2 [saying (.board (.state x))] = .ok t2 ∧ t2.board.lp = t1.board.lp ∧ t2.board.chainStack = t1.board.chainStack ∧
      (∀ C, (view t2.board.frame.layout C).length = (view t1.board.frame.layout C).length) ∧ NeverFoundOut t1 t2 ∧ NeverFoundOut t2 t1 := by
  have hi1 := follow_inv cache _ Inv.init h1
  have hi2 := follow_inv cache _ Inv.init h2
  have hj1 := follow_inv cache _ hi1 ht
  obtain ⟨H', f', h3, h4, h5⟩ := parseEvent_iff.mp (follow_one (m := saying (.board (.state x))) rfl ht)
  obtain ⟨g, h6, h7, h8⟩ := clear_runs hi1 h4 hi2
  obtain ⟨l0, l1, ls, hl⟩ : ∃ l0 l1 ls, x.lps = l0 :: l1 :: ls := by
    simp only [Game.beside] at h3
    split at h3
    · next l0 l1 ls e => exact ⟨l0, l1, ls, e⟩
    · cases h3
  have key : ∀ G H : Game, G.beside (.board (.state x)) = some H → H.chain = x.chains ∧ H.lp = fun i => if i = 0 then l0 else l1 := by
    intro G H h
    simp only [Game.beside, hl, Option.some.injEq] at h
    rw [← h]
    exact ⟨rfl, rfl⟩
  obtain ⟨H, hH⟩ : ∃ H, (gameOf s2.board).beside (.board (.state x)) = some H := by
    simp only [Game.beside, hl]
    exact ⟨_, rfl⟩
  obtain ⟨c1, p1⟩ := key _ _ h3
  obtain ⟨c2, p2⟩ := key _ _ hH
  have h9 : s2.board.parseEvent (.board (.state x)) = .ok (boardOf H g) := parseEvent_iff.mpr ⟨H, g, hH, h6, rfl⟩
  have h10 : Client.follow cache s2 [saying (.board (.state x))] = .ok ⟨boardOf H g, s2.store⟩ := by
    simp only [Client.follow, saying, Msg.event?, h9]
    rfl
  have hj2 := follow_inv cache _ hi2 h10
  have chain : (boardOf H g).chainStack = t1.board.chainStack := by
    rw [h5]
    show (⟨H.chain⟩ : Plain _) = ⟨H'.chain⟩
    rw [c1, c2]
  refine ⟨_, h10, ?_, chain, ?_, (never_exactly hj1 hj2).mpr ⟨?_, Nat.le_of_eq ?_⟩, (never_exactly hj2 hj1).mpr ⟨?_, Nat.le_of_eq ?_⟩⟩
  · rw [h5]
    funext i
    show (⟨H.lp i⟩ : Plain _) = ⟨H'.lp i⟩
    rw [p1, p2]
  · intro C
    rw [h5]
    exact Nat.le_antisymm (h8 C).le (h7 C).le
  · rw [h5]; exact h7
  · exact congrArg (fun c : Plain (List Chain) => c.val.length) chain.symm
  · rw [h5]; exact h8
  · exact congrArg (fun c : Plain (List Chain) => c.val.length) chain

/-! ## Nobody notices -/

/-- Both players start with 8000 life points and 40 cards in the deck. -/
def startOfDuel : Msg := saying (.board (.state { lps := [8000, 8000], resize := [⟨placeAt (.pile ⟨0, .mainDeck⟩) 0, 40⟩, ⟨placeAt (.pile ⟨1, .mainDeck⟩) 0, 40⟩] }))

/-- Player 0 takes 1000. -/
def thousand : Msg := saying (.lp 0 (.damage 1000))

/-- Player 0 draws five cards. -/
def fiveCards : Msg := saying (.pile 0 (.splice [⟨placeAt (.pile ⟨0, .mainDeck⟩) 0, 5, placeAt (.pile ⟨0, .hand⟩) 0, false⟩]))

/-- Life points after messages. -/
def lifeAfter (ms : List Msg) : Option Nat := (Client.follow false Client.init ms).toOption.map fun s => (s.board.lp 0).val

/-- **C126, violated.** Messages carry no number, so a client cannot tell that it missed one or got one twice: after 1000 damage the life points are 7000; who missed
the message shows 8000 and who got it twice 6000, and both get through everything that the right one gets through, for the rest of the duel. -/
theorem C126_violated : lifeAfter [startOfDuel, thousand] = some 7000 ∧ lifeAfter [startOfDuel] = some 8000 ∧ lifeAfter [startOfDuel, thousand, thousand] = some 6000 ∧
    ∀ r m t, Client.follow false Client.init [startOfDuel, thousand] = .ok r → Client.follow false Client.init [startOfDuel] = .ok m →
      Client.follow false r [thousand] = .ok t → NeverFoundOut r m ∧ NeverFoundOut r t := by
  refine ⟨by decide +kernel, by decide +kernel, by decide +kernel, fun r m t hr hm ht => ?_⟩
  have h1 : Client.follow false m [thousand] = .ok r := by
    have := follow_append false Client.init [startOfDuel] [thousand]
    rw [hm] at this
    exact this.symm.trans hr
  obtain ⟨h2, t', h3, h4⟩ := C126_values false _ m r hm thousand _ rfl trivial h1
  rw [ht] at h3
  cases h3
  exact ⟨h2, h4⟩

/-- Somebody who missed five cards drawn can be found out: a card is played from the hand that this client shows empty. -/
example : (Client.follow false Client.init [startOfDuel, fiveCards, saying (.card 0 (.move [⟨placeAt (.pile ⟨0, .hand⟩) 4, placeAt (.slot ⟨0, .monster, 2, by decide⟩) 0⟩]))]).toOption.isSome = true ∧
    (Client.follow false Client.init [startOfDuel, saying (.card 0 (.move [⟨placeAt (.pile ⟨0, .hand⟩) 4, placeAt (.slot ⟨0, .monster, 2, by decide⟩) 0⟩]))]).toOption.isSome = false := by
  refine ⟨?_, ?_⟩ <;> decide +kernel

/-- There are links to speak of, and a client that got one twice. -/
example : (Client.follow false Client.init [startOfDuel, saying (.chainStack (.push {})), saying (.chainStack (.push {}))]).toOption.map
    (fun s => s.board.chainStack.val.length) = some 2 := by decide +kernel

/-- The draw of the witness is a draw between different piles. -/
example : (Client.follow false Client.init [startOfDuel, fiveCards]).toOption.map (fun s =>
    ((s.board.frame.layout.pile ⟨0, .hand⟩).length, (s.board.frame.layout.pile ⟨0, .mainDeck⟩).length)) = some (5, 35) := by
  decide +kernel

end Ygo.Props
