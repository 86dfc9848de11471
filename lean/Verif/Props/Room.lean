import Verif.Lemmas.RoomStart

/-!
# Properties of rooms

`Lived env r calls log`: the room `r` was reached by the calls `calls` (the first of which is the host entering at construction), and
`log` is everything it sent, in order.
-/

set_option linter.unusedSimpArgs false

namespace Ygo.Props
open Ygo Ygo.Room Ygo.Spec

/-! ## Examples used below -/

/-- Clients have a name; decks with an empty main deck are refused. -/
def demoEnv : Env := ⟨fun c => { id := [c], name := "" }, fun _ d => (!d.main.isEmpty, { invalidCards := some [1] })⟩

/-- A random stream: 3, 3, 5, 2, 0, 0, … -/
def demoRng : Nat → Nat := fun i => [3, 3, 5, 2].getD i 0

/-- Submit a good deck, then be ready. -/
def prepare (c : ClientId) : List Room.Call :=
  [.visit c (.configuring (.updateDeck { main := [7] })), .visit c (.configuring (.readyStatus true))]

/-- The host starts. -/
def startCall (host : ClientId) : Room.Call := .visit host (.configuring (.startDueling true))

/-! ## C50 -/

/-- Two teams of three slots; maximums between 1 and 3; no more duelists than the maximum; positions filled from 0 without gaps; the
host at team 0 position 0. -/
theorem C50_capacity {env : Env} {r : Room} {calls : List Room.Call} {log : List Sent} (h : Lived env r calls log) :
    r.options.maxDuelists.length = 2 ∧
    (∀ t, 1 ≤ capacity r t ∧ capacity r t ≤ 3 ∧ (r.teams t).length = 3 ∧ duelists r t ≤ capacity r t) ∧
    (∀ t p, (seat r t p).isSome = true ↔ p < duelists r t) ∧ seat r 0 0 = some r.host := by
  have hok := lived_ok h
  refine ⟨?_, ?_, hok.seat_isSome, lived_host_seat h⟩
  · obtain ⟨m0, m1, h1, _⟩ := hok.maxes
    simp [h1]
  · intro t
    exact ⟨(hok.cap t).1, (hok.cap t).2, (hok.team t).2.length, (hok.team t).1⟩

/-- The maximum of each team is the requested one, brought into the range 1 to 3; it is 1 when none was requested. -/
theorem C50_maximums {env : Env} {rng : Nat → Nat} {host : ClientId} {o : Options} {r : Room} {out : List Sent}
    (h : Room.init env rng host o = .ok (r, out)) (t : Fin 2) : capacity r t = min 3 (max 1 (o.maxDuelists.getD t.val 1)) := by
  have ho := (init_move h).host.2
  have hc : ∀ v : Nat, (if v < 1 then 1 else if 3 < v then 3 else v) = min 3 (max 1 v) := by
    intro v; split
    · omega
    · split <;> omega
  unfold capacity
  rw [ho]
  simp only [emptyRoom, Room.clampOptions, hc]
  match t, o.maxDuelists with
  | 0, [] => rfl
  | 1, [] => rfl
  | 0, [a] => rfl
  | 1, [a] => rfl
  | 0, a :: b :: l => rfl
  | 1, a :: b :: l => rfl

/-- Options and host never change. -/
theorem C50_options_kept {env : Env} {r r' : Room} {calls : List Room.Call} {log out : List Sent} {fuel : Nat} {c : Room.Call}
    (h : Lived env r calls log) (hs : r.step env fuel c = .ok (r', out)) : r'.options = r.options ∧ r'.host = r.host :=
  ⟨((lived_ok h).move hs).host.2, ((lived_ok h).move hs).host.1⟩

/-- Construction always succeeds. -/
theorem C50_construction (env : Env) (rng : Nat → Nat) (host : ClientId) (o : Options) : ∃ r out, Lived env r [.enter host] out ∧ r.host = host := by
  obtain ⟨r, out, h⟩ := init_ok env rng host o
  exact ⟨r, out, .start h, (init_move h).host.1⟩

/-- Non-vacuity: five clients, at most 2 + 9 duelists requested. -/
example : ∃ r log, Lived demoEnv r [.enter 1, .enter 2, .enter 3, .enter 4, .enter 5] log ∧
    (r.options.maxDuelists == [2, 3] && r.teams 0 == [{ client := some 1 }, { client := some 3 }, {}] &&
      r.teams 1 == [{ client := some 2 }, { client := some 4 }, { client := some 5 }]) = true :=
  play_witness (rng := demoRng) (o := { maxDuelists := [2, 9] }) (cs := [.enter 2, .enter 3, .enter 4, .enter 5]) _ (by decide)

/-! ## C51 -/

/-- Where a newcomer goes: the team with fewest duelists among those with room, team 0 on ties, at the next position; everybody else
keeps their seat. When both teams are full, the newcomer becomes a spectator. -/
theorem C51_seating {env : Env} {r r' : Room} {calls : List Room.Call} {log out : List Sent} {fuel : Nat} {peer : ClientId}
    (h : Lived env r calls log) (hc : r.state = .configuring) (hs : r.step env fuel (.enter peer) = .ok (r', out)) :
    (∃ t, duelists r t < capacity r t ∧
      (∀ t', duelists r t' < capacity r t' → duelists r t < duelists r t' ∨ (duelists r t = duelists r t' ∧ t ≤ t')) ∧
      (∀ t' p, seat r' t' p = if t' = t ∧ p = duelists r t then some peer else seat r t' p) ∧ r'.spectators = r.spectators) ∨
    ((∀ t, duelists r t = capacity r t) ∧ (∀ t p, seat r' t p = seat r t p) ∧
      ∀ c, c ∈ r'.spectators ↔ c = peer ∨ c ∈ r.spectators) := by
  have hok := lived_ok h
  have m := hok.move hs
  rw [show (Room.Call.enter peer) = .enter peer from rfl] at m
  have e := hok.enterConfiguring peer
  have hs' : r.enterConfiguring env peer = .ok (r', out) := by
    simpa only [Room.step, Room.enter, hc] using hs
  rw [e] at hs'
  simp only at hs'
  have l0 := (hok.team 0).1
  have l1 := (hok.team 1).1
  cases hn : nextSeat r with
  | none =>
    simp only [hn] at hs'
    split at hs'
    · cases hs'
    · cases hs'
      refine .inr ⟨?_, fun _ _ => rfl, fun c => mem_setInsert⟩
      unfold nextSeat at hn
      split at hn
      · cases hn
      · split at hn
        · cases hn
        · rename_i a b
          intro t
          match t with
          | 0 =>
            by_cases x : duelists r 0 < capacity r 0
            · exact absurd ⟨x, .inr b⟩ a
            · omega
          | 1 => omega
  | some x =>
    obtain ⟨t, p⟩ := x
    obtain ⟨rfl, hlt⟩ := nextSeat_some hn
    simp only [hn] at hs'
    cases hs'
    refine .inl ⟨t, hlt, ?_, ?_, rfl⟩
    · unfold nextSeat at hn
      split at hn
      · cases hn
        rename_i a
        intro t' ht'
        match t' with
        | 0 => exact .inr ⟨rfl, Nat.le_refl _⟩
        | 1 =>
          rcases a.2 with a | a
          · by_cases e : duelists r 0 = duelists r 1
            · exact .inr ⟨e, by decide⟩
            · exact .inl (by omega)
          · exact absurd ht' a
      · rename_i a
        split at hn
        · cases hn
          intro t' ht'
          match t' with
          | 0 =>
            by_cases e : duelists r 0 ≤ duelists r 1
            · exact absurd ⟨ht', .inl e⟩ a
            · exact .inl (by omega)
          | 1 => exact .inr ⟨rfl, Nat.le_refl _⟩
        · cases hn
    · have := hok.cap t
      have hl := (hok.team t).2.length
      intro t' p'
      rw [seat_setSlot (by omega)]

/-- Teams stay balanced: one may be more than one duelist ahead only when the other is full. -/
theorem C51_balance {env : Env} {r : Room} {calls : List Room.Call} {log : List Sent} (h : Lived env r calls log) (t t' : Fin 2) :
    duelists r t ≤ duelists r t' + 1 ∨ duelists r t' = capacity r t' := by
  revert t t'
  refine lived_induct (P := fun r _ _ => ∀ t t', duelists r t ≤ duelists r t' + 1 ∨ duelists r t' = capacity r t') ?_ ?_ h
  · intro rng host o t t'
    rw [duelists_empty, duelists_empty]; exact .inl (by omega)
  · intro r r' cs log c out hok ih m
    have same : (∀ t, duelists r' t = duelists r t) → (∀ t, capacity r' t = capacity r t) →
        ∀ t t', duelists r' t ≤ duelists r' t' + 1 ∨ duelists r' t' = capacity r' t' := by
      intro h1 h2 t t'
      rw [h1, h1, h2]; exact ih t t'
    have hcap : ∀ t, capacity r' t = capacity r t := fun t => by simp only [capacity, m.host.2]
    have hdl : (∀ t p, seat r' t p = seat r t p) → ∀ t, duelists r' t = duelists r t := by
      intro hse t
      have hok' := hok.of_move m
      have a := hok.seat_isSome t
      have b := hok'.seat_isSome t
      have x1 := a (duelists r' t)
      have x2 := b (duelists r t)
      rw [hse] at x2
      have x3 := b (duelists r' t)
      rw [hse] at x3
      have x4 := a (duelists r t)
      by_cases lt : duelists r' t < duelists r t
      · have := x3.mp (x1.mpr lt); omega
      · by_cases gt : duelists r t < duelists r' t
        · have := x4.mp (x2.mpr gt); omega
        · omega
    cases m with
    | @seat peer t s h1 h2 h3 h4 =>
      have hn : ∀ t', duelists (r.setSlot t (duelists r t) { s with client := some peer }) t' = if t' = t then duelists r t + 1 else duelists r t' := by
        intro t'
        by_cases e : t' = t
        · subst e
          have := (hok.team t').2.seat h4 peer
          have c := hok.cap t'
          have := this.count (by omega)
          simp only [if_true]
          simpa [duelists, Room.setSlot] using this
        · simp only [e, if_false]
          simp [duelists, Room.setSlot, e]
      unfold nextSeat at h2
      have l0 := (hok.team 0).1
      have l1 := (hok.team 1).1
      have i01 := ih 0 1
      have i10 := ih 1 0
      have two : ∀ t : Fin 2, t = 0 ∨ t = 1 := by decide
      intro a b
      rw [hn, hn, hcap]
      rcases two t with rfl | rfl <;> rcases two a with rfl | rfl <;> rcases two b with rfl | rfl <;>
        simp at h2 h3 ⊢ <;> (try split at h2) <;> (try simp at h2) <;> omega
    | spectate => exact same (fun _ => rfl) (fun _ => rfl)
    | goodDeck _ h2 => exact same (hdl (seat_setSlot_same h2 (by rfl))) hcap
    | badDeck _ h2 => exact same (hdl (seat_setSlot_same h2 (by rfl))) hcap
    | ready _ h2 => exact same (hdl (seat_setSlot_same h2 (by rfl))) hcap
    | start _ _ h3 =>
      obtain ⟨⟨d, u, rfl⟩, _⟩ := enterDeciding_ok h3
      exact same (fun _ => rfl) (fun _ => rfl)
    | announce => exact ih
    | nothing => exact ih

/-- Non-vacuity: the sixth client of a 1 + 3 room becomes a spectator, after team 1 was filled. -/
example : ∃ r log, Lived demoEnv r [.enter 1, .enter 2, .enter 3, .enter 4, .enter 5, .enter 6] log ∧
    (r.spectators == [5, 6] && r.teams 1 == [{ client := some 2 }, { client := some 3 }, { client := some 4 }]) = true :=
  play_witness (rng := demoRng) (o := { maxDuelists := [1, 3] }) (cs := [.enter 2, .enter 3, .enter 4, .enter 5, .enter 6]) _ (by decide)

/-! ## C52 -/

/-- The room leaves the configuring state only through the host's start signal, when both teams have a duelist and every duelist is
ready and has a deck which the validator accepts. -/
theorem C52_start {env : Env} {r r' : Room} {calls : List Room.Call} {log out : List Sent} {fuel : Nat} {c : Room.Call}
    (h : Lived env r calls log) (hs : r.step env fuel c = .ok (r', out)) (h0 : r.state = .configuring) (h1 : r'.state ≠ .configuring) :
    (∃ b, c = .visit r.host (.configuring (.startDueling b))) ∧
    (∀ t, ∃ p x, seat r t p = some x) ∧
    ∀ t p s, slotAt r t p = some s → s.client ≠ none → s.ready = true ∧ s.deckValid = true ∧ (env.check r.options.banlistId s.deck).1 = true := by
  have hok := lived_ok h
  have m := hok.move hs
  cases m with
  | seat => exact absurd h0 h1
  | spectate => exact absurd h0 h1
  | goodDeck => exact absurd h0 h1
  | badDeck => exact absurd h0 h1
  | ready => exact absurd h0 h1
  | nothing => exact absurd h0 h1
  | announce => exact absurd h0 h1
  | @start b fuel r' out a1 a2 a3 =>
    have hst := canStart_iff.mp a2
    refine ⟨⟨b, rfl⟩, ?_, ?_⟩
    · intro t
      obtain ⟨⟨p, s, hp, hc⟩, _⟩ := hst t
      obtain ⟨x, hx⟩ := Option.ne_none_iff_exists'.mp hc
      exact ⟨p, x, by simp [seat, hp, hx]⟩
    · intro t p s hp hc
      have := (hst t).2 p s hp hc
      exact ⟨this.1, this.2, hok.decks t p s hp this.2⟩

/-- Conversely, with the host method the host's start signal in such a room does leave the configuring state. -/
theorem C52_starts {env : Env} {r : Room} {calls : List Room.Call} {log : List Sent} {fuel : Nat} {b : Bool}
    (h : Lived env r calls log) (h0 : r.state = .configuring) (hm : r.options.ftdm = 0) (hr : Startable r) :
    ∃ r' out, r.step env fuel (.visit r.host (.configuring (.startDueling b))) = .ok (r', out) ∧ r'.state = .deciding (some r.host) := by
  have e := ((lived_ok h).enterDeciding hr fuel).1 hm
  refine ⟨{ r with state := .deciding (some r.host) }, r.sendAll .decidingEntering ++ [(r.host, .decideFirstTurn true)], ?_, rfl⟩
  · simp only [Room.step, Room.visit, h0, Room.signalConfiguring, Room.startDueling, canStart_iff.mpr hr]
    simpa using e

/-- It never goes back. -/
theorem C52_never_back {env : Env} {r r' : Room} {calls : List Room.Call} {log out : List Sent} {fuel : Nat} {c : Room.Call}
    (h : Lived env r calls log) (hs : r.step env fuel c = .ok (r', out)) (h0 : r.state ≠ .configuring) :
    r'.state = r.state ∧ r'.teams = r.teams ∧ r'.spectators = r.spectators := by
  have hok := lived_ok h
  cases hok.move hs with
  | seat a => exact absurd a h0
  | spectate a => exact absurd a h0
  | goodDeck a => exact absurd a h0
  | badDeck a => exact absurd a h0
  | ready a => exact absurd a h0
  | start a => exact absurd a h0
  | announce => exact ⟨rfl, rfl, rfl⟩
  | nothing => exact ⟨rfl, rfl, rfl⟩

/-- Non-vacuity: a room that starts, and one that does not as client 2 is not ready. -/
example : ∃ r log, Lived demoEnv r (.enter 1 :: ([.enter 2] ++ prepare 1 ++ prepare 2 ++ [startCall 1])) log ∧
    (r.state == .deciding (some 1)) = true :=
  play_witness (rng := demoRng) (o := {}) (cs := [.enter 2] ++ prepare 1 ++ prepare 2 ++ [startCall 1]) _ (by decide)

example : ∃ r log, Lived demoEnv r (.enter 1 :: ([.enter 2] ++ prepare 1 ++ [startCall 1])) log ∧ (r.state == .configuring) = true :=
  play_witness (rng := demoRng) (o := {}) (cs := [.enter 2] ++ prepare 1 ++ [startCall 1]) _ (by decide)

/-! ## C53 -/

/-- The property fails: a ready duelist may submit a refused deck and is still shown as ready, to itself and to others. -/
theorem C53_ready_without_deck : ∃ (env : Env) (r : Room) (calls : List Room.Call) (log : List Sent), Lived env r calls log ∧
    ∃ t p s, slotAt r t p = some s ∧ s.client = some r.host ∧ s.ready = true ∧ s.deckValid = false := by
  obtain ⟨r, log, h, hp⟩ := play_witness (env := demoEnv) (rng := demoRng) (host := 1) (o := {})
    (cs := prepare 1 ++ [.visit 1 (.configuring (.updateDeck {}))])
    (fun r => r.teams 0 == [{ ready := true, client := some 1 }, {}, {}] && r.host == 1) (by decide)
  simp only [Bool.and_eq_true, beq_iff_eq] at hp
  exact ⟨_, r, _, log, h, 0, 0, { ready := true, client := some 1 }, by simp [slotAt, hp.1], by simp [hp.2], rfl, rfl⟩

/-- When no deck is refused, a ready duelist has a valid deck. -/
theorem C53_ready_has_deck_partial {env : Env} {r : Room} {calls : List Room.Call} {log : List Sent} (h : Lived env r calls log)
    (hd : ∀ c d, .visit c (.configuring (.updateDeck d)) ∈ calls → (env.check r.options.banlistId d).1 = true) :
    ∀ t p s, slotAt r t p = some s → s.ready = true → s.deckValid = true := by
  revert hd
  refine lived_induct (P := fun r calls _ => (∀ c d, .visit c (.configuring (.updateDeck d)) ∈ calls → (env.check r.options.banlistId d).1 = true) →
    ∀ t p s, slotAt r t p = some s → s.ready = true → s.deckValid = true) ?_ ?_ h
  · intro rng host o _ t p s hs
    simp only [slotAt, emptyRoom, List.getElem?_replicate] at hs
    split at hs <;> simp at hs
    subst hs; simp
  · intro r r' cs log c out hok ih m hd
    have ih := ih (fun c d hc => by
      have := hd c d (by simp [hc])
      rwa [m.host.2] at this)
    have hset : ∀ {t : Fin 2} {p : Nat} {s s' : Slot}, slotAt r t p = some s → (s'.ready = true → s'.deckValid = true) →
        ∀ t' p' x, slotAt (r.setSlot t p s') t' p' = some x → x.ready = true → x.deckValid = true := by
      intro t p s s' hs h' t' p' x hx
      rw [slotAt_setSlot (List.getElem?_eq_some_iff.mp hs).1] at hx
      split at hx
      · simp at hx; subst hx; exact h'
      · exact ih t' p' x hx
    cases m with
    | seat _ _ _ h4 => have i := ih _ _ _ h4; exact hset h4 i
    | spectate => exact ih
    | goodDeck _ h2 => exact hset h2 (fun _ => rfl)
    | badDeck _ h2 _ h4 =>
      have := hd _ _ (List.mem_append.mpr (.inr (List.mem_singleton.mpr rfl)))
      simp only [Room.setSlot] at this
      rw [this] at h4
      cases h4
    | ready _ h2 _ _ h5 => exact hset h2 h5
    | start _ _ h3 =>
      obtain ⟨⟨d, u, rfl⟩, _⟩ := enterDeciding_ok h3
      exact ih
    | announce => exact ih
    | nothing => exact ih

/-- Becoming ready always takes a valid deck. -/
theorem C53_becoming_ready {env : Env} {r r' : Room} {calls : List Room.Call} {log out : List Sent} {fuel : Nat} {c : Room.Call}
    (h : Lived env r calls log) (hs : r.step env fuel c = .ok (r', out)) {t : Fin 2} {p : Nat} {s s' : Slot}
    (h1 : slotAt r t p = some s) (h2 : slotAt r' t p = some s') (h3 : s.ready = false) (h4 : s'.ready = true) :
    s'.deckValid = true ∧ (env.check r.options.banlistId s'.deck).1 = true ∧ ∃ x, s'.client = some x ∧ c = .visit x (.configuring (.readyStatus true)) := by
  have hok := lived_ok h
  have m := hok.move hs
  have no : slotAt r' t p = slotAt r t p → False := by
    intro e; rw [e, h1] at h2; cases h2; rw [h3] at h4; cases h4
  have noset : ∀ {t' : Fin 2} {p' : Nat} {a a' : Slot}, slotAt r t' p' = some a → a'.ready = a.ready → r' = r.setSlot t' p' a' → False := by
    rintro t' p' a a' ha hr rfl
    rw [slotAt_setSlot (List.getElem?_eq_some_iff.mp ha).1] at h2
    split at h2
    · rename_i e; obtain ⟨rfl, rfl⟩ := e
      rw [ha] at h1; cases h1
      cases h2
      rw [hr, h3] at h4; cases h4
    · rw [h1] at h2; cases h2; rw [h3] at h4; cases h4
  cases m with
  | seat _ _ _ x => exact absurd rfl (fun e => noset x (by rfl) e)
  | spectate => exact absurd rfl no
  | goodDeck _ x => exact absurd rfl (fun e => noset x (by rfl) e)
  | badDeck _ x => exact absurd rfl (fun e => noset x (by rfl) e)
  | @ready peer b t' p' a _ x y z w =>
    rw [slotAt_setSlot (List.getElem?_eq_some_iff.mp x).1] at h2
    split at h2
    · rename_i e; obtain ⟨rfl, rfl⟩ := e
      rw [x] at h1; cases h1
      cases h2
      simp only at h4
      subst h4
      have hd := hok.decks _ _ _ x (w rfl)
      exact ⟨w rfl, hd, peer, y, rfl⟩
    · rw [h1] at h2; cases h2; rw [h3] at h4; cases h4
  | start _ _ x =>
    obtain ⟨⟨d, u, rfl⟩, _⟩ := enterDeciding_ok x
    exact absurd rfl no
  | announce => exact absurd rfl no
  | nothing => exact absurd rfl no

/-! ## C54 -/

/-- Everyone in the room knows the options, every duelist (team, position, user, host and ready flags) and the number of spectators,
by just following the messages it received. -/
theorem C54_views_in_sync {env : Env} {r : Room} {calls : List Room.Call} {log : List Sent} (h : Lived env r calls log) {x : ClientId}
    (hx : Present r x) :
    (knows x log).options = some r.options ∧ (knows x log).spectators = r.spectators.length ∧
    ∀ (t : Fin 2) p, (knows x log).duelist t.val p =
      (slotAt r t p).bind fun s => s.client.map fun c => ⟨t.val, p, env.user c, decide (c = r.host), s.ready⟩ := by
  rw [lived_knows h x hx]
  refine ⟨rfl, rfl, ?_⟩
  intro t p
  simp [truth]

/-- In particular all clients in the room agree. -/
theorem C54_agree {env : Env} {r : Room} {calls : List Room.Call} {log : List Sent} (h : Lived env r calls log) {x y : ClientId}
    (hx : Present r x) (hy : Present r y) : knows x log = knows y log := by
  rw [lived_knows h x hx, lived_knows h y hy]

/-- Whoever entered a room that had not started is present, and stays so. -/
theorem C54_present {env : Env} {r r' : Room} {calls : List Room.Call} {log out : List Sent} {fuel : Nat} {c : Room.Call}
    (h : Lived env r calls log) (hs : r.step env fuel c = .ok (r', out)) (x : ClientId) :
    Present r' x ↔ Present r x ∨ (c = .enter x ∧ r.state = .configuring) := by
  have hok := lived_ok h
  constructor
  · intro hx
    cases hok.move hs with
    | @seat peer t s h1 _ _ h4 =>
      rcases hx with ⟨t', p', hx⟩ | hx
      · rw [seat_setSlot (List.getElem?_eq_some_iff.mp h4).1] at hx
        split at hx
        · simp at hx; subst hx; exact .inr ⟨rfl, h1⟩
        · exact .inl (.inl ⟨t', p', hx⟩)
      · exact .inl (.inr hx)
    | spectate h1 =>
      rcases hx with hx | hx
      · exact .inl (.inl hx)
      · rcases mem_setInsert.mp hx with rfl | hx
        · exact .inr ⟨rfl, h1⟩
        · exact .inl (.inr hx)
    | goodDeck _ h2 => exact .inl ((present_setSlot_same h2 (by rfl) x).mp hx)
    | badDeck _ h2 => exact .inl ((present_setSlot_same h2 (by rfl) x).mp hx)
    | ready _ h2 => exact .inl ((present_setSlot_same h2 (by rfl) x).mp hx)
    | start _ _ h3 =>
      obtain ⟨⟨d, u, rfl⟩, _⟩ := enterDeciding_ok h3
      exact .inl hx
    | announce => exact .inl hx
    | nothing => exact .inl hx
  · rintro (hx | ⟨rfl, hc⟩)
    · rcases hx with ⟨t, p, hx⟩ | hx
      · exact .inl ⟨t, p, (hok.move hs).seat_mono hok hx⟩
      · refine .inr ?_
        cases hok.move hs with
        | spectate => exact mem_setInsert.mpr (.inr hx)
        | start _ _ h3 =>
          obtain ⟨⟨d, u, rfl⟩, _⟩ := enterDeciding_ok h3
          exact hx
        | _ => exact hx
    · rcases C51_seating h hc hs with ⟨t, _, _, h3, _⟩ | ⟨_, _, h3⟩
      · exact .inl ⟨t, duelists r t, by rw [h3]; simp⟩
      · exact .inr ((h3 x).mpr (.inl rfl))

/-- Non-vacuity: what client 2 knows after client 1 is ready and 3 came to watch. -/
example : (match play demoEnv demoRng 1 {} ([.enter 2] ++ prepare 1 ++ [.enter 3]) with
    | .ok (_, log) => decide ((knows 2 log).duelist 0 0 = some ⟨0, 0, { id := [1] }, true, true⟩ ∧
        (knows 2 log).duelist 1 0 = some ⟨1, 0, { id := [2] }, false, false⟩ ∧ (knows 2 log).spectators = 1 ∧
        (knows 3 log).duelist 0 0 = some ⟨0, 0, { id := [1] }, true, true⟩)
    | .error _ => false) = true := by decide

/-! ## C55 -/

/-- The property fails: a client that enters twice has two seats. -/
theorem C55_two_seats : ∃ (env : Env) (r : Room) (calls : List Room.Call) (log : List Sent), Lived env r calls log ∧
    seat r 0 0 = some 1 ∧ seat r 1 0 = some 1 := by
  obtain ⟨r, log, h, hp⟩ := play_witness (env := demoEnv) (rng := demoRng) (host := 1) (o := {}) (cs := [.enter 1])
    (fun r => r.teams 0 == [{ client := some 1 }, {}, {}] && r.teams 1 == [{ client := some 1 }, {}, {}]) (by decide)
  simp only [Bool.and_eq_true, beq_iff_eq] at hp
  exact ⟨_, r, _, log, h, by simp [seat, slotAt, hp.1], by simp [seat, slotAt, hp.2]⟩

/-- Duelists never hold more seats than the number of times they entered. -/
theorem C55_seats_le_enters {env : Env} {r : Room} {calls : List Room.Call} {log : List Sent} (h : Lived env r calls log) (x : ClientId) :
    (Room.teamClients (r.teams 0)).count x + (Room.teamClients (r.teams 1)).count x + r.spectators.count x ≤ calls.count (.enter x) := by
  refine lived_induct (P := fun r calls _ => (Room.teamClients (r.teams 0)).count x + (Room.teamClients (r.teams 1)).count x +
    r.spectators.count x ≤ calls.count (.enter x)) ?_ ?_ h
  · intro rng host o
    have : Room.teamClients (List.replicate 3 {}) = [] := rfl
    simp only [emptyRoom, this, List.count_nil]; omega
  · intro r r' cs log c out hok ih m
    have hcnt : ∀ {t : Fin 2} {p : Nat} {s s' : Slot}, slotAt r t p = some s → s'.client = s.client → ∀ t',
        Room.teamClients ((r.setSlot t p s').teams t') = Room.teamClients (r.teams t') := by
      intro t p s s' hs hc t'
      by_cases e : t' = t
      · subst e
        simp only [Room.setSlot, if_true]
        exact teamClients_set_same hs hc
      · simp [Room.setSlot, e]
    rw [List.count_append]
    cases m with
    | @seat peer t s h1 h2 h3 h4 =>
      have hnone : s.client = none := by
        have := hok.seat_none (t := t) (Nat.le_refl (duelists r t))
        simpa [seat, h4] using this
      have hc := count_set_new (s' := { s with client := some peer }) h4 hnone rfl x
      have hone : ([Room.Call.enter peer].count (Room.Call.enter x)) = if peer = x then 1 else 0 := by
        simp [List.count_cons]
      rw [hone]
      have two : ∀ t : Fin 2, t = 0 ∨ t = 1 := by decide
      rcases two t with rfl | rfl
      · simp only [Room.setSlot, if_true]
        rw [hc]; simp; omega
      · simp only [Room.setSlot, if_true]
        rw [hc]; simp; omega
    | @spectate peer h1 h2 =>
      have hone : ([Room.Call.enter peer].count (Room.Call.enter x)) = if peer = x then 1 else 0 := by
        simp [List.count_cons]
      rw [hone]
      have := count_setInsert (l := r.spectators) (c := peer) (x := x)
      simp only
      omega
    | goodDeck _ h2 => rw [hcnt h2 (by rfl), hcnt h2 (by rfl)]; exact Nat.le_trans ih (Nat.le_add_right _ _)
    | badDeck _ h2 => rw [hcnt h2 (by rfl), hcnt h2 (by rfl)]; exact Nat.le_trans ih (Nat.le_add_right _ _)
    | ready _ h2 => rw [hcnt h2 (by rfl), hcnt h2 (by rfl)]; exact Nat.le_trans ih (Nat.le_add_right _ _)
    | start _ _ h3 =>
      obtain ⟨⟨d, u, rfl⟩, _⟩ := enterDeciding_ok h3
      exact Nat.le_trans ih (Nat.le_add_right _ _)
    | announce => exact Nat.le_trans ih (Nat.le_add_right _ _)
    | nothing => exact Nat.le_trans ih (Nat.le_add_right _ _)

/-- A client that entered at most once has at most one seat, and is not also a spectator. -/
theorem C55_one_seat_partial {env : Env} {r : Room} {calls : List Room.Call} {log : List Sent} (h : Lived env r calls log) {x : ClientId}
    (hx : calls.count (.enter x) ≤ 1) :
    (∀ t p t' p', seat r t p = some x → seat r t' p' = some x → t = t' ∧ p = p') ∧ (∀ t p, seat r t p = some x → x ∉ r.spectators) := by
  have hle := C55_seats_le_enters h x
  have two : ∀ t : Fin 2, t = 0 ∨ t = 1 := by decide
  have hmem : ∀ t p, seat r t p = some x → 0 < (Room.teamClients (r.teams t)).count x := by
    intro t p hp
    exact List.count_pos_iff.mpr (mem_teamClients.mpr ⟨p, hp⟩)
  refine ⟨?_, ?_⟩
  · intro t p t' p' h1 h2
    have m1 := hmem t p h1
    have m2 := hmem t' p' h2
    have ht : t = t' := by
      rcases two t with rfl | rfl <;> rcases two t' with rfl | rfl <;> first | rfl | omega
    subst ht
    refine ⟨rfl, ?_⟩
    have hone : (Room.teamClients (r.teams t)).count x ≤ 1 := by
      rcases two t with rfl | rfl <;> omega
    obtain ⟨a, b, c, hl⟩ := list3 ((lived_ok h).team t).2.length
    simp only [seat, slotAt, hl] at h1 h2
    simp only [hl, Room.teamClients] at hone
    match p, p' with
    | 0, 0 => rfl
    | 1, 1 => rfl
    | 2, 2 => rfl
    | 0, 1 => simp at h1 h2; simp [List.filterMap_cons, h1, h2] at hone
    | 1, 0 => simp at h1 h2; simp [List.filterMap_cons, h1, h2] at hone
    | 0, 2 => simp at h1 h2; cases hb : b.client <;> simp [List.filterMap_cons, h1, h2, hb, List.count_cons] at hone <;> omega
    | 2, 0 => simp at h1 h2; cases hb : b.client <;> simp [List.filterMap_cons, h1, h2, hb, List.count_cons] at hone <;> omega
    | 1, 2 => simp at h1 h2; cases hb : a.client <;> simp [List.filterMap_cons, h1, h2, hb, List.count_cons] at hone <;> omega
    | 2, 1 => simp at h1 h2; cases hb : a.client <;> simp [List.filterMap_cons, h1, h2, hb, List.count_cons] at hone <;> omega
    | n + 3, _ => simp at h1
    | _, n + 3 => simp at h2
  · intro t p hp hs
    have m1 := hmem t p hp
    have m2 := List.count_pos_iff.mpr hs
    rcases two t with rfl | rfl <;> omega

/-- Non-vacuity: four clients that entered once each. -/
example : ∃ r log, Lived demoEnv r [.enter 1, .enter 2, .enter 3, .enter 4] log ∧
    (r.teams 0 == [{ client := some 1 }, { client := some 3 }, {}] && r.spectators == [4]) = true :=
  play_witness (rng := demoRng) (o := { maxDuelists := [2, 1] }) (cs := [.enter 2, .enter 3, .enter 4]) _ (by decide)

/-! ## C56 -/

/-- Dice: the rounds are read off the random stream two numbers at a time, each in 1 to 6; all are ties but the last; the higher roll
wins; everyone is told the same result and the leader of the winning team is asked to decide. -/
theorem C56_dice {env : Env} {r r' : Room} {calls : List Room.Call} {log out : List Sent} {fuel : Nat} {b : Bool}
    (h : Lived env r calls log) (h0 : r.state = .configuring) (hm : r.options.ftdm = 2) (hr : Startable r)
    (hs : r.step env fuel (.visit r.host (.configuring (.startDueling b))) = .ok (r', out)) :
    ∃ (rolls : List (Nat × Nat)) (x y : Nat) (winner : Fin 2) (leader : ClientId),
      (∀ i (hi : i < (rolls ++ [(x, y)]).length), (rolls ++ [(x, y)])[i] =
        (r.rng (r.used + 2 * i) % 6 + 1, r.rng (r.used + 2 * i + 1) % 6 + 1)) ∧
      (∀ a ∈ rolls, a.1 = a.2) ∧ (∀ a ∈ rolls ++ [(x, y)], (1 ≤ a.1 ∧ a.1 ≤ 6) ∧ (1 ≤ a.2 ∧ a.2 ≤ 6)) ∧
      (winner = 0 ∧ y < x ∨ winner = 1 ∧ x < y) ∧ seat r winner 0 = some leader ∧
      r'.state = .deciding (some leader) ∧
      out = r.sendAll .decidingEntering ++ r.sendAll (.result winner.val (.dice (rolls ++ [(x, y)]))) ++ [(leader, .decideFirstTurn true)] := by
  have hok := lived_ok h
  have e := (hok.enterDeciding hr fuel).2.2.1 hm
  have hs' : r.enterDeciding fuel = .ok (r', out) := by
    simpa [Room.step, Room.visit, h0, Room.signalConfiguring, Room.startDueling, canStart_iff.mpr hr] using hs
  rw [e] at hs'
  have key := rollDice_eq (rng := r.rng) (fuel := fuel) (used := r.used)
  cases hd : Room.rollDice r.rng fuel r.used with
  | none => simp [hd] at hs'
  | some z =>
    obtain ⟨rolls, w, u⟩ := z
    simp only [hd] at hs' key
    obtain ⟨n, hn, h1, h2, h3, h4, h5⟩ := key
    obtain ⟨leader, hl, _⟩ := hok.teamLeader hr (if w = 0 then 0 else 1)
    cases hs'
    have hrolls : rolls = (List.range n).map (round r.rng r.used) ++ [((round r.rng r.used n).1, (round r.rng r.used n).2)] := by
      rw [h3, List.range_succ, List.map_append]; rfl
    refine ⟨(List.range n).map (round r.rng r.used), (round r.rng r.used n).1, (round r.rng r.used n).2, if w = 0 then 0 else 1, leader,
      ?_, ?_, ?_, ?_, hl, ?_, ?_⟩
    · rw [← hrolls]
      intro i hi
      simp only [h3, List.getElem_map, List.getElem_range]; rfl
    · intro a ha
      simp only [List.mem_map, List.mem_range] at ha
      obtain ⟨i, hi, rfl⟩ := ha
      exact h1 i hi
    · rw [← hrolls, h3]
      intro a ha
      simp only [List.mem_map, List.mem_range] at ha
      obtain ⟨i, hi, rfl⟩ := ha
      simp only [round]
      omega
    · rw [h4]
      by_cases lt : (round r.rng r.used n).1 < (round r.rng r.used n).2
      · exact .inr ⟨by simp [lt], lt⟩
      · exact .inl ⟨by simp [lt], by omega⟩
    · simp [hl]
    · rw [← hrolls]
      have hw : (if w = 0 then (0 : Fin 2) else 1).val = w := by
        rw [h4]; split <;> simp
      rw [hw]
      simp [hl]

/-- Dice: the loop ends exactly when some round is not a tie. -/
theorem C56_dice_terminates {env : Env} {r : Room} {calls : List Room.Call} {log : List Sent} {b : Bool}
    (h : Lived env r calls log) (h0 : r.state = .configuring) (hm : r.options.ftdm = 2) (hr : Startable r) :
    (∃ fuel r' out, r.step env fuel (.visit r.host (.configuring (.startDueling b))) = .ok (r', out)) ↔
      ∃ n, r.rng (r.used + 2 * n) % 6 ≠ r.rng (r.used + 2 * n + 1) % 6 := by
  have hok := lived_ok h
  have hs : ∀ fuel, r.step env fuel (.visit r.host (.configuring (.startDueling b))) = r.enterDeciding fuel := by
    intro fuel
    simp [Room.step, Room.visit, h0, Room.signalConfiguring, Room.startDueling, canStart_iff.mpr hr]
  constructor
  · rintro ⟨fuel, r', out, hh⟩
    rw [hs, (hok.enterDeciding hr fuel).2.2.1 hm] at hh
    have key := rollDice_eq (rng := r.rng) (fuel := fuel) (used := r.used)
    cases hd : Room.rollDice r.rng fuel r.used with
    | none => simp [hd] at hh
    | some z =>
      obtain ⟨rolls, w, u⟩ := z
      simp only [hd] at key
      obtain ⟨n, _, _, h2, _⟩ := key
      refine ⟨n, ?_⟩
      simp only [round] at h2
      omega
  · rintro ⟨n, hn⟩
    refine ⟨n + 1, ?_⟩
    rw [hs, (hok.enterDeciding hr (n + 1)).2.2.1 hm]
    have key := rollDice_eq (rng := r.rng) (fuel := n + 1) (used := r.used)
    cases hd : Room.rollDice r.rng (n + 1) r.used with
    | none =>
      simp only [hd] at key
      have := key n (by omega)
      simp only [round] at this
      omega
    | some z => exact ⟨_, _, rfl⟩

/-- Coin: one number is taken; the face and the team going first are both its parity; everyone is told the same and the leader of
that team is asked. -/
theorem C56_coin {env : Env} {r : Room} {calls : List Room.Call} {log : List Sent} {fuel : Nat} {b : Bool}
    (h : Lived env r calls log) (h0 : r.state = .configuring) (hm : r.options.ftdm = 3) (hr : Startable r) :
    ∃ (r' : Room) (winner : Fin 2) (leader : ClientId), winner.val = r.rng r.used % 2 ∧ seat r winner 0 = some leader ∧
      r.step env fuel (.visit r.host (.configuring (.startDueling b))) = .ok (r',
        r.sendAll .decidingEntering ++ r.sendAll (.result winner.val (.coin winner.val)) ++ [(leader, .decideFirstTurn true)]) ∧
      r'.state = .deciding (some leader) ∧ r'.used = r.used + 1 := by
  have hok := lived_ok h
  have e := (hok.enterDeciding hr fuel).2.2.2.1 hm
  obtain ⟨leader, hl, _⟩ := hok.teamLeader hr (if r.rng r.used % 2 = 0 then 0 else 1)
  have hw : (if r.rng r.used % 2 = 0 then (0 : Fin 2) else 1).val = r.rng r.used % 2 := by
    split
    · simp [*]
    · simp; omega
  refine ⟨{ r with state := .deciding (some leader), used := r.used + 1 }, (if r.rng r.used % 2 = 0 then 0 else 1), leader, hw, hl, ?_, ?_, ?_⟩
  · simp only [Room.step, Room.visit, h0, Room.signalConfiguring, Room.startDueling, canStart_iff.mpr hr, ne_eq, not_true, if_false]
    rw [hw]
    simpa [hl] using e
  · rfl
  · rfl

/-- Host method: on start just the host is asked, and nothing is announced. -/
theorem C56_host_asked {env : Env} {r : Room} {calls : List Room.Call} {log : List Sent} {fuel : Nat} {b : Bool}
    (h : Lived env r calls log) (h0 : r.state = .configuring) (hm : r.options.ftdm = 0) (hr : Startable r) :
    r.step env fuel (.visit r.host (.configuring (.startDueling b))) =
      .ok ({ r with state := .deciding (some r.host) }, r.sendAll .decidingEntering ++ [(r.host, .decideFirstTurn true)]) := by
  have e := ((lived_ok h).enterDeciding hr fuel).1 hm
  simpa [Room.step, Room.visit, h0, Room.signalConfiguring, Room.startDueling, canStart_iff.mpr hr] using e

/-- A result is announced by answering only with the host method, only the host's, and only for team 0 or 1; it is then what was
answered, sent to everyone. -/
theorem C56_host_answer {env : Env} {r r' : Room} {calls : List Room.Call} {log out : List Sent} {fuel : Nat} {c : ClientId} {n : Nat}
    (h : Lived env r calls log) (h0 : r.state ≠ .configuring)
    (hs : r.step env fuel (.visit c (.deciding (.teamGoingFirst n))) = .ok (r', out)) :
    out = if r.options.ftdm = 0 ∧ c = r.host ∧ n ≤ 1 then r.sendAll (.result n .unset) else [] := by
  have hok := lived_ok h
  simp only [Room.step, Room.visit] at hs
  cases hst : r.state with
  | mono => exact absurd hst hok.state
  | configuring => exact absurd hst h0
  | deciding d =>
    simp only [hst, Room.signalDeciding] at hs
    by_cases e1 : r.options.ftdm = 0
    · by_cases e2 : c = r.host
      · by_cases e3 : n ≤ 1
        · have : ¬ n > 1 := by omega
          simp [e1, e2, this] at hs
          simp [e1, e2, e3, hs.2]
        · have : n > 1 := by omega
          simp [e1, e2, this] at hs
          simp [e1, e2, e3, hs.2]
      · simp [e1, e2] at hs
        simp [e2, hs.2]
    · simp [e1] at hs
      simp [e1, hs.2]

/-- Non-vacuity: dice 4-4, then 6-3; team 0 wins; its leader, client 1, is asked. -/
example : (match play demoEnv demoRng 1 { ftdm := 2 } ([.enter 2] ++ prepare 1 ++ prepare 2 ++ [startCall 1]) with
    | .ok (r, log) => decide (r.state = .deciding (some 1) ∧ (2, Event.result 0 (.dice [(4, 4), (6, 3)])) ∈ log)
    | .error _ => false) = true := by decide

example : (match play demoEnv demoRng 1 { ftdm := 3 } ([.enter 2] ++ prepare 1 ++ prepare 2 ++ [startCall 1]) with
    | .ok (r, log) => decide (r.state = .deciding (some 2) ∧ (1, Event.result 1 (.coin 1)) ∈ log)
    | .error _ => false) = true := by decide

/-! ## C57 -/

/-- With any method but the host's, answers are ignored, whoever sends them. -/
theorem C57_answers_ignored {env : Env} {r : Room} {calls : List Room.Call} {log : List Sent} {fuel : Nat} {c : ClientId} {s : Signal}
    (h : Lived env r calls log) (h0 : r.state ≠ .configuring) (hm : r.options.ftdm ≠ 0) : r.step env fuel (.visit c s) = .ok (r, []) := by
  have hok := lived_ok h
  simp only [Room.step, Room.visit]
  cases hst : r.state with
  | mono => exact absurd hst hok.state
  | configuring => exact absurd hst h0
  | deciding d =>
    cases s with
    | unset => rfl
    | configuring _ => rfl
    | deciding s =>
      cases s with
      | unset => rfl
      | teamGoingFirst n => simp [Room.signalDeciding, hm]

/-- The property fails: after dice or coin there is a client that was asked, and whose answer is ignored. -/
theorem C57_decider_ignored (method : Int) (hm : method = 2 ∨ method = 3) :
    ∃ (env : Env) (r : Room) (calls : List Room.Call) (log : List Sent) (d : ClientId), Lived env r calls log ∧
      r.state = .deciding (some d) ∧ r.options.ftdm = method ∧ ∀ fuel s, r.step env fuel (.visit d s) = .ok (r, []) := by
  rcases hm with rfl | rfl
  · obtain ⟨r, log, h, hp⟩ := play_witness (env := demoEnv) (rng := demoRng) (host := 1) (o := { ftdm := 2 })
      (cs := [.enter 2] ++ prepare 1 ++ prepare 2 ++ [startCall 1]) (fun r => r.state == .deciding (some 1) && r.options.ftdm == 2) (by decide)
    simp only [Bool.and_eq_true, beq_iff_eq] at hp
    exact ⟨_, r, _, log, 1, h, hp.1, hp.2, fun fuel s => C57_answers_ignored h (by simp [hp.1]) (by simp [hp.2])⟩
  · obtain ⟨r, log, h, hp⟩ := play_witness (env := demoEnv) (rng := demoRng) (host := 1) (o := { ftdm := 3 })
      (cs := [.enter 2] ++ prepare 1 ++ prepare 2 ++ [startCall 1]) (fun r => r.state == .deciding (some 2) && r.options.ftdm == 3) (by decide)
    simp only [Bool.and_eq_true, beq_iff_eq] at hp
    exact ⟨_, r, _, log, 2, h, hp.1, hp.2, fun fuel s => C57_answers_ignored h (by simp [hp.1]) (by simp [hp.2])⟩

/-- With rock-paper-scissors (or an unknown method) nobody is ever asked and nothing is ever announced. -/
theorem C57_stuck {env : Env} {r : Room} {calls : List Room.Call} {log : List Sent} (h : Lived env r calls log)
    (hm : r.options.ftdm ≠ 0 ∧ r.options.ftdm ≠ 2 ∧ r.options.ftdm ≠ 3) :
    (∀ m ∈ log, m.2 ≠ .decideFirstTurn true ∧ ∀ w t, m.2 ≠ .result w t) ∧ (∀ d, r.state ≠ .deciding (some d)) := by
  revert hm
  refine lived_induct (P := fun r _ log => (r.options.ftdm ≠ 0 ∧ r.options.ftdm ≠ 2 ∧ r.options.ftdm ≠ 3) →
    (∀ m ∈ log, m.2 ≠ .decideFirstTurn true ∧ ∀ w t, m.2 ≠ .result w t) ∧ (∀ d, r.state ≠ .deciding (some d))) ?_ ?_ h
  · intro rng host o _; exact ⟨by simp, by simp [emptyRoom]⟩
  · intro r r' cs log c out hok ih m hm
    rw [m.host.2] at hm
    obtain ⟨i1, i2⟩ := ih hm
    have hall : ∀ (r : Room) (e : Event) x, x ∈ r.sendAll e → x.2 = e := by
      intro r e x hx
      simp only [Room.sendAll, List.mem_map] at hx
      obtain ⟨c, _, rfl⟩ := hx
      rfl
    have conc : (∀ m ∈ out, m.2 ≠ .decideFirstTurn true ∧ ∀ w t, m.2 ≠ .result w t) →
        ∀ m ∈ log ++ out, m.2 ≠ .decideFirstTurn true ∧ ∀ w t, m.2 ≠ .result w t := by
      intro ho m hm
      rcases List.mem_append.mp hm with hm | hm
      · exact i1 m hm
      · exact ho m hm
    cases m with
    | seat =>
      refine ⟨conc ?_, i2⟩
      intro m hm
      rcases List.mem_cons.mp hm with rfl | hm
      · simp [enteringEvent]
      · rw [hall _ _ _ hm]; simp
    | spectate =>
      refine ⟨conc ?_, i2⟩
      intro m hm
      rcases List.mem_cons.mp hm with rfl | hm
      · simp [enteringEvent]
      · rw [hall _ _ _ hm]; simp
    | goodDeck => exact ⟨conc (by simp), i2⟩
    | badDeck => exact ⟨conc (by simp), i2⟩
    | ready =>
      refine ⟨conc ?_, i2⟩
      intro m hm
      rw [hall _ _ _ hm]; simp
    | @start b fuel _ _ h1 h2 h3 =>
      have hd := hok.enterDeciding (canStart_iff.mp h2) fuel
      have hr : r' = { r with state := .deciding none } ∧ out = r.sendAll .decidingEntering := by
        by_cases e1 : r.options.ftdm = 1
        · rw [hd.2.1 e1] at h3; cases h3; exact ⟨rfl, rfl⟩
        · by_cases e2 : r.options.ftdm = -2147483648
          · rw [hd.2.2.2.2.1 (.inl e2)] at h3; cases h3
          · by_cases e3 : r.options.ftdm = 2147483647
            · rw [hd.2.2.2.2.1 (.inr e3)] at h3; cases h3
            · rw [hd.2.2.2.2.2 hm.1 e1 hm.2.1 hm.2.2 e2 e3] at h3; cases h3; exact ⟨rfl, rfl⟩
      obtain ⟨rfl, rfl⟩ := hr
      refine ⟨conc ?_, by simp⟩
      intro m hm
      rw [hall _ _ _ hm]; simp
    | announce _ h2 => exact absurd h2 hm.1
    | nothing => exact ⟨conc (by simp), i2⟩

/-- With the host method the client asked is the host, and its answer is announced to everyone in the room. -/
theorem C57_host_decides_partial {env : Env} {r : Room} {calls : List Room.Call} {log : List Sent} {fuel n : Nat}
    (h : Lived env r calls log) (h0 : r.state ≠ .configuring) (hm : r.options.ftdm = 0) (hn : n ≤ 1) :
    r.state = .deciding (some r.host) ∧ ∃ out, r.step env fuel (.visit r.host (.deciding (.teamGoingFirst n))) = .ok (r, out) ∧
      ∀ x e, (x, e) ∈ out ↔ Present r x ∧ e = .result n .unset := by
  have hst : r.state = .configuring ∨ r.state = .deciding (some r.host) := by
    clear h0
    revert hm
    refine lived_induct (P := fun r _ _ => r.options.ftdm = 0 → r.state = .configuring ∨ r.state = .deciding (some r.host)) ?_ ?_ h
    · intro _ _ _ _; exact .inl rfl
    · intro r r' cs log c out hok ih m hm
      rw [m.host.2] at hm
      have ih := ih hm
      cases m with
      | start _ h2 h3 =>
        rw [(hok.enterDeciding (canStart_iff.mp h2) _).1 hm] at h3
        cases h3
        exact .inr rfl
      | _ => exact ih
  have hst := hst.resolve_left h0
  refine ⟨hst, r.sendAll (.result n .unset), ?_, ?_⟩
  · have : ¬ n > 1 := by omega
    simp [Room.step, Room.visit, hst, Room.signalDeciding, hm, this]
  · intro x e
    rw [sendAll_eq, ← mem_recipients]
    simp only [List.mem_map, Prod.mk.injEq]
    constructor
    · rintro ⟨y, hy, rfl, rfl⟩; exact ⟨hy, rfl⟩
    · rintro ⟨hx, rfl⟩; exact ⟨x, hx, rfl, rfl⟩

/-- Exactly when the client that was asked can decide: with the host method. -/
theorem C57_exactly {env : Env} {r : Room} {calls : List Room.Call} {log : List Sent} {fuel n : Nat} {d : ClientId}
    (h : Lived env r calls log) (h0 : r.state = .deciding (some d)) (hn : n ≤ 1) :
    (∃ r' out, r.step env fuel (.visit d (.deciding (.teamGoingFirst n))) = .ok (r', out) ∧ ∀ x, Present r x → (x, .result n .unset) ∈ out) ↔
      r.options.ftdm = 0 := by
  have h1 : r.state ≠ .configuring := by rw [h0]; simp
  constructor
  · rintro ⟨r', out, hs, hall⟩
    apply Classical.byContradiction
    intro hm
    rw [C57_answers_ignored h h1 hm] at hs
    cases hs
    have := hall r.host (.inl ⟨0, 0, (C50_capacity h).2.2.2⟩)
    cases this
  · intro hm
    obtain ⟨hst, out, hs, hall⟩ := C57_host_decides_partial (fuel := fuel) h h1 hm hn
    rw [h0] at hst
    cases hst
    exact ⟨r, out, hs, fun x hx => (hall x _).mpr ⟨hx, rfl⟩⟩

/-- Non-vacuity: the host picks team 1. -/
example : (match play demoEnv demoRng 1 {} ([.enter 2] ++ prepare 1 ++ prepare 2 ++ [startCall 1, .visit 1 (.deciding (.teamGoingFirst 1))]) with
    | .ok (_, log) => decide ((2, Event.result 1 .unset) ∈ log) | .error _ => false) = true := by decide

/-! ## C59 -/

/-- A call aborts only when the host enters a full room again. -/
theorem C59_abort_iff {env : Env} {r : Room} {calls : List Room.Call} {log : List Sent} {fuel : Nat} {c : Room.Call}
    (h : Lived env r calls log) : r.step env fuel c = .error .assert ↔
      r.state = .configuring ∧ c = .enter r.host ∧ ∀ t, duelists r t = capacity r t := by
  have hok := lived_ok h
  rw [← nextSeat_none_iff hok]
  rcases hok.step_cases fuel c with ⟨r', out, h1, h2, _⟩ | ⟨h1, h2, h3, h4⟩ | ⟨h1, ⟨b, rfl⟩, h3, h4⟩
  · rw [h1]; simpa using h2
  · rw [h4]; simp [h1, h2, h3]
  · rw [h4]
    have := (hok.enterDeciding_outcome (canStart_iff.mp h3) fuel).1
    simp [this]

/-- A call is undefined only when starting with one of the two reserved enum values as method. -/
theorem C59_undefined_iff {env : Env} {r : Room} {calls : List Room.Call} {log : List Sent} {fuel : Nat} {c : Room.Call}
    (h : Lived env r calls log) : r.step env fuel c = .error .ub ↔
      r.state = .configuring ∧ (∃ b, c = .visit r.host (.configuring (.startDueling b))) ∧ Startable r ∧
      (r.options.ftdm = -2147483648 ∨ r.options.ftdm = 2147483647) := by
  have hok := lived_ok h
  rw [← canStart_iff]
  rcases hok.step_cases fuel c with ⟨r', out, h1, _, h2⟩ | ⟨h1, h2, h3, h4⟩ | ⟨h1, ⟨b, rfl⟩, h3, h4⟩
  · rw [h1]
    simp only [reduceCtorEq, false_iff]
    rintro ⟨a, b, c, _⟩
    exact h2 ⟨a, b, c⟩
  · rw [h4]; simp [h2]
  · rw [h4]
    have := (hok.enterDeciding_outcome (canStart_iff.mp h3) fuel).2.1
    rw [this]
    simp [h1, h3]

/-- A call runs longer than `fuel` dice rounds only when starting with dice that tie every time. -/
theorem C59_hang_iff {env : Env} {r : Room} {calls : List Room.Call} {log : List Sent} {fuel : Nat} {c : Room.Call}
    (h : Lived env r calls log) : r.step env fuel c = .error .hang ↔
      r.state = .configuring ∧ (∃ b, c = .visit r.host (.configuring (.startDueling b))) ∧ Startable r ∧ r.options.ftdm = 2 ∧
      ∀ i < fuel, r.rng (r.used + 2 * i) % 6 = r.rng (r.used + 2 * i + 1) % 6 := by
  have hok := lived_ok h
  rw [← canStart_iff]
  rcases hok.step_cases fuel c with ⟨r', out, h1, _, h2⟩ | ⟨h1, h2, h3, h4⟩ | ⟨h1, ⟨b, rfl⟩, h3, h4⟩
  · rw [h1]
    simp only [reduceCtorEq, false_iff]
    rintro ⟨a, b, c, _⟩
    exact h2 ⟨a, b, c⟩
  · rw [h4]; simp [h2]
  · rw [h4]
    have := (hok.enterDeciding_outcome (canStart_iff.mp h3) fuel).2.2
    rw [this]
    simp [h1, h3, round]

/-- Non-vacuity of each failing case: the host enters a full room again; the reserved method value; dice that always tie. -/
example : (match play demoEnv demoRng 1 {} [.enter 2] with
    | .ok (r, _) => decide (r.state = .configuring ∧ duelists r 0 = capacity r 0 ∧ duelists r 1 = capacity r 1) | .error _ => false) = true := by
  decide

example : (match play demoEnv demoRng 1 {} [.enter 2, .enter 1] with | .ok _ => false | .error e => e == .assert) = true := by decide

example : (match play demoEnv demoRng 1 { ftdm := 2147483647 } ([.enter 2] ++ prepare 1 ++ prepare 2 ++ [startCall 1]) with
    | .ok _ => false | .error e => e == .ub) = true := by decide

set_option maxRecDepth 8000 in
example : (match play demoEnv (fun _ => 0) 1 { ftdm := 2 } ([.enter 2] ++ prepare 1 ++ prepare 2 ++ [startCall 1]) with
    | .ok _ => false | .error e => e == .hang) = true := by decide

end Ygo.Props
