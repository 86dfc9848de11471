import Verif.Lemmas.RoomView

/-!
# Starting: readiness, dice, coin
-/

set_option linter.unusedSimpArgs false

namespace Ygo
open Ygo.Room Ygo.Spec

theorem teamCanStart_iff {l : List Slot} : Room.teamCanStart l = true ↔
    (∃ (p : Nat) (s : Slot), l[p]? = some s ∧ s.client ≠ none) ∧
    ∀ (p : Nat) (s : Slot), l[p]? = some s → s.client ≠ none → s.ready = true ∧ s.deckValid = true := by
  unfold Room.teamCanStart
  simp only [Bool.and_eq_true, List.all_eq_true, List.any_eq_true, Bool.or_eq_true]
  constructor
  · rintro ⟨h1, s, hs, hc⟩
    refine ⟨?_, ?_⟩
    · obtain ⟨p, hp⟩ := List.mem_iff_getElem?.mp hs
      exact ⟨p, s, hp, by intro e; simp [e] at hc⟩
    · intro p s hp hc
      rcases h1 s (List.mem_of_getElem? hp) with h | h
      · simp at h; exact absurd h hc
      · exact ⟨h.2, h.1⟩
  · rintro ⟨⟨p, s, hp, hc⟩, h2⟩
    refine ⟨?_, s, List.mem_of_getElem? hp, by cases h : s.client <;> simp_all⟩
    intro x hx
    obtain ⟨q, hq⟩ := List.mem_iff_getElem?.mp hx
    cases h : x.client with
    | none => simp
    | some c =>
      have := h2 q x hq (by simp [h])
      exact .inr ⟨this.2, this.1⟩

theorem canStart_iff {r : Room} : r.canStart = true ↔ Startable r := by
  unfold Room.canStart Startable
  simp only [Bool.and_eq_true, teamCanStart_iff, slotAt]
  constructor
  · rintro ⟨h0, h1⟩ t
    match t with
    | 0 => exact h0
    | 1 => exact h1
  · intro h; exact ⟨h 0, h 1⟩

theorem RoomOk.teamLeader {env : Env} {r : Room} (h : RoomOk env r) (hs : Startable r) (t : Fin 2) :
    ∃ c, seat r t 0 = some c ∧ r.teamLeader t = .ok c := by
  obtain ⟨⟨p, s, hp, hc⟩, _⟩ := hs t
  have h0 : 0 < duelists r t := by
    have := ((h.team t).2.taken p s hp).mp (by cases e : s.client <;> simp_all)
    omega
  have hsome := (h.seat_isSome t 0).mpr h0
  obtain ⟨c, hc⟩ := Option.isSome_iff_exists.mp hsome
  refine ⟨c, hc, ?_⟩
  obtain ⟨x, y, z, hl⟩ := list3 (h.team t).2.length
  simp only [seat, slotAt, hl] at hc
  simp at hc
  simp [Room.teamLeader, Room.teamClients, hl, hc, orUb]

/-- The two dice of round `i`. -/
def round (rng : Nat → Nat) (used i : Nat) : Nat × Nat := (rng (used + 2 * i) % 6 + 1, rng (used + 2 * i + 1) % 6 + 1)

theorem round_shift (rng : Nat → Nat) (used i : Nat) : round rng (used + 2) i = round rng used (i + 1) := by
  unfold round
  rw [show used + 2 + 2 * i = used + 2 * (i + 1) by omega]

theorem rollDice_eq {rng : Nat → Nat} {fuel used : Nat} :
    match Room.rollDice rng fuel used with
    | none => ∀ i < fuel, (round rng used i).1 = (round rng used i).2
    | some (rolls, w, u) => ∃ n < fuel, (∀ i < n, (round rng used i).1 = (round rng used i).2) ∧
        (round rng used n).1 ≠ (round rng used n).2 ∧ rolls = (List.range (n + 1)).map (round rng used) ∧
        w = (if (round rng used n).1 < (round rng used n).2 then 1 else 0) ∧ u = used + 2 * (n + 1) := by
  induction fuel generalizing used with
  | zero => simp [Room.rollDice]
  | succ fuel ih =>
    unfold Room.rollDice
    have h0 : round rng used 0 = (rng used % 6 + 1, rng (used + 1) % 6 + 1) := rfl
    by_cases e : rng used % 6 + 1 ≠ rng (used + 1) % 6 + 1
    · simp only [e, if_true, not_false_iff, ne_eq]
      refine ⟨0, by omega, by simp, by rw [h0]; exact e, by simp [h0], by rw [h0], rfl⟩
    · have e' : rng used % 6 + 1 = rng (used + 1) % 6 + 1 := by
        by_cases h : rng used % 6 + 1 = rng (used + 1) % 6 + 1
        · exact h
        · exact absurd h e
      simp only [e, if_false]
      have := ih (used := used + 2)
      cases hr : Room.rollDice rng fuel (used + 2) with
      | none =>
        simp only [hr, Option.map_none] at this ⊢
        intro i hi
        cases i with
        | zero => rw [h0]; exact e'
        | succ i => rw [← round_shift]; exact this i (by omega)
      | some x =>
        obtain ⟨rolls, w, u⟩ := x
        simp only [hr, Option.map_some] at this ⊢
        obtain ⟨n, hn, h1, h2, h3, h4, h5⟩ := this
        simp only [round_shift] at h1 h2 h4
        refine ⟨n + 1, by omega, ?_, h2, ?_, h4, by omega⟩
        · intro i hi
          cases i with
          | zero => rw [h0]; exact e'
          | succ i => exact h1 i (by omega)
        · rw [List.range_succ_eq_map, List.map_cons, h0, h3]
          congr 1
          rw [List.map_map]
          apply List.map_congr_left
          intro i _
          exact round_shift rng used i

/-- A message to everyone. -/
theorem sendAll_eq (r : Room) (e : Event) : r.sendAll e = (recipients r).map fun c => (c, e) := rfl

theorem clients_same {r r' : Room} (h1 : r'.teams = r.teams) (h2 : r'.spectators = r.spectators) : recipients r' = recipients r := by
  simp [recipients, h1, h2]

theorem teamLeader_same {r r' : Room} (h1 : r'.teams = r.teams) (t : Fin 2) : r'.teamLeader t = r.teamLeader t := by
  simp [Room.teamLeader, h1]

/-- All cases of entering the deciding state in a room that may start. -/
theorem RoomOk.enterDeciding {env : Env} {r : Room} (h : RoomOk env r) (hs : Startable r) (fuel : Nat) :
    (r.options.ftdm = 0 → r.enterDeciding fuel = .ok ({ r with state := .deciding (some r.host) },
        r.sendAll .decidingEntering ++ [(r.host, .decideFirstTurn true)])) ∧
    (r.options.ftdm = 1 → r.enterDeciding fuel = .ok ({ r with state := .deciding none }, r.sendAll .decidingEntering)) ∧
    (r.options.ftdm = 2 → r.enterDeciding fuel =
      match Room.rollDice r.rng fuel r.used with
      | none => .error .hang
      | some (rolls, w, u) => .ok ({ r with state := .deciding (seat r (if w = 0 then 0 else 1) 0), used := u },
          r.sendAll .decidingEntering ++ r.sendAll (.result w (.dice rolls)) ++
            [((seat r (if w = 0 then 0 else 1) 0).getD 0, .decideFirstTurn true)])) ∧
    (r.options.ftdm = 3 → r.enterDeciding fuel =
      .ok ({ r with state := .deciding (seat r (if r.rng r.used % 2 = 0 then 0 else 1) 0), used := r.used + 1 },
          r.sendAll .decidingEntering ++ r.sendAll (.result (r.rng r.used % 2) (.coin (r.rng r.used % 2))) ++
            [((seat r (if r.rng r.used % 2 = 0 then 0 else 1) 0).getD 0, .decideFirstTurn true)])) ∧
    (r.options.ftdm = -2147483648 ∨ r.options.ftdm = 2147483647 → r.enterDeciding fuel = ub) ∧
    (r.options.ftdm ≠ 0 → r.options.ftdm ≠ 1 → r.options.ftdm ≠ 2 → r.options.ftdm ≠ 3 → r.options.ftdm ≠ -2147483648 →
      r.options.ftdm ≠ 2147483647 → r.enterDeciding fuel = .ok ({ r with state := .deciding none }, r.sendAll .decidingEntering)) := by
  refine ⟨?_, ?_, ?_, ?_, ?_, ?_⟩
  · intro e; simp [Room.enterDeciding, e]; rfl
  · intro e; simp [Room.enterDeciding, e]; rfl
  · intro e
    simp only [Room.enterDeciding, e]
    cases hd : Room.rollDice r.rng fuel r.used with
    | none => simp [hd]
    | some x =>
      obtain ⟨rolls, w, u⟩ := x
      obtain ⟨c, h1, h2⟩ := h.teamLeader hs (if w = 0 then 0 else 1)
      rw [← teamLeader_same (r := r) (r' := { r with state := .deciding none, used := u }) rfl] at h2
      simp [h1, h2, hd]; rfl
  · intro e
    simp only [Room.enterDeciding, e]
    obtain ⟨c, h1, h2⟩ := h.teamLeader hs (if r.rng r.used % 2 = 0 then 0 else 1)
    rw [← teamLeader_same (r := r) (r' := { r with state := .deciding none, used := r.used + 1 }) rfl] at h2
    simp [h1, h2]; rfl
  · intro e
    rcases e with e | e <;> simp [Room.enterDeciding, e]
  · intro h0 h1 h2 h3 h4 h5
    simp [Room.enterDeciding, h0, h1, h2, h3, h4, h5]; rfl

/-! ## Outcomes -/

theorem nextSeat_none_iff {env : Env} {r : Room} (h : RoomOk env r) : nextSeat r = none ↔ ∀ t, duelists r t = capacity r t := by
  have l0 := (h.team 0).1
  have l1 := (h.team 1).1
  unfold nextSeat
  constructor
  · intro hn
    split at hn
    · cases hn
    · split at hn
      · cases hn
      · rename_i a b
        intro t
        match t with
        | 0 =>
          by_cases x : duelists r 0 < capacity r 0
          · exact absurd ⟨x, .inr b⟩ a
          · omega
        | 1 => omega
  · intro hf
    have h0 := hf 0
    have h1 := hf 1
    rw [if_neg (by omega), if_neg (by omega)]

/-- Every call returns, except the two cases listed. -/
theorem RoomOk.step_cases {env : Env} {r : Room} (h : RoomOk env r) (fuel : Nat) (c : Room.Call) :
    (∃ r' out, r.step env fuel c = .ok (r', out) ∧ ¬ (r.state = .configuring ∧ c = .enter r.host ∧ nextSeat r = none) ∧
      ¬ (r.state = .configuring ∧ (∃ b, c = .visit r.host (.configuring (.startDueling b))) ∧ r.canStart = true)) ∨
    (r.state = .configuring ∧ c = .enter r.host ∧ nextSeat r = none ∧ r.step env fuel c = .error .assert) ∨
    (r.state = .configuring ∧ (∃ b, c = .visit r.host (.configuring (.startDueling b))) ∧ r.canStart = true ∧
      r.step env fuel c = r.enterDeciding fuel) := by
  cases c with
  | enter peer =>
    simp only [Room.step, Room.enter]
    cases hst : r.state with
    | mono => exact absurd hst h.state
    | deciding d => exact .inl ⟨_, _, rfl, by simp, by simp⟩
    | configuring =>
      simp only
      rw [h.enterConfiguring]
      simp only
      cases hn : nextSeat r with
      | some x => exact .inl ⟨_, _, rfl, by simp, by simp⟩
      | none =>
        simp only
        by_cases e : r.host = peer
        · subst e; exact .inr (.inl ⟨trivial, rfl, trivial, by simp⟩)
        · simp only [e, if_false]
          refine .inl ⟨_, _, rfl, ?_, by simp⟩
          rintro ⟨_, h, _⟩
          cases h; exact e rfl
  | visit peer sig =>
    simp only [Room.step, Room.visit]
    cases hst : r.state with
    | mono => exact absurd hst h.state
    | deciding d =>
      cases sig with
      | unset => exact .inl ⟨_, _, rfl, by simp, by simp⟩
      | configuring _ => exact .inl ⟨_, _, rfl, by simp, by simp⟩
      | deciding s =>
        cases s with
        | unset => exact .inl ⟨_, _, rfl, by simp, by simp⟩
        | teamGoingFirst n =>
          simp only [Room.signalDeciding]
          split
          · exact .inl ⟨_, _, rfl, by simp, by simp⟩
          · split <;> exact .inl ⟨_, _, rfl, by simp, by simp⟩
    | configuring =>
      cases sig with
      | unset => exact .inl ⟨_, _, rfl, by simp, by simp⟩
      | deciding _ => exact .inl ⟨_, _, rfl, by simp, by simp⟩
      | configuring s =>
        cases s with
        | unset => exact .inl ⟨_, _, rfl, by simp, by simp⟩
        | updateDeck d =>
          simp only [Room.signalConfiguring, Room.updateDeck]
          rcases h.findPeer peer with ⟨t, p, s, h1, h2, h3⟩ | ⟨h1, h2⟩
          · simp only [h1, bind_ok]
            split <;> exact .inl ⟨_, _, rfl, by simp, by simp⟩
          · simp only [h1, bind_ok]; exact .inl ⟨_, _, rfl, by simp, by simp⟩
        | readyStatus b =>
          simp only [Room.signalConfiguring, Room.readyStatus]
          rcases h.findPeer peer with ⟨t, p, s, h1, h2, h3⟩ | ⟨h1, h2⟩
          · simp only [h1, bind_ok]
            split
            · exact .inl ⟨_, _, rfl, by simp, by simp⟩
            · split <;> exact .inl ⟨_, _, rfl, by simp, by simp⟩
          · simp only [h1, bind_ok]; exact .inl ⟨_, _, rfl, by simp, by simp⟩
        | startDueling b =>
          simp only [Room.signalConfiguring, Room.startDueling]
          by_cases e : peer = r.host
          · subst e
            cases hc : r.canStart with
            | true => exact .inr (.inr ⟨trivial, ⟨b, rfl⟩, rfl, by simp⟩)
            | false => simp only [ne_eq, not_true, if_false, if_true]; exact .inl ⟨_, _, rfl, by simp, by simp⟩
          · simp only [ne_eq, e, not_false_iff, if_true]
            refine .inl ⟨_, _, rfl, by simp, ?_⟩
            rintro ⟨_, ⟨b, h⟩, _⟩
            cases h; exact e rfl

/-- Outcomes of entering the deciding state. -/
theorem RoomOk.enterDeciding_outcome {env : Env} {r : Room} (h : RoomOk env r) (hs : Startable r) (fuel : Nat) :
    r.enterDeciding fuel ≠ .error .assert ∧
    (r.enterDeciding fuel = .error .ub ↔ r.options.ftdm = -2147483648 ∨ r.options.ftdm = 2147483647) ∧
    (r.enterDeciding fuel = .error .hang ↔ r.options.ftdm = 2 ∧ ∀ i < fuel, (round r.rng r.used i).1 = (round r.rng r.used i).2) := by
  have hd := h.enterDeciding hs fuel
  by_cases e0 : r.options.ftdm = 0
  · rw [hd.1 e0]; simp [e0]
  by_cases e1 : r.options.ftdm = 1
  · rw [hd.2.1 e1]; simp [e1]
  by_cases e3 : r.options.ftdm = 3
  · rw [hd.2.2.2.1 e3]; simp [e3]
  by_cases e4 : r.options.ftdm = -2147483648 ∨ r.options.ftdm = 2147483647
  · rw [hd.2.2.2.2.1 e4]
    refine ⟨by simp [ub], ⟨fun _ => e4, fun _ => rfl⟩, ?_⟩
    constructor
    · intro h; simp [ub] at h
    · rintro ⟨h, _⟩; rcases e4 with e4 | e4 <;> rw [h] at e4 <;> cases e4
  by_cases e2 : r.options.ftdm = 2
  · rw [hd.2.2.1 e2]
    have key := rollDice_eq (rng := r.rng) (fuel := fuel) (used := r.used)
    cases hr : Room.rollDice r.rng fuel r.used with
    | none => simp only [hr] at key ⊢; simp [e2]; exact key
    | some x =>
      obtain ⟨rolls, w, u⟩ := x
      simp only [hr] at key ⊢
      obtain ⟨n, hn, _, h2, _⟩ := key
      refine ⟨by simp, by simp [e2], ?_⟩
      simp only [reduceCtorEq, false_iff, not_and, e2]
      intro _ hall
      exact h2 (hall n hn)
  · simp only [not_or] at e4
    rw [hd.2.2.2.2.2 e0 e1 e2 e3 e4.1 e4.2]; simp [e2, e4]

/-! ## Counting seats -/

theorem teamClients_set_same {l : List Slot} {p : Nat} {s s' : Slot} (hs : l[p]? = some s) (hc : s'.client = s.client) :
    Room.teamClients (l.set p s') = Room.teamClients l := by
  induction l generalizing p with
  | nil => rfl
  | cons a l ih =>
    cases p with
    | zero => simp at hs; subst hs; simp [Room.teamClients, List.filterMap_cons, hc]
    | succ p =>
      have := ih (p := p) (by simpa using hs)
      simp only [Room.teamClients] at this ⊢
      simp [List.filterMap_cons, this]

theorem count_set_new {l : List Slot} {p : Nat} {s s' : Slot} {c : ClientId} (hs : l[p]? = some s) (hn : s.client = none)
    (hc : s'.client = some c) (x : ClientId) :
    (Room.teamClients (l.set p s')).count x = (Room.teamClients l).count x + if c = x then 1 else 0 := by
  induction l generalizing p with
  | nil => simp at hs
  | cons a l ih =>
    cases p with
    | zero => simp at hs; subst hs; simp [Room.teamClients, List.filterMap_cons, hc, hn, List.count_cons]
    | succ p =>
      have := ih (p := p) (by simpa using hs)
      simp only [Room.teamClients] at this ⊢
      simp only [List.set_cons_succ, List.filterMap_cons]
      cases a.client with
      | none => exact this
      | some y => simp only [List.count_cons, this]; omega

theorem count_setInsert {l : List ClientId} {c x : ClientId} : (Room.setInsert c l).count x ≤ l.count x + if c = x then 1 else 0 := by
  induction l with
  | nil => simp [Room.setInsert, List.count_cons]
  | cons a l ih =>
    unfold Room.setInsert
    split
    · simp only [List.count_cons, beq_iff_eq]; omega
    · split
      · simp only [List.count_cons]; omega
      · omega

/-! ## Histories given as a list -/

/-- The life of a room, executed. -/
def play (env : Env) (rng : Nat → Nat) (host : ClientId) (o : Options) (cs : List Room.Call) : Res (Room × List Sent) := do
  let (r, out) ← Room.init env rng host o
  let (r, out') ← r.run env 100 cs
  return (r, out ++ out')

theorem lived_run {env : Env} {fuel : Nat} {cs : List Room.Call} {r r' : Room} {cs0 : List Room.Call} {log out : List Sent}
    (h : Lived env r cs0 log) (hr : r.run env fuel cs = .ok (r', out)) : Lived env r' (cs0 ++ cs) (log ++ out) := by
  induction cs generalizing r cs0 log out with
  | nil => simp [Room.run] at hr; obtain ⟨rfl, rfl⟩ := hr; simpa using h
  | cons c cs ih =>
    simp only [Room.run, bind_eq_ok, Prod.exists] at hr
    obtain ⟨r1, o1, h1, r2, o2, h2, h3⟩ := hr
    cases h3
    have := ih (h.step h1) h2
    simpa using this

theorem lived_play {env : Env} {rng : Nat → Nat} {host : ClientId} {o : Options} {cs : List Room.Call} {r : Room} {log : List Sent}
    (h : play env rng host o cs = .ok (r, log)) : Lived env r (.enter host :: cs) log := by
  simp only [play, bind_eq_ok, Prod.exists] at h
  obtain ⟨r1, o1, h1, r2, o2, h2, h3⟩ := h
  cases h3
  exact lived_run (.start h1) h2

/-- Witnesses by execution. -/
theorem play_witness {env : Env} {rng : Nat → Nat} {host : ClientId} {o : Options} {cs : List Room.Call} (P : Room → Bool)
    (h : (match play env rng host o cs with | .ok (r, _) => P r | .error _ => false) = true) :
    ∃ r log, Lived env r (.enter host :: cs) log ∧ P r = true := by
  cases hp : play env rng host o cs with
  | error e => simp [hp] at h
  | ok x =>
    obtain ⟨r, log⟩ := x
    simp only [hp] at h
    exact ⟨r, log, lived_play hp, h⟩

end Ygo
