import Verif.Lemmas.Room

/-!
# The moves of a room, and what they preserve
-/

set_option linter.unusedSimpArgs false

namespace Ygo
open Ygo.Room Ygo.Spec

/-- What a newcomer is told first. -/
def enteringEvent (env : Env) (r : Room) : Event :=
  .entering r.options (Room.teamDuelists env r.host 0 0 (r.teams 0) ++ Room.teamDuelists env r.host 1 0 (r.teams 1)) r.spectators.length

/-- Effects a call can have. -/
inductive Move (env : Env) (r : Room) : Room.Call → Room → List Sent → Prop
  | seat {peer : ClientId} {t : Fin 2} {s : Slot} : r.state = .configuring → nextSeat r = some (t, duelists r t) →
      duelists r t < capacity r t → slotAt r t (duelists r t) = some s →
      Move env r (.enter peer) (r.setSlot t (duelists r t) { s with client := some peer })
        ((peer, enteringEvent env r) :: (r.setSlot t (duelists r t) { s with client := some peer }).sendAll
          (.duelistEnters (Room.duelist env r.host t (duelists r t) peer false)))
  | spectate {peer : ClientId} : r.state = .configuring → nextSeat r = none →
      Move env r (.enter peer) { r with spectators := Room.setInsert peer r.spectators }
        ((peer, enteringEvent env r) :: ({ r with spectators := Room.setInsert peer r.spectators } : Room).sendAll
          (.spectatorCount (Room.setInsert peer r.spectators).length))
  | goodDeck {peer : ClientId} {d : Deck} {t : Fin 2} {p : Nat} {s : Slot} : r.state = .configuring → slotAt r t p = some s →
      s.client = some peer → (env.check r.options.banlistId d).1 = true →
      Move env r (.visit peer (.configuring (.updateDeck d))) (r.setSlot t p { s with deck := d, deckValid := true })
        [(peer, .deckStatus none)]
  | badDeck {peer : ClientId} {d : Deck} {t : Fin 2} {p : Nat} {s : Slot} : r.state = .configuring → slotAt r t p = some s →
      s.client = some peer → (env.check r.options.banlistId d).1 = false →
      Move env r (.visit peer (.configuring (.updateDeck d))) (r.setSlot t p { s with deck := {}, deckValid := false })
        [(peer, .deckStatus (some (env.check r.options.banlistId d).2))]
  | ready {peer : ClientId} {b : Bool} {t : Fin 2} {p : Nat} {s : Slot} : r.state = .configuring → slotAt r t p = some s →
      s.client = some peer → b ≠ s.ready → (b = true → s.deckValid = true) →
      Move env r (.visit peer (.configuring (.readyStatus b))) (r.setSlot t p { s with ready := b })
        ((r.setSlot t p { s with ready := b }).sendAll (.updateDuelist (Room.duelist env r.host t p peer b)))
  | start {b : Bool} {fuel : Nat} {r' : Room} {out : List Sent} : r.state = .configuring → r.canStart = true →
      r.enterDeciding fuel = .ok (r', out) → Move env r (.visit r.host (.configuring (.startDueling b))) r' out
  | announce {n : Nat} {d : Option ClientId} : r.state = .deciding d → r.options.ftdm = 0 → n ≤ 1 →
      Move env r (.visit r.host (.deciding (.teamGoingFirst n))) r (r.sendAll (.result n .unset))
  | nothing {c : Room.Call} : (∀ x, c = .enter x → r.state ≠ .configuring) → Move env r c r []

theorem RoomOk.move {env : Env} {r r' : Room} {fuel : Nat} {c : Room.Call} {out : List Sent} (h : RoomOk env r)
    (hs : r.step env fuel c = .ok (r', out)) : Move env r c r' out := by
  cases c with
  | enter peer =>
    simp only [Room.step, Room.enter] at hs
    cases hst : r.state with
    | mono => exact absurd hst h.state
    | deciding d =>
      simp only [hst] at hs
      cases hs
      exact .nothing (by simp [hst])
    | configuring =>
      simp only [hst] at hs
      rw [h.enterConfiguring] at hs
      simp only at hs
      cases hn : nextSeat r with
      | none =>
        simp only [hn] at hs
        by_cases e : r.host = peer
        · simp [e] at hs
        · simp only [e, if_false] at hs
          cases hs
          exact .spectate hst hn
      | some x =>
        obtain ⟨t, p⟩ := x
        simp only [hn] at hs
        cases hs
        obtain ⟨rfl, hlt⟩ := nextSeat_some hn
        have := h.cap t
        obtain ⟨s, hs⟩ := h.slot (t := t) (p := duelists r t) (by omega)
        rw [hs]
        exact .seat hst hn hlt hs
  | visit peer sig =>
    simp only [Room.step, Room.visit] at hs
    cases hst : r.state with
    | mono => exact absurd hst h.state
    | configuring =>
      cases sig with
      | unset => simp only [hst] at hs; cases hs; exact .nothing (by simp [hst])
      | deciding _ => simp only [hst] at hs; cases hs; exact .nothing (by simp [hst])
      | configuring s =>
        simp only [hst] at hs
        cases s with
        | unset => simp only [Room.signalConfiguring] at hs; cases hs; exact .nothing (by simp [hst])
        | updateDeck d =>
          simp only [Room.signalConfiguring, Room.updateDeck] at hs
          rcases h.findPeer peer with ⟨t, p, s, h1, h2, h3⟩ | ⟨h1, h2⟩
          · simp only [h1, bind_ok] at hs
            cases hc : (env.check r.options.banlistId d).1 with
            | true => simp only [hc, if_true] at hs; cases hs; exact .goodDeck hst h2 h3 hc
            | false => simp only [hc] at hs; cases hs; exact .badDeck hst h2 h3 hc
          · simp only [h1, bind_ok] at hs; cases hs; exact .nothing (by simp [hst])
        | readyStatus b =>
          simp only [Room.signalConfiguring, Room.readyStatus] at hs
          rcases h.findPeer peer with ⟨t, p, s, h1, h2, h3⟩ | ⟨h1, h2⟩
          · simp only [h1, bind_ok] at hs
            by_cases e : b = s.ready
            · simp only [e, if_true] at hs; cases hs; exact .nothing (by simp [hst])
            · simp only [e, if_false] at hs
              by_cases e2 : b = true ∧ s.deckValid = false
              · simp only [e2, and_self, if_true] at hs; cases hs; exact .nothing (by simp [hst])
              · simp only [e2, if_false] at hs
                cases hs
                refine .ready hst h2 h3 e ?_
                intro hb
                simpa [hb] using e2
          · simp only [h1, bind_ok] at hs; cases hs; exact .nothing (by simp [hst])
        | startDueling b =>
          simp only [Room.signalConfiguring, Room.startDueling] at hs
          by_cases e : peer = r.host
          · subst e
            simp only [ne_eq, not_true, if_false] at hs
            cases hc : r.canStart with
            | true => simp only [hc] at hs; exact .start hst hc hs
            | false => simp only [hc, if_true] at hs; cases hs; exact .nothing (by simp [hst])
          · simp only [ne_eq, e, not_false_iff, if_true] at hs; cases hs; exact .nothing (by simp [hst])
    | deciding d =>
      cases sig with
      | unset => simp only [hst] at hs; cases hs; exact .nothing (by simp [hst])
      | configuring _ => simp only [hst] at hs; cases hs; exact .nothing (by simp [hst])
      | deciding s =>
        simp only [hst] at hs
        cases s with
        | unset => simp only [Room.signalDeciding] at hs; cases hs; exact .nothing (by simp [hst])
        | teamGoingFirst n =>
          simp only [Room.signalDeciding] at hs
          by_cases e : r.options.ftdm ≠ 0 ∨ peer ≠ r.host
          · simp only [e, if_true] at hs; cases hs; exact .nothing (by simp [hst])
          · simp only [e, if_false] at hs
            have e1 : r.options.ftdm = 0 := by
              by_cases h : r.options.ftdm = 0
              · exact h
              · exact absurd (.inl h) e
            have e2 : peer = r.host := by
              by_cases h : peer = r.host
              · exact h
              · exact absurd (.inr h) e
            subst e2
            by_cases e3 : n > 1
            · simp only [e3, if_true] at hs; cases hs; exact .nothing (by simp [hst])
            · simp only [e3, if_false] at hs
              cases hs
              exact .announce hst e1 (by omega)

/-! ## Entering the deciding state -/

/-- Only the state, the decider and the random numbers used change; the messages do not concern seats. -/
theorem enterDeciding_ok {r r' : Room} {fuel : Nat} {out : List Sent} (h : r.enterDeciding fuel = .ok (r', out)) :
    (∃ d u, r' = { r with state := .deciding d, used := u }) ∧
    ∀ m ∈ out, m.2 = .decidingEntering ∨ m.2 = .decideFirstTurn true ∨ ∃ w t, m.2 = .result w t := by
  unfold Room.enterDeciding at h
  simp only [pure_eq_ok] at h
  have hall : ∀ (r : Room) (e : Event) m, m ∈ r.sendAll e → m.2 = e := by
    intro r e m hm
    simp only [Room.sendAll, List.mem_map] at hm
    obtain ⟨c, _, rfl⟩ := hm
    rfl
  split at h
  · cases h
    refine ⟨⟨_, _, rfl⟩, ?_⟩
    intro m hm
    rcases List.mem_append.mp hm with hm | hm
    · exact .inl (hall _ _ _ hm)
    · simp at hm; subst hm; exact .inr (.inl rfl)
  · split at h
    · cases h
      exact ⟨⟨_, _, rfl⟩, fun m hm => .inl (hall _ _ _ hm)⟩
    · split at h
      · split at h
        · cases h
        · rename_i rolls w u _
          simp only [bind_eq_ok] at h
          obtain ⟨l, hl, h⟩ := h
          cases h
          refine ⟨⟨_, _, rfl⟩, ?_⟩
          intro m hm
          rcases List.mem_append.mp hm with hm | hm
          · rcases List.mem_append.mp hm with hm | hm
            · exact .inl (hall _ _ _ hm)
            · exact .inr (.inr ⟨_, _, hall _ _ _ hm⟩)
          · simp at hm; subst hm; exact .inr (.inl rfl)
      · split at h
        · simp only [bind_eq_ok] at h
          obtain ⟨l, hl, h⟩ := h
          cases h
          refine ⟨⟨_, _, rfl⟩, ?_⟩
          intro m hm
          rcases List.mem_append.mp hm with hm | hm
          · rcases List.mem_append.mp hm with hm | hm
            · exact .inl (hall _ _ _ hm)
            · exact .inr (.inr ⟨_, _, hall _ _ _ hm⟩)
          · simp at hm; subst hm; exact .inr (.inl rfl)
        · split at h
          · cases h
          · cases h
            exact ⟨⟨_, _, rfl⟩, fun m hm => .inl (hall _ _ _ hm)⟩

/-! ## The invariant -/

theorem RoomOk.of_move {env : Env} {r r' : Room} {c : Room.Call} {out : List Sent} (h : RoomOk env r) (m : Move env r c r' out) :
    RoomOk env r' := by
  cases m with
  | seat _ _ h3 h4 => exact h.newSlot h4 h3 _
  | spectate => exact ⟨h.maxes, h.teams, h.decks, h.state, nodup_of_sorted (sorted_setInsert h.sorted), sorted_setInsert h.sorted⟩
  | goodDeck _ h2 h3 h4 => exact h.setSlot h2 rfl (by simp [h3]) (fun _ => h4)
  | badDeck _ h2 h3 h4 => exact h.setSlot h2 rfl (by simp [h3]) (by simp)
  | ready _ h2 h3 h4 h5 => have hd := h.decks _ _ _ h2; exact h.setSlot h2 rfl (by simp [h3]) hd
  | start _ _ h3 =>
    obtain ⟨⟨d, u, rfl⟩, _⟩ := enterDeciding_ok h3
    exact ⟨h.maxes, h.teams, h.decks, by simp, h.nodup, h.sorted⟩
  | announce => exact h
  | nothing => exact h

/-- The room before the host enters. -/
def emptyRoom (rng : Nat → Nat) (host : ClientId) (o : Options) : Room :=
  ⟨Room.clampOptions o, host, fun _ => List.replicate 3 {}, [], .configuring, rng, 0⟩

theorem clamp_maxes (o : Options) : ∃ m0 m1, (Room.clampOptions o).maxDuelists = [m0, m1] ∧ (1 ≤ m0 ∧ m0 ≤ 3) ∧ (1 ≤ m1 ∧ m1 ≤ 3) := by
  have hb : ∀ v : Nat, 1 ≤ (if v < 1 then 1 else if 3 < v then 3 else v) ∧ (if v < 1 then 1 else if 3 < v then 3 else v) ≤ 3 := by
    intro v; split
    · omega
    · split <;> omega
  unfold Room.clampOptions
  match o.maxDuelists with
  | [] => exact ⟨_, _, rfl, hb 1, hb 1⟩
  | [a] => exact ⟨_, _, rfl, hb a, hb 1⟩
  | a :: b :: l => exact ⟨_, _, by simp, hb a, hb b⟩

theorem roomOk_empty (env : Env) (rng : Nat → Nat) (host : ClientId) (o : Options) : RoomOk env (emptyRoom rng host o) := by
  refine ⟨clamp_maxes o, ?_, ?_, by simp [emptyRoom], by simp [emptyRoom], by simp [emptyRoom]⟩
  · intro t
    refine ⟨0, Nat.zero_le _, rfl, ?_, ?_⟩
    · intro p s hs
      simp only [emptyRoom, List.getElem?_replicate] at hs
      split at hs <;> simp at hs
      subst hs; simp
    · intro p s hs
      simp only [emptyRoom, List.getElem?_replicate] at hs
      split at hs <;> simp at hs
      subst hs; simp
  · intro t p s hs
    simp only [slotAt, emptyRoom, List.getElem?_replicate] at hs
    split at hs <;> simp at hs
    subst hs; simp

theorem duelists_empty (rng : Nat → Nat) (host : ClientId) (o : Options) (t : Fin 2) : duelists (emptyRoom rng host o) t = 0 := by
  simp [duelists, emptyRoom]

theorem nextSeat_empty (rng : Nat → Nat) (host : ClientId) (o : Options) : nextSeat (emptyRoom rng host o) = some (0, 0) := by
  have h := (roomOk_empty ⟨fun _ => {}, fun _ _ => (true, {})⟩ rng host o).cap 0
  unfold nextSeat
  rw [duelists_empty, duelists_empty]
  rw [if_pos]
  exact ⟨by omega, .inl (Nat.le_refl _)⟩

/-- Construction is the host entering an empty room. -/
theorem init_move {env : Env} {rng : Nat → Nat} {host : ClientId} {o : Options} {r : Room} {out : List Sent}
    (h : Room.init env rng host o = .ok (r, out)) : Move env (emptyRoom rng host o) (.enter host) r out :=
  (roomOk_empty env rng host o).move (fuel := 0) h

/-- Construction always succeeds. -/
theorem init_ok (env : Env) (rng : Nat → Nat) (host : ClientId) (o : Options) : ∃ r out, Room.init env rng host o = .ok (r, out) := by
  have h := (roomOk_empty env rng host o).enterConfiguring host
  simp only [nextSeat_empty] at h
  exact ⟨_, _, h⟩

theorem lived_ok {env : Env} {r : Room} {cs : List Room.Call} {log : List Sent} (h : Lived env r cs log) : RoomOk env r := by
  induction h with
  | start h => exact (roomOk_empty _ _ _ _).of_move (init_move h)
  | step _ hs ih => exact ih.of_move (ih.move hs)

/-- Rooms made by moves, starting with nobody in them. -/
inductive Moved (env : Env) : Room → List Room.Call → List Sent → Prop
  | start {rng : Nat → Nat} {host : ClientId} {o : Options} : Moved env (emptyRoom rng host o) [] []
  | step {r r' : Room} {cs : List Room.Call} {log out : List Sent} {c : Room.Call} :
    Moved env r cs log → Move env r c r' out → Moved env r' (cs ++ [c]) (log ++ out)

theorem moved_ok {env : Env} {r : Room} {cs : List Room.Call} {log : List Sent} (h : Moved env r cs log) : RoomOk env r := by
  induction h with
  | start => exact roomOk_empty _ _ _ _
  | step _ hm ih => exact ih.of_move hm

theorem lived_moved {env : Env} {r : Room} {cs : List Room.Call} {log : List Sent} (h : Lived env r cs log) : Moved env r cs log := by
  induction h with
  | start h => exact Moved.start.step (init_move h)
  | step hl hs ih => exact ih.step ((lived_ok hl).move hs)

/-- Induction over the moves. -/
theorem moved_induct {env : Env} {P : Room → List Room.Call → List Sent → Prop}
    (h0 : ∀ rng host o, P (emptyRoom rng host o) [] [])
    (hm : ∀ r r' cs log c out, RoomOk env r → P r cs log → Move env r c r' out → P r' (cs ++ [c]) (log ++ out))
    {r : Room} {cs : List Room.Call} {log : List Sent} (h : Moved env r cs log) : P r cs log := by
  induction h with
  | start => exact h0 _ _ _
  | step hl hs ih => exact hm _ _ _ _ _ _ (moved_ok hl) ih hs

/-- Induction over the moves of a life. -/
theorem lived_induct {env : Env} {P : Room → List Room.Call → List Sent → Prop}
    (h0 : ∀ rng host o, P (emptyRoom rng host o) [] [])
    (hm : ∀ r r' cs log c out, RoomOk env r → P r cs log → Move env r c r' out → P r' (cs ++ [c]) (log ++ out))
    {r : Room} {cs : List Room.Call} {log : List Sent} (h : Lived env r cs log) : P r cs log :=
  moved_induct h0 hm (lived_moved h)

/-! ## Seats are kept -/

theorem seat_setSlot {r : Room} {t t' : Fin 2} {p p' : Nat} {s : Slot} (hp : p < (r.teams t).length) :
    seat (r.setSlot t p s) t' p' = if t' = t ∧ p' = p then s.client else seat r t' p' := by
  unfold seat
  rw [slotAt_setSlot hp]
  split <;> simp

theorem seat_setSlot_same {r : Room} {t : Fin 2} {p : Nat} {s s' : Slot} (hs : slotAt r t p = some s) (hc : s'.client = s.client)
    (t' : Fin 2) (p' : Nat) : seat (r.setSlot t p s') t' p' = seat r t' p' := by
  rw [seat_setSlot (List.getElem?_eq_some_iff.mp hs).1]
  split
  · rename_i h; obtain ⟨rfl, rfl⟩ := h; simp [seat, hs, hc]
  · rfl

theorem RoomOk.seat_isSome {env : Env} {r : Room} (h : RoomOk env r) (t : Fin 2) (p : Nat) : (seat r t p).isSome = true ↔ p < duelists r t := by
  obtain ⟨h1, h2⟩ := h.team t
  have := h.cap t
  unfold seat
  cases hs : slotAt r t p with
  | some s => simpa using h2.taken p s hs
  | none =>
    have : (r.teams t).length ≤ p := by simpa [slotAt] using hs
    rw [h2.length] at this
    simp; omega

theorem RoomOk.seat_none {env : Env} {r : Room} (h : RoomOk env r) {t : Fin 2} {p : Nat} (hp : duelists r t ≤ p) : seat r t p = none := by
  have := h.seat_isSome t p
  cases hs : seat r t p with
  | none => rfl
  | some c => rw [hs] at this; simp at this; omega

theorem Move.seat_mono {env : Env} {r r' : Room} {c : Room.Call} {out : List Sent} (h : RoomOk env r) (m : Move env r c r' out)
    {t : Fin 2} {p : Nat} {x : ClientId} (hx : Spec.seat r t p = some x) : Spec.seat r' t p = some x := by
  cases m with
  | seat _ _ h3 h4 =>
    rw [seat_setSlot (List.getElem?_eq_some_iff.mp h4).1]
    split
    · rename_i e; obtain ⟨rfl, rfl⟩ := e
      rw [h.seat_none (Nat.le_refl _)] at hx; cases hx
    · exact hx
  | spectate => exact hx
  | goodDeck _ h2 => rw [seat_setSlot_same h2 (by rfl)]; exact hx
  | badDeck _ h2 => rw [seat_setSlot_same h2 (by rfl)]; exact hx
  | ready _ h2 => rw [seat_setSlot_same h2 (by rfl)]; exact hx
  | start _ _ h3 =>
    obtain ⟨⟨d, u, rfl⟩, _⟩ := enterDeciding_ok h3
    exact hx
  | announce => exact hx
  | nothing => exact hx

theorem Move.host {env : Env} {r r' : Room} {c : Room.Call} {out : List Sent} (m : Move env r c r' out) :
    r'.host = r.host ∧ r'.options = r.options := by
  cases m with
  | start _ _ h3 =>
    obtain ⟨⟨d, u, rfl⟩, _⟩ := enterDeciding_ok h3
    exact ⟨rfl, rfl⟩
  | _ => exact ⟨rfl, rfl⟩

theorem lived_host_seat {env : Env} {r : Room} {cs : List Room.Call} {log : List Sent} (h : Lived env r cs log) : seat r 0 0 = some r.host := by
  induction h with
  | @start rng host o r out h =>
    have m := init_move h
    have hh := m.host.1
    unfold Room.init at h
    have e := (roomOk_empty env rng host o).enterConfiguring host
    simp only [nextSeat_empty] at e
    have := h.symm.trans e
    cases this
    rw [seat_setSlot (by simp [emptyRoom])]
    simp; rfl
  | step hl hs ih =>
    have m := (lived_ok hl).move hs
    rw [m.host.1]
    exact m.seat_mono (lived_ok hl) ih

end Ygo
