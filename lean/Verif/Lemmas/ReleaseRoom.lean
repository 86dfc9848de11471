import Verif.Spec.ReleaseRoom
import Verif.Lemmas.RoomStart

/-!
# Rooms in builds without asserts
-/

set_option linter.unusedSimpArgs false

namespace Ygo
open Ygo.Room Ygo.Spec

/-- Finding a seat: the asserts only check what was found. -/
theorem rawFindEmpty_eq (r : Room) : r.rawFindEmpty = r.findEmpty := by
  unfold Room.rawFindEmpty Room.findEmpty
  cases h0 : r.options.maxDuelists[0]? with
  | none => rfl
  | some m0 =>
    cases h1 : r.options.maxDuelists[1]? with
    | none => rfl
    | some m1 =>
      simp only [orUb, bind_ok]
      rcases hs0 : Room.scanTeam m0 (r.teams 0) 0 0 none with ⟨c0, f0⟩
      rcases hs1 : Room.scanTeam m1 (r.teams 1) 0 0 none with ⟨c1, f1⟩
      simp only
      cases f0 <;> cases f1 <;> simp [orAssert, bind_ok]

/-- What an abort becomes. -/
def watched (env : Env) (r : Room) (peer : ClientId) : Room × List Sent :=
  ({ r with spectators := Room.setInsert peer r.spectators },
    (peer, enteringEvent env r) :: ({ r with spectators := Room.setInsert peer r.spectators } : Room).sendAll
      (.spectatorCount (Room.setInsert peer r.spectators).length))

theorem rawStep_of_ok {env : Env} {r : Room} {fuel : Nat} {c : Room.Call} {x : Room × List Sent} (h : r.step env fuel c = .ok x) :
    r.rawStep env fuel c = .ok x := by
  cases c with
  | visit peer s => exact h
  | enter peer =>
    simp only [Room.step, Room.enter, Room.rawStep, Room.rawEnter] at h ⊢
    cases hst : r.state with
    | mono => simp only [hst] at h; exact h
    | deciding d => simp only [hst] at h; exact h
    | configuring =>
      simp only [hst] at h ⊢
      unfold Room.enterConfiguring at h
      unfold Room.rawEnterConfiguring
      rw [rawFindEmpty_eq]
      simp only at h ⊢
      cases hf : r.findEmpty with
      | error e => simp [hf] at h
      | ok y =>
        simp only [hf, bind_ok] at h ⊢
        cases y with
        | some y => exact h
        | none =>
          simp only at h ⊢
          by_cases e : r.host = peer
          · simp [e, massert] at h
          · simpa [e, massert] using h

theorem RoomOk.rawStep {env : Env} {r : Room} (h : RoomOk env r) (fuel : Nat) (c : Room.Call) :
    (HostTooMany r c → r.rawStep env fuel c = .ok (watched env r r.host)) ∧
    (¬ HostTooMany r c → r.rawStep env fuel c = r.step env fuel c) := by
  constructor
  · rintro ⟨hst, rfl, hf⟩
    have hn := (nextSeat_none_iff h).mpr hf
    simp only [Room.rawStep, Room.rawEnter, hst, Room.rawEnterConfiguring]
    rw [rawFindEmpty_eq, h.findEmpty, hn]
    simp only [bind_ok, pure_eq_ok, watched, enteringEvent, hst]
  · intro hno
    cases c with
    | visit peer s => rfl
    | enter peer =>
      simp only [Room.step, Room.enter, Room.rawStep, Room.rawEnter]
      cases hst : r.state with
      | mono => rfl
      | deciding d => rfl
      | configuring =>
        simp only
        unfold Room.enterConfiguring Room.rawEnterConfiguring
        rw [rawFindEmpty_eq, h.findEmpty]
        simp only [bind_ok]
        cases hn : nextSeat r with
        | some y => rfl
        | none =>
          have : r.host ≠ peer := by
            rintro rfl
            exact hno ⟨hst, rfl, (nextSeat_none_iff h).mp hn⟩
          simp [massert, this]

theorem rawInit_eq (env : Env) (rng : Nat → Nat) (host : ClientId) (o : Options) : Room.rawInit env rng host o = Room.init env rng host o := by
  obtain ⟨r, out, h⟩ := init_ok env rng host o
  rw [h]
  exact rawStep_of_ok (fuel := 0) (c := .enter host) (r := emptyRoom rng host o) h

theorem RoomOk.raw_move {env : Env} {r r' : Room} {fuel : Nat} {c : Room.Call} {out : List Sent} (h : RoomOk env r)
    (hs : r.rawStep env fuel c = .ok (r', out)) : Move env r c r' out := by
  by_cases hh : HostTooMany r c
  · rw [(h.rawStep fuel c).1 hh] at hs
    obtain ⟨hst, rfl, hf⟩ := hh
    cases hs
    exact .spectate hst ((nextSeat_none_iff h).mpr hf)
  · rw [(h.rawStep fuel c).2 hh] at hs
    exact h.move hs

theorem rawLived_moved {env : Env} {r : Room} {cs : List Room.Call} {log : List Sent} (h : RawLived env r cs log) : Moved env r cs log := by
  induction h with
  | start h => rw [rawInit_eq] at h; exact Moved.start.step (init_move h)
  | step _ hs ih => exact ih.step ((moved_ok ih).raw_move hs)

theorem rawLived_of_lived {env : Env} {r : Room} {cs : List Room.Call} {log : List Sent} (h : Lived env r cs log) : RawLived env r cs log := by
  induction h with
  | start h => exact .start (by rw [rawInit_eq]; exact h)
  | step _ hs ih => exact ih.step (rawStep_of_ok hs)

/-! ## Who watches does not matter -/

/-- Other watchers. -/
def rewatch (S : List ClientId) (r : Room) : Room := { r with spectators := S }

theorem enterDeciding_rewatch {r r' : Room} {S : List ClientId} {fuel : Nat} {out : List Sent}
    (h : (rewatch S r).enterDeciding fuel = .ok (r', out)) : ∃ r1 out1, r.enterDeciding fuel = .ok (r1, out1) ∧ r' = rewatch S r1 ∧ r1.spectators = r.spectators := by
  unfold rewatch Room.enterDeciding at h
  unfold rewatch Room.enterDeciding
  simp only [pure_eq_ok] at h ⊢
  have hl : ∀ (u : Nat) (t : Fin 2), Room.teamLeader { r with spectators := S, state := .deciding none, used := u } t =
    Room.teamLeader { r with state := .deciding none, used := u } t := fun _ _ => rfl
  by_cases e0 : r.options.ftdm = 0
  · rw [if_pos e0] at h ⊢; cases h; exact ⟨_, _, rfl, rfl, rfl⟩
  rw [if_neg e0] at h ⊢
  by_cases e1 : r.options.ftdm = 1
  · rw [if_pos e1] at h ⊢; cases h; exact ⟨_, _, rfl, rfl, rfl⟩
  rw [if_neg e1] at h ⊢
  by_cases e2 : r.options.ftdm = 2
  · rw [if_pos e2] at h ⊢
    cases hr : Room.rollDice r.rng fuel r.used with
    | none => simp [hr] at h
    | some x =>
      obtain ⟨rolls, w, u⟩ := x
      simp only [hr, bind_eq_ok] at h ⊢
      obtain ⟨l, hll, h⟩ := h
      cases h
      rw [hl] at hll
      exact ⟨_, _, ⟨_, hll, rfl⟩, rfl, rfl⟩
  rw [if_neg e2] at h ⊢
  by_cases e3 : r.options.ftdm = 3
  · rw [if_pos e3] at h ⊢
    simp only [bind_eq_ok] at h ⊢
    obtain ⟨l, hll, h⟩ := h
    cases h
    rw [hl] at hll
    exact ⟨_, _, ⟨_, hll, rfl⟩, rfl, rfl⟩
  rw [if_neg e3] at h ⊢
  by_cases e4 : r.options.ftdm = -2147483648 ∨ r.options.ftdm = 2147483647
  · rw [if_pos e4] at h; cases h
  · rw [if_neg e4] at h ⊢; cases h; exact ⟨_, _, rfl, rfl, rfl⟩

/-- A call does the same whoever watches. -/
theorem rawStep_rewatch {env : Env} {r r' : Room} {S : List ClientId} {fuel : Nat} {c : Room.Call} {out : List Sent}
    (h : (rewatch S r).rawStep env fuel c = .ok (r', out)) :
    ∃ r1 out1, r.rawStep env fuel c = .ok (r1, out1) ∧
      ((r' = rewatch S r1 ∧ r1.spectators = r.spectators) ∨
       ∃ peer, c = .enter peer ∧ r' = rewatch (Room.setInsert peer S) r1 ∧ r1.spectators = Room.setInsert peer r.spectators) := by
  cases c with
  | enter peer =>
    simp only [Room.rawStep, Room.rawEnter] at h ⊢
    have hst' : (rewatch S r).state = r.state := rfl
    rw [hst'] at h
    cases hst : r.state with
    | mono => simp only [hst] at h; cases h
    | deciding d => simp only [hst] at h; cases h; exact ⟨_, _, rfl, .inl ⟨rfl, rfl⟩⟩
    | configuring =>
      simp only [hst] at h ⊢
      unfold Room.rawEnterConfiguring at h ⊢
      have hf : (rewatch S r).rawFindEmpty = r.rawFindEmpty := rfl
      rw [hf] at h
      cases hx : r.rawFindEmpty with
      | error e => simp [hx] at h
      | ok y =>
        simp only [hx, bind_ok] at h ⊢
        cases y with
        | none =>
          cases h
          exact ⟨_, _, rfl, .inr ⟨peer, rfl, rfl, rfl⟩⟩
        | some y =>
          obtain ⟨t, p⟩ := y
          simp only at h ⊢
          have : ((rewatch S r).teams t)[p]? = (r.teams t)[p]? := rfl
          rw [this] at h
          cases hy : (r.teams t)[p]? with
          | none => simp [hy, orUb] at h
          | some s =>
            simp only [hy, orUb, bind_ok, pure_eq_ok] at h ⊢
            cases h
            exact ⟨_, _, rfl, .inl ⟨rfl, rfl⟩⟩
  | visit peer sig =>
    simp only [Room.rawStep, Room.visit] at h ⊢
    have hst' : (rewatch S r).state = r.state := rfl
    rw [hst'] at h
    cases hst : r.state with
    | mono => simp only [hst] at h; cases h; exact ⟨_, _, rfl, .inl ⟨rfl, rfl⟩⟩
    | deciding d =>
      cases sig with
      | unset => simp only [hst] at h; cases h; exact ⟨_, _, rfl, .inl ⟨rfl, rfl⟩⟩
      | configuring _ => simp only [hst] at h; cases h; exact ⟨_, _, rfl, .inl ⟨rfl, rfl⟩⟩
      | deciding s =>
        simp only [hst] at h ⊢
        cases s with
        | unset => cases h; exact ⟨_, _, rfl, .inl ⟨rfl, rfl⟩⟩
        | teamGoingFirst n =>
          unfold rewatch at h
          simp only [Room.signalDeciding] at h ⊢
          split at h
          · rename_i e; rw [if_pos e]; cases h; exact ⟨_, _, rfl, .inl ⟨rfl, rfl⟩⟩
          · rename_i e; rw [if_neg e]
            split at h
            · rename_i e; rw [if_pos e]; cases h; exact ⟨_, _, rfl, .inl ⟨rfl, rfl⟩⟩
            · rename_i e; rw [if_neg e]; cases h; exact ⟨_, _, rfl, .inl ⟨rfl, rfl⟩⟩
    | configuring =>
      cases sig with
      | unset => simp only [hst] at h; cases h; exact ⟨_, _, rfl, .inl ⟨rfl, rfl⟩⟩
      | deciding _ => simp only [hst] at h; cases h; exact ⟨_, _, rfl, .inl ⟨rfl, rfl⟩⟩
      | configuring s =>
        simp only [hst] at h ⊢
        have hp : (rewatch S r).findPeer peer = r.findPeer peer := rfl
        cases s with
        | unset => cases h; exact ⟨_, _, rfl, .inl ⟨rfl, rfl⟩⟩
        | updateDeck d =>
          simp only [Room.signalConfiguring, Room.updateDeck] at h ⊢
          rw [hp] at h
          cases hx : r.findPeer peer with
          | error e => simp [hx] at h
          | ok y =>
            simp only [hx, bind_ok] at h ⊢
            rcases y with _ | ⟨t, p, s⟩
            · cases h; exact ⟨_, _, rfl, .inl ⟨rfl, rfl⟩⟩
            · unfold rewatch at h
              simp only at h ⊢
              split at h
              · rename_i e; rw [if_pos e]; cases h; exact ⟨_, _, rfl, .inl ⟨rfl, rfl⟩⟩
              · rename_i e; rw [if_neg e]; cases h; exact ⟨_, _, rfl, .inl ⟨rfl, rfl⟩⟩
        | readyStatus b =>
          simp only [Room.signalConfiguring, Room.readyStatus] at h ⊢
          rw [hp] at h
          cases hx : r.findPeer peer with
          | error e => simp [hx] at h
          | ok y =>
            simp only [hx, bind_ok] at h ⊢
            rcases y with _ | ⟨t, p, s⟩
            · cases h; exact ⟨_, _, rfl, .inl ⟨rfl, rfl⟩⟩
            · unfold rewatch at h
              simp only at h ⊢
              split at h
              · rename_i e; rw [if_pos e]; cases h; exact ⟨_, _, rfl, .inl ⟨rfl, rfl⟩⟩
              · rename_i e; rw [if_neg e]
                split at h
                · rename_i e; rw [if_pos e]; cases h; exact ⟨_, _, rfl, .inl ⟨rfl, rfl⟩⟩
                · rename_i e; rw [if_neg e]; cases h; exact ⟨_, _, rfl, .inl ⟨rfl, rfl⟩⟩
        | startDueling b =>
          simp only [Room.signalConfiguring, Room.startDueling] at h ⊢
          have hc : (rewatch S r).canStart = r.canStart := rfl
          have hh : (rewatch S r).host = r.host := rfl
          rw [hc, hh] at h
          split at h
          · rename_i e; rw [if_pos e]; cases h; exact ⟨_, _, rfl, .inl ⟨rfl, rfl⟩⟩
          · rename_i e; rw [if_neg e]
            split at h
            · rename_i e; rw [if_pos e]; cases h; exact ⟨_, _, rfl, .inl ⟨rfl, rfl⟩⟩
            · rename_i e; rw [if_neg e]
              obtain ⟨r1, out1, h1, h2, h3⟩ := enterDeciding_rewatch h
              exact ⟨r1, out1, h1, .inl ⟨h2, h3⟩⟩

end Ygo
