import Verif.Spec.Sealed
import Verif.Props.RoomNames
import Verif.Lemmas.Mirror

/-! C140: a room does not look into what it passes on. -/

set_option linter.unusedSimpArgs false

namespace Ygo.Props
open Ygo Ygo.Spec Ygo.Room

variable {σ : Sealing} {env env' : Env}

/-- What a call gives, for the others. -/
def sealedOutcome (σ : Sealing) (x : Room × List Sent) : Room × List Sent := (x.1.sealed σ, x.2.map (sealedSent σ))

theorem banlistId_sealed (o : Options) : (o.sealed σ).banlistId = o.banlistId := by
  obtain ⟨m, l, b, f⟩ := o
  cases b <;> rfl

theorem teamClients_sealed (t : List Slot) : teamClients (t.map (Slot.sealed σ)) = teamClients t := by
  simp only [teamClients, List.filterMap_map]
  rfl

theorem sendAll_sealed (r : Room) (e : Room.Event) : (r.sealed σ).sendAll (e.sealed σ) = (r.sendAll e).map (sealedSent σ) := by
  simp only [Room.sendAll, Room.sealed, teamClients_sealed, List.map_map]
  rfl

theorem scanTeam_sealed (m : Nat) (t : List Slot) (p c : Nat) (f : Option Nat) : scanTeam m (t.map (Slot.sealed σ)) p c f = scanTeam m t p c f := by
  induction t generalizing p c f with
  | nil => rfl
  | cons s t ih => simp only [List.map_cons, scanTeam, ih, show (s.sealed σ).client = s.client from rfl]

theorem findEmpty_sealed (r : Room) : (r.sealed σ).findEmpty = r.findEmpty := by
  simp only [Room.findEmpty, show (r.sealed σ).options.maxDuelists = r.options.maxDuelists from rfl,
    show ∀ t, (r.sealed σ).teams t = (r.teams t).map (Slot.sealed σ) from fun _ => rfl, scanTeam_sealed]

theorem duelist_sealed (he : SealedEnv σ env env') (host : ClientId) (t : Fin 2) (p : Nat) (c : ClientId) (b : Bool) :
    duelist env' host t p c b = (duelist env host t p c b).sealed σ := by
  simp only [duelist, Duelist.sealed, he.user]

theorem teamDuelists_sealed (he : SealedEnv σ env env') (host : ClientId) (t : Fin 2) (p : Nat) (s : List Slot) :
    teamDuelists env' host t p (s.map (Slot.sealed σ)) = (teamDuelists env host t p s).map (Duelist.sealed σ) := by
  induction s generalizing p with
  | nil => rfl
  | cons s ss ih =>
    obtain ⟨v, rd, cl, d⟩ := s
    cases cl with
    | none => exact ih (p + 1)
    | some c =>
      show duelist env' host t p c rd :: _ = (duelist env host t p c rd).sealed σ :: _
      rw [duelist_sealed he, ih]

theorem setSlot_sealed (r : Room) (t : Fin 2) (p : Nat) (s : Slot) : (r.sealed σ).setSlot t p (s.sealed σ) = (r.setSlot t p s).sealed σ := by
  simp only [Room.setSlot, Room.sealed, Room.mk.injEq, true_and, and_true]
  funext u
  split
  · rw [List.map_set]
  · rfl

theorem enter_sealed (he : SealedEnv σ env env') (r : Room) (c : ClientId) :
    (r.sealed σ).enter env' c = (r.enter env c).map (sealedOutcome σ) := by
  unfold Room.enter
  rw [show (r.sealed σ).state = r.state from rfl]
  cases r.state with
  | mono => rfl
  | deciding d => rfl
  | configuring =>
    simp only [Room.enterConfiguring, findEmpty_sealed, bind_map']
    refine bind_congr' fun x => ?_
    have hf : ((c, Event.entering (r.sealed σ).options
        (teamDuelists env' (r.sealed σ).host 0 0 ((r.sealed σ).teams 0) ++ teamDuelists env' (r.sealed σ).host 1 0 ((r.sealed σ).teams 1))
        (r.sealed σ).spectators.length) : Sent) = sealedSent σ (c, .entering r.options
        (teamDuelists env r.host 0 0 (r.teams 0) ++ teamDuelists env r.host 1 0 (r.teams 1)) r.spectators.length) := by
      simp only [sealedSent, Event.sealed, Room.sealed, teamDuelists_sealed he, List.map_append]
    rw [hf]
    cases x with
    | some y =>
      obtain ⟨t, p⟩ := y
      simp only [show (r.sealed σ).teams t = (r.teams t).map (Slot.sealed σ) from rfl, List.getElem?_map]
      cases (r.teams t)[p]? with
      | none => rfl
      | some s =>
        show Except.ok _ = Except.ok _
        have e := setSlot_sealed (σ := σ) r t p { s with client := some c }
        rw [show Slot.sealed σ { s with client := some c } = { s.sealed σ with client := some c } from rfl] at e
        simp only [e, sealedOutcome, List.map_cons, Except.ok.injEq, Prod.mk.injEq, List.cons.injEq, true_and]
        rw [← sendAll_sealed]
        simp only [Event.sealed, duelist_sealed he]
        rfl
    | none =>
      simp only [show (r.sealed σ).host = r.host from rfl]
      by_cases h : r.host ≠ c
      · simp only [massert_true h, bind_ok, pure_eq_ok, map_ok', sealedOutcome, List.map_cons]
        rw [← sendAll_sealed]
        rfl
      · simp only [massert, if_neg h]
        rfl

theorem findInTeam_sealed (c : ClientId) (m : Nat) (t : List Slot) (p : Nat) :
    findInTeam c m (t.map (Slot.sealed σ)) p = (findInTeam c m t p).map fun x => (x.1, x.2.sealed σ) := by
  induction t generalizing p with
  | nil => rfl
  | cons s t ih =>
    simp only [List.map_cons, findInTeam, show (s.sealed σ).client = s.client from rfl, ih]
    split
    · rfl
    · split <;> rfl

theorem findPeer_sealed (r : Room) (c : ClientId) :
    (r.sealed σ).findPeer c = (r.findPeer c).map (Option.map fun x => (x.1, x.2.1, x.2.2.sealed σ)) := by
  simp only [Room.findPeer, show (r.sealed σ).options.maxDuelists = r.options.maxDuelists from rfl,
    show ∀ t, (r.sealed σ).teams t = (r.teams t).map (Slot.sealed σ) from fun _ => rfl, findInTeam_sealed, bind_map']
  refine bind_congr' fun m => ?_
  cases findInTeam c m (r.teams 0) 0 with
  | some x => rfl
  | none =>
    simp only [Option.map_none, bind_map']
    refine bind_congr' fun m => ?_
    cases findInTeam c m (r.teams 1) 0 <;> rfl

theorem updateDeck_sealed (he : SealedEnv σ env env') (r : Room) (c : ClientId) (d : Deck) :
    (r.sealed σ).updateDeck env' c (σ.deck d) = (r.updateDeck env c d).map (sealedOutcome σ) := by
  simp only [Room.updateDeck, findPeer_sealed, map_bind', bind_map']
  refine bind_congr' fun x => ?_
  cases x with
  | none => rfl
  | some y =>
    obtain ⟨t, p, s⟩ := y
    simp only [Option.map_some, show (r.sealed σ).options.banlistId = r.options.banlistId from banlistId_sealed _, he.check]
    split
    · show Except.ok _ = Except.ok _
      simp only [sealedOutcome, ← setSlot_sealed]
      rfl
    · show Except.ok _ = Except.ok _
      simp only [sealedOutcome, ← setSlot_sealed, Slot.sealed, σ.empty]
      rfl

theorem readyStatus_sealed (he : SealedEnv σ env env') (r : Room) (c : ClientId) (b : Bool) :
    (r.sealed σ).readyStatus env' c b = (r.readyStatus env c b).map (sealedOutcome σ) := by
  simp only [Room.readyStatus, findPeer_sealed, map_bind', bind_map']
  refine bind_congr' fun x => ?_
  cases x with
  | none => rfl
  | some y =>
    obtain ⟨t, p, s⟩ := y
    simp only [Option.map_some, show (s.sealed σ).ready = s.ready from rfl, show (s.sealed σ).deckValid = s.deckValid from rfl, map_ite',
      pure_eq_ok, map_ok']
    split
    · rfl
    split
    · rfl
    show Except.ok ((r.sealed σ).setSlot t p (Slot.sealed σ { s with ready := b }),
      ((r.sealed σ).setSlot t p (Slot.sealed σ { s with ready := b })).sendAll (.updateDuelist (duelist env' r.host t p c b))) = Except.ok _
    rw [setSlot_sealed, duelist_sealed he]
    simp only [sealedOutcome, ← sendAll_sealed]
    rfl

theorem teamCanStart_sealed (t : List Slot) : teamCanStart (t.map (Slot.sealed σ)) = teamCanStart t := by
  simp only [teamCanStart, List.all_map, List.any_map]
  rfl

theorem enterDeciding_sealed (fuel : Nat) (r : Room) : (r.sealed σ).enterDeciding fuel = (r.enterDeciding fuel).map (sealedOutcome σ) := by
  obtain ⟨o, host, teams, sp, st, rng, used⟩ := r
  have send : ∀ st used (e : Room.Event), e.sealed σ = e →
      Room.sendAll ⟨o.sealed σ, host, fun t => (teams t).map (Slot.sealed σ), sp, st, rng, used⟩ e =
        (Room.sendAll ⟨o, host, teams, sp, st, rng, used⟩ e).map (sealedSent σ) := by
    intro st used e h
    rw [← sendAll_sealed, h]
    rfl
  have lead : ∀ st used (t : Fin 2), Room.teamLeader ⟨o.sealed σ, host, fun t => (teams t).map (Slot.sealed σ), sp, st, rng, used⟩ t =
      Room.teamLeader ⟨o, host, teams, sp, st, rng, used⟩ t := by
    intro st used t
    simp only [Room.teamLeader, teamClients_sealed]
  unfold Room.enterDeciding
  simp only [Room.sealed, show (o.sealed σ).ftdm = o.ftdm from rfl, send _ _ .decidingEntering rfl]
  split
  · show Except.ok _ = Except.ok _
    simp only [sealedOutcome, List.map_append]
    rfl
  split
  · rfl
  split
  · cases rollDice rng fuel used with
    | none => rfl
    | some x =>
      obtain ⟨rolls, w, u⟩ := x
      simp only [lead, send _ _ (.result w (.dice rolls)) rfl, bind_map']
      refine bind_congr' fun c => ?_
      show Except.ok _ = Except.ok _
      simp only [sealedOutcome, List.map_append]
      rfl
  split
  · simp only [lead, send _ _ (.result (rng used % 2) (.coin (rng used % 2))) rfl, bind_map']
    refine bind_congr' fun c => ?_
    show Except.ok _ = Except.ok _
    simp only [sealedOutcome, List.map_append]
    rfl
  split
  · rfl
  · rfl

theorem step_sealed (he : SealedEnv σ env env') (fuel : Nat) (r : Room) (c : Room.Call) :
    (r.sealed σ).step env' fuel (sealedCall σ c) = (r.step env fuel c).map (sealedOutcome σ) := by
  cases c with
  | enter c => exact enter_sealed he r c
  | visit c s =>
    have hs : ∀ s', (r.state = .configuring → (r.sealed σ).signalConfiguring env' fuel c s' = (r.signalConfiguring env fuel c s').map (sealedOutcome σ)) →
        (r.sealed σ).visit env' fuel c (.configuring s') = (r.visit env fuel c (.configuring s')).map (sealedOutcome σ) := by
      intro s' h
      simp only [Room.visit, show (r.sealed σ).state = r.state from rfl]
      cases hst : r.state with
      | configuring => exact h hst
      | _ => rfl
    cases s with
    | unset =>
      simp only [sealedCall, Room.step, Room.visit, show (r.sealed σ).state = r.state from rfl]
      cases r.state <;> rfl
    | deciding s =>
      simp only [sealedCall, Room.step, Room.visit, show (r.sealed σ).state = r.state from rfl]
      cases r.state <;> first | rfl | skip
      cases s with
      | unset => rfl
      | teamGoingFirst n =>
        simp only [Room.signalDeciding, show (r.sealed σ).options.ftdm = r.options.ftdm from rfl, show (r.sealed σ).host = r.host from rfl]
        split
        · rfl
        split
        · rfl
        show Except.ok _ = Except.ok _
        simp only [sealedOutcome, ← sendAll_sealed]
        rfl
    | configuring s =>
      cases s with
      | unset => exact hs .unset fun _ => rfl
      | readyStatus b => exact hs (.readyStatus b) fun _ => readyStatus_sealed he r c b
      | updateDeck d =>
        simp only [sealedCall, Room.step, Room.visit, show (r.sealed σ).state = r.state from rfl]
        cases r.state <;> first | rfl | exact updateDeck_sealed he r c d
      | startDueling b =>
        refine hs (.startDueling b) fun _ => ?_
        have hc : (r.sealed σ).canStart = r.canStart := by
          simp only [Room.canStart, show ∀ t, (r.sealed σ).teams t = (r.teams t).map (Slot.sealed σ) from fun _ => rfl, teamCanStart_sealed]
        simp only [Room.signalConfiguring, Room.startDueling, show (r.sealed σ).host = r.host from rfl, hc, enterDeciding_sealed]
        by_cases h1 : c ≠ r.host
        · rw [if_pos h1, if_pos h1]; rfl
        rw [if_neg h1, if_neg h1]
        by_cases h2 : r.canStart = false
        · rw [if_pos h2, if_pos h2]; rfl
        · rw [if_neg h2, if_neg h2]

theorem run_sealed (he : SealedEnv σ env env') (fuel : Nat) (calls : List Room.Call) (r : Room) :
    (r.sealed σ).run env' fuel (calls.map (sealedCall σ)) = (r.run env fuel calls).map (sealedOutcome σ) := by
  induction calls generalizing r with
  | nil => rfl
  | cons c cs ih =>
    simp only [List.map_cons, Room.run, step_sealed he, map_bind', bind_map', pure_eq_ok, map_ok']
    refine bind_congr' fun x => ?_
    rw [show (sealedOutcome σ x).1 = x.1.sealed σ from rfl, ih, map_bind']
    refine bind_congr' fun y => ?_
    simp only [sealedOutcome, List.map_append]

/-- **C140.** A room in any state does with other decks, users, limits and banlists of its own what it does with these, if its validator
judges the other decks like these: calls fail in the same way, and otherwise the same messages are sent in the same order with the others in
them, and the room has the others in it. -/
theorem C140_calls (he : SealedEnv σ env env') (fuel : Nat) (r : Room) (calls : List Room.Call) :
    (r.sealed σ).run env' fuel (calls.map (sealedCall σ)) = (r.run env fuel calls).map (sealedOutcome σ) := run_sealed he fuel calls r

/-- **C140.** The same from the beginning. -/
theorem C140_rooms (he : SealedEnv σ env env') (rng : Nat → Nat) (host : ClientId) (o : Options) (fuel : Nat) (calls : List Room.Call) :
    roomLife env' rng host (o.sealed σ) fuel (calls.map (sealedCall σ)) = (roomLife env rng host o fuel calls).map (sealedOutcome σ) := by
  have h0 : Room.init env' rng host (o.sealed σ) = (Room.init env rng host o).map (sealedOutcome σ) := by
    unfold Room.init
    rw [← enter_sealed he]
    congr 1
    simp only [Room.sealed, List.map_replicate, Slot.sealed, σ.empty]
    rfl
  simp only [roomLife, h0, map_bind', bind_map', pure_eq_ok, map_ok']
  refine bind_congr' fun x => ?_
  rw [show (sealedOutcome σ x).1 = x.1.sealed σ from rfl, run_sealed he, map_bind']
  refine bind_congr' fun y => ?_
  simp only [sealedOutcome, List.map_append]

/-- **C140.** Who is told something, how often, and who has which seat, is ready or may decide does not depend on any of this. -/
theorem C140_same_course (he : SealedEnv σ env env') {rng : Nat → Nat} {host : ClientId} {o : Options} {fuel : Nat} {calls : List Room.Call}
    {r : Room} {log : List Sent} (h : roomLife env rng host o fuel calls = .ok (r, log)) :
    ∃ r' log', roomLife env' rng host (o.sealed σ) fuel (calls.map (sealedCall σ)) = .ok (r', log') ∧ log'.map (·.1) = log.map (·.1) ∧
      r'.state = r.state ∧ r'.spectators = r.spectators ∧
      ∀ t, (r'.teams t).map (fun s => (s.client, s.ready, s.deckValid)) = (r.teams t).map fun s => (s.client, s.ready, s.deckValid) := by
  have e := C140_rooms he rng host o fuel calls
  rw [h] at e
  refine ⟨_, _, e, ?_, rfl, rfl, fun t => ?_⟩
  · rw [List.map_map]; rfl
  · show List.map _ (List.map _ _) = _
    rw [List.map_map]; rfl

/-! ## Examples -/

/-- Everybody is anonymous, decks are turned round, no reasons are given, and there are no limits. -/
def anonymous : Sealing where
  deck d := { d with main := d.main.reverse }
  user _ := {}
  error _ := {}
  limits _ := none
  list b := b
  empty := rfl

/-- Clients with names, and a validator that wants one card. -/
def namedEnv : Env := ⟨fun c => { name := toString c }, fun _ d => (d.main.length = 1, { invalidCards := some d.main })⟩

/-- The same for others. -/
def namelessEnv : Env := ⟨fun _ => {}, fun _ d => (d.main.length = 1, {})⟩

example : SealedEnv anonymous namedEnv namelessEnv := ⟨fun _ => rfl, fun _ d => by simp [namelessEnv, namedEnv, anonymous]⟩

/-- A guest brings a deck that is refused and one that is not, and both get ready. -/
def refusedOnce : List Room.Call :=
  [.enter 2, .visit 2 (.configuring (.updateDeck { main := [5, 6] })), .visit 2 (.configuring (.updateDeck { main := [7] })),
   .visit 2 (.configuring (.readyStatus true)), .visit 1 (.configuring (.updateDeck { main := [8] })), .visit 1 (.configuring (.readyStatus true)),
   .visit 1 (.configuring (.startDueling true))]

/-- What the guest is told about the decks. -/
def toldOfDecks (env : Env) (calls : List Room.Call) : Option (List Room.Event) :=
  (roomLife env (fun i => i) 1 { ftdm := 2 } 5 calls).toOption.map fun x =>
    (x.2.filter fun m => m.1 = 2).map (·.2) |>.filter fun | .deckStatus _ => true | _ => false

example : toldOfDecks namedEnv refusedOnce = some [.deckStatus (some { invalidCards := some [5, 6] }), .deckStatus none] ∧
    toldOfDecks namelessEnv (refusedOnce.map (sealedCall anonymous)) = some [.deckStatus (some {}), .deckStatus none] := by
  decide +kernel

end Ygo.Props
