import Verif.Lemmas.RoomStart

/-!
# Rooms without the contents of decks
-/

set_option linter.unusedSimpArgs false

namespace Ygo
open Ygo.Room Ygo.Spec

/-- A seat without its deck. -/
def hideSlot (s : Slot) : Slot := { s with deck := {} }

/-- A room without its decks. -/
def hide (r : Room) : Room := { r with teams := fun t => (r.teams t).map hideSlot }

/-- Hide the decks of the room in an outcome. -/
def hideRes (x : Res (Room × List Sent)) : Res (Room × List Sent) := x.map fun y => (hide y.1, y.2)

@[simp] theorem hideRes_ok {r : Room} {out : List Sent} : hideRes (.ok (r, out)) = .ok (hide r, out) := rfl

@[simp] theorem hideRes_error {e : Err} : hideRes (.error e) = .error e := rfl

theorem hideSlot_idem (s : Slot) : hideSlot (hideSlot s) = hideSlot s := rfl

theorem hide_idem (r : Room) : hide (hide r) = hide r := by
  simp [hide, List.map_map, Function.comp_def, hideSlot_idem]

theorem teamClients_hide (l : List Slot) : Room.teamClients (l.map hideSlot) = Room.teamClients l := by
  simp [Room.teamClients, List.filterMap_map, Function.comp_def, hideSlot]

theorem sendAll_hide (r : Room) (e : Event) : (hide r).sendAll e = r.sendAll e := by
  simp [Room.sendAll, hide, teamClients_hide]

theorem scanTeam_hide (m : Nat) (l : List Slot) (pos count : Nat) (first : Option Nat) :
    Room.scanTeam m (l.map hideSlot) pos count first = Room.scanTeam m l pos count first := by
  induction l generalizing pos count first with
  | nil => rfl
  | cons s l ih =>
    simp only [List.map_cons, Room.scanTeam, ih]
    rfl

theorem findEmpty_hide (r : Room) : (hide r).findEmpty = r.findEmpty := by
  simp [Room.findEmpty, hide, scanTeam_hide]

theorem teamDuelists_hide (env : Env) (host : ClientId) (t : Fin 2) (pos : Nat) (l : List Slot) :
    Room.teamDuelists env host t pos (l.map hideSlot) = Room.teamDuelists env host t pos l := by
  induction l generalizing pos with
  | nil => rfl
  | cons s l ih =>
    have e : (hideSlot s).client = s.client := rfl
    have e2 : (hideSlot s).ready = s.ready := rfl
    simp only [List.map_cons, Room.teamDuelists, ih, e, e2]

theorem findInTeam_hide (peer : ClientId) (m : Nat) (l : List Slot) (pos : Nat) :
    Room.findInTeam peer m (l.map hideSlot) pos = (Room.findInTeam peer m l pos).map fun x => (x.1, hideSlot x.2) := by
  induction l generalizing pos with
  | nil => rfl
  | cons s l ih =>
    have e : (hideSlot s).client = s.client := rfl
    simp only [List.map_cons, Room.findInTeam, e, ih]
    split
    · rfl
    · split <;> rfl

theorem setSlot_hide (r : Room) (t : Fin 2) (p : Nat) (s : Slot) : hide (r.setSlot t p s) = (hide r).setSlot t p (hideSlot s) := by
  simp only [hide, Room.setSlot, Room.mk.injEq, true_and, and_true]
  funext t'
  split
  · exact List.map_set
  · rfl

theorem findPeer_hide (r : Room) (peer : ClientId) :
    (hide r).findPeer peer = (r.findPeer peer).map fun x => x.map fun y => (y.1, y.2.1, hideSlot y.2.2) := by
  have e : (hide r).options = r.options := rfl
  have e2 : ∀ t, (hide r).teams t = (r.teams t).map hideSlot := fun _ => rfl
  unfold Room.findPeer
  simp only [e, e2, findInTeam_hide]
  cases h0 : r.options.maxDuelists[0]? with
  | none => rfl
  | some m0 =>
    simp only [orUb, bind_ok]
    cases h1 : Room.findInTeam peer m0 (r.teams 0) 0 with
    | some x => rfl
    | none =>
      simp only [Option.map_none]
      cases h2 : r.options.maxDuelists[1]? with
      | none => rfl
      | some m1 =>
        simp only [orUb, bind_ok]
        cases h3 : Room.findInTeam peer m1 (r.teams 1) 0 <;> rfl

theorem canStart_hide (r : Room) : (hide r).canStart = r.canStart := by
  simp [Room.canStart, Room.teamCanStart, hide, List.all_map, List.any_map, Function.comp_def, hideSlot]

theorem teamLeader_hide (r : Room) (t : Fin 2) : (hide r).teamLeader t = r.teamLeader t := by
  simp [Room.teamLeader, hide, teamClients_hide]

theorem hideRes_congr {r r' : Room} {out out' : List Sent} (h : hide r = hide r') (ho : out = out') :
    hideRes (.ok (r, out)) = hideRes (.ok (r', out')) := by
  rw [hideRes_ok, hideRes_ok, h, ho]

theorem enterConfiguring_hide (env : Env) (r : Room) (x : ClientId) : hideRes ((hide r).enterConfiguring env x) = hideRes (r.enterConfiguring env x) := by
  have e1 : (hide r).options = r.options := rfl
  have e2 : ∀ t, (hide r).teams t = (r.teams t).map hideSlot := fun _ => rfl
  have e3 : (hide r).host = r.host := rfl
  have e4 : (hide r).spectators = r.spectators := rfl
  unfold Room.enterConfiguring
  rw [findEmpty_hide]
  simp only [e1, e2, e3, e4, teamDuelists_hide]
  cases hf : r.findEmpty with
  | error e => rfl
  | ok o =>
    simp only [bind_ok]
    cases o with
    | none =>
      simp only
      by_cases h : r.host = x
      · simp [massert, h]
      · simp only [massert, ne_eq, h, not_false_eq_true, if_true, bind_ok]
        have e := sendAll_hide { r with spectators := Room.setInsert x r.spectators } (.spectatorCount (Room.setInsert x r.spectators).length)
        exact hideRes_congr (hide_idem { r with spectators := Room.setInsert x r.spectators }) (congrArg _ e)
    | some y =>
      obtain ⟨t, p⟩ := y
      simp only [List.getElem?_map]
      cases hs : (r.teams t)[p]? with
      | none => rfl
      | some s =>
        simp only [Option.map_some, orUb, bind_ok]
        have e : (hide r).setSlot t p { hideSlot s with client := some x } = hide (r.setSlot t p { s with client := some x }) :=
          (setSlot_hide r t p { s with client := some x }).symm
        rw [e]
        refine hideRes_congr (hide_idem _) ?_
        simp only [sendAll_hide]
        rfl

theorem updateDeck_hide (env : Env) (r : Room) (x : ClientId) (d : Deck) :
    hideRes ((hide r).updateDeck env x d) = hideRes (r.updateDeck env x d) := by
  have e1 : (hide r).options = r.options := rfl
  unfold Room.updateDeck
  rw [findPeer_hide]
  cases hf : r.findPeer x with
  | error e => rfl
  | ok o =>
    cases o with
    | none => exact hideRes_congr (hide_idem r) rfl
    | some y =>
      obtain ⟨t, p, s⟩ := y
      simp only [Except.map, bind_ok, Option.map_some, e1]
      split
      · refine hideRes_congr ?_ rfl
        rw [setSlot_hide, setSlot_hide, hide_idem]; rfl
      · refine hideRes_congr ?_ rfl
        rw [setSlot_hide, setSlot_hide, hide_idem]; rfl

theorem readyStatus_hide (env : Env) (r : Room) (x : ClientId) (b : Bool) :
    hideRes ((hide r).readyStatus env x b) = hideRes (r.readyStatus env x b) := by
  have e1 : (hide r).host = r.host := rfl
  unfold Room.readyStatus
  rw [findPeer_hide]
  cases hf : r.findPeer x with
  | error e => rfl
  | ok o =>
    cases o with
    | none => exact hideRes_congr (hide_idem r) rfl
    | some y =>
      obtain ⟨t, p, s⟩ := y
      have e2 : (hideSlot s).ready = s.ready := rfl
      have e3 : (hideSlot s).deckValid = s.deckValid := rfl
      have e4 : (hide r).setSlot t p { deckValid := s.deckValid, ready := b, client := (hideSlot s).client, deck := (hideSlot s).deck } = hide (r.setSlot t p { s with ready := b }) :=
        (setSlot_hide r t p { s with ready := b }).symm
      simp only [Except.map, bind_ok, Option.map_some, e1, e2, e3]
      split
      · exact hideRes_congr (hide_idem r) rfl
      · split
        · exact hideRes_congr (hide_idem r) rfl
        · rw [e4]
          refine hideRes_congr (hide_idem _) ?_
          rw [sendAll_hide]
          rfl

theorem enterDeciding_hide (fuel : Nat) (r : Room) : hideRes ((hide r).enterDeciding fuel) = hideRes (r.enterDeciding fuel) := by
  have e1 : (hide r).options = r.options := rfl
  have e2 : (hide r).rng = r.rng := rfl
  have e3 : (hide r).used = r.used := rfl
  have e4 : (hide r).host = r.host := rfl
  have hs : ∀ (st : State) (u : Nat) (e : Event), ({ options := r.options, host := r.host, teams := (hide r).teams, spectators := (hide r).spectators, state := st, rng := r.rng, used := u } : Room).sendAll e =
      ({ r with state := st, used := u } : Room).sendAll e := fun st u e => sendAll_hide { r with state := st, used := u } e
  have ht : ∀ (st : State) (u : Nat) (t : Fin 2), ({ options := r.options, host := r.host, teams := (hide r).teams, spectators := (hide r).spectators, state := st, rng := r.rng, used := u } : Room).teamLeader t =
      ({ r with state := st, used := u } : Room).teamLeader t := fun st u t => teamLeader_hide { r with state := st, used := u } t
  have hi : ∀ (st : State) (u : Nat), hide ({ options := r.options, host := r.host, teams := (hide r).teams, spectators := (hide r).spectators, state := st, rng := r.rng, used := u } : Room) = hide ({ r with state := st, used := u } : Room) :=
    fun st u => hide_idem { r with state := st, used := u }
  unfold Room.enterDeciding
  simp only [e1, e2, e3, e4, pure_eq_ok]
  split
  · exact hideRes_congr (hi _ _) (congrArg (· ++ _) (hs (.deciding none) r.used _))
  · split
    · exact hideRes_congr (hi _ _) (hs (.deciding none) r.used _)
    · split
      · split
        · rfl
        · rename_i rolls w u _
          simp only [ht]
          cases ({ r with state := .deciding none, used := u } : Room).teamLeader (if w = 0 then 0 else 1) with
          | error e => rfl
          | ok c =>
            simp only [bind_ok]
            refine hideRes_congr (hi _ _) ?_
            rw [hs (.deciding none) u]
            exact congrArg (fun z => z ++ _ ++ _) (hs (.deciding none) r.used _)
      · split
        · simp only [ht]
          cases ({ r with state := .deciding none, used := r.used + 1 } : Room).teamLeader (if r.rng r.used % 2 = 0 then 0 else 1) with
          | error e => rfl
          | ok c =>
            simp only [bind_ok]
            refine hideRes_congr (hi _ _) ?_
            rw [hs (.deciding none) (r.used + 1)]
            exact congrArg (fun z => z ++ _ ++ _) (hs (.deciding none) r.used _)
        · split
          · rfl
          · exact hideRes_congr (hi _ _) (hs (.deciding none) r.used _)

/-- What a call does does not depend on the decks in the room. -/
theorem step_hide (env : Env) (fuel : Nat) (r : Room) (c : Room.Call) : hideRes ((hide r).step env fuel c) = hideRes (r.step env fuel c) := by
  have e0 : (hide r).state = r.state := rfl
  have e1 : (hide r).options = r.options := rfl
  have e4 : (hide r).host = r.host := rfl
  have nop : hideRes (.ok (hide r, [])) = hideRes (.ok (r, [])) := hideRes_congr (hide_idem r) rfl
  cases c with
  | enter x =>
    simp only [Room.step, Room.enter, e0]
    cases r.state with
    | mono => rfl
    | configuring => exact enterConfiguring_hide env r x
    | deciding d => exact nop
  | visit x s =>
    simp only [Room.step, Room.visit, e0]
    cases r.state with
    | mono => cases s <;> exact nop
    | configuring =>
      cases s with
      | unset => exact nop
      | deciding s => exact nop
      | configuring s =>
        cases s with
        | unset => exact nop
        | updateDeck d => exact updateDeck_hide env r x d
        | readyStatus b => exact readyStatus_hide env r x b
        | startDueling b =>
          simp only [Room.signalConfiguring, Room.startDueling, e4, canStart_hide]
          split
          · exact nop
          · split
            · exact nop
            · exact enterDeciding_hide fuel r
    | deciding d =>
      cases s with
      | unset => exact nop
      | configuring s => exact nop
      | deciding s =>
        cases s with
        | unset => exact nop
        | teamGoingFirst n =>
          simp only [Room.signalDeciding, e1, e4]
          split
          · exact nop
          · split
            · exact nop
            · exact hideRes_congr (hide_idem r) (sendAll_hide r _)

theorem hide_eq_iff {r r' : Room} : hide r = hide r' ↔ SameButDecks r r' := by
  have hl : ∀ l l' : List Slot, l.map hideSlot = l'.map hideSlot ↔
      l.map (fun s => (s.deckValid, s.ready, s.client)) = l'.map (fun s => (s.deckValid, s.ready, s.client)) := by
    intro l
    induction l with
    | nil => intro l'; cases l' <;> simp
    | cons a l ih =>
      intro l'
      cases l' with
      | nil => simp
      | cons b l' =>
        simp only [List.map_cons, List.cons.injEq, ih]
        refine and_congr ?_ Iff.rfl
        simp [hideSlot]
  unfold SameButDecks hide
  cases r
  cases r'
  simp only [Room.mk.injEq]
  constructor
  · rintro ⟨h1, h2, h3, h4, h5, h6, h7⟩
    exact ⟨h1, h2, h4, h5, h6, h7, fun t => (hl _ _).mp (congrFun h3 t)⟩
  · rintro ⟨h1, h2, h4, h5, h6, h7, h3⟩
    exact ⟨h1, h2, funext fun t => (hl _ _).mpr (h3 t), h4, h5, h6, h7⟩

end Ygo
