import Verif.Lemmas.RoomStep
import Verif.Spec.RoomRules

/-!
# What a room does with its options
-/

set_option linter.unusedSimpArgs false

namespace Ygo.Room
open Ygo Ygo.Spec

/-- The room with other options. -/
def give (o : Options) (r : Room) : Room := { r with options := o }

/-- The outcome with other options. -/
def giveRes (o : Options) (x : Res (Room × List Sent)) : Res (Room × List Sent) :=
  x.map fun y => (give o y.1, y.2.map fun s => (s.1, aboutOptions o s.2))

theorem banlistId_eq (o : Options) : o.banlistId = listName o := by
  unfold Options.banlistId listName
  cases o.banlist <;> rfl

theorem sendAll_give (o : Options) (r : Room) {e : Room.Event} (he : aboutOptions o e = e) :
    ((give o r).sendAll e) = (r.sendAll e).map fun s => (s.1, aboutOptions o s.2) := by
  simp [Room.sendAll, give, he, Function.comp_def]

theorem enterConfiguring_give (env : Env) {o : Options} {r : Room} (h : SameButRules r.options o) (x : ClientId) :
    (give o r).enterConfiguring env x = giveRes o (r.enterConfiguring env x) := by
  have e1 : (give o r).findEmpty = r.findEmpty := by unfold Room.findEmpty; rw [h.1]; rfl
  unfold Room.enterConfiguring
  rw [e1]
  cases r.findEmpty with
  | error e => rfl
  | ok z =>
    cases z with
    | none =>
      by_cases e : r.host = x
      · simp [give, giveRes, massert, e, Except.map, bind, Except.bind]
      · have := sendAll_give o { r with spectators := Room.setInsert x r.spectators }
          (e := .spectatorCount (Room.setInsert x r.spectators).length) rfl
        simp only [give] at this
        simp [give, giveRes, massert, e, Except.map, bind, Except.bind, pure, Except.pure, this, aboutOptions]
    | some z =>
      obtain ⟨t, p⟩ := z
      cases hs : (r.teams t)[p]? with
      | none => simp [give, giveRes, orUb, hs, Except.map, bind, Except.bind]
      | some s =>
        have := sendAll_give o (r.setSlot t p { s with client := some x })
          (e := .duelistEnters (Room.duelist env r.host t p x false)) rfl
        simp only [give, Room.setSlot] at this
        simp [give, giveRes, orUb, hs, Room.setSlot, Except.map, bind, Except.bind, pure, Except.pure, this, aboutOptions]

theorem findPeer_give {o : Options} {r : Room} (h : SameButRules r.options o) (x : ClientId) :
    (give o r).findPeer x = r.findPeer x := by
  unfold Room.findPeer; rw [h.1]; rfl

theorem updateDeck_give (env : Env) {o : Options} {r : Room} (h : SameButRules r.options o) (x : ClientId) (d : Deck) :
    (give o r).updateDeck env x d = giveRes o (r.updateDeck env x d) := by
  have e : (give o r).options.banlistId = r.options.banlistId := by
    rw [banlistId_eq, banlistId_eq]; exact h.2.2.symm
  unfold Room.updateDeck
  rw [findPeer_give h, e]
  cases r.findPeer x with
  | error e => rfl
  | ok z =>
    cases z with
    | none => rfl
    | some z =>
      obtain ⟨t, p, s⟩ := z
      simp only [bind, Except.bind]
      split <;> rfl

theorem readyStatus_give (env : Env) {o : Options} {r : Room} (h : SameButRules r.options o) (x : ClientId) (b : Bool) :
    (give o r).readyStatus env x b = giveRes o (r.readyStatus env x b) := by
  unfold Room.readyStatus
  rw [findPeer_give h]
  cases r.findPeer x with
  | error e => rfl
  | ok z =>
    cases z with
    | none => rfl
    | some z =>
      obtain ⟨t, p, s⟩ := z
      simp only [bind, Except.bind]
      split
      · rfl
      · split
        · rfl
        · have := sendAll_give o (r.setSlot t p { s with ready := b }) (e := .updateDuelist (Room.duelist env r.host t p x b)) rfl
          exact congrArg (fun l => Except.ok (give o (r.setSlot t p { s with ready := b }), l)) this

theorem enterDeciding_give {o : Options} {r : Room} (h : SameButRules r.options o) (fuel : Nat) :
    (give o r).enterDeciding fuel = giveRes o (r.enterDeciding fuel) := by
  have e1 : (give o r).options.ftdm = r.options.ftdm := h.2.1.symm
  have e2 : (give o r).rng = r.rng := rfl
  have e3 : (give o r).used = r.used := rfl
  have e4 : (give o r).host = r.host := rfl
  have hs : ∀ (st : State) (u : Nat) (e : Room.Event), aboutOptions o e = e →
      ({ options := (give o r).options, host := r.host, teams := (give o r).teams, spectators := (give o r).spectators, state := st, rng := r.rng, used := u } : Room).sendAll e =
      (({ r with state := st, used := u } : Room).sendAll e).map fun s => (s.1, aboutOptions o s.2) :=
    fun st u e he => sendAll_give o { r with state := st, used := u } he
  have ht : ∀ (st : State) (u : Nat) (t : Fin 2), ({ options := (give o r).options, host := r.host, teams := (give o r).teams, spectators := (give o r).spectators, state := st, rng := r.rng, used := u } : Room).teamLeader t =
      ({ r with state := st, used := u } : Room).teamLeader t := fun st u t => rfl
  have one : ∀ {r0 r1 : Room} {l l' : List Sent}, r0 = give o r1 → l = l'.map (fun s => (s.1, aboutOptions o s.2)) →
      (Except.ok (r0, l) : Res (Room × List Sent)) = giveRes o (.ok (r1, l')) := by
    rintro r0 r1 l l' rfl rfl
    rfl
  unfold Room.enterDeciding
  simp only [e1, e2, e3, e4, pure_eq_ok]
  split
  · refine one rfl ?_
    rw [List.map_append]
    exact congrArg (· ++ _) (hs (.deciding none) r.used .decidingEntering rfl)
  · split
    · exact one rfl (hs (.deciding none) r.used .decidingEntering rfl)
    · split
      · split
        · rfl
        · rename_i rolls w u _
          simp only [ht]
          cases ({ r with state := .deciding none, used := u } : Room).teamLeader (if w = 0 then 0 else 1) with
          | error e => rfl
          | ok c =>
            simp only [bind_ok]
            refine one rfl ?_
            rw [List.map_append, List.map_append, hs (.deciding none) u _ rfl]
            exact congrArg (fun z => z ++ _ ++ _) (hs (.deciding none) r.used .decidingEntering rfl)
      · split
        · simp only [ht]
          cases ({ r with state := .deciding none, used := r.used + 1 } : Room).teamLeader (if r.rng r.used % 2 = 0 then 0 else 1) with
          | error e => rfl
          | ok c =>
            simp only [bind_ok]
            refine one rfl ?_
            rw [List.map_append, List.map_append, hs (.deciding none) (r.used + 1) _ rfl]
            exact congrArg (fun z => z ++ _ ++ _) (hs (.deciding none) r.used .decidingEntering rfl)
        · split
          · rfl
          · exact one rfl (hs (.deciding none) r.used .decidingEntering rfl)

/-- What a call does does not depend on the rules for decks, except that newcomers are told them. -/
theorem step_give (env : Env) {o : Options} {r : Room} (h : SameButRules r.options o) (fuel : Nat) (c : Room.Call) :
    (give o r).step env fuel c = giveRes o (r.step env fuel c) := by
  have e0 : (give o r).state = r.state := rfl
  have e1 : (give o r).options.ftdm = r.options.ftdm := h.2.1.symm
  have e4 : (give o r).host = r.host := rfl
  cases c with
  | enter x =>
    simp only [Room.step, Room.enter, e0]
    cases r.state with
    | mono => rfl
    | configuring => exact enterConfiguring_give env h x
    | deciding d => rfl
  | visit x s =>
    simp only [Room.step, Room.visit, e0]
    cases r.state with
    | mono => cases s <;> rfl
    | configuring =>
      cases s with
      | unset => rfl
      | deciding s => rfl
      | configuring s =>
        cases s with
        | unset => rfl
        | updateDeck d => exact updateDeck_give env h x d
        | readyStatus b => exact readyStatus_give env h x b
        | startDueling b =>
          have e5 : (give o r).canStart = r.canStart := rfl
          simp only [Room.signalConfiguring, Room.startDueling, e4, e5]
          split
          · rfl
          · split
            · rfl
            · exact enterDeciding_give h fuel
    | deciding d =>
      cases s with
      | unset => rfl
      | configuring s => rfl
      | deciding s =>
        cases s with
        | unset => rfl
        | teamGoingFirst n =>
          simp only [Room.signalDeciding, e1, e4]
          split
          · rfl
          · split
            · rfl
            · exact congrArg (fun l => Except.ok (give o r, l)) (sendAll_give o r rfl)

theorem clamp_same {o o' : Options} (h : SameButRules (Room.clampOptions o) o') : Room.clampOptions o' = o' := by
  have h1 := h.1
  have hm : ∃ a b, o'.maxDuelists = [a, b] ∧ (1 ≤ a ∧ a ≤ 3) ∧ (1 ≤ b ∧ b ≤ 3) := by
    have k := (roomOk_empty (env := ⟨fun _ => {}, fun _ _ => (true, {})⟩) (fun _ => 0) 0 o).maxes
    obtain ⟨a, b, k1, k2, k3⟩ := k
    exact ⟨a, b, h1.symm.trans k1, k2, k3⟩
  obtain ⟨a, b, k1, k2, k3⟩ := hm
  obtain ⟨ms, l, c, f⟩ := o'
  dsimp only at k1
  subst k1
  unfold Room.clampOptions
  have e : ∀ v : Nat, 1 ≤ v ∧ v ≤ 3 → (if v = 0 then 1 else if 3 < v then 3 else v) = v := by
    intro v hv
    split
    · omega
    · split <;> omega
  simp [e a k2, e b k3]

theorem lived_give {env : Env} {r : Room} {calls : List Room.Call} {log : List Sent} (h : Lived env r calls log) {o : Options}
    (ho : SameButRules r.options o) : Lived env (give o r) calls (log.map fun s => (s.1, aboutOptions o s.2)) := by
  induction h with
  | @start rng host o0 r out h0 =>
    have hr : r.options = Room.clampOptions o0 := (init_move h0).host.2
    have hc := clamp_same (hr ▸ ho)
    refine .start (rng := rng) (host := host) (options := o) ?_
    unfold Room.init at h0 ⊢
    rw [hc]
    have k := step_give env (o := o) (r := emptyRoom rng host o0) (by rw [hr] at ho; exact ho) 0 (.enter host)
    refine k.trans ?_
    show giveRes o ((emptyRoom rng host o0).enter env host) = _
    rw [show (emptyRoom rng host o0).enter env host = .ok (r, out) from h0]
    rfl
  | @step r r1 calls log out fuel c hl hs ih =>
    have hr : r1.options = r.options := ((lived_ok hl).move hs).host.2
    rw [hr] at ho
    rw [List.map_append]
    refine (ih ho).step (fuel := fuel) ?_
    rw [step_give env ho, hs]
    rfl

end Ygo.Room
