import Verif.Spec.RoomArena
import Verif.Lemmas.RoomFuture
import Verif.Lemmas.RoomOrder
import Verif.Lemmas.RoomStates

/-!
# Lemmas about the arena of a room
-/

namespace Ygo
open Ygo.Room Ygo.Spec

/-- Forget who got which object: only what was sent. -/
def mailed (x : Res (Room × List Letter)) : Res (Room × List Sent) := x >>= fun (r, ls) => .ok (r, Room.delivered ls)

@[simp] theorem mailed_ok (r : Room) (ls : List Letter) : mailed (.ok (r, ls)) = .ok (r, Room.delivered ls) := rfl
@[simp] theorem mailed_error (e : Err) : mailed (.error e) = .error e := rfl

theorem delivered_nil : Room.delivered [] = [] := rfl
theorem delivered_cons (l : Letter) (ls : List Letter) : Room.delivered (l :: ls) = l.to.map (fun c => (c, l.event)) ++ Room.delivered ls := rfl
theorem delivered_append (ls ls' : List Letter) : Room.delivered (ls ++ ls') = Room.delivered ls ++ Room.delivered ls' := by
  simp [Room.delivered]

theorem enterConfiguring_mailed (env : Env) (r : Room) (peer : ClientId) : r.enterConfiguring env peer = mailed (r.enterConfiguringL env peer) := by
  unfold Room.enterConfiguring Room.enterConfiguringL
  cases r.findEmpty with
  | error e => rfl
  | ok x =>
    simp only [bind_ok]
    cases x with
    | none =>
      by_cases e : r.host = peer
      · simp [massert, e]
      · simp [massert, e, delivered_cons, delivered_nil, Room.sendAll, Room.everyone]
    | some y =>
      obtain ⟨t, p⟩ := y
      simp only
      cases (r.teams t)[p]? with
      | none => rfl
      | some s => simp [orUb, delivered_cons, delivered_nil, Room.sendAll, Room.everyone]

theorem enter_mailed (env : Env) (r : Room) (peer : ClientId) : r.enter env peer = mailed (r.enterL env peer) := by
  unfold Room.enter Room.enterL
  cases r.state with
  | mono => rfl
  | configuring => exact enterConfiguring_mailed ..
  | deciding _ => rfl

theorem enterDeciding_mailed (fuel : Nat) (r : Room) : r.enterDeciding fuel = mailed (r.enterDecidingL fuel) := by
  unfold Room.enterDeciding Room.enterDecidingL
  simp only
  split
  · simp [delivered_cons, delivered_nil, Room.sendAll, Room.everyone]
  · split
    · simp [delivered_cons, delivered_nil, Room.sendAll, Room.everyone]
    · split
      · cases Room.rollDice r.rng fuel r.used with
        | none => rfl
        | some x =>
          obtain ⟨rolls, w, u⟩ := x
          simp only [Room.teamLeader]
          cases (Room.teamClients (r.teams (if w = 0 then 0 else 1))).head? with
          | none => rfl
          | some c => simp [orUb, delivered_cons, delivered_nil, Room.sendAll, Room.everyone]
      · split
        · simp only [Room.teamLeader]
          cases (Room.teamClients (r.teams (if r.rng r.used % 2 = 0 then 0 else 1))).head? with
          | none => rfl
          | some c => simp [orUb, delivered_cons, delivered_nil, Room.sendAll, Room.everyone]
        · split
          · rfl
          · simp [delivered_cons, delivered_nil, Room.sendAll, Room.everyone]

theorem updateDeck_mailed (env : Env) (r : Room) (peer : ClientId) (d : Deck) : r.updateDeck env peer d = mailed (r.updateDeckL env peer d) := by
  unfold Room.updateDeck Room.updateDeckL
  cases r.findPeer peer with
  | error e => rfl
  | ok x =>
    cases x with
    | none => rfl
    | some y =>
      simp only [bind_ok]
      cases (env.check r.options.banlistId d).1 <;> rfl

theorem readyStatus_mailed (env : Env) (r : Room) (peer : ClientId) (b : Bool) : r.readyStatus env peer b = mailed (r.readyStatusL env peer b) := by
  unfold Room.readyStatus Room.readyStatusL
  cases r.findPeer peer with
  | error e => rfl
  | ok x =>
    cases x with
    | none => rfl
    | some y =>
      simp only [bind_ok]
      split
      · rfl
      · split
        · rfl
        · simp [delivered_cons, delivered_nil, Room.sendAll, Room.everyone]

/-- What is sent is what the letters in the arena say, whatever the outcome. -/
theorem step_mailed (env : Env) (fuel : Nat) (r : Room) (c : Room.Call) : r.step env fuel c = mailed (r.stepL env fuel c) := by
  cases c with
  | enter x => exact enter_mailed ..
  | visit x s =>
    simp only [Room.step, Room.stepL, Room.visit, Room.visitL]
    cases r.state with
    | mono => rfl
    | configuring =>
      cases s with
      | unset => rfl
      | deciding _ => rfl
      | configuring s =>
        cases s with
        | unset => rfl
        | updateDeck d => exact updateDeck_mailed ..
        | readyStatus b => exact readyStatus_mailed ..
        | startDueling b =>
          simp only [Room.signalConfiguring, Room.signalConfiguringL, Room.startDueling, Room.startDuelingL]
          split
          · rfl
          · split
            · rfl
            · exact enterDeciding_mailed ..
    | deciding d =>
      cases s with
      | unset => rfl
      | configuring _ => rfl
      | deciding s =>
        cases s with
        | unset => rfl
        | teamGoingFirst n =>
          simp only [Room.signalDeciding, Room.signalDecidingL]
          split
          · rfl
          · split
            · rfl
            · simp [delivered_cons, delivered_nil, Room.sendAll, Room.everyone]

theorem init_mailed (env : Env) (rng : Nat → Nat) (host : ClientId) (o : Options) : Room.init env rng host o = mailed (Room.initL env rng host o) := by
  unfold Room.init Room.initL
  simp only
  rw [enter_mailed]
  cases Room.enterL env _ host with
  | error e => rfl
  | ok x => rfl

theorem of_mailed {x : Res (Room × List Letter)} {r : Room} {out : List Sent} (h : mailed x = .ok (r, out)) :
    ∃ ls, x = .ok (r, ls) ∧ out = Room.delivered ls := by
  cases x with
  | error e => cases h
  | ok y => obtain ⟨r', ls⟩ := y; cases h; exact ⟨ls, rfl, rfl⟩

/-! ## How many there are, and for whom -/

/-- What the letters of one call look like. -/
def LetterShape (r r' : Room) (c : Room.Call) (ls : List Letter) : Prop :=
  (ls = [] ∧ r' = r) ∨ (ls.length = Wordy r c ∧ ∀ l ∈ ls, l.to = r'.everyone ∨ ∃ x, l.to = [x])

theorem enterConfiguringL_shape {env : Env} {r r' : Room} {peer : ClientId} {ls : List Letter} (h : r.enterConfiguringL env peer = .ok (r', ls)) :
    LetterShape r r' (.enter peer) ls := by
  unfold Room.enterConfiguringL at h
  right
  cases hf : r.findEmpty with
  | error e => rw [hf] at h; cases h
  | ok x =>
    rw [hf] at h
    simp only [bind_ok] at h
    cases x with
    | none =>
      by_cases e : r.host = peer
      · simp [massert, e] at h
      · simp only [massert, ne_eq, e, not_false_iff, if_true, bind_ok] at h
        cases h
        simp [Wordy]
    | some y =>
      obtain ⟨t, p⟩ := y
      simp only at h
      cases hs : (r.teams t)[p]? with
      | none => rw [hs] at h; cases h
      | some s =>
        rw [hs] at h
        simp only [orUb, bind_ok] at h
        cases h
        simp [Wordy]

theorem enterDecidingL_shape {fuel : Nat} {r r' : Room} {x : ClientId} {b : Bool} {ls : List Letter} (h : r.enterDecidingL fuel = .ok (r', ls)) :
    ls.length = Wordy r (.visit x (.configuring (.startDueling b))) ∧ (∀ l ∈ ls, l.to = r'.everyone ∨ ∃ x, l.to = [x]) ∧
      (∃ d, r'.state = .deciding d) ∧ r'.options = r.options := by
  unfold Room.enterDecidingL at h
  simp only at h
  split at h
  · rename_i e0
    cases h
    simp [Wordy, e0, Room.everyone]
  · rename_i e0
    split at h
    · rename_i e1
      cases h
      simp [Wordy, e1]
    · rename_i e1
      split at h
      · rename_i e2
        cases hd : Room.rollDice r.rng fuel r.used with
        | none => rw [hd] at h; cases h
        | some y =>
          obtain ⟨rolls, w, u⟩ := y
          rw [hd] at h
          simp only [Room.teamLeader] at h
          cases hc : (Room.teamClients (r.teams (if w = 0 then 0 else 1))).head? with
          | none => rw [hc] at h; cases h
          | some c => rw [hc] at h; cases h; simp [Wordy, e2, Room.everyone]
      · rename_i e2
        split at h
        · rename_i e3
          simp only [Room.teamLeader] at h
          cases hc : (Room.teamClients (r.teams (if r.rng r.used % 2 = 0 then 0 else 1))).head? with
          | none => rw [hc] at h; cases h
          | some c => rw [hc] at h; cases h; simp [Wordy, e3, Room.everyone]
        · rename_i e3
          split at h
          · cases h
          · cases h; simp [Wordy, e0, e2, e3]

theorem stepL_shape {env : Env} {fuel : Nat} {r r' : Room} {c : Room.Call} {ls : List Letter} (h : r.stepL env fuel c = .ok (r', ls)) :
    LetterShape r r' c ls := by
  cases c with
  | enter x =>
    simp only [Room.stepL, Room.enterL] at h
    cases hst : r.state with
    | mono => rw [hst] at h; cases h
    | configuring => rw [hst] at h; exact enterConfiguringL_shape h
    | deciding _ => rw [hst] at h; cases h; exact .inl ⟨rfl, rfl⟩
  | visit x s =>
    simp only [Room.stepL, Room.visitL] at h
    cases hst : r.state with
    | mono => rw [hst] at h; cases h; exact .inl ⟨rfl, rfl⟩
    | configuring =>
      rw [hst] at h
      cases s with
      | unset => cases h; exact .inl ⟨rfl, rfl⟩
      | deciding _ => cases h; exact .inl ⟨rfl, rfl⟩
      | configuring s =>
        cases s with
        | unset => cases h; exact .inl ⟨rfl, rfl⟩
        | updateDeck d =>
          simp only [Room.signalConfiguringL, Room.updateDeckL] at h
          cases hf : r.findPeer x with
          | error e => rw [hf] at h; cases h
          | ok y =>
            rw [hf] at h
            cases y with
            | none => cases h; exact .inl ⟨rfl, rfl⟩
            | some z =>
              simp only [bind_ok] at h
              split at h <;> (cases h; right; simp [Wordy])
        | readyStatus b =>
          simp only [Room.signalConfiguringL, Room.readyStatusL] at h
          cases hf : r.findPeer x with
          | error e => rw [hf] at h; cases h
          | ok y =>
            rw [hf] at h
            cases y with
            | none => cases h; exact .inl ⟨rfl, rfl⟩
            | some z =>
              simp only [bind_ok] at h
              split at h
              · cases h; exact .inl ⟨rfl, rfl⟩
              · split at h
                · cases h; exact .inl ⟨rfl, rfl⟩
                · cases h; right; simp [Wordy]
        | startDueling b =>
          simp only [Room.signalConfiguringL, Room.startDuelingL] at h
          split at h
          · cases h; exact .inl ⟨rfl, rfl⟩
          · split at h
            · cases h; exact .inl ⟨rfl, rfl⟩
            · have := enterDecidingL_shape (x := x) (b := b) h
              exact .inr ⟨this.1, this.2.1⟩
    | deciding d =>
      rw [hst] at h
      cases s with
      | unset => cases h; exact .inl ⟨rfl, rfl⟩
      | configuring _ => cases h; exact .inl ⟨rfl, rfl⟩
      | deciding s =>
        cases s with
        | unset => cases h; exact .inl ⟨rfl, rfl⟩
        | teamGoingFirst n =>
          simp only [Room.signalDecidingL] at h
          split at h
          · cases h; exact .inl ⟨rfl, rfl⟩
          · split at h
            · cases h; exact .inl ⟨rfl, rfl⟩
            · cases h; right; simp [Wordy]

theorem wordy_le (r : Room) (c : Room.Call) : 1 ≤ Wordy r c ∧ Wordy r c ≤ 3 := by
  unfold Wordy
  split
  · omega
  · split
    · omega
    · split <;> omega
  · omega

/-- The rooms with an arena are the rooms. -/
theorem kept_lived {env : Env} {r : Room} {calls : List Room.Call} {arena : List Letter} (h : Kept env r calls arena) :
    Lived env r calls (Room.delivered arena) := by
  induction h with
  | start h => exact .start (by rw [init_mailed, h]; rfl)
  | step _ hs ih =>
    rw [delivered_append]
    exact .step ih (by rw [step_mailed, hs]; rfl)

theorem lived_kept {env : Env} {r : Room} {calls : List Room.Call} {log : List Sent} (h : Lived env r calls log) :
    ∃ arena, Kept env r calls arena ∧ Room.delivered arena = log := by
  induction h with
  | start h =>
    rw [init_mailed] at h
    obtain ⟨ls, h1, rfl⟩ := of_mailed h
    exact ⟨ls, .start h1, rfl⟩
  | step _ hs ih =>
    obtain ⟨a, h1, rfl⟩ := ih
    rw [step_mailed] at hs
    obtain ⟨ls, h2, rfl⟩ := of_mailed hs
    exact ⟨a ++ ls, .step h1 h2, delivered_append ..⟩

theorem everyone_eq (r : Room) : r.everyone = recipients r := rfl

/-- The host is always among those who get what is sent to all. -/
theorem kept_everyone {env : Env} {r : Room} {calls : List Room.Call} {arena : List Letter} (h : Kept env r calls arena) :
    r.host ∈ r.everyone := by
  rw [everyone_eq, mem_recipients]
  exact .inl ⟨0, 0, lived_host_seat (kept_lived h)⟩

theorem enterConfiguringL_two {env : Env} {r r' : Room} {peer : ClientId} {ls : List Letter} (h : r.enterConfiguringL env peer = .ok (r', ls)) :
    ls.length = 2 := by
  unfold Room.enterConfiguringL at h
  simp only [bind_eq_ok] at h
  obtain ⟨x, _, h⟩ := h
  cases x with
  | none => simp only [bind_eq_ok] at h; obtain ⟨_, _, h⟩ := h; cases h; rfl
  | some y => simp only [bind_eq_ok] at h; obtain ⟨_, _, h⟩ := h; cases h; rfl

theorem enterConfiguringL_state {env : Env} {r r' : Room} {peer : ClientId} {ls : List Letter} (h : r.enterConfiguringL env peer = .ok (r', ls)) :
    r'.state = r.state := by
  unfold Room.enterConfiguringL at h
  simp only [bind_eq_ok] at h
  obtain ⟨x, _, h⟩ := h
  cases x with
  | none => simp only [bind_eq_ok] at h; obtain ⟨_, _, h⟩ := h; cases h; rfl
  | some y => simp only [bind_eq_ok] at h; obtain ⟨_, _, h⟩ := h; cases h; rfl

/-- The first three objects of every arena. -/
theorem initL_eq {env : Env} {rng : Nat → Nat} {host : ClientId} {o : Options} {r : Room} {ls : List Letter}
    (h : Room.initL env rng host o = .ok (r, ls)) : ∃ ls', ls = ⟨[], .entering {} [] 0⟩ :: ls' ∧ ls'.length = 2 ∧
      (∀ l ∈ ls', l.to = r.everyone ∨ ∃ x, l.to = [x]) ∧ r.state = .configuring := by
  unfold Room.initL at h
  simp only [Room.enterL] at h
  rw [bind_eq_ok] at h
  obtain ⟨⟨r', ls'⟩, h1, h2⟩ := h
  cases h2
  have h3 := enterConfiguringL_two h1
  refine ⟨ls', ?_, h3, ?_, enterConfiguringL_state h1⟩
  · simp [Room.everyone, Room.teamClients]
  · rcases enterConfiguringL_shape h1 with ⟨e, _⟩ | ⟨_, e2⟩
    · rw [e] at h3; cases h3
    · exact e2

/-! ## The same deck again -/

/-- The seat found for a client is found again after a change of the rest of its slot. -/
theorem findPeer_again {env : Env} {r : Room} {x : ClientId} {t : Fin 2} {p : Nat} {s s' : Slot} (h : RoomOk env r) (h' : RoomOk env (r.setSlot t p s'))
    (hf : r.findPeer x = .ok (some (t, p, s))) (hc : s'.client = s.client) : (r.setSlot t p s').findPeer x = .ok (some (t, p, s')) := by
  obtain ⟨hs, hx, h1⟩ := h.findPeer_first hf
  have hseat := fun t' p' => seat_setSlot_same (s' := s') hs hc t' p'
  have hown : seat r t p = some x := by simp [seat, hs, hx]
  rcases h'.findPeer x with ⟨t2, p2, s2, hf2, hs2, hx2⟩ | ⟨_, h2⟩
  · obtain ⟨_, _, h3⟩ := h'.findPeer_first hf2
    have hown2 : seat r t2 p2 = some x := by rw [← hseat]; simp [seat, hs2, hx2]
    have a := h1 t2 p2 hown2
    have b := h3 t p (by rw [hseat]; exact hown)
    simp only [SeatBefore, not_or, not_and, Nat.not_lt] at a b
    have ht : t2 = t := Fin.le_antisymm (Fin.not_lt.mp b.1) (Fin.not_lt.mp a.1)
    subst ht
    have hp : p2 = p := Nat.le_antisymm (b.2 rfl) (a.2 rfl)
    subst hp
    rw [slotAt_setSlot (List.getElem?_eq_some_iff.mp hs).1] at hs2
    simp only [and_self, if_true, Option.some.injEq] at hs2
    subst hs2
    exact hf2
  · exact absurd (by rw [hseat]; exact hown) (h2 t p)

theorem stepL_deck {env : Env} {r : Room} {fuel : Nat} {x : ClientId} {t : Fin 2} {p : Nat} {s : Slot} (hst : r.state = .configuring)
    (hf : r.findPeer x = .ok (some (t, p, s))) (d : Deck) : r.stepL env fuel (.visit x (.configuring (.updateDeck d))) =
      .ok (if (env.check r.options.banlistId d).1 = true then (r.setSlot t p { s with deck := d, deckValid := true }, [⟨[x], .deckStatus none⟩])
        else (r.setSlot t p { s with deck := {}, deckValid := false }, [⟨[x], .deckStatus (some (env.check r.options.banlistId d).2)⟩])) := by
  simp only [Room.stepL, Room.visitL, hst, Room.signalConfiguringL, Room.updateDeckL, hf, bind_ok]
  cases (env.check r.options.banlistId d).1 <;> simp

theorem runL_append (env : Env) (fuel : Nat) (r : Room) (cs cs' : List Room.Call) : r.runL env fuel (cs ++ cs') =
    (do let (r, ls) ← r.runL env fuel cs; let (r, ls') ← r.runL env fuel cs'; return (r, ls ++ ls')) := by
  induction cs generalizing r with
  | nil =>
    simp only [List.nil_append, Room.runL, bind_ok]
    cases r.runL env fuel cs' with
    | error e => rfl
    | ok x => rfl
  | cons c cs ih =>
    simp only [List.cons_append, Room.runL]
    cases r.stepL env fuel c with
    | error e => rfl
    | ok x =>
      obtain ⟨r1, l1⟩ := x
      simp only [bind_ok, ih]
      cases r1.runL env fuel cs with
      | error e => rfl
      | ok y =>
        obtain ⟨r2, l2⟩ := y
        simp only [bind_ok, pure_eq_ok]
        cases r2.runL env fuel cs' with
        | error e => rfl
        | ok z => simp

/-- A history after another. -/
theorem _root_.Ygo.Spec.Kept.run {env : Env} {r r' : Room} {calls more : List Room.Call} {arena ls : List Letter} {fuel : Nat} (h : Kept env r calls arena)
    (hr : r.runL env fuel more = .ok (r', ls)) : Kept env r' (calls ++ more) (arena ++ ls) := by
  induction more generalizing r calls arena ls with
  | nil => cases hr; simpa using h
  | cons c more ih =>
    simp only [Room.runL, bind_eq_ok] at hr
    obtain ⟨⟨r1, l1⟩, h1, ⟨r2, l2⟩, h2, e⟩ := hr
    cases e
    have := ih (h.step h1) h2
    simpa using this

/-- A call that leaves the room as it is, made again and again. -/
theorem runL_replicate {env : Env} {r : Room} {fuel : Nat} {c : Room.Call} {l : Letter} (h : r.stepL env fuel c = .ok (r, [l])) (n : Nat) :
    r.runL env fuel (List.replicate n c) = .ok (r, List.replicate n l) := by
  induction n with
  | zero => rfl
  | succ n ih => simp [List.replicate_succ, Room.runL, h, ih]

/-- The same deck n + 1 times. -/
theorem runL_decks {env : Env} {r : Room} (h : RoomOk env r) (hst : r.state = .configuring) {x : ClientId} {t : Fin 2} {p : Nat}
    (hx : seat r t p = some x) (d : Deck) : ∃ r' e, ∀ n,
      r.runL env 0 (List.replicate (n + 1) (.visit x (.configuring (.updateDeck d)))) = .ok (r', List.replicate (n + 1) ⟨[x], .deckStatus e⟩) := by
  rcases h.findPeer x with ⟨t1, p1, s, hf, hs, hc⟩ | ⟨_, h2⟩
  · have h1 := stepL_deck (env := env) (fuel := 0) hst hf d
    have key : ∀ (s' : Slot) (e : Option DeckError), r.stepL env 0 (.visit x (.configuring (.updateDeck d))) =
        .ok (r.setSlot t1 p1 s', [⟨[x], .deckStatus e⟩]) → (r.setSlot t1 p1 s').stepL env 0 (.visit x (.configuring (.updateDeck d))) =
        .ok (r.setSlot t1 p1 s', [⟨[x], .deckStatus e⟩]) → ∀ n,
      r.runL env 0 (List.replicate (n + 1) (.visit x (.configuring (.updateDeck d)))) =
        .ok (r.setSlot t1 p1 s', List.replicate (n + 1) ⟨[x], .deckStatus e⟩) := by
      intro s' e ha hb n
      simp [List.replicate_succ, Room.runL, ha, runL_replicate hb]
    have hok : ∀ r' l, r.stepL env 0 (.visit x (.configuring (.updateDeck d))) = .ok (r', l) → RoomOk env r' := by
      intro r' l e
      exact h.of_move (h.move (by rw [step_mailed, e]; rfl))
    by_cases hd : (env.check r.options.banlistId d).1 = true
    · rw [if_pos hd] at h1
      refine ⟨_, _, key _ _ h1 ?_⟩
      have hf' := findPeer_again (s' := { s with deck := d, deckValid := true }) h (hok _ _ h1) hf rfl
      rw [stepL_deck (env := env) (fuel := 0) (r := r.setSlot t1 p1 _) (by exact hst) hf' d, if_pos (by exact hd), setSlot_twice]
    · rw [if_neg hd] at h1
      refine ⟨_, _, key _ _ h1 ?_⟩
      have hf' := findPeer_again (s' := { s with deck := {}, deckValid := false }) h (hok _ _ h1) hf rfl
      rw [stepL_deck (env := env) (fuel := 0) (r := r.setSlot t1 p1 _) (by exact hst) hf' d, if_neg (by exact hd), setSlot_twice]
      rfl
  · exact absurd hx (h2 t p)

end Ygo
