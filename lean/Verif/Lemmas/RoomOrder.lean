import Verif.Spec.RoomOrder
import Verif.Lemmas.RoomStep

/-!
# The order of calls in a room
-/

set_option linter.unusedSimpArgs false

namespace Ygo
open Ygo.Room Ygo.Spec

/-! ## Slots of others -/

theorem findInTeam_set {y : ClientId} {m : Nat} {l : List Slot} {p pos : Nat} {s s' : Slot} (hs : l[p]? = some s) (h : s.client ≠ some y) (h' : s'.client ≠ some y) :
    Room.findInTeam y m (l.set p s') pos = Room.findInTeam y m l pos := by
  induction l generalizing p pos with
  | nil => rfl
  | cons a l ih =>
    cases p with
    | zero =>
      simp only [List.getElem?_cons_zero, Option.some.injEq] at hs
      subst hs
      simp only [List.set_cons_zero, Room.findInTeam, h, h', if_false]
    | succ p =>
      simp only [List.getElem?_cons_succ] at hs
      simp only [List.set_cons_succ, Room.findInTeam, ih hs]

theorem findPeer_set {r : Room} {y : ClientId} {t : Fin 2} {p : Nat} {s s' : Slot} (hs : slotAt r t p = some s) (h : s.client ≠ some y) (h' : s'.client ≠ some y) :
    (r.setSlot t p s').findPeer y = r.findPeer y := by
  have k : ∀ (t' : Fin 2) m, Room.findInTeam y m ((r.setSlot t p s').teams t') 0 = Room.findInTeam y m (r.teams t') 0 := by
    intro t' m
    by_cases e : t' = t
    · subst e
      simp only [Room.setSlot, if_true]
      exact findInTeam_set hs h h'
    · simp only [Room.setSlot, e, if_false]
  simp only [Room.findPeer, k]
  rfl

theorem setSlot_comm {r : Room} {t t' : Fin 2} {p p' : Nat} {s s' : Slot} (h : ¬ (t = t' ∧ p = p')) :
    (r.setSlot t p s).setSlot t' p' s' = (r.setSlot t' p' s').setSlot t p s := by
  simp only [Room.setSlot, Room.mk.injEq, true_and, and_true]
  funext t''
  by_cases h1 : t'' = t <;> by_cases h2 : t'' = t' <;> simp only [h1, h2, if_true, if_false]
  · subst h1
    have : p ≠ p' := fun e => h ⟨h2, e⟩
    subst h2
    simp only [if_true]
    exact List.set_comm _ _ this
  · subst h1
    simp only [h2, if_false, if_true]
  · subst h2
    simp only [h1, if_false, if_true]

theorem teamClients_set {l : List Slot} {p : Nat} {s s' : Slot} (hs : l[p]? = some s) (hc : s'.client = s.client) :
    Room.teamClients (l.set p s') = Room.teamClients l := by
  induction l generalizing p with
  | nil => rfl
  | cons a l ih =>
    cases p with
    | zero =>
      simp only [List.getElem?_cons_zero, Option.some.injEq] at hs
      subst hs
      simp only [List.set_cons_zero, Room.teamClients, List.filterMap_cons, hc]
    | succ p =>
      simp only [List.getElem?_cons_succ] at hs
      have := ih hs
      simp only [Room.teamClients] at this
      simp only [List.set_cons_succ, Room.teamClients, List.filterMap_cons, this]

theorem sendAll_set {r : Room} {t : Fin 2} {p : Nat} {s s' : Slot} (hs : slotAt r t p = some s) (hc : s'.client = s.client) (e : Room.Event) :
    (r.setSlot t p s').sendAll e = r.sendAll e := by
  have k : ∀ t' : Fin 2, Room.teamClients ((r.setSlot t p s').teams t') = Room.teamClients (r.teams t') := by
    intro t'
    by_cases e : t' = t
    · subst e
      simp only [Room.setSlot, if_true]
      exact teamClients_set hs hc
    · simp only [Room.setSlot, e, if_false]
  simp only [Room.sendAll, k]
  rfl

theorem countP_set {l : List Slot} {p : Nat} {s s' : Slot} (hs : l[p]? = some s) (hc : s'.client = s.client) :
    (l.set p s').countP (fun s => s.client.isSome) = l.countP fun s => s.client.isSome := by
  induction l generalizing p with
  | nil => rfl
  | cons a l ih =>
    cases p with
    | zero =>
      simp only [List.getElem?_cons_zero, Option.some.injEq] at hs
      subst hs
      simp only [List.set_cons_zero, List.countP_cons, hc]
    | succ p =>
      simp only [List.getElem?_cons_succ] at hs
      simp only [List.set_cons_succ, List.countP_cons, ih hs]

theorem nextSeat_set {r : Room} {t : Fin 2} {p : Nat} {s s' : Slot} (hs : slotAt r t p = some s) (hc : s'.client = s.client) :
    nextSeat (r.setSlot t p s') = nextSeat r := by
  have k : ∀ t' : Fin 2, duelists (r.setSlot t p s') t' = duelists r t' := by
    intro t'
    unfold duelists
    by_cases e : t' = t
    · subst e
      simp only [Room.setSlot, if_true]
      exact countP_set hs hc
    · simp only [Room.setSlot, e, if_false]
  have c : ∀ t' : Fin 2, capacity (r.setSlot t p s') t' = capacity r t' := fun _ => rfl
  simp only [nextSeat, k, c]

/-! ## What signals other than to start do -/

/-- What becomes of the own slot. -/
def prepared (env : Env) (banlist : String) : ConfSignal → Slot → Slot
  | .unset, s => s
  | .updateDeck d, s => if (env.check banlist d).1 then { s with deck := d, deckValid := true } else { s with deck := {}, deckValid := false }
  | .readyStatus b, s => if b = s.ready then s else if b = true ∧ s.deckValid = false then s else { s with ready := b }
  | .startDueling _, s => s

/-- What is sent. -/
def sentFor (env : Env) (r : Room) (x : ClientId) (t : Fin 2) (p : Nat) (s : Slot) : ConfSignal → List Sent
  | .unset => []
  | .updateDeck d => if (env.check r.options.banlistId d).1 then [(x, .deckStatus none)] else [(x, .deckStatus (some (env.check r.options.banlistId d).2))]
  | .readyStatus b =>
    if b = s.ready then [] else if b = true ∧ s.deckValid = false then [] else r.sendAll (.updateDuelist (Room.duelist env r.host t p x b))
  | .startDueling _ => []

theorem prepared_client (env : Env) (b : String) (c : ConfSignal) (s : Slot) : (prepared env b c s).client = s.client := by
  cases c with
  | unset => rfl
  | updateDeck d => simp only [prepared]; split <;> rfl
  | readyStatus b => simp only [prepared]; split <;> (try split) <;> rfl
  | startDueling b => rfl

theorem setSlot_self {r : Room} {t : Fin 2} {p : Nat} {s : Slot} (hs : slotAt r t p = some s) : r.setSlot t p s = r := by
  obtain ⟨o, h, teams, sp, st, rng, u⟩ := r
  simp only [Room.setSlot, Room.mk.injEq, true_and, and_true]
  funext t'
  by_cases e : t' = t
  · subst e
    simp only [if_true]
    show (teams t').set p s = teams t'
    have hs' : (teams t')[p]? = some s := hs
    obtain ⟨hp, e⟩ := List.getElem?_eq_some_iff.mp hs'
    rw [← e]
    exact List.set_getElem_self hp
  · simp only [e, if_false]

theorem conf_form {env : Env} {fuel : Nat} {r : Room} (hok : RoomOk env r) (x : ClientId) (c : ConfSignal) (hc : ∀ b, c ≠ .startDueling b) :
    (r.findPeer x = .ok none ∧ r.signalConfiguring env fuel x c = .ok (r, [])) ∨
    ∃ t p s, r.findPeer x = .ok (some (t, p, s)) ∧ slotAt r t p = some s ∧ s.client = some x ∧
      r.signalConfiguring env fuel x c = .ok (r.setSlot t p (prepared env r.options.banlistId c s), sentFor env r x t p s c) := by
  rcases hok.findPeer x with ⟨t, p, s, h1, h2, h3⟩ | ⟨h1, _⟩
  · refine .inr ⟨t, p, s, h1, h2, h3, ?_⟩
    cases c with
    | unset => simp only [Room.signalConfiguring, prepared, sentFor, setSlot_self h2]
    | updateDeck d =>
      simp only [Room.signalConfiguring, Room.updateDeck, h1, bind_ok, prepared, sentFor]
      by_cases e : (env.check r.options.banlistId d).1 = true
      · simp only [e, if_true]; rfl
      · simp only [e, if_false]; rfl
    | readyStatus b =>
      simp only [Room.signalConfiguring, Room.readyStatus, h1, bind_ok, prepared, sentFor]
      by_cases e1 : b = s.ready
      · simp only [e1, if_true, setSlot_self h2]; rfl
      · by_cases e2 : b = true ∧ s.deckValid = false
        · simp only [e1, e2, and_self, if_true, if_false]
          split <;> rw [setSlot_self h2] <;> rfl
        · simp only [e1, e2, if_false]
          show Except.ok _ = Except.ok _
          rw [sendAll_set (s' := { s with ready := b }) h2 rfl]
          rfl
    | startDueling b => exact absurd rfl (hc b)
  · refine .inl ⟨h1, ?_⟩
    cases c with
    | unset => rfl
    | updateDeck d => simp only [Room.signalConfiguring, Room.updateDeck, h1, bind_ok]; rfl
    | readyStatus b => simp only [Room.signalConfiguring, Room.readyStatus, h1, bind_ok]; rfl
    | startDueling b => exact absurd rfl (hc b)

theorem sentFor_set {env : Env} {r : Room} {x : ClientId} {t t' : Fin 2} {p p' : Nat} {s s0 s0' : Slot} {c : ConfSignal} (hs : slotAt r t' p' = some s0)
    (hc : s0'.client = s0.client) : sentFor env (r.setSlot t' p' s0') x t p s c = sentFor env r x t p s c := by
  cases c with
  | readyStatus b => simp only [sentFor, sendAll_set hs hc]; rfl
  | _ => rfl

/-- Two signals of different clients. -/
theorem conf_swap {env : Env} {fuel : Nat} {r : Room} (hok : RoomOk env r) {x y : ClientId} (hxy : x ≠ y) (c d : ConfSignal) (hc : ∀ b, c ≠ .startDueling b)
    (hd : ∀ b, d ≠ .startDueling b) : ∃ rx ry r2 ox oy, r.signalConfiguring env fuel x c = .ok (rx, ox) ∧ r.signalConfiguring env fuel y d = .ok (ry, oy) ∧
      rx.signalConfiguring env fuel y d = .ok (r2, oy) ∧ ry.signalConfiguring env fuel x c = .ok (r2, ox) := by
  have okset : ∀ {t p s x} (c : ConfSignal), r.findPeer x = .ok (some (t, p, s)) → slotAt r t p = some s → s.client = some x →
      RoomOk env (r.setSlot t p (prepared env r.options.banlistId c s)) := by
    intro t p s x c _ hs hx
    refine hok.setSlot hs (by rw [prepared_client]) (by rw [prepared_client, hx]; intro h; cases h) ?_
    intro hv
    have h0 := hok.decks t p s hs
    cases c with
    | unset => exact h0 hv
    | updateDeck d =>
      simp only [prepared] at hv ⊢
      by_cases e : (env.check r.options.banlistId d).1 = true
      · simp only [e, if_true]
      · simp [e] at hv
    | readyStatus b =>
      simp only [prepared] at hv ⊢
      by_cases e1 : b = s.ready
      · simp only [e1, if_true] at hv ⊢; exact h0 hv
      · by_cases e2 : b = true ∧ s.deckValid = false
        · simp only [e1, e2, and_self, if_true, if_false] at hv ⊢
          split at hv <;> rw [e2.2] at hv <;> cases hv
        · simp only [e1, e2, if_false] at hv ⊢; exact h0 hv
    | startDueling b => exact h0 hv
  rcases conf_form (fuel := fuel) hok x c hc with ⟨f1, g1⟩ | ⟨t, p, s, f1, s1, k1, g1⟩ <;>
    rcases conf_form (fuel := fuel) hok y d hd with ⟨f2, g2⟩ | ⟨t', p', s', f2, s2, k2, g2⟩
  · exact ⟨r, r, r, [], [], g1, g2, g2, g1⟩
  · refine ⟨r, _, _, [], _, g1, g2, g2, ?_⟩
    have e : (r.setSlot t' p' (prepared env r.options.banlistId d s')).findPeer x = .ok none := by
      rw [findPeer_set s2 (by rw [k2]; simpa using Ne.symm hxy) (by rw [prepared_client, k2]; simpa using Ne.symm hxy), f1]
    rcases conf_form (fuel := fuel) (okset d f2 s2 k2) x c hc with ⟨_, g⟩ | ⟨_, _, _, f, _⟩
    · exact g
    · rw [e] at f; cases f
  · refine ⟨_, r, _, _, [], g1, g2, ?_, g1⟩
    have e : (r.setSlot t p (prepared env r.options.banlistId c s)).findPeer y = .ok none := by
      rw [findPeer_set s1 (by rw [k1]; simpa using hxy) (by rw [prepared_client, k1]; simpa using hxy), f2]
    rcases conf_form (fuel := fuel) (okset c f1 s1 k1) y d hd with ⟨_, g⟩ | ⟨_, _, _, f, _⟩
    · exact g
    · rw [e] at f; cases f
  · have hne : ¬ (t = t' ∧ p = p') := by
      rintro ⟨rfl, rfl⟩
      rw [s1] at s2
      cases s2
      rw [k1] at k2
      exact hxy (by simpa using k2)
    refine ⟨_, _, (r.setSlot t p (prepared env r.options.banlistId c s)).setSlot t' p' (prepared env r.options.banlistId d s'), _, _, g1, g2, ?_, ?_⟩
    · have e : (r.setSlot t p (prepared env r.options.banlistId c s)).findPeer y = .ok (some (t', p', s')) := by
        rw [findPeer_set s1 (by rw [k1]; simpa using hxy) (by rw [prepared_client, k1]; simpa using hxy), f2]
      rcases conf_form (fuel := fuel) (okset c f1 s1 k1) y d hd with ⟨f, _⟩ | ⟨_, _, _, f, _, _, g⟩
      · rw [e] at f; cases f
      · rw [e] at f
        cases f
        rw [g, sentFor_set s1 (prepared_client ..)]
        rfl
    · have e : (r.setSlot t' p' (prepared env r.options.banlistId d s')).findPeer x = .ok (some (t, p, s)) := by
        rw [findPeer_set s2 (by rw [k2]; simpa using Ne.symm hxy) (by rw [prepared_client, k2]; simpa using Ne.symm hxy), f1]
      rcases conf_form (fuel := fuel) (okset d f2 s2 k2) x c hc with ⟨f, _⟩ | ⟨_, _, _, f, _, _, g⟩
      · rw [e] at f; cases f
      · rw [e] at f
        cases f
        rw [g, sentFor_set s2 (prepared_client ..), setSlot_comm hne]
        rfl

theorem visit_deciding {env : Env} {fuel : Nat} {r : Room} {q : Option ClientId} (hst : r.state = .deciding q) (z : ClientId) (w : Signal) :
    ∃ o, r.step env fuel (.visit z w) = .ok (r, o) := by
  cases w with
  | unset => exact ⟨[], by simp only [Room.step, Room.visit, hst]⟩
  | configuring w => exact ⟨[], by simp only [Room.step, Room.visit, hst]⟩
  | deciding w =>
    cases w with
    | unset => exact ⟨[], by simp only [Room.step, Room.visit, hst, Room.signalDeciding]⟩
    | teamGoingFirst n =>
      by_cases h1 : r.options.ftdm ≠ 0 ∨ z ≠ r.host
      · exact ⟨[], by simp only [Room.step, Room.visit, hst, Room.signalDeciding, h1, if_true]⟩
      · by_cases h2 : n > 1
        · exact ⟨[], by simp only [Room.step, Room.visit, hst, Room.signalDeciding, h1, h2, if_true, if_false]⟩
        · exact ⟨_, by simp only [Room.step, Room.visit, hst, Room.signalDeciding, h1, h2, if_false]; rfl⟩

/-- While configuring other signals are like one that is not set. -/
theorem visit_configuring {env : Env} {fuel : Nat} {z : ClientId} {w : Signal} (hw : Prepares (.visit z w)) :
    ∃ c : ConfSignal, (∀ b, c ≠ .startDueling b) ∧ ∀ r' : Room, r'.state = .configuring →
      r'.step env fuel (.visit z w) = r'.signalConfiguring env fuel z c := by
  cases w with
  | unset => exact ⟨.unset, by simp, fun r' h => by simp only [Room.step, Room.visit, h, Room.signalConfiguring]⟩
  | configuring c =>
    refine ⟨c, ?_, fun r' h => by simp only [Room.step, Room.visit, h]⟩
    rintro b rfl
    exact hw.2 trivial
  | deciding c => exact ⟨.unset, by simp, fun r' h => by simp only [Room.step, Room.visit, h, Room.signalConfiguring]⟩

theorem RoomOk.free {env : Env} {r : Room} (hok : RoomOk env r) {t : Fin 2} {p : Nat} (hn : nextSeat r = some (t, p)) :
    ∃ s, slotAt r t p = some s ∧ s.client = none := by
  obtain ⟨hp, hlt⟩ := nextSeat_some hn
  have := hok.cap t
  obtain ⟨s, hs⟩ := hok.slot (t := t) (p := p) (by omega)
  refine ⟨s, hs, ?_⟩
  have h := (hok.team t).2.taken p s hs
  cases hc : s.client with
  | none => rfl
  | some c =>
    rw [hc] at h
    have := h.mp rfl
    omega

/-- Two calls of different clients, none of them to come or to start. -/
theorem prepares_swap {env : Env} {fuel : Nat} {r : Room} (hok : RoomOk env r) {a b : Room.Call} (hab : callOf a ≠ callOf b) (ha : Prepares a) (hb : Prepares b) :
    ∃ ra rb r2 oa ob, r.step env fuel a = .ok (ra, oa) ∧ r.step env fuel b = .ok (rb, ob) ∧ ra.step env fuel b = .ok (r2, ob) ∧
      rb.step env fuel a = .ok (r2, oa) := by
  cases a with
  | enter x => exact absurd trivial ha.1
  | visit x s =>
  cases b with
  | enter y => exact absurd trivial hb.1
  | visit y u =>
  cases hst : r.state with
  | mono => exact absurd hst hok.state
  | deciding q =>
    obtain ⟨o1, k1⟩ := visit_deciding (env := env) (fuel := fuel) hst x s
    obtain ⟨o2, k2⟩ := visit_deciding (env := env) (fuel := fuel) hst y u
    exact ⟨r, r, r, o1, o2, k1, k2, k2, k1⟩
  | configuring =>
    obtain ⟨c, hc, kc⟩ := visit_configuring (env := env) (fuel := fuel) ha
    obtain ⟨d, hd, kd⟩ := visit_configuring (env := env) (fuel := fuel) hb
    obtain ⟨rx, ry, r2, ox, oy, h1, h2, h3, h4⟩ := conf_swap (fuel := fuel) hok (x := x) (y := y) hab c d hc hd
    have keeps : ∀ {z c r' o}, (∀ b, c ≠ .startDueling b) → r.signalConfiguring env fuel z c = .ok (r', o) → r'.state = .configuring := by
      intro z c r' o hc h
      rcases conf_form (fuel := fuel) hok z c hc with ⟨_, g⟩ | ⟨_, _, _, _, _, _, g⟩ <;> rw [g] at h <;> cases h <;> exact hst
    exact ⟨rx, ry, r2, ox, oy, (kc r hst).trans h1, (kd r hst).trans h2, (kd rx (keeps hc h1)).trans h3, (kc ry (keeps hd h2)).trans h4⟩

/-! ## Newcomers -/

theorem slotAt_set_ne {r : Room} {t t' : Fin 2} {p p' : Nat} {s s0 : Slot} (h0 : slotAt r t p = some s0) (h : ¬ (t' = t ∧ p' = p)) :
    slotAt (r.setSlot t p s) t' p' = slotAt r t' p' := by
  rw [slotAt_setSlot (List.getElem?_eq_some_iff.mp h0).1, if_neg h]

/-- The room after a call. -/
def roomAfter (env : Env) (fuel : Nat) (r : Room) (c : Room.Call) : Res Room := (r.step env fuel c).map Prod.fst

/-- A newcomer and a signal of another client. -/
theorem enter_swap {env : Env} {fuel : Nat} {r : Room} (hok : RoomOk env r) {x y : ClientId} {u : Signal} (hxy : x ≠ y) (hb : Prepares (.visit y u)) :
    (roomAfter env fuel r (.enter x)).bind (fun r => roomAfter env fuel r (.visit y u)) =
      (roomAfter env fuel r (.visit y u)).bind fun r => roomAfter env fuel r (.enter x) := by
  cases hst : r.state with
  | mono => exact absurd hst hok.state
  | deciding q =>
    have k1 : roomAfter env fuel r (.enter x) = .ok r := by simp only [roomAfter, Room.step, Room.enter, hst]; rfl
    obtain ⟨o, k2⟩ := visit_deciding (env := env) (fuel := fuel) hst y u
    have k2' : roomAfter env fuel r (.visit y u) = .ok r := by simp only [roomAfter, k2]; rfl
    rw [k1, k2']
    show roomAfter env fuel r _ = roomAfter env fuel r _
    rw [k1, k2']
  | configuring =>
    obtain ⟨d, hd, kd⟩ := visit_configuring (env := env) (fuel := fuel) hb
    -- What a newcomer does.
    have seats : ∀ {r : Room}, RoomOk env r → r.state = .configuring → roomAfter env fuel r (.enter x) =
        match nextSeat r with
        | some (t, p) => .ok (r.setSlot t p { ((slotAt r t p).getD {}) with client := some x })
        | none => if r.host = x then .error .assert else .ok { r with spectators := Room.setInsert x r.spectators } := by
      intro r hok hst
      simp only [roomAfter, Room.step, Room.enter, hst, hok.enterConfiguring]
      cases nextSeat r with
      | none => simp only; split <;> rfl
      | some z => rfl
    have keeps : ∀ {r' o}, r.signalConfiguring env fuel y d = .ok (r', o) → RoomOk env r' := by
      intro r' o h
      exact hok.of_move (hok.move ((kd r hst).trans h))
    rcases conf_form (fuel := fuel) hok y d hd with ⟨f2, g2⟩ | ⟨t', p', s', f2, s2, k2, g2⟩
    · have b1 : roomAfter env fuel r (.visit y u) = .ok r := by simp only [roomAfter, kd r hst, g2]; rfl
      rw [b1]
      show _ = roomAfter env fuel r (.enter x)
      have key : ∀ r', roomAfter env fuel r (.enter x) = .ok r' → r'.findPeer y = .ok none → roomAfter env fuel r' (.visit y u) = .ok r' := by
        intro r' h hf
        have hok' : RoomOk env r' := by
          unfold roomAfter at h
          cases hs : r.step env fuel (.enter x) with
          | error e => rw [hs] at h; cases h
          | ok z =>
            rw [hs] at h
            cases h
            exact hok.of_move (hok.move hs)
        have hst' : r'.state = .configuring := by
          rw [seats hok hst] at h
          cases hn : nextSeat r with
          | some z => rw [hn] at h; cases h; exact hst
          | none =>
            rw [hn] at h
            simp only at h
            split at h
            · cases h
            · cases h; exact hst
        rcases conf_form (fuel := fuel) hok' y d hd with ⟨_, g⟩ | ⟨_, _, _, f, _⟩
        · simp only [roomAfter, kd r' hst', g]; rfl
        · rw [hf] at f; cases f
      cases he : roomAfter env fuel r (.enter x) with
      | error e => rfl
      | ok r' =>
        refine key r' he ?_
        rw [seats hok hst] at he
        cases hn : nextSeat r with
        | some z =>
          obtain ⟨t, p⟩ := z
          rw [hn] at he
          obtain ⟨s, hs, hc⟩ := hok.free hn
          cases he
          rw [findPeer_set hs (by rw [hc]; simp) (by simpa using hxy), f2]
        | none =>
          rw [hn] at he
          simp only at he
          split at he
          · cases he
          · cases he; exact f2
    · have ok2 : RoomOk env (r.setSlot t' p' (prepared env r.options.banlistId d s')) := keeps g2
      have b1 : roomAfter env fuel r (.visit y u) = .ok (r.setSlot t' p' (prepared env r.options.banlistId d s')) := by
        simp only [roomAfter, kd r hst, g2]; rfl
      rw [b1]
      show _ = roomAfter env fuel (r.setSlot t' p' (prepared env r.options.banlistId d s')) (.enter x)
      rw [seats hok hst, seats ok2 hst, nextSeat_set s2 (prepared_client ..)]
      cases hn : nextSeat r with
      | some z =>
        obtain ⟨t, p⟩ := z
        obtain ⟨s, hs, hc⟩ := hok.free hn
        have hne : ¬ (t = t' ∧ p = p') := by
          rintro ⟨rfl, rfl⟩
          rw [hs] at s2
          cases s2
          rw [hc] at k2
          cases k2
        simp only [slotAt_set_ne s2 hne, hs, Option.getD_some]
        show roomAfter env fuel (r.setSlot t p { s with client := some x }) (.visit y u) = _
        have ok1 : RoomOk env (r.setSlot t p { s with client := some x }) := by
          have h := seats hok hst
          rw [hn] at h
          simp only [hs, Option.getD_some] at h
          unfold roomAfter at h
          cases hs' : r.step env fuel (.enter x) with
          | error e => rw [hs'] at h; cases h
          | ok z =>
            obtain ⟨z1, z2⟩ := z
            rw [hs'] at h
            have := hok.of_move (hok.move hs')
            cases h
            assumption
        have hf : (r.setSlot t p { s with client := some x }).findPeer y = .ok (some (t', p', s')) := by
          rw [findPeer_set hs (by rw [hc]; simp) (by simpa using hxy), f2]
        rcases conf_form (fuel := fuel) ok1 y d hd with ⟨f, _⟩ | ⟨_, _, _, f, _, _, g⟩
        · rw [hf] at f; cases f
        · rw [hf] at f
          cases f
          simp only [roomAfter, kd _ (show (r.setSlot t p { s with client := some x }).state = .configuring from hst), g]
          show Except.ok _ = Except.ok _
          rw [setSlot_comm hne]
          rfl
      | none =>
        simp only
        by_cases e : r.host = x
        · have e' : (r.setSlot t' p' (prepared env r.options.banlistId d s')).host = x := e
          rw [if_pos e, if_pos e']
          rfl
        · have e' : ¬ (r.setSlot t' p' (prepared env r.options.banlistId d s')).host = x := e
          rw [if_neg e, if_neg e']
          show roomAfter env fuel { r with spectators := Room.setInsert x r.spectators } (.visit y u) = _
          have ok1 : RoomOk env { r with spectators := Room.setInsert x r.spectators } :=
            ⟨hok.maxes, hok.teams, hok.decks, hok.state, nodup_of_sorted (sorted_setInsert hok.sorted), sorted_setInsert hok.sorted⟩
          have hf : ({ r with spectators := Room.setInsert x r.spectators } : Room).findPeer y = .ok (some (t', p', s')) := f2
          rcases conf_form (fuel := fuel) ok1 y d hd with ⟨f, _⟩ | ⟨_, _, _, f, _, _, g⟩
          · rw [hf] at f; cases f
          · rw [hf] at f
            cases f
            simp only [roomAfter, kd _ (show ({ r with spectators := Room.setInsert x r.spectators } : Room).state = .configuring from hst), g]
            rfl

/-! ## Histories -/

theorem callsBy_append (x : ClientId) (u v : List Room.Call) : callsBy x (u ++ v) = callsBy x u ++ callsBy x v := List.filter_append ..

theorem callsBy_cons_self (a : Room.Call) (v : List Room.Call) : callsBy (callOf a) (a :: v) = a :: callsBy (callOf a) v := by simp [callsBy]

theorem callsBy_cons_ne {x : ClientId} {a : Room.Call} (h : callOf a ≠ x) (v : List Room.Call) : callsBy x (a :: v) = callsBy x v := by simp [callsBy, h]

/-- Where the first call of one order is in the other. -/
theorem order_split {a : Room.Call} {cs cs' : List Room.Call} (h : ∀ x, callsBy x (a :: cs) = callsBy x cs') :
    ∃ u v, cs' = u ++ a :: v ∧ (∀ b ∈ u, callOf a ≠ callOf b) ∧ ∀ x, callsBy x cs = callsBy x (u ++ v) := by
  have h1 := h (callOf a)
  rw [callsBy_cons_self] at h1
  obtain ⟨u, v, e, hu, _, hv⟩ := List.filter_eq_cons_iff.mp h1.symm
  have hu' : ∀ b ∈ u, callOf a ≠ callOf b := fun b hb k => hu b hb (by simp [k])
  refine ⟨u, v, e, hu', fun x => ?_⟩
  by_cases hx : callOf a = x
  · subst hx
    have k : callsBy (callOf a) u = [] := List.filter_eq_nil_iff.mpr (by intro b hb; simpa using Ne.symm (hu' b hb))
    rw [callsBy_append, k, List.nil_append]
    exact hv.symm
  · have h2 := h x
    rw [e, callsBy_cons_ne hx, callsBy_append, callsBy_cons_ne hx, ← callsBy_append] at h2
    exact h2

theorem order_enter {a : Room.Call} {cs u v : List Room.Call} (h : (a :: cs).filter (fun c => IsEnter c) = (u ++ a :: v).filter fun c => IsEnter c)
    (hu : ∀ b ∈ u, callOf a ≠ callOf b) :
    (∀ b ∈ u, ¬ (IsEnter a ∧ IsEnter b)) ∧ cs.filter (fun c => IsEnter c) = (u ++ v).filter fun c => IsEnter c := by
  by_cases ha : IsEnter a
  · rw [List.filter_append, List.filter_cons_of_pos (by simpa using ha), List.filter_cons_of_pos (by simpa using ha)] at h
    have k : u.filter (fun c => IsEnter c) = [] := by
      cases e : u.filter (fun c => IsEnter c) with
      | nil => rfl
      | cons b w =>
        rw [e] at h
        simp only [List.cons_append, List.cons.injEq] at h
        have hb : b ∈ u.filter fun c => IsEnter c := by rw [e]; exact List.mem_cons_self
        exact absurd (by rw [h.1]) (hu b ((List.mem_filter.mp hb).1))
    rw [k] at h
    simp only [List.nil_append, List.cons.injEq, true_and] at h
    refine ⟨fun b hb hx => ?_, by rw [List.filter_append, k, h, List.nil_append]⟩
    have := List.filter_eq_nil_iff.mp k b hb
    exact this (by simpa using hx.2)
  · rw [List.filter_append, List.filter_cons_of_neg (by simpa using ha), List.filter_cons_of_neg (by simpa using ha), ← List.filter_append] at h
    exact ⟨fun b _ hx => ha hx.1, h⟩

/-- The room after calls. -/
def roomRun (env : Env) (fuel : Nat) (r : Room) (cs : List Room.Call) : Res Room := (r.run env fuel cs).map Prod.fst

theorem roomRun_cons (env : Env) (fuel : Nat) (r : Room) (c : Room.Call) (cs : List Room.Call) :
    roomRun env fuel r (c :: cs) = (roomAfter env fuel r c).bind fun r => roomRun env fuel r cs := by
  simp only [roomRun, roomAfter, Room.run]
  cases r.step env fuel c with
  | error e => rfl
  | ok z =>
    obtain ⟨r1, o1⟩ := z
    simp only [bind_ok]
    show _ = Except.map Prod.fst (r1.run env fuel cs)
    cases r1.run env fuel cs <;> rfl

theorem roomAfter_ok {env : Env} {fuel : Nat} {r r' : Room} {c : Room.Call} (hok : RoomOk env r) (h : roomAfter env fuel r c = .ok r') : RoomOk env r' := by
  unfold roomAfter at h
  cases hs : r.step env fuel c with
  | error e => rw [hs] at h; cases h
  | ok z =>
    obtain ⟨z1, z2⟩ := z
    rw [hs] at h
    have := hok.of_move (hok.move hs)
    cases h
    exact this

/-- Two calls of different clients, at most one of them to come, and none to start. -/
theorem roomAfter_swap {env : Env} {fuel : Nat} {r : Room} (hok : RoomOk env r) {a b : Room.Call} (hab : callOf a ≠ callOf b) (ha : ¬ IsStart a) (hb : ¬ IsStart b)
    (he : ¬ (IsEnter a ∧ IsEnter b)) :
    (roomAfter env fuel r a).bind (fun r => roomAfter env fuel r b) = (roomAfter env fuel r b).bind fun r => roomAfter env fuel r a := by
  cases a with
  | enter x =>
    cases b with
    | enter y => exact absurd ⟨trivial, trivial⟩ he
    | visit y u => exact enter_swap hok hab ⟨id, hb⟩
  | visit x s =>
    cases b with
    | enter y => exact (enter_swap hok (Ne.symm hab) ⟨id, ha⟩).symm
    | visit y u =>
      obtain ⟨ra, rb, r2, oa, ob, h1, h2, h3, h4⟩ := prepares_swap (fuel := fuel) hok hab ⟨id, ha⟩ ⟨id, hb⟩
      simp only [roomAfter, h1, h2]
      show Except.map Prod.fst (ra.step env fuel (.visit y u)) = Except.map Prod.fst (rb.step env fuel (.visit x s))
      rw [h3, h4]
      rfl

theorem roomRun_front {env : Env} {fuel : Nat} {a : Room.Call} (ha : ¬ IsStart a) (v : List Room.Call) (u : List Room.Call) {r : Room} (hok : RoomOk env r)
    (hu : ∀ b ∈ u, callOf a ≠ callOf b ∧ ¬ IsStart b ∧ ¬ (IsEnter a ∧ IsEnter b)) :
    roomRun env fuel r (u ++ a :: v) = roomRun env fuel r (a :: (u ++ v)) := by
  induction u generalizing r with
  | nil => rfl
  | cons b u ih =>
    obtain ⟨h1, h2, h3⟩ := hu b List.mem_cons_self
    have e1 : roomRun env fuel r (b :: u ++ a :: v) = (roomAfter env fuel r b).bind fun r => roomRun env fuel r (a :: (u ++ v)) := by
      rw [List.cons_append, roomRun_cons]
      cases hb : roomAfter env fuel r b with
      | error e => rfl
      | ok r' => exact ih (roomAfter_ok hok hb) fun b hb => hu b (List.mem_cons_of_mem _ hb)
    have e2 : ∀ (c d : Room.Call), ((roomAfter env fuel r c).bind fun r => (roomAfter env fuel r d).bind fun r => roomRun env fuel r (u ++ v)) =
        ((roomAfter env fuel r c).bind fun r => roomAfter env fuel r d).bind fun r => roomRun env fuel r (u ++ v) := by
      intro c d
      cases roomAfter env fuel r c <;> rfl
    rw [e1]
    simp only [roomRun_cons, List.cons_append]
    rw [e2, e2, roomAfter_swap hok h1 ha h2 h3]

theorem roomRun_order {env : Env} {fuel : Nat} (cs : List Room.Call) {cs' : List Room.Call} {r : Room} (hok : RoomOk env r) (hs : ∀ c ∈ cs, ¬ IsStart c)
    (h : ∀ x, callsBy x cs = callsBy x cs') (he : cs.filter (fun c => IsEnter c) = cs'.filter fun c => IsEnter c) :
    roomRun env fuel r cs = roomRun env fuel r cs' := by
  induction cs generalizing cs' r with
  | nil =>
    cases cs' with
    | nil => rfl
    | cons b v =>
      have := h (callOf b)
      rw [callsBy_cons_self] at this
      cases this
  | cons a cs ih =>
    obtain ⟨u, v, rfl, hu, hx⟩ := order_split h
    obtain ⟨k1, k2⟩ := order_enter he hu
    have mem : ∀ b ∈ u, b ∈ cs := by
      intro b hb
      have : b ∈ callsBy (callOf b) (u ++ v) := List.mem_filter.mpr ⟨List.mem_append_left _ hb, by simp⟩
      rw [← hx] at this
      exact (List.mem_filter.mp this).1
    rw [roomRun_front (hs a List.mem_cons_self) v u hok fun b hb => ⟨hu b hb, hs b (List.mem_cons_of_mem _ (mem b hb)), k1 b hb⟩]
    rw [roomRun_cons, roomRun_cons]
    cases hb : roomAfter env fuel r a with
    | error e => rfl
    | ok r' => exact ih (roomAfter_ok hok hb) (fun c hc => hs c (List.mem_cons_of_mem _ hc)) hx k2

/-! ## What is sent -/

theorem prepares_ok {env : Env} {fuel : Nat} {r : Room} (hok : RoomOk env r) {a : Room.Call} (ha : Prepares a) : ∃ ra oa, r.step env fuel a = .ok (ra, oa) := by
  cases a with
  | enter x => exact absurd trivial ha.1
  | visit x s =>
    cases hst : r.state with
    | mono => exact absurd hst hok.state
    | deciding q => obtain ⟨o, h⟩ := visit_deciding (env := env) (fuel := fuel) hst x s; exact ⟨_, _, h⟩
    | configuring =>
      obtain ⟨c, hc, kc⟩ := visit_configuring (env := env) (fuel := fuel) ha
      rcases conf_form (fuel := fuel) hok x c hc with ⟨_, g⟩ | ⟨_, _, _, _, _, _, g⟩
      · exact ⟨_, _, (kc r hst).trans g⟩
      · exact ⟨_, _, (kc r hst).trans g⟩

theorem runEach_cons {env : Env} {fuel : Nat} {r r1 r2 : Room} {c : Room.Call} {cs : List Room.Call} {o : List Sent} {l : List (Room.Call × List Sent)}
    (h : r.step env fuel c = .ok (r1, o)) (h' : runEach env fuel r1 cs = .ok (r2, l)) : runEach env fuel r (c :: cs) = .ok (r2, (c, o) :: l) := by
  simp only [runEach, h, bind_ok, h']
  rfl

theorem runEach_ok {env : Env} {fuel : Nat} (cs : List Room.Call) {r : Room} (hok : RoomOk env r) (hs : ∀ c ∈ cs, Prepares c) :
    ∃ r' l, runEach env fuel r cs = .ok (r', l) := by
  induction cs generalizing r with
  | nil => exact ⟨_, _, rfl⟩
  | cons a cs ih =>
    obtain ⟨r1, o, h1⟩ := prepares_ok (fuel := fuel) hok (hs a List.mem_cons_self)
    obtain ⟨r2, l, h2⟩ := ih (hok.of_move (hok.move h1)) fun c hc => hs c (List.mem_cons_of_mem _ hc)
    exact ⟨_, _, runEach_cons h1 h2⟩

theorem answersTo_cons_ne {x : ClientId} {a : Room.Call} (h : callOf a ≠ x) (o : List Sent) (l : List (Room.Call × List Sent)) :
    answersTo x ((a, o) :: l) = answersTo x l := by simp [answersTo, h]

theorem answersTo_cons_self (a : Room.Call) (o : List Sent) (l : List (Room.Call × List Sent)) :
    answersTo (callOf a) ((a, o) :: l) = (a, o) :: answersTo (callOf a) l := by simp [answersTo]

theorem answersTo_cons (x : ClientId) (a : Room.Call) (o : List Sent) {l l' : List (Room.Call × List Sent)} (h : answersTo x l = answersTo x l') :
    answersTo x ((a, o) :: l) = answersTo x ((a, o) :: l') := by
  by_cases hx : callOf a = x
  · subst hx; rw [answersTo_cons_self, answersTo_cons_self, h]
  · rw [answersTo_cons_ne hx, answersTo_cons_ne hx, h]

theorem answersTo_swap (x : ClientId) {a b : Room.Call} (hab : callOf a ≠ callOf b) (oa ob : List Sent) (l : List (Room.Call × List Sent)) :
    answersTo x ((a, oa) :: (b, ob) :: l) = answersTo x ((b, ob) :: (a, oa) :: l) := by
  by_cases ha : callOf a = x
  · subst ha
    rw [answersTo_cons_self, answersTo_cons_ne (Ne.symm hab), answersTo_cons_ne (Ne.symm hab), answersTo_cons_self]
  · rw [answersTo_cons_ne ha]
    exact answersTo_cons x b ob (answersTo_cons_ne ha ..).symm

theorem runEach_front {env : Env} {fuel : Nat} {a : Room.Call} (ha : Prepares a) {v : List Room.Call} (hv : ∀ b ∈ v, Prepares b) (u : List Room.Call) {r : Room}
    (hok : RoomOk env r) (hu : ∀ b ∈ u, callOf a ≠ callOf b ∧ Prepares b) :
    ∃ r' l l', runEach env fuel r (u ++ a :: v) = .ok (r', l) ∧ runEach env fuel r (a :: (u ++ v)) = .ok (r', l') ∧ ∀ x, answersTo x l = answersTo x l' := by
  induction u generalizing r with
  | nil =>
    obtain ⟨r', l, h⟩ := runEach_ok (fuel := fuel) (a :: v) hok (by
      intro c hc
      rcases List.mem_cons.mp hc with rfl | hc
      · exact ha
      · exact hv c hc)
    exact ⟨r', l, l, h, h, fun _ => rfl⟩
  | cons b u ih =>
    obtain ⟨h1, h2⟩ := hu b List.mem_cons_self
    obtain ⟨ra, rb, r2, oa, ob, s1, s2, s3, s4⟩ := prepares_swap (fuel := fuel) hok h1 ha h2
    have okb := hok.of_move (hok.move s2)
    have ok2 := okb.of_move (okb.move s4)
    obtain ⟨r', l, l', k1, k2, k3⟩ := ih okb fun b hb => hu b (List.mem_cons_of_mem _ hb)
    obtain ⟨r'', l'', k4⟩ := runEach_ok (fuel := fuel) (u ++ v) ok2 (by
      intro c hc
      rcases List.mem_append.mp hc with hc | hc
      · exact (hu c (List.mem_cons_of_mem _ hc)).2
      · exact hv c hc)
    have k5 := runEach_cons s4 k4
    rw [k2] at k5
    cases k5
    refine ⟨_, _, _, runEach_cons s2 k1, runEach_cons s1 (runEach_cons s3 k4), fun x => ?_⟩
    rw [answersTo_cons x b ob (k3 x)]
    exact answersTo_swap x (Ne.symm h1) ..

theorem runEach_order {env : Env} {fuel : Nat} (cs : List Room.Call) {cs' : List Room.Call} {r : Room} (hok : RoomOk env r) (hs : ∀ c ∈ cs, Prepares c)
    (h : ∀ x, callsBy x cs = callsBy x cs') :
    ∃ r' l l', runEach env fuel r cs = .ok (r', l) ∧ runEach env fuel r cs' = .ok (r', l') ∧ ∀ x, answersTo x l = answersTo x l' := by
  induction cs generalizing cs' r with
  | nil =>
    cases cs' with
    | nil => exact ⟨r, [], [], rfl, rfl, fun _ => rfl⟩
    | cons b v =>
      have := h (callOf b)
      rw [callsBy_cons_self] at this
      cases this
  | cons a cs ih =>
    obtain ⟨u, v, rfl, hu, hx⟩ := order_split h
    have mem : ∀ b ∈ u ++ v, Prepares b := by
      intro b hb
      have : b ∈ callsBy (callOf b) (u ++ v) := List.mem_filter.mpr ⟨hb, by simp⟩
      rw [← hx] at this
      exact hs b (List.mem_cons_of_mem _ ((List.mem_filter.mp this).1))
    have ha := hs a List.mem_cons_self
    obtain ⟨r1, o, s1⟩ := prepares_ok (fuel := fuel) hok ha
    obtain ⟨r2, l, l', k1, k2, k3⟩ := ih (r := r1) (hok.of_move (hok.move s1)) (fun c hc => hs c (List.mem_cons_of_mem _ hc)) hx
    obtain ⟨r3, m, m', n1, n2, n3⟩ := runEach_front (fuel := fuel) ha (v := v) (fun b hb => mem b (List.mem_append_right _ hb)) u hok fun b hb =>
      ⟨hu b hb, mem b (List.mem_append_left _ hb)⟩
    have n4 := runEach_cons s1 k2
    rw [n2] at n4
    cases n4
    exact ⟨_, _, _, runEach_cons s1 k1, n1, fun x => (answersTo_cons x a o (k3 x)).trans (n3 x).symm⟩

end Ygo
