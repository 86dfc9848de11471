import Verif.Lemmas.ReleaseRoom
import Verif.Props.Room

/-!
# Rooms in builds without asserts

`RawLived env r calls log`: in a build without asserts, the room `r` was reached by the calls `calls`, and `log` is everything it sent.
-/

set_option linter.unusedSimpArgs false

namespace Ygo.Props
open Ygo Ygo.Room Ygo.Spec

/-! ## Examples used below -/

/-- A room without asserts and everything it sends. -/
def rawPlay (env : Env) (rng : Nat → Nat) (host : ClientId) (o : Options) (cs : List Room.Call) : Res (Room × List Sent) := do
  let (r, out) ← Room.rawInit env rng host o
  let (r, out') ← r.rawRun env 100 cs
  return (r, out ++ out')

theorem rawLived_run {env : Env} {fuel : Nat} {cs : List Room.Call} {r r' : Room} {cs0 : List Room.Call} {log out : List Sent}
    (h : RawLived env r cs0 log) (hr : r.rawRun env fuel cs = .ok (r', out)) : RawLived env r' (cs0 ++ cs) (log ++ out) := by
  induction cs generalizing r cs0 log out with
  | nil => simp [Room.rawRun] at hr; obtain ⟨rfl, rfl⟩ := hr; simpa using h
  | cons c cs ih =>
    simp only [Room.rawRun, bind_eq_ok, Prod.exists] at hr
    obtain ⟨r1, o1, h1, r2, o2, h2, h3⟩ := hr
    cases h3
    have := ih (h.step h1) h2
    simpa using this

/-- Witnesses by execution. -/
theorem rawPlay_witness {env : Env} {rng : Nat → Nat} {host : ClientId} {o : Options} {cs : List Room.Call} (P : Room → List Sent → Bool)
    (h : (match rawPlay env rng host o cs with | .ok (r, log) => P r log | .error _ => false) = true) :
    ∃ r log, RawLived env r (.enter host :: cs) log ∧ P r log = true := by
  cases hp : rawPlay env rng host o cs with
  | error e => simp [hp] at h
  | ok x =>
    obtain ⟨r, log⟩ := x
    simp only [hp] at h
    simp only [rawPlay, bind_eq_ok, Prod.exists] at hp
    obtain ⟨r1, o1, h1, r2, o2, h2, h3⟩ := hp
    cases h3
    exact ⟨r, _, rawLived_run (.start h1) h2, h⟩

/-! ## What calls do -/

/-- **C91.** A call that asserts let pass does the same without them, whatever room it is made on. -/
theorem C91_same (env : Env) (r r' : Room) (fuel : Nat) (c : Room.Call) (out : List Sent) (h : r.step env fuel c = .ok (r', out)) :
    r.rawStep env fuel c = .ok (r', out) := rawStep_of_ok h

/-- **C91.** So do all histories of calls. -/
theorem C91_same_history {env : Env} {r : Room} {calls : List Room.Call} {log : List Sent} (h : Lived env r calls log) :
    RawLived env r calls log := rawLived_of_lived h

/-- **C91.** The only call on which the builds differ is that of a host who enters again when there is no seat left: the host watches
then, and everyone is told how many do. -/
theorem C91_call {env : Env} {r : Room} {calls : List Room.Call} {log : List Sent} (h : RawLived env r calls log) (fuel : Nat) (c : Room.Call) :
    (HostTooMany r c → r.step env fuel c = .error .assert ∧ ∃ r' out, r.rawStep env fuel c = .ok (r', out) ∧
      SameButWatchers r r' ∧ (∀ x, x ∈ r'.spectators ↔ x = r.host ∨ x ∈ r.spectators) ∧
      ∀ x, inbox x out = (if x = r.host then [.entering r.options
          (Room.teamDuelists env r.host 0 0 (r.teams 0) ++ Room.teamDuelists env r.host 1 0 (r.teams 1)) r.spectators.length] else []) ++
        List.replicate ((recipients r').count x) (.spectatorCount r'.spectators.length)) ∧
    (¬ HostTooMany r c → r.rawStep env fuel c = r.step env fuel c) := by
  have hok := moved_ok (rawLived_moved h)
  refine ⟨?_, (hok.rawStep fuel c).2⟩
  intro hh
  refine ⟨?_, ?_⟩
  · obtain ⟨hst, rfl, hf⟩ := hh
    simp only [Room.step, Room.enter, hst]
    rw [hok.enterConfiguring, (nextSeat_none_iff hok).mpr hf]
    simp
  · refine ⟨_, _, (hok.rawStep fuel c).1 hh, rfl, fun x => mem_setInsert, ?_⟩
    intro x
    rw [inbox_cons, inbox_sendAll]
    by_cases e : x = r.host
    · subst e; simp; rfl
    · have : ¬ r.host = x := fun e' => e e'.symm
      simp [e, this]

/-- **C91.** No call stops. -/
theorem C91_no_stop {env : Env} {r : Room} {calls : List Room.Call} {log : List Sent} (h : RawLived env r calls log) (fuel : Nat) (c : Room.Call) :
    r.rawStep env fuel c ≠ .error .assert := by
  have hok := moved_ok (rawLived_moved h)
  by_cases hh : HostTooMany r c
  · rw [(hok.rawStep fuel c).1 hh]; simp
  · rw [(hok.rawStep fuel c).2 hh]
    rcases hok.step_cases fuel c with ⟨r', out, h1, _, _⟩ | ⟨h1, h2, h3, h4⟩ | ⟨h1, ⟨b, rfl⟩, h3, h4⟩
    · rw [h1]; simp
    · exact absurd ⟨h1, h2, (nextSeat_none_iff hok).mp h3⟩ hh
    · rw [h4]; exact (hok.enterDeciding_outcome (canStart_iff.mp h3) fuel).1

/-- **C91.** A call fails exactly if it starts with a reserved enum value as method or with dice that tie every time. -/
theorem C91_fails_iff {env : Env} {r : Room} {calls : List Room.Call} {log : List Sent} (h : RawLived env r calls log) (fuel : Nat) (c : Room.Call)
    (e : Err) : r.rawStep env fuel c = .error e ↔
      r.state = .configuring ∧ (∃ b, c = .visit r.host (.configuring (.startDueling b))) ∧ Startable r ∧
      (e = .ub ∧ (r.options.ftdm = -2147483648 ∨ r.options.ftdm = 2147483647) ∨
       e = .hang ∧ r.options.ftdm = 2 ∧ ∀ i < fuel, r.rng (r.used + 2 * i) % 6 = r.rng (r.used + 2 * i + 1) % 6) := by
  have hok := moved_ok (rawLived_moved h)
  by_cases hh : HostTooMany r c
  · rw [(hok.rawStep fuel c).1 hh]
    simp only [reduceCtorEq, false_iff]
    rintro ⟨_, ⟨b, hb⟩, _⟩
    rw [hh.2.1] at hb; cases hb
  · rw [(hok.rawStep fuel c).2 hh, ← canStart_iff]
    rcases hok.step_cases fuel c with ⟨r', out, h1, _, h2⟩ | ⟨h1, h2, h3, h4⟩ | ⟨h1, ⟨b, rfl⟩, h3, h4⟩
    · rw [h1]
      simp only [reduceCtorEq, false_iff]
      rintro ⟨a, b, c, _⟩
      exact h2 ⟨a, b, c⟩
    · exact absurd ⟨h1, h2, (nextSeat_none_iff hok).mp h3⟩ hh
    · rw [h4]
      obtain ⟨o1, o2, o3⟩ := hok.enterDeciding_outcome (canStart_iff.mp h3) fuel
      have hr : ∀ i, ((round r.rng r.used i).1 = (round r.rng r.used i).2) ↔ r.rng (r.used + 2 * i) % 6 = r.rng (r.used + 2 * i + 1) % 6 := by
        intro i; simp only [round]; omega
      simp only [hr] at o3
      cases e with
      | assert => simp [o1]
      | ub => rw [o2]; simp [h1, h3]
      | hang => rw [o3]; simp [h1, h3]

/-! ## What rooms are reached -/

/-- The host of a room with asserts does not watch. -/
theorem lived_host_plays {env : Env} {r : Room} {calls : List Room.Call} {log : List Sent} (h : Lived env r calls log) : r.host ∉ r.spectators := by
  induction h with
  | @start rng host o r out h =>
    unfold Room.init at h
    have e := (roomOk_empty env rng host o).enterConfiguring host
    simp only [nextSeat_empty] at e
    have := h.symm.trans e
    cases this
    simp [emptyRoom, Room.setSlot]
  | @step r r' calls log out fuel c hl hs ih =>
    have m := (lived_ok hl).move hs
    rw [m.host.1]
    cases m with
    | @spectate peer h1 h2 =>
      intro hx
      rcases mem_setInsert.mp hx with hx | hx
      · have := (C59_abort_iff (fuel := fuel) (c := .enter peer) hl).mpr ⟨h1, by rw [hx], (nextSeat_none_iff (lived_ok hl)).mp h2⟩
        rw [hs] at this; cases this
      · exact ih hx
    | start _ _ h3 =>
      obtain ⟨⟨d, u, rfl⟩, _⟩ := enterDeciding_ok h3
      exact ih
    | seat => exact ih
    | goodDeck => exact ih
    | badDeck => exact ih
    | ready => exact ih
    | announce => exact ih
    | nothing => exact ih

/-- **C91.** Every history without asserts leads to the same seats, options, phase and random numbers as one with asserts, which is the
same but for calls of the host to enter. The same clients watch, but the host also does if such calls are missing. So all that is said
about seats of rooms with asserts holds. -/
theorem C91_as_if {env : Env} {r : Room} {calls : List Room.Call} {log : List Sent} (h : RawLived env r calls log) :
    ∃ r0 calls0 log0, Lived env r0 calls0 log0 ∧ calls0.Sublist calls ∧
      calls0.filter (· ≠ .enter r.host) = calls.filter (· ≠ .enter r.host) ∧ SameButWatchers r0 r ∧ r0.host ∉ r0.spectators ∧
      ∀ x, x ∈ r.spectators ↔ x ∈ r0.spectators ∨ x = r.host ∧ calls0 ≠ calls := by
  induction h with
  | @start rng host o r out h =>
    rw [rawInit_eq] at h
    exact ⟨r, _, _, .start h, .refl _, rfl, rfl, lived_host_plays (.start h), by simp⟩
  | @step r r' calls log out fuel c hl hs ih =>
    obtain ⟨r0, calls0, log0, h1, h2, h3, h4, h5, h6⟩ := ih
    have hok := moved_ok (rawLived_moved hl)
    have hhost : r.host = r0.host := by rw [h4]
    have hhost' : r'.host = r.host := (hok.raw_move hs).host.1
    by_cases hh : HostTooMany r c
    · rw [(hok.rawStep fuel c).1 hh] at hs
      obtain ⟨hst, rfl, hf⟩ := hh
      cases hs
      refine ⟨r0, calls0, log0, h1, h2.trans (List.sublist_append_left _ _), ?_, ?_, h5, ?_⟩
      · show calls0.filter (· ≠ .enter r.host) = _
        rw [h3]
        simp
      · show _ = { r0 with spectators := _ }
        have : r = { r0 with spectators := r.spectators } := h4
        rw [this]
      · intro x
        rw [mem_setInsert, h6]
        have : calls0 ≠ calls ++ [.enter r.host] := by
          intro e
          have hlen := h2.length_le
          rw [e] at hlen
          simp at hlen
          omega
        constructor
        · rintro (rfl | hx | ⟨rfl, _⟩)
          · exact .inr ⟨rfl, this⟩
          · exact .inl hx
          · exact .inr ⟨rfl, this⟩
        · rintro (hx | ⟨rfl, _⟩)
          · exact .inr (.inl hx)
          · exact .inl rfl
    · have hw : r = rewatch r.spectators r0 := h4
      have hs' := hs
      rw [hw] at hs'
      obtain ⟨r1, out1, k1, k2⟩ := rawStep_rewatch hs'
      have hh0 : ¬ HostTooMany r0 c := by
        rintro ⟨a, b, d⟩
        refine hh ⟨?_, ?_, ?_⟩
        · rw [hw]; exact a
        · rw [hhost]; exact b
        · rw [hw]; exact d
      rw [((lived_ok h1).rawStep fuel c).2 hh0] at k1
      have hl1 := h1.step k1
      have hne : calls0 ++ [c] ≠ calls ++ [c] ↔ calls0 ≠ calls := by simp
      refine ⟨r1, _, _, hl1, h2.append (.refl _), ?_, ?_, lived_host_plays hl1, ?_⟩
      · rw [hhost']
        rw [List.filter_append, List.filter_append, h3]
      · rcases k2 with ⟨e, _⟩ | ⟨peer, _, e, _⟩ <;> rw [e] <;> rfl
      · intro x
        rw [hhost', hne]
        rcases k2 with ⟨e, e'⟩ | ⟨peer, _, e, e'⟩
        · rw [e, e']; exact h6 x
        · rw [e, e']
          simp only [rewatch, mem_setInsert, h6]
          rw [or_assoc]

/-- **C91.** In particular: two teams of three slots; maximums between 1 and 3; no more duelists than the maximum; positions filled
from 0 without gaps; the host at team 0 position 0. -/
theorem C91_capacity {env : Env} {r : Room} {calls : List Room.Call} {log : List Sent} (h : RawLived env r calls log) :
    r.options.maxDuelists.length = 2 ∧
    (∀ t, 1 ≤ capacity r t ∧ capacity r t ≤ 3 ∧ (r.teams t).length = 3 ∧ duelists r t ≤ capacity r t) ∧
    (∀ t p, (seat r t p).isSome = true ↔ p < duelists r t) ∧ seat r 0 0 = some r.host := by
  obtain ⟨r0, calls0, log0, h1, _, _, h4, _⟩ := C91_as_if h
  have := C50_capacity h1
  rw [h4]
  exact this

/-- **C91.** And the room leaves the configuring state only through the host's start signal, when both teams have a duelist and every
duelist is ready and has a deck which the validator accepts. -/
theorem C91_start {env : Env} {r r' : Room} {calls : List Room.Call} {log out : List Sent} {fuel : Nat} {c : Room.Call}
    (h : RawLived env r calls log) (hs : r.rawStep env fuel c = .ok (r', out)) (h0 : r.state = .configuring) (h1 : r'.state ≠ .configuring) :
    (∃ b, c = .visit r.host (.configuring (.startDueling b))) ∧
    (∀ t, ∃ p x, seat r t p = some x) ∧
    ∀ t p s, slotAt r t p = some s → s.client ≠ none → s.ready = true ∧ s.deckValid = true ∧ (env.check r.options.banlistId s.deck).1 = true := by
  have hok := moved_ok (rawLived_moved h)
  have hh : ¬ HostTooMany r c := by
    intro hh
    rw [(hok.rawStep fuel c).1 hh] at hs
    cases hs
    exact h1 h0
  obtain ⟨r0, calls0, log0, l1, _, _, l4, _⟩ := C91_as_if h
  have hw : r = rewatch r.spectators r0 := l4
  have hs' := hs
  rw [hw] at hs'
  obtain ⟨r1, out1, k1, k2⟩ := rawStep_rewatch hs'
  have hh0 : ¬ HostTooMany r0 c := by
    rintro ⟨a, b, d⟩
    refine hh ⟨h0, ?_, ?_⟩
    · rw [hw]; exact b
    · rw [hw]; exact d
  rw [((lived_ok l1).rawStep fuel c).2 hh0] at k1
  have a0 : r0.state = .configuring := by rw [hw] at h0; exact h0
  have a1 : r1.state ≠ .configuring := by
    rcases k2 with ⟨e, _⟩ | ⟨peer, _, e, _⟩ <;> rw [e] at h1 <;> exact h1
  have := C52_start l1 k1 a0 a1
  rw [hw]
  exact this

/-- **C91.** Everyone in the room, also a host that watches the own duel, knows the options, every duelist and the number of spectators by
just following the messages. -/
theorem C91_views_in_sync {env : Env} {r : Room} {calls : List Room.Call} {log : List Sent} (h : RawLived env r calls log) {x : ClientId}
    (hx : Present r x) :
    (knows x log).options = some r.options ∧ (knows x log).spectators = r.spectators.length ∧
    ∀ (t : Fin 2) p, (knows x log).duelist t.val p =
      (slotAt r t p).bind fun s => s.client.map fun c => ⟨t.val, p, env.user c, decide (c = r.host), s.ready⟩ := by
  rw [moved_knows (rawLived_moved h) x hx]
  refine ⟨rfl, rfl, ?_⟩
  intro t p
  simp [truth]

/-- **C91.** A host that watches is told everything at least twice. -/
theorem C91_told_twice {env : Env} {r : Room} {calls : List Room.Call} {log : List Sent} (h : RawLived env r calls log)
    (hw : r.host ∈ r.spectators) (e : Event) : 2 ≤ (inbox r.host (r.sendAll e)).count e := by
  rw [inbox_sendAll, List.count_replicate_self]
  unfold recipients
  rw [List.count_append, List.count_append]
  have h1 : 0 < r.spectators.count r.host := List.count_pos_iff.mpr hw
  have h2 : 0 < (Room.teamClients (r.teams 0)).count r.host :=
    List.count_pos_iff.mpr (mem_teamClients.mpr ⟨0, (C91_capacity h).2.2.2⟩)
  omega

/-- Non-vacuity: a room of 1 + 1; the host enters again, which an assert would stop; then it watches, and the duel starts. -/
example : ∃ r log, RawLived demoEnv r (.enter 1 :: [.enter 2, .enter 1] ++ prepare 1 ++ prepare 2 ++ [startCall 1]) log ∧
    (r.spectators == [1] && r.state == .deciding (some 1) &&
      inbox 1 log == [.entering { maxDuelists := [1, 1] } [] 0, .duelistEnters ⟨0, 0, demoEnv.user 1, true, false⟩,
        .duelistEnters ⟨1, 0, demoEnv.user 2, false, false⟩,
        .entering { maxDuelists := [1, 1] } [⟨0, 0, demoEnv.user 1, true, false⟩, ⟨1, 0, demoEnv.user 2, false, false⟩] 0,
        .spectatorCount 1, .spectatorCount 1, .deckStatus none, .updateDuelist ⟨0, 0, demoEnv.user 1, true, true⟩,
        .updateDuelist ⟨0, 0, demoEnv.user 1, true, true⟩, .updateDuelist ⟨1, 0, demoEnv.user 2, false, true⟩,
        .updateDuelist ⟨1, 0, demoEnv.user 2, false, true⟩, .decidingEntering, .decidingEntering, .decideFirstTurn true]) = true :=
  rawPlay_witness (rng := demoRng) (o := {}) (cs := [.enter 2, .enter 1] ++ prepare 1 ++ prepare 2 ++ [startCall 1]) _ (by decide +kernel)

/-- … while with asserts this stops at the third call. -/
example : (match play demoEnv demoRng 1 {} [.enter 2, .enter 1] with | .error .assert => true | _ => false) = true := by decide

end Ygo.Props
