import Verif.Props.RoomMore
import Verif.Lemmas.RoomRules
import Verif.Model.Validate

/-!
# Property C102: the options of a room about decks
-/

set_option linter.unusedSimpArgs false

namespace Ygo.Props
open Ygo Ygo.Room Ygo.Spec

/-- What the options say about decks, other than the name of a banlist, makes no difference: with other limits and another custom banlist,
or none, the same calls make the same room and the same messages, except that newcomers are told the other options. -/
theorem C102_ignored {env : Env} {r : Room} {calls : List Room.Call} {log : List Sent} (h : Lived env r calls log) {o : Options}
    (ho : SameButRules r.options o) :
    Lived env { r with options := o } calls (log.map fun s => (s.1, aboutOptions o s.2)) := lived_give h ho

/-- The property fails: whatever a validator accepts without knowing a banlist can be played in a room with any limits and any custom
banlist. -/
theorem C102_violated (env : Env) {d : Deck} (hd : (env.check "" d).1 = true) (l : Option DeckLimits) (b : Banlist) :
    ∃ r calls log, Lived env r calls log ∧ r.options.deckLimits = l ∧ r.options.banlist = .custom b ∧ r.state = .deciding (some r.host) ∧
      (∀ t, ∃ p x, seat r t p = some x) ∧ ∀ t p s, slotAt r t p = some s → s.client ≠ none → s.ready = true ∧ s.deck = d := by
  let calls (x : ClientId) : List Room.Call := [.visit x (.configuring (.updateDeck d)), .visit x (.configuring (.readyStatus true))]
  have hs : ∃ r log, Lived env r (.enter 1 :: ([.enter 2] ++ calls 1 ++ calls 2 ++ [startCall 1])) log ∧
      r.options = { maxDuelists := [1, 1], deckLimits := l, banlist := .custom b } ∧ r.host = 1 ∧ r.state = .deciding (some 1) ∧
      ∀ t : Fin 2, r.teams t = [⟨true, true, some (t.val + 1), d⟩, {}, {}] := by
    let o : Options := { deckLimits := l, banlist := .custom b }
    let r1 := (emptyRoom (fun _ => 0) 1 o).setSlot 0 0 { client := some 1 }
    let r2 := r1.setSlot 1 0 { client := some 2 }
    let r3 := r2.setSlot 0 0 { client := some 1, deck := d, deckValid := true }
    let r4 := r3.setSlot 0 0 { client := some 1, deck := d, deckValid := true, ready := true }
    let r5 := r4.setSlot 1 0 { client := some 2, deck := d, deckValid := true }
    let r6 := r5.setSlot 1 0 { client := some 2, deck := d, deckValid := true, ready := true }
    let r7 : Room := { r6 with state := .deciding (some 1) }
    have s1 : Lived env r1 [.enter 1] _ := .start (rng := fun _ => 0) (host := 1) (options := o) rfl
    have s2 : Lived env r2 _ _ := s1.step (fuel := 0) (c := .enter 2) rfl
    have s3 : Lived env r3 _ _ := s2.step (fuel := 0) (c := .visit 1 (.configuring (.updateDeck d)))
      ((step_deck (r := r2) (x := 1) (t := 0) (p := 0) (s := { client := some 1 }) rfl rfl d).trans (by rw [if_pos (show (env.check r2.options.banlistId d).1 = true from hd)]))
    have s4 : Lived env r4 _ _ := s3.step (fuel := 0) (c := .visit 1 (.configuring (.readyStatus true))) rfl
    have s5 : Lived env r5 _ _ := s4.step (fuel := 0) (c := .visit 2 (.configuring (.updateDeck d)))
      ((step_deck (r := r4) (x := 2) (t := 1) (p := 0) (s := { client := some 2 }) rfl rfl d).trans (by rw [if_pos (show (env.check r4.options.banlistId d).1 = true from hd)]))
    have s6 : Lived env r6 _ _ := s5.step (fuel := 0) (c := .visit 2 (.configuring (.readyStatus true))) rfl
    have s7 : Lived env r7 _ _ := s6.step (fuel := 0) (c := startCall 1) rfl
    refine ⟨r7, _, s7, rfl, rfl, rfl, ?_⟩
    intro t
    match t with
    | 0 => rfl
    | 1 => rfl
  obtain ⟨r, log, h1, h2, h3, h4, h5⟩ := hs
  refine ⟨r, _, log, h1, by rw [h2], by rw [h2], by rw [h3, h4], ?_, ?_⟩
  · intro t
    exact ⟨0, t.val + 1, by simp [seat, slotAt, h5]⟩
  · intro t p s hp hc
    unfold slotAt at hp
    rw [h5] at hp
    match p with
    | 0 => cases hp; exact ⟨rfl, rfl⟩
    | 1 => cases hp; exact absurd rfl hc
    | 2 => cases hp; exact absurd rfl hc
    | n + 3 => simp at hp

/-- A validator that knows one list, `TCG`, which forbids card 9. -/
def listEnv : Env := ⟨fun c => { id := [c] }, fun n d => (n ≠ "TCG" || !(cards d).contains 9, { banlisted := some [(3, 9)] })⟩

/-- The deck of the witness breaks the rules: it has fewer cards than asked for, and a forbidden one. -/
theorem C102_broken : ∃ r calls log, Lived listEnv r calls log ∧ r.state ≠ .configuring ∧ ∃ t p s, slotAt r t p = some s ∧ s.client ≠ none ∧
    ¬ WithinLimits { main := some ⟨40, 60⟩ } s.deck ∧ r.options.deckLimits = some { main := some ⟨40, 60⟩ } ∧
    ¬ Allowed { forbidden := [9] } s.deck ∧ r.options.banlist = .custom { forbidden := [9] } := by
  obtain ⟨r, calls, log, h1, h2, h3, h4, h5, h6⟩ := C102_violated listEnv (d := { main := [9] }) (by decide)
    (some { main := some ⟨40, 60⟩ }) { forbidden := [9] }
  obtain ⟨p, x, hx⟩ := h5 0
  cases hp : slotAt r 0 p with
  | none => simp [seat, hp] at hx
  | some s =>
    have hc : s.client ≠ none := by simp [seat, hp] at hx; simp [hx]
    refine ⟨r, calls, log, h1, by simp [h4], 0, p, s, hp, hc, ?_, h2, ?_, h3⟩
    · rw [(h6 0 p s hp hc).2]
      intro hw
      have := (hw.1 _ rfl).1
      simp at this
    · rw [(h6 0 p s hp hc).2]
      intro ha
      have := ha.1 9 (by simp)
      simp [cards] at this

/-- The very same deck is refused where the list has a name. -/
example : (listEnv.check "TCG" { main := [9] }).1 = false ∧ (listEnv.check "TCG" { main := [7] }).1 = true := by decide

/-- What is enforced: in a room whose duel was started, the validator accepted every deck for the name of the banlist. So, with a
validator that knows the named lists, without limits and without a custom banlist, every deck keeps the rules. -/
theorem C102_named_partial {env : Env} {r : Room} {calls : List Room.Call} {log : List Sent} (h : Lived env r calls log)
    (hst : r.state ≠ .configuring) {t : Fin 2} {p : Nat} {s : Slot} (hs : slotAt r t p = some s) (hc : s.client ≠ none) :
    (env.check (listName r.options) s.deck).1 = true ∧
    ∀ list, (∀ n d, (env.check n d).1 = true → Allowed (list n) d) → r.options.deckLimits = none →
      (∀ b, r.options.banlist ≠ .custom b) → KeepsRules list r.options s.deck := by
  have k : (env.check (listName r.options) s.deck).1 = true := by
    rw [← banlistId_eq]
    induction h with
    | start h0 =>
      refine absurd ?_ hst
      cases init_move h0 <;> first | rfl | assumption
    | @step r r1 calls log out fuel c hl hs1 ih =>
      have ho : r1.options = r.options := ((lived_ok hl).move hs1).host.2
      by_cases h0 : r.state = .configuring
      · have m := (lived_ok hl).move hs1
        have k := (C52_start hl hs1 h0 hst).2.2 t p s
        rw [ho]
        cases m with
        | start a1 a2 a3 =>
          obtain ⟨⟨_, _, rfl⟩, _⟩ := enterDeciding_ok a3
          exact (k hs hc).2.2
        | announce => exact absurd h0 hst
        | nothing => exact absurd h0 hst
        | seat => exact absurd h0 hst
        | spectate => exact absurd h0 hst
        | goodDeck => exact absurd h0 hst
        | badDeck => exact absurd h0 hst
        | ready => exact absurd h0 hst
      · obtain ⟨k1, k2, k3⟩ := C52_never_back hl hs1 h0
        rw [ho]
        exact ih h0 (by unfold slotAt at hs ⊢; rwa [k2] at hs)
  refine ⟨k, fun list hl h1 h2 => ⟨fun l hl' => (by rw [h1] at hl'; cases hl'), ?_, fun b hb => absurd hb (h2 b)⟩⟩
  intro n hn
  apply hl
  rw [show listName r.options = n by unfold listName; rw [hn]] at k
  exact k

/-- Non-vacuity: a room with a named list that is started; the validator knows the list. -/
example : (∃ r log, Lived listEnv r (.enter 1 :: ([.enter 2] ++ prepare 1 ++ prepare 2 ++ [startCall 1])) log ∧
      (r.state != .configuring && r.options.deckLimits == none && r.options.banlist == .id "TCG" &&
        ((r.teams 0)[0]?.map (·.deck)) == some { main := [7] }) = true) ∧
    ∀ n d, (listEnv.check n d).1 = true → Allowed (if n = "TCG" then { forbidden := [9] } else {}) d := by
  refine ⟨play_witness (rng := demoRng) (o := { banlist := .id "TCG" }) (cs := [.enter 2] ++ prepare 1 ++ prepare 2 ++ [startCall 1]) _
    (by decide), ?_⟩
  intro n d h
  by_cases hn : n = "TCG"
  · simp only [listEnv, hn] at h
    simp at h
    simp [Allowed, hn, List.count_eq_zero, h]
  · simp [Allowed, hn]

/-- With a validator that asks the project's own functions about limits or copies, no duel ever starts. -/
theorem C102_stubs {env : Env} {r : Room} {calls : List Room.Call} {log : List Sent} (h : Lived env r calls log)
    (he : ∀ n d, (env.check n d).1 = true → validateDeckExcessiveCopies d = true ∨ ∃ l, validateDeckLimits d l = true) :
    r.state = .configuring := by
  induction h with
  | start h0 =>
    cases init_move h0 <;> first | rfl | assumption
  | @step r r1 calls log out fuel c hl hs ih =>
    refine Classical.byContradiction fun hn => ?_
    obtain ⟨_, h2, h3⟩ := C52_start hl hs ih hn
    obtain ⟨p, x, hx⟩ := h2 0
    cases hp : slotAt r 0 p with
    | none => simp [seat, hp] at hx
    | some s =>
      have := he _ _ (h3 0 p s hp (by simp [seat, hp] at hx; simp [hx])).2.2
      simp [validateDeckExcessiveCopies, validateDeckLimits] at this

/-- Non-vacuity: such a validator, and a room where both duelists try. -/
example : ∃ r log, Lived ⟨fun _ => {}, fun _ d => (validateDeckExcessiveCopies d && validateDeckLimits d {}, {})⟩ r
    (.enter 1 :: ([.enter 2] ++ prepare 1 ++ prepare 2 ++ [startCall 1])) log ∧ (r.state == .configuring) = true :=
  play_witness (rng := demoRng) (o := {}) (cs := [.enter 2] ++ prepare 1 ++ prepare 2 ++ [startCall 1]) _ (by decide)

end Ygo.Props
