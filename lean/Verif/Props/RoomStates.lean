import Verif.Lemmas.RoomStates

/-!
# Exactly which rooms can come about
-/

namespace Ygo.Props
open Ygo.Room Ygo.Spec

/-- **C119.** A room comes about by some history of calls exactly if its seats, duelists and spectators are as `Peopled` says and its phase is as
`InPhase` says. -/
theorem C119_rooms (env : Env) (r : Room) : (∃ calls log, Lived env r calls log) ↔ Peopled env r ∧ InPhase r := by
  constructor
  · rintro ⟨cs, log, h⟩
    exact lived_peopled h
  · rintro ⟨h, hi⟩
    cases hst : r.state with
    | mono => simp only [InPhase, hst] at hi
    | configuring => exact comes_of _ (Nat.le_refl _) h hst (hi.set hst)
    | deciding d =>
      simp only [InPhase, hst] at hi
      exact comes_started h hst hi.1 hi.2

/-- **C119.** So what the two predicates say can be checked on the room alone and is kept by every call. -/
theorem C119_kept {env : Env} {r r' : Room} {fuel : Nat} {c : Room.Call} {out : List Sent} (h : Peopled env r) (hi : InPhase r)
    (hs : r.step env fuel c = .ok (r', out)) : Peopled env r' ∧ InPhase r' := peopled_step h hi hs

/-- A room with nobody but the host. -/
def hostOnly (rng : Nat → Nat) (host : ClientId) (o : Options) (s : Slot) : Room := (emptyRoom rng host o).setSlot 0 0 { s with client := some host }

/-- **C119.** The host alone can have the own seat in exactly the states that fit. -/
theorem C119_alone (env : Env) (rng : Nat → Nat) (host : ClientId) (o : Options) (s : Slot) :
    (∃ calls log, Lived env (hostOnly rng host o s) calls log) ↔
      SlotFits (fun d => (env.check o.banlistId d).1) { s with client := some host } := by
  rw [C119_rooms]
  have hb : (Room.clampOptions o).banlistId = o.banlistId := rfl
  constructor
  · rintro ⟨h, _⟩
    have := h.taken 0 0 _ (slotAt_setSlot_self (by simp [emptyRoom])) (by simp)
    exact this
  · intro h
    have h0 := peopled_first env rng host o
    have h1 := h0.setSlot (t := 0) (p := 0) (s' := { s with client := some host }) (slotAt_setSlot_self (by simp [emptyRoom])) rfl (by simp) ?_ h
    · rw [setSlot_twice] at h1
      exact ⟨h1, rfl⟩
    · rintro ⟨x, t', p', hb, _, _⟩
      rcases hb with hb | ⟨_, hb⟩
      · exact absurd (fin2_lt hb).2 (by decide)
      · omega

/-- **C119.** A duelist can be ready without a valid deck in some room with these options exactly if the validator accepts a deck and refuses one. -/
theorem C119_late (env : Env) (banlist : String) : (∃ r calls log t p s, Lived env r calls log ∧ r.options.banlistId = banlist ∧ slotAt r t p = some s ∧
      s.ready = true ∧ s.deckValid = false) ↔
    (∃ d, (env.check banlist d).1 = true) ∧ ∃ d, (env.check banlist d).1 = false := by
  constructor
  · rintro ⟨r, cs, log, t, p, s, hl, rfl, hs, h1, h2⟩
    have h := (lived_peopled hl).1
    have hc : s.client ≠ none := by
      intro e
      rw [h.free t p s hs e] at h1
      cases h1
    have hf := h.taken t p s hs hc
    exact ⟨hf.ready h1, hf.late h1 h2⟩
  · rintro ⟨ha, hr⟩
    obtain ⟨cs, log, hl⟩ := (C119_alone env (fun _ => 0) 0 { banlist := .id banlist } { ready := true }).mpr
      ⟨(fun e => by cases e), fun _ => rfl, fun _ => ha, fun _ _ => hr⟩
    exact ⟨_, cs, log, 0, 0, _, hl, rfl, slotAt_setSlot_self (by simp [emptyRoom]), rfl, rfl⟩

/-- A validator that accepts exactly the decks without cards in the main part. -/
def emptyDecks : Env := ⟨fun _ => {}, fun _ d => (d.main.isEmpty, {})⟩

/-- The host of a room for two against one, ready without a deck: this comes about. -/
example : ∃ calls log, Lived emptyDecks (hostOnly (fun n => n) 7 { maxDuelists := [2, 1] } { ready := true }) calls log :=
  (C119_alone ..).mpr ⟨(fun e => by cases e), fun _ => rfl, fun _ => ⟨{}, rfl⟩, fun _ _ => ⟨{ main := [1] }, rfl⟩⟩

/-- With a deck that the validator refuses it does not. -/
example : ¬ ∃ calls log, Lived emptyDecks (hostOnly (fun n => n) 7 { maxDuelists := [2, 1] } { deckValid := true, deck := { main := [1] } }) calls log := by
  rw [C119_alone]
  intro h
  exact absurd (h.accepted rfl) (by decide)

end Ygo.Props
