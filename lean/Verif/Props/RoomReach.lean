import Verif.Lemmas.RoomReach
import Verif.Props.RoomStates

/-!
# What a room can still become (C137)
-/

namespace Ygo.Props
open Ygo Ygo.Spec Ygo.Room

theorem later_grown {env : Env} {r r' : Room} (hp : Peopled env r) (hi : InPhase r) (h : Later env r r') :
    Peopled env r' ∧ InPhase r' ∧ Grown (fun d => (env.check r.options.banlistId d).1) r r' := by
  induction h with
  | now => exact ⟨hp, hi, .refl _ _⟩
  | step _ hs ih =>
    obtain ⟨h1, h2, h3⟩ := ih
    have h4 := peopled_step h1 h2 hs
    have h5 := grown_step h1 h2 hs
    rw [h3.options] at h5
    refine ⟨h4.1, h4.2, h3.trans h5 fun t p s e => ⟨_, List.getElem?_eq_getElem ?_⟩⟩
    have := (List.getElem?_eq_some_iff.mp e).1
    rw [hp.length] at this
    rw [h1.length]
    exact this

theorem later_deciding {env : Env} {r r' : Room} {d : Option ClientId} (hst : r.state = .deciding d) (h : Later env r r') : r' = r := by
  induction h with
  | now => rfl
  | @step r1 r2 fuel c out _ hs ih =>
    subst ih
    cases c with
    | enter x => simp only [Room.step, Room.enter, hst] at hs; cases hs; rfl
    | visit x w =>
      obtain ⟨o, e⟩ := visit_deciding (env := env) (fuel := fuel) hst x w
      rw [e] at hs
      cases hs
      rfl

/-- **C137.** Exactly what a room can become: itself, and while it is configured every room that can come about and has grown out of it. -/
theorem C137_exactly {env : Env} {r : Room} {calls : List Room.Call} {log : List Sent} (h : Lived env r calls log) (r' : Room) :
    Later env r r' ↔ r' = r ∨ (r.state = .configuring ∧ Grown (fun d => (env.check r.options.banlistId d).1) r r' ∧ Peopled env r' ∧ InPhase r') := by
  obtain ⟨hp, hi⟩ := lived_peopled h
  constructor
  · intro hl
    cases hst : r.state with
    | mono => simp only [InPhase, hst] at hi
    | deciding d => exact .inl (later_deciding hst hl)
    | configuring =>
      obtain ⟨h1, h2, h3⟩ := later_grown hp hi hl
      exact .inr ⟨rfl, h3, h1, h2⟩
  · rintro (rfl | ⟨hst, g, hp', hi'⟩)
    · exact .now
    · cases hst' : r'.state with
      | mono => simp only [InPhase, hst'] at hi'
      | configuring => exact (arises_of ⟨_, _, h⟩ hst _ (Nat.le_refl _) hp' hst' (hi'.set hst') g).1
      | deciding d =>
        simp only [InPhase, hst'] at hi'
        have h1 : Peopled env { r' with state := .configuring, used := 0 } := hp'.same rfl rfl rfl rfl
        obtain ⟨fuel, c, out, e⟩ := started_step hp' hst' hi'.1 hi'.2
        exact .step (arises_of ⟨_, _, h⟩ hst _ (Nat.le_refl _) h1 rfl rfl
          ⟨g.options, g.host, g.rng, g.seats, g.settled, g.decks, g.watchers⟩).1 e

/-- **C137.** Once it has been started it stays as it is. -/
theorem C137_started {env : Env} {r : Room} {d : Option ClientId} (hst : r.state = .deciding d) (r' : Room) : Later env r r' ↔ r' = r :=
  ⟨later_deciding hst, fun e => e ▸ .now⟩

/-- **C137.** Exactly what can be taken back: as long as nobody came and the duel was not started, all that was said since, but for first decks when the
validator refuses none. -/
theorem C137_back {env : Env} {r r' : Room} {calls : List Room.Call} {log : List Sent} (h : Lived env r calls log) (hst : r.state = .configuring)
    (hl : Later env r r') : Later env r' r ↔ r'.state = .configuring ∧ (∀ t p, seat r' t p = seat r t p) ∧ r'.spectators = r.spectators ∧
      ∀ t p s s', slotAt r t p = some s → slotAt r' t p = some s' → s.deckValid = false → s'.deckValid = true →
        ∃ d, (env.check r.options.banlistId d).1 = false := by
  obtain ⟨hp, hi⟩ := lived_peopled h
  obtain ⟨hp', hi', g⟩ := later_grown hp hi hl
  obtain ⟨calls', log', h'⟩ := (C119_rooms env r').mpr ⟨hp', hi'⟩
  rw [C137_exactly h' r]
  constructor
  · rintro (rfl | ⟨hst', k, -, -⟩)
    · exact ⟨hst, fun _ _ => rfl, rfl, fun t p s s' e1 e2 e3 e4 => by rw [e1] at e2; cases e2; rw [e3] at e4; cases e4⟩
    · refine ⟨hst', fun t p => ?_, sorted_ext hp'.sorted hp.sorted fun x => ⟨k.watchers x, g.watchers x⟩, fun t p s s' e1 e2 e3 e4 => ?_⟩
      · cases e : seat r t p with
        | some x => exact g.seats _ _ _ e
        | none =>
          cases e' : seat r' t p with
          | none => rfl
          | some x => rw [k.seats _ _ _ e'] at e; cases e
      · have := k.decks t p s' s e2 e1 e4 e3
        rwa [g.options] at this
  · rintro ⟨hst', hse, hsp, hd⟩
    refine .inr ⟨hst', ⟨g.options.symm, g.host.symm, g.rng.symm, fun t p x hx => by rw [← hse]; exact hx, fun t p s hs hx => ?_, fun t p s s' e1 e2 e3 e4 => ?_,
      fun x hx => by rw [← hsp]; exact hx⟩, hp, hi⟩
    · have hx' : Shadowed r t p := by
        obtain ⟨y, t', p', hb, h1, h2⟩ := hx
        exact ⟨y, t', p', hb, by rw [← hse]; exact h1, by rw [← hse]; exact h2⟩
      have hlt : p < (r.teams t).length := by
        have := (List.getElem?_eq_some_iff.mp hs).1
        rw [hp'.length] at this
        rw [hp.length]
        exact this
      have e : slotAt r t p = some (r.teams t)[p] := List.getElem?_eq_getElem hlt
      rw [e]
      rw [g.settled t p _ e hx'] at hs
      exact hs
    · rw [g.options]
      exact hd t p s' s e2 e1 e4 e3

/-- **C137.** The host alone can bring the own seat from one state to another that fits exactly if this is not to take back the deck while none is refused. -/
theorem C137_alone (env : Env) (rng : Nat → Nat) (host : ClientId) (o : Options) (s s' : Slot)
    (h : SlotFits (fun d => (env.check o.banlistId d).1) { s with client := some host }) (h' : SlotFits (fun d => (env.check o.banlistId d).1) { s' with client := some host }) :
    Later env (hostOnly rng host o s) (hostOnly rng host o s') ↔ (s.deckValid = true → s'.deckValid = false → ∃ d, (env.check o.banlistId d).1 = false) := by
  obtain ⟨calls, log, hl⟩ := (C119_alone env rng host o s).mpr h
  obtain ⟨calls', log', hl'⟩ := (C119_alone env rng host o s').mpr h'
  obtain ⟨hp', hi'⟩ := lived_peopled hl'
  have at_ : ∀ s t p, slotAt (hostOnly rng host o s) t p = if t = 0 ∧ p = 0 then some { s with client := some host } else if p < 3 then some {} else none :=
    fun s t p => slotAt_first ..
  have hse : ∀ t p, seat (hostOnly rng host o s) t p = seat (hostOnly rng host o s') t p := fun t p => by
    simp only [seat, at_]
    split <;> rfl
  rw [C137_exactly hl]
  constructor
  · intro hx e1 e2
    rcases hx with e | ⟨-, g, -, -⟩
    · have h1 := at_ s' 0 0
      rw [e, at_ s 0 0] at h1
      simp only [and_self, if_true, Option.some.injEq, Slot.mk.injEq] at h1
      rw [h1.1, e2] at e1
      cases e1
    · exact g.decks 0 0 _ _ (at_ s 0 0) (at_ s' 0 0) e1 e2
  · intro hd
    refine .inr ⟨rfl, ⟨rfl, rfl, rfl, fun t p x hx => by rw [← hse]; exact hx, fun t p s1 e1 hx => ?_, fun t p s1 s2 e1 e2 e3 e4 => ?_, fun x hx => hx⟩, hp', hi'⟩
    · obtain ⟨x, t', p', hb, h1, h2⟩ := hx
      simp only [seat, at_] at h1 h2
      by_cases e : t = 0 ∧ p = 0
      · obtain ⟨rfl, rfl⟩ := e
        rcases hb with hb | ⟨_, hb⟩
        · exact absurd (fin2_lt hb).2 (by decide)
        · omega
      · rw [if_neg e] at h2
        split at h2 <;> simp at h2
    · rw [at_] at e1 e2
      split at e1
      · rename_i e
        rw [if_pos e] at e2
        cases e1
        cases e2
        exact hd e3 e4
      · split at e1
        · cases e1; cases e3
        · cases e1

/-! ## Examples -/

/-- A validator that accepts all decks. -/
def anyDeck : Env := ⟨fun _ => {}, fun _ _ => (true, {})⟩

/-- A host that has a deck can be without one again if the validator refuses some deck, and only then. -/
example : Later emptyDecks (hostOnly (fun n => n) 7 {} { deckValid := true }) (hostOnly (fun n => n) 7 {} {}) ∧
    ¬ Later anyDeck (hostOnly (fun n => n) 7 {} { deckValid := true }) (hostOnly (fun n => n) 7 {} {}) ∧
    Later anyDeck (hostOnly (fun n => n) 7 {} {}) (hostOnly (fun n => n) 7 {} { deckValid := true, ready := true }) := by
  refine ⟨?_, ?_, ?_⟩
  · exact (C137_alone _ _ _ _ _ _ ⟨fun _ => rfl, fun e => (by cases e), fun e => (by cases e), fun e => (by cases e)⟩
      ⟨fun e => (by cases e), fun _ => rfl, fun e => (by cases e), fun e => (by cases e)⟩).mpr fun _ _ => ⟨{ main := [1] }, rfl⟩
  · rw [C137_alone _ _ _ _ _ _ ⟨fun _ => rfl, fun e => (by cases e), fun e => (by cases e), fun e => (by cases e)⟩
      ⟨fun e => (by cases e), fun _ => rfl, fun e => (by cases e), fun e => (by cases e)⟩]
    intro h
    obtain ⟨d, hd⟩ := h rfl rfl
    cases hd
  · exact (C137_alone _ _ _ _ _ _ ⟨fun e => (by cases e), fun _ => rfl, fun e => (by cases e), fun e => (by cases e)⟩
      ⟨fun _ => rfl, fun e => (by cases e), fun _ => ⟨{}, rfl⟩, fun _ e => (by cases e)⟩).mpr fun e => by cases e

end Ygo.Props
