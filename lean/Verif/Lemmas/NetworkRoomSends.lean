import Verif.Lemmas.NetworkRoom

/-!
# What rooms send
-/

namespace Ygo.Pb
open Ygo.Spec Ygo.Room

/-- What is told about users and decks. -/
structure EnvHolds (env : Env) : Prop where
  user : ∀ x, UserHolds (env.user x)
  error : ∀ b d, DeckErrorHolds (env.check b d).2

theorem rollDice_holds {rng : Nat → Nat} {fuel used : Nat} {rs : List (Nat × Nat)} {w u : Nat}
    (h : Room.rollDice rng fuel used = some (rs, w, u)) : w ≤ 1 ∧ All (fun r => U32 r.1 ∧ U32 r.2) rs := by
  induction fuel generalizing used rs with
  | zero => cases h
  | succ fuel ih =>
    have h1 : U32 (rng used % 6 + 1) := by simp only [U32]; omega
    have h2 : U32 (rng (used + 1) % 6 + 1) := by simp only [U32]; omega
    simp only [Room.rollDice] at h
    split at h
    · cases h
      refine ⟨by split <;> omega, ?_⟩
      intro r hr
      simp only [List.mem_singleton] at hr
      subst hr
      exact ⟨h1, h2⟩
    · obtain ⟨⟨rs', w', u'⟩, hr, he⟩ := Option.map_eq_some_iff.1 h
      cases he
      obtain ⟨i1, i2⟩ := ih hr
      refine ⟨i1, ?_⟩
      intro r hr
      rcases List.mem_cons.1 hr with rfl | hr
      · exact ⟨h1, h2⟩
      · exact i2 r hr

theorem sendAll_holds {r : Room} {e : Room.Event} (h : RoomEventHolds e) : ∀ m ∈ r.sendAll e, RoomEventHolds m.2 := by
  intro m hm
  simp only [Room.sendAll, List.mem_map] at hm
  obtain ⟨c, _, rfl⟩ := hm
  exact h

theorem enterDeciding_holds {r r' : Room} {fuel : Nat} {out : List Sent} (h : r.enterDeciding fuel = .ok (r', out)) :
    ∀ m ∈ out, RoomEventHolds m.2 := by
  unfold Room.enterDeciding at h
  simp only [pure_eq_ok] at h
  split at h
  · cases h
    intro m hm
    rcases List.mem_append.mp hm with hm | hm
    · exact sendAll_holds (by trivial) _ hm
    · simp at hm; subst hm; trivial
  · split at h
    · cases h
      exact sendAll_holds (by trivial)
    · split at h
      · split at h
        · cases h
        · rename_i rolls w u hr
          obtain ⟨h1, h2⟩ := rollDice_holds hr
          simp only [bind_eq_ok] at h
          obtain ⟨l, hl, h⟩ := h
          cases h
          intro m hm
          rcases List.mem_append.mp hm with hm | hm
          · rcases List.mem_append.mp hm with hm | hm
            · exact sendAll_holds (by trivial) _ hm
            · exact sendAll_holds (e := .result w (.dice rolls)) ⟨by simp only [U32]; omega, h2⟩ _ hm
          · simp at hm; subst hm; trivial
      · split at h
        · simp only [bind_eq_ok] at h
          obtain ⟨l, hl, h⟩ := h
          cases h
          intro m hm
          rcases List.mem_append.mp hm with hm | hm
          · rcases List.mem_append.mp hm with hm | hm
            · exact sendAll_holds (by trivial) _ hm
            · refine sendAll_holds (e := .result (r.rng r.used % 2) (.coin (r.rng r.used % 2))) ⟨by simp only [U32]; omega, ?_⟩ _ hm
              simp only; omega
          · simp at hm; subst hm; trivial
        · split at h
          · cases h
          · cases h
            exact sendAll_holds (by trivial)

theorem duelist_holds {env : Env} (he : EnvHolds env) (host : ClientId) (t : Fin 2) {p : Nat} (hp : p < 2 ^ 32) (c : ClientId) (b : Bool) :
    DuelistHolds (Room.duelist env host t p c b) :=
  ⟨by simp only [Room.duelist, U32]; omega, hp, he.user c⟩

theorem teamDuelists_holds {env : Env} (he : EnvHolds env) (host : ClientId) (t : Fin 2) (k : Nat) (l : List Slot)
    (hl : k + l.length < 2 ^ 32) : All DuelistHolds (Room.teamDuelists env host t k l) := by
  induction l generalizing k with
  | nil => intro x hx; cases hx
  | cons s l ih =>
    simp only [List.length_cons] at hl
    have := ih (k + 1) (by omega)
    unfold Room.teamDuelists
    split
    · intro x hx
      rcases List.mem_cons.1 hx with rfl | hx
      · exact duelist_holds he host t (by omega) _ _
      · exact this x hx
    · exact this

theorem options_hold {env : Env} {r : Room} (h : RoomOk env r) (hf : RulesHold r.options) : OptionsHold r.options := by
  obtain ⟨m0, m1, h1, h2, h3⟩ := h.maxes
  refine ⟨?_, hf⟩
  rw [h1]
  intro x hx
  simp only [List.mem_cons, List.not_mem_nil, or_false] at hx
  simp only [U32]
  rcases hx with rfl | rfl <;> omega

theorem enteringEvent_holds {env : Env} (he : EnvHolds env) {r : Room} (h : RoomOk env r) (hf : RulesHold r.options)
    (hs : r.spectators.length < 2 ^ 32) : RoomEventHolds (enteringEvent env r) := by
  refine ⟨options_hold h hf, ?_, hs⟩
  have h0 := (h.team 0).2.length
  have h1 := (h.team 1).2.length
  intro x hx
  rcases List.mem_append.1 hx with hx | hx
  · exact teamDuelists_holds he _ _ _ _ (by omega) x hx
  · exact teamDuelists_holds he _ _ _ _ (by omega) x hx

theorem length_setInsert (c : ClientId) (l : List ClientId) : (Room.setInsert c l).length ≤ l.length + 1 := by
  induction l with
  | nil => simp [Room.setInsert]
  | cons x l ih =>
    unfold Room.setInsert
    split
    · simp
    · split <;> simp <;> omega

theorem move_options {env : Env} {r r' : Room} {c : Room.Call} {out : List Sent} (m : Move env r c r' out) : r'.options = r.options := by
  cases m with
  | start _ _ h => obtain ⟨⟨_, _, rfl⟩, _⟩ := enterDeciding_ok h; rfl
  | _ => rfl

theorem move_spectators {env : Env} {r r' : Room} {c : Room.Call} {out : List Sent} (m : Move env r c r' out) :
    r'.spectators.length ≤ r.spectators.length + 1 := by
  cases m with
  | start _ _ h => obtain ⟨⟨_, _, rfl⟩, _⟩ := enterDeciding_ok h; exact Nat.le_succ _
  | spectate => exact length_setInsert _ _
  | _ => exact Nat.le_succ _

theorem slotAt_lt {env : Env} {r : Room} (h : RoomOk env r) {t : Fin 2} {p : Nat} {s : Slot} (hs : slotAt r t p = some s) : p < 3 := by
  have := (List.getElem?_eq_some_iff.mp hs).1
  have := (h.team t).2.length
  omega

theorem move_holds {env : Env} (he : EnvHolds env) {r r' : Room} (h : RoomOk env r) (hf : RulesHold r.options)
    (hs : r.spectators.length + 1 < 2 ^ 32) {c : Room.Call} {out : List Sent} (m : Move env r c r' out) :
    ∀ m ∈ out, RoomEventHolds m.2 := by
  have hn := enteringEvent_holds he h hf (by omega)
  cases m with
  | seat _ _ _ h4 =>
    have := slotAt_lt h h4
    intro m hm
    rcases List.mem_cons.1 hm with rfl | hm
    · exact hn
    · refine sendAll_holds ?_ _ hm
      exact duelist_holds he _ _ (by omega) _ _
  | @spectate peer =>
    intro m hm
    rcases List.mem_cons.1 hm with rfl | hm
    · exact hn
    · refine sendAll_holds ?_ _ hm
      have := length_setInsert peer r.spectators
      simp only [RoomEventHolds, U32]; omega
  | goodDeck =>
    intro m hm
    simp only [List.mem_singleton] at hm
    subst hm; trivial
  | badDeck =>
    intro m hm
    simp only [List.mem_singleton] at hm
    subst hm; exact he.error _ _
  | ready _ h2 =>
    have := slotAt_lt h h2
    refine sendAll_holds ?_
    exact duelist_holds he _ _ (by omega) _ _
  | start _ _ h3 => exact enterDeciding_holds h3
  | announce => exact sendAll_holds ⟨by simp only [U32]; omega, trivial⟩
  | nothing => intro m hm; cases hm

theorem lived_sends {env : Env} (he : EnvHolds env) {r : Room} {calls : List Room.Call} {log : List Sent} (h : Lived env r calls log)
    (hf : RulesHold r.options) (hc : calls.length < 2 ^ 32) : ∀ m ∈ log, RoomEventHolds m.2 := by
  refine (lived_induct (P := fun r calls log => r.spectators.length ≤ calls.length ∧
    (RulesHold r.options → calls.length < 2 ^ 32 → ∀ m ∈ log, RoomEventHolds m.2)) ?_ ?_ h).2 hf hc
  · intro rng host o
    exact ⟨Nat.le_refl _, fun _ _ m hm => by cases hm⟩
  · intro r r' cs log c out hok ⟨h1, h2⟩ hm
    refine ⟨?_, ?_⟩
    · have := move_spectators hm
      simp only [List.length_append, List.length_singleton]; omega
    · intro hf hl m hml
      rw [move_options hm] at hf
      simp only [List.length_append, List.length_singleton] at hl
      rcases List.mem_append.1 hml with hml | hml
      · exact h2 hf (by omega) m hml
      · exact move_holds he hok hf (by omega) hm m hml

/-- Calls whose signals only hold numbers that fit their fields. -/
def CallHolds : Room.Call → Prop
  | .enter _ => True
  | .visit _ s => SignalHolds s

theorem lived_decks {env : Env} {r : Room} {calls : List Room.Call} {log : List Sent} (h : Lived env r calls log)
    (hc : ∀ c ∈ calls, CallHolds c) (t : Fin 2) (p : Nat) (s : Slot) (hs : slotAt r t p = some s) : DeckHolds s.deck := by
  have none : DeckHolds ({} : Deck) := by refine ⟨?_, ?_, ?_, ?_⟩ <;> (intro _ h; cases h)
  revert t p s
  refine lived_induct (P := fun r calls log => (∀ c ∈ calls, CallHolds c) → ∀ t p s, slotAt r t p = some s → DeckHolds s.deck) ?_ ?_ h hc
  · intro rng host o _ t p s hs
    simp only [slotAt, emptyRoom, List.getElem?_replicate] at hs
    split at hs <;> simp at hs
    subst hs
    exact none
  · intro r r' cs log c out hok ih hm hc
    have ih := ih fun c h => hc c (by simp [h])
    have hc := hc c (by simp)
    have put : ∀ t p s s', slotAt r t p = some s → DeckHolds s'.deck → ∀ t' p' s'', slotAt (r.setSlot t p s') t' p' = some s'' →
        DeckHolds s''.deck := by
      intro t p s s' hs hd t' p' s'' hs''
      rw [slotAt_setSlot (List.getElem?_eq_some_iff.mp hs).1] at hs''
      split at hs''
      · cases hs''; exact hd
      · exact ih t' p' s'' hs''
    cases hm with
    | seat _ _ _ h4 => have := ih _ _ _ h4; exact put _ _ _ _ h4 this
    | spectate => exact ih
    | goodDeck _ h2 => exact put _ _ _ _ h2 hc
    | badDeck _ h2 => exact put _ _ _ _ h2 none
    | ready _ h2 => have := ih _ _ _ h2; exact put _ _ _ _ h2 this
    | start _ _ h3 => obtain ⟨⟨_, _, rfl⟩, _⟩ := enterDeciding_ok h3; exact ih
    | announce => exact ih
    | nothing => exact ih

end Ygo.Pb
