import Verif.Lemmas.RoomStart

/-!
# A client's seat, and what may become of a room
-/

set_option linter.unusedSimpArgs false

namespace Ygo
open Ygo.Room Ygo.Spec

/-! ## The seat a client's signals go to -/

theorem findInTeam_first {peer : ClientId} {m : Nat} {t : List Slot} {pos p : Nat} {s : Slot}
    (h : Room.findInTeam peer m t pos = some (p, s)) : ∀ q x, t[q]? = some x → x.client = some peer → p ≤ pos + q := by
  induction t generalizing pos with
  | nil => simp [Room.findInTeam] at h
  | cons a t ih =>
    unfold Room.findInTeam at h
    intro q x hx hc
    by_cases h1 : a.client = some peer
    · simp [h1] at h; omega
    · simp only [h1, if_false] at h
      split at h
      · cases h
      · cases q with
        | zero => simp at hx; subst hx; exact absurd hc h1
        | succ q =>
          have := ih h q x (by simpa using hx) hc
          omega

theorem RoomOk.findPeer_first {env : Env} {r : Room} (h : RoomOk env r) {x : ClientId} {t : Fin 2} {p : Nat} {s : Slot}
    (hf : r.findPeer x = .ok (some (t, p, s))) :
    slotAt r t p = some s ∧ s.client = some x ∧ ∀ t' p', seat r t' p' = some x → ¬ SeatBefore t' p' t p := by
  have key : ∀ {t' : Fin 2} {p' : Nat}, seat r t' p' = some x → ∃ s', slotAt r t' p' = some s' ∧ s'.client = some x ∧ p' < capacity r t' := by
    intro t' p' hp
    simp only [seat, Option.bind_eq_some_iff] at hp
    obtain ⟨s', hs, hc⟩ := hp
    obtain ⟨hle, hok⟩ := h.team t'
    have hlt : p' < duelists r t' := (hok.taken p' s' hs).mp (by simp [hc])
    exact ⟨s', hs, hc, by omega⟩
  unfold Room.findPeer at hf
  simp only [h.max0, h.max1, orUb, bind_ok] at hf
  cases h0 : Room.findInTeam x (capacity r 0) (r.teams 0) 0 with
  | some y =>
    obtain ⟨p0, s0⟩ := y
    simp only [h0] at hf
    cases hf
    obtain ⟨q, hq, hs, hc⟩ := findInTeam_some h0
    simp at hq; subst hq
    refine ⟨hs, hc, ?_⟩
    rintro t' p' hp (hb | ⟨rfl, hb⟩)
    · exact absurd hb (by simp)
    · obtain ⟨s', hs', hc', _⟩ := key hp
      have := findInTeam_first h0 p' s' hs' hc'
      omega
  | none =>
    simp only [h0] at hf
    cases h1 : Room.findInTeam x (capacity r 1) (r.teams 1) 0 with
    | none => simp only [h1] at hf; cases hf
    | some y =>
      obtain ⟨p0, s0⟩ := y
      simp only [h1] at hf
      cases hf
      obtain ⟨q, hq, hs, hc⟩ := findInTeam_some h1
      simp at hq; subst hq
      refine ⟨hs, hc, ?_⟩
      rintro t' p' hp (hb | ⟨rfl, hb⟩)
      · obtain ⟨s', hs', hc', hlt⟩ := key hp
        have : t' = 0 := by
          have : t'.val < 1 := hb
          exact Fin.ext (by simpa using this)
        subst this
        exact findInTeam_none h0 (h.cap 0).1 p' s' hs' (by omega) hc'
      · obtain ⟨s', hs', hc', _⟩ := key hp
        have := findInTeam_first h1 p' s' hs' hc'
        omega

theorem seatBefore_total (t : Fin 2) (p : Nat) (t' : Fin 2) (p' : Nat) : SeatBefore t p t' p' ∨ SeatBefore t' p' t p ∨ (t = t' ∧ p = p') := by
  unfold SeatBefore
  rcases Nat.lt_trichotomy t.val t'.val with h | h | h
  · exact .inl (.inl h)
  · have e : t = t' := Fin.ext h
    subst e
    rcases Nat.lt_trichotomy p p' with h | h | h
    · exact .inl (.inr ⟨rfl, h⟩)
    · exact .inr (.inr ⟨rfl, h⟩)
    · exact .inr (.inl (.inr ⟨rfl, h⟩))
  · exact .inr (.inl (.inl h))

/-- An earliest seat is the one found. -/
theorem RoomOk.finds {env : Env} {r : Room} (h : RoomOk env r) {x : ClientId} {t : Fin 2} {p : Nat} {s : Slot}
    (hs : slotAt r t p = some s) (hc : s.client = some x) (hn : ¬ Shadowed r t p) : r.findPeer x = .ok (some (t, p, s)) := by
  have hseat : seat r t p = some x := by simp [seat, hs, hc]
  rcases h.findPeer x with ⟨t', p', s', h1, h2, h3⟩ | ⟨h1, h2⟩
  · have hseat' : seat r t' p' = some x := by simp [seat, h2, h3]
    rcases seatBefore_total t p t' p' with hb | hb | ⟨rfl, rfl⟩
    · exact absurd hb ((h.findPeer_first h1).2.2 _ _ hseat)
    · exact absurd ⟨x, t', p', hb, hseat', hseat⟩ hn
    · rw [hs] at h2; cases h2; exact h1
  · exact absurd hseat (h2 t p)

/-- The seat found is not shadowed. -/
theorem RoomOk.found_not_shadowed {env : Env} {r : Room} (h : RoomOk env r) {x : ClientId} {t : Fin 2} {p : Nat} {s : Slot}
    (hf : r.findPeer x = .ok (some (t, p, s))) : ¬ Shadowed r t p := by
  rintro ⟨y, t', p', hb, h1, h2⟩
  obtain ⟨hs, hc, hn⟩ := h.findPeer_first hf
  have : seat r t p = some x := by simp [seat, hs, hc]
  rw [this] at h2; cases h2
  exact hn _ _ h1 hb

/-! ## What the signals do -/

theorem step_deck {env : Env} {r : Room} {fuel : Nat} {x : ClientId} {t : Fin 2} {p : Nat} {s : Slot} (hst : r.state = .configuring)
    (hf : r.findPeer x = .ok (some (t, p, s))) (d : Deck) : r.step env fuel (.visit x (.configuring (.updateDeck d))) =
      .ok (if (env.check r.options.banlistId d).1 = true then (r.setSlot t p { s with deck := d, deckValid := true }, [(x, .deckStatus none)])
        else (r.setSlot t p { s with deck := {}, deckValid := false }, [(x, .deckStatus (some (env.check r.options.banlistId d).2))])) := by
  simp only [Room.step, Room.visit, hst, Room.signalConfiguring, Room.updateDeck, hf, bind_ok]
  cases (env.check r.options.banlistId d).1 <;> simp

theorem step_ready {env : Env} {r : Room} {fuel : Nat} {x : ClientId} {t : Fin 2} {p : Nat} {s : Slot} (hst : r.state = .configuring)
    (hf : r.findPeer x = .ok (some (t, p, s))) (b : Bool) : r.step env fuel (.visit x (.configuring (.readyStatus b))) =
      .ok (if b = s.ready ∨ (b = true ∧ s.deckValid = false) then (r, []) else
        (r.setSlot t p { s with ready := b }, (r.setSlot t p { s with ready := b }).sendAll (.updateDuelist (Room.duelist env r.host t p x b)))) := by
  simp only [Room.step, Room.visit, hst, Room.signalConfiguring, Room.readyStatus, hf, bind_ok]
  by_cases h1 : b = s.ready
  · simp [h1]
  · by_cases h2 : b = true ∧ s.deckValid = false
    · simp only [h1, h2, if_false, if_true, false_or, and_self]; simp
    · simp only [h1, h2, if_false, or_self]; rfl

/-- Signals of clients without a seat do nothing. -/
theorem step_unseated {env : Env} {r : Room} {fuel : Nat} {x : ClientId} (hst : r.state = .configuring)
    (hf : r.findPeer x = .ok none) : (∀ d, r.step env fuel (.visit x (.configuring (.updateDeck d))) = .ok (r, [])) ∧
      ∀ b, r.step env fuel (.visit x (.configuring (.readyStatus b))) = .ok (r, []) := by
  constructor <;> intro d <;>
    simp only [Room.step, Room.visit, hst, Room.signalConfiguring, Room.updateDeck, Room.readyStatus, hf, bind_ok] <;> rfl

end Ygo
