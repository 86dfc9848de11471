import Verif.Spec.Room

/-!
# Lemmas about rooms
-/

set_option linter.unusedSimpArgs false

namespace Ygo
open Ygo.Room Ygo.Spec

/-- One team of a reachable room: three slots, the first `n` taken, the others untouched. -/
structure TeamOk (t : List Slot) (n : Nat) : Prop where
  length : t.length = 3
  taken : ∀ (p : Nat) (s : Slot), t[p]? = some s → (s.client.isSome = true ↔ p < n)
  untouched : ∀ (p : Nat) (s : Slot), t[p]? = some s → s.client = none → s.ready = false ∧ s.deckValid = false

theorem list3 {α : Type} {l : List α} (h : l.length = 3) : ∃ a b c, l = [a, b, c] := by
  match l, h with
  | [a, b, c], _ => exact ⟨a, b, c, rfl⟩

theorem TeamOk.count {t : List Slot} {n : Nat} (h : TeamOk t n) (hn : n ≤ 3) : t.countP (fun s => s.client.isSome) = n := by
  obtain ⟨a, b, c, rfl⟩ := list3 h.length
  have h0 := h.taken 0 a rfl
  have h1 := h.taken 1 b rfl
  have h2 := h.taken 2 c rfl
  match n, hn with
  | 0, _ => simp at h0 h1 h2; simp [h0, h1, h2]
  | 1, _ => simp at h0 h1 h2; simp [h0, h1, h2, List.countP_cons]
  | 2, _ => simp at h0 h1 h2; simp [h0, h1, h2, List.countP_cons]
  | 3, _ => simp at h0 h1 h2; simp [h0, h1, h2, List.countP_cons]

theorem TeamOk.scan {t : List Slot} {n m : Nat} (h : TeamOk t n) (hm : 1 ≤ m) (hm' : m ≤ 3) (hn : n ≤ m) :
    Room.scanTeam m t 0 0 none = (n, if n < m then some n else none) := by
  obtain ⟨a, b, c, rfl⟩ := list3 h.length
  have h0 := h.taken 0 a rfl
  have h1 := h.taken 1 b rfl
  have h2 := h.taken 2 c rfl
  have : (n = 0 ∨ n = 1 ∨ n = 2 ∨ n = 3) ∧ (m = 1 ∨ m = 2 ∨ m = 3) := by omega
  rcases this with ⟨rfl | rfl | rfl | rfl, rfl | rfl | rfl⟩ <;> simp at h0 h1 h2 hn <;>
    simp [Room.scanTeam, h0, h1, h2]

/-- Invariant of reachable rooms. -/
structure RoomOk (env : Env) (r : Room) : Prop where
  maxes : ∃ m0 m1, r.options.maxDuelists = [m0, m1] ∧ (1 ≤ m0 ∧ m0 ≤ 3) ∧ (1 ≤ m1 ∧ m1 ≤ 3)
  teams : ∀ t, ∃ n, n ≤ capacity r t ∧ TeamOk (r.teams t) n
  decks : ∀ t p s, slotAt r t p = some s → s.deckValid = true → (env.check r.options.banlistId s.deck).1 = true
  state : r.state ≠ .mono
  nodup : r.spectators.Nodup
  sorted : r.spectators.Pairwise (· < ·)

theorem RoomOk.cap {env : Env} {r : Room} (h : RoomOk env r) (t : Fin 2) : 1 ≤ capacity r t ∧ capacity r t ≤ 3 := by
  obtain ⟨m0, m1, h1, h2, h3⟩ := h.maxes
  match t with
  | 0 => simpa [capacity, h1] using h2
  | 1 => simpa [capacity, h1] using h3

theorem RoomOk.team {env : Env} {r : Room} (h : RoomOk env r) (t : Fin 2) :
    duelists r t ≤ capacity r t ∧ TeamOk (r.teams t) (duelists r t) := by
  obtain ⟨n, hn, ht⟩ := h.teams t
  have := h.cap t
  have hc : duelists r t = n := ht.count (by omega)
  rw [hc]
  exact ⟨hn, ht⟩

theorem RoomOk.max0 {env : Env} {r : Room} (h : RoomOk env r) : r.options.maxDuelists[0]? = some (capacity r 0) := by
  obtain ⟨m0, m1, h1, _⟩ := h.maxes
  simp [capacity, h1]

theorem RoomOk.max1 {env : Env} {r : Room} (h : RoomOk env r) : r.options.maxDuelists[1]? = some (capacity r 1) := by
  obtain ⟨m0, m1, h1, _⟩ := h.maxes
  simp [capacity, h1]

/-- Which seat a newcomer gets. -/
def nextSeat (r : Room) : Option (Fin 2 × Nat) :=
  if duelists r 0 < capacity r 0 ∧ (duelists r 0 ≤ duelists r 1 ∨ ¬ duelists r 1 < capacity r 1) then some (0, duelists r 0)
  else if duelists r 1 < capacity r 1 then some (1, duelists r 1)
  else none

theorem RoomOk.findEmpty {env : Env} {r : Room} (h : RoomOk env r) : r.findEmpty = .ok (nextSeat r) := by
  obtain ⟨a1, a2⟩ := h.team 0
  obtain ⟨b1, b2⟩ := h.team 1
  have c0 := h.cap 0
  have c1 := h.cap 1
  have s0 := a2.scan c0.1 c0.2 a1
  have s1 := b2.scan c1.1 c1.2 b1
  simp only [Room.findEmpty, h.max0, h.max1, orUb, bind_ok, s0, s1]
  unfold nextSeat
  by_cases x0 : duelists r 0 < capacity r 0 <;> by_cases x1 : duelists r 1 < capacity r 1 <;>
    by_cases le : duelists r 0 ≤ duelists r 1 <;> simp [x0, x1, le, orAssert]

/-! ## Slots -/

theorem slotAt_setSlot {r : Room} {t t' : Fin 2} {p p' : Nat} {s : Slot} (hp : p < (r.teams t).length) :
    slotAt (r.setSlot t p s) t' p' = if t' = t ∧ p' = p then some s else slotAt r t' p' := by
  unfold slotAt Room.setSlot
  by_cases ht : t' = t
  · subst ht
    simp only [if_true, List.getElem?_set, true_and]
    by_cases hp' : p = p'
    · subst hp'; simp [hp]
    · simp [hp', Ne.symm hp']
  · simp [ht]

theorem TeamOk.set {t : List Slot} {n p : Nat} {s s' : Slot} (h : TeamOk t n) (hs : t[p]? = some s) (hc : s'.client.isSome = s.client.isSome)
    (hu : s'.client = none → s'.ready = false ∧ s'.deckValid = false) : TeamOk (t.set p s') n := by
  constructor
  · simp [h.length]
  · intro q x hx
    rw [List.getElem?_set] at hx
    by_cases hq : p = q
    · subst hq
      obtain ⟨hlt, _⟩ := List.getElem?_eq_some_iff.mp hs
      simp [hlt] at hx
      subst hx
      rw [hc]; exact h.taken p s hs
    · simp [hq] at hx
      exact h.taken q x hx
  · intro q x hx hn
    rw [List.getElem?_set] at hx
    by_cases hq : p = q
    · subst hq
      obtain ⟨hlt, _⟩ := List.getElem?_eq_some_iff.mp hs
      simp [hlt] at hx
      subst hx
      exact hu hn
    · simp [hq] at hx
      exact h.untouched q x hx hn

theorem TeamOk.seat {t : List Slot} {n : Nat} {s : Slot} (h : TeamOk t n) (hs : t[n]? = some s) (c : ClientId) :
    TeamOk (t.set n { s with client := some c }) (n + 1) := by
  constructor
  · simp [h.length]
  · intro q x hx
    rw [List.getElem?_set] at hx
    by_cases hq : n = q
    · subst hq
      obtain ⟨hlt, _⟩ := List.getElem?_eq_some_iff.mp hs
      simp [hlt] at hx
      subst hx
      simp
    · simp [hq] at hx
      rw [h.taken q x hx]; omega
  · intro q x hx hn
    rw [List.getElem?_set] at hx
    by_cases hq : n = q
    · subst hq
      obtain ⟨hlt, _⟩ := List.getElem?_eq_some_iff.mp hs
      simp [hlt] at hx
      subst hx
      simp at hn
    · simp [hq] at hx
      exact h.untouched q x hx hn

/-! ## The set of spectators -/

theorem mem_setInsert {c x : ClientId} {l : List ClientId} : x ∈ Room.setInsert c l ↔ x = c ∨ x ∈ l := by
  induction l with
  | nil => simp [Room.setInsert]
  | cons a l ih =>
    unfold Room.setInsert
    by_cases h1 : c < a
    · simp [h1]
    · by_cases h2 : a < c
      · simp [h1, h2, ih]; constructor <;> rintro (h | h | h) <;> simp [h]
      · have : a = c := Nat.le_antisymm (Nat.le_of_not_lt h1) (Nat.le_of_not_lt h2)
        subst this
        simp [h1]

theorem sorted_setInsert {c : ClientId} {l : List ClientId} (h : l.Pairwise (· < ·)) : (Room.setInsert c l).Pairwise (· < ·) := by
  induction l with
  | nil => simp [Room.setInsert]
  | cons a l ih =>
    rw [List.pairwise_cons] at h
    unfold Room.setInsert
    by_cases h1 : c < a
    · simp only [h1, if_true, List.pairwise_cons]
      refine ⟨?_, h⟩
      intro x hx
      rcases List.mem_cons.mp hx with rfl | hx
      · exact h1
      · exact Nat.lt_trans h1 (h.1 x hx)
    · by_cases h2 : a < c
      · simp only [h1, h2, if_false, if_true, List.pairwise_cons]
        refine ⟨?_, ih h.2⟩
        intro x hx
        rcases mem_setInsert.mp hx with rfl | hx
        · exact h2
        · exact h.1 x hx
      · simp only [h1, h2, if_false, List.pairwise_cons]
        exact h

theorem nodup_of_sorted {l : List ClientId} (h : l.Pairwise (· < ·)) : l.Nodup :=
  h.imp fun h e => absurd h (by simp [e])

/-! ## Finding a client's seat -/

theorem findInTeam_some {peer : ClientId} {m : Nat} {t : List Slot} {pos p : Nat} {s : Slot}
    (h : Room.findInTeam peer m t pos = some (p, s)) : ∃ q, p = pos + q ∧ t[q]? = some s ∧ s.client = some peer := by
  induction t generalizing pos with
  | nil => simp [Room.findInTeam] at h
  | cons a t ih =>
    unfold Room.findInTeam at h
    by_cases h1 : a.client = some peer
    · simp [h1] at h
      obtain ⟨rfl, rfl⟩ := h
      exact ⟨0, rfl, rfl, h1⟩
    · simp only [h1, if_false] at h
      by_cases h2 : pos + 1 = m
      · simp [h2] at h
      · simp only [h2, if_false] at h
        obtain ⟨q, rfl, h3, h4⟩ := ih h
        exact ⟨q + 1, by omega, by simpa using h3, h4⟩

theorem findInTeam_none {peer : ClientId} {m : Nat} {t : List Slot} {pos : Nat} (h : Room.findInTeam peer m t pos = none) (hm : pos < m) :
    ∀ q s, t[q]? = some s → pos + q < m → s.client ≠ some peer := by
  induction t generalizing pos with
  | nil => intro q s hs; simp at hs
  | cons a t ih =>
    unfold Room.findInTeam at h
    by_cases h1 : a.client = some peer
    · simp [h1] at h
    · simp only [h1, if_false] at h
      by_cases h2 : pos + 1 = m
      · intro q s hs hq
        have : q = 0 := by omega
        subst this
        simp at hs; subst hs
        exact h1
      · simp only [h2, if_false] at h
        intro q s hs hq
        cases q with
        | zero => simp at hs; subst hs; exact h1
        | succ q => exact ih h (by omega) q s (by simpa using hs) (by omega)

/-- `findPeer` finds a seat of the client if there is one. -/
theorem RoomOk.findPeer {env : Env} {r : Room} (h : RoomOk env r) (peer : ClientId) :
    (∃ t p s, r.findPeer peer = .ok (some (t, p, s)) ∧ slotAt r t p = some s ∧ s.client = some peer) ∨
    (r.findPeer peer = .ok none ∧ ∀ t p, seat r t p ≠ some peer) := by
  unfold Room.findPeer
  simp only [h.max0, h.max1, orUb, bind_ok]
  cases h0 : Room.findInTeam peer (capacity r 0) (r.teams 0) 0 with
  | some x =>
    obtain ⟨p, s⟩ := x
    obtain ⟨q, hq, hs, hc⟩ := findInTeam_some h0
    simp at hq; subst hq
    exact .inl ⟨0, p, s, rfl, hs, hc⟩
  | none =>
    simp only
    cases h1 : Room.findInTeam peer (capacity r 1) (r.teams 1) 0 with
    | some x =>
      obtain ⟨p, s⟩ := x
      obtain ⟨q, hq, hs, hc⟩ := findInTeam_some h1
      simp at hq; subst hq
      exact .inl ⟨1, p, s, rfl, hs, hc⟩
    | none =>
      refine .inr ⟨rfl, ?_⟩
      intro t p hp
      simp only [seat, Option.bind_eq_some_iff] at hp
      obtain ⟨s, hs, hc⟩ := hp
      obtain ⟨hle, hok⟩ := h.team t
      have hlt : p < duelists r t := (hok.taken p s hs).mp (by simp [hc])
      match t with
      | 0 => exact findInTeam_none h0 (h.cap 0).1 p s hs (by omega) hc
      | 1 => exact findInTeam_none h1 (h.cap 1).1 p s hs (by omega) hc

/-! ## Preservation -/

theorem RoomOk.setSlot {env : Env} {r : Room} {t : Fin 2} {p : Nat} {s s' : Slot} (h : RoomOk env r) (hs : slotAt r t p = some s)
    (hc : s'.client.isSome = s.client.isSome) (hu : s'.client = none → s'.ready = false ∧ s'.deckValid = false)
    (hd : s'.deckValid = true → (env.check r.options.banlistId s'.deck).1 = true) : RoomOk env (r.setSlot t p s') := by
  have hlt : p < (r.teams t).length := (List.getElem?_eq_some_iff.mp hs).1
  refine ⟨h.maxes, ?_, ?_, h.state, h.nodup, h.sorted⟩
  · intro t'
    obtain ⟨n, hn, ht⟩ := h.teams t'
    refine ⟨n, hn, ?_⟩
    by_cases e : t' = t
    · subst e
      simp only [Room.setSlot, if_true]
      exact ht.set hs hc hu
    · simp only [Room.setSlot, e, if_false]; exact ht
  · intro t' p' x hx
    rw [slotAt_setSlot hlt] at hx
    by_cases e : t' = t ∧ p' = p
    · simp [e] at hx; subst hx; exact hd
    · simp only [e, if_false] at hx
      exact h.decks t' p' x hx

theorem RoomOk.newSlot {env : Env} {r : Room} {t : Fin 2} {s : Slot} (h : RoomOk env r) (hs : slotAt r t (duelists r t) = some s)
    (hlt : duelists r t < capacity r t) (c : ClientId) : RoomOk env (r.setSlot t (duelists r t) { s with client := some c }) := by
  have hl : duelists r t < (r.teams t).length := (List.getElem?_eq_some_iff.mp hs).1
  refine ⟨h.maxes, ?_, ?_, h.state, h.nodup, h.sorted⟩
  · intro t'
    obtain ⟨hn, ht⟩ := h.team t'
    by_cases e : t' = t
    · subst e
      refine ⟨duelists r t' + 1, hlt, ?_⟩
      simp only [Room.setSlot, if_true]
      exact ht.seat hs c
    · refine ⟨duelists r t', hn, ?_⟩
      simp only [Room.setSlot, e, if_false]; exact ht
  · intro t' p' x hx
    rw [slotAt_setSlot hl] at hx
    by_cases e : t' = t ∧ p' = duelists r t
    · simp [e] at hx; subst hx; exact h.decks t _ s hs
    · simp only [e, if_false] at hx
      exact h.decks t' p' x hx

theorem nextSeat_some {r : Room} {t : Fin 2} {p : Nat} (h : nextSeat r = some (t, p)) : p = duelists r t ∧ duelists r t < capacity r t := by
  unfold nextSeat at h
  split at h
  · cases h; rename_i h; exact ⟨rfl, h.1⟩
  · split at h
    · cases h; rename_i h; exact ⟨rfl, h⟩
    · cases h

theorem RoomOk.slot {env : Env} {r : Room} (h : RoomOk env r) {t : Fin 2} {p : Nat} (hp : p < 3) : ∃ s, slotAt r t p = some s := by
  have := (h.team t).2.length
  exact ⟨_, List.getElem?_eq_getElem (by omega)⟩

/-- What entering does, while configuring. -/
theorem RoomOk.enterConfiguring {env : Env} {r : Room} (h : RoomOk env r) (peer : ClientId) :
    r.enterConfiguring env peer =
      let first : Sent := (peer, .entering r.options
        (Room.teamDuelists env r.host 0 0 (r.teams 0) ++ Room.teamDuelists env r.host 1 0 (r.teams 1)) r.spectators.length)
      match nextSeat r with
      | some (t, p) =>
        let r' := r.setSlot t p { ((slotAt r t p).getD {}) with client := some peer }
        .ok (r', first :: r'.sendAll (.duelistEnters (Room.duelist env r.host t p peer false)))
      | none =>
        if r.host = peer then .error .assert
        else
          let r' := { r with spectators := Room.setInsert peer r.spectators }
          .ok (r', first :: r'.sendAll (.spectatorCount r'.spectators.length)) := by
  unfold Room.enterConfiguring
  rw [h.findEmpty]
  simp only [bind_ok]
  cases hn : nextSeat r with
  | none =>
    simp only
    by_cases e : r.host = peer
    · simp [e, massert]
    · simp [e, massert]
  | some x =>
    obtain ⟨t, p⟩ := x
    obtain ⟨hp, hlt⟩ := nextSeat_some hn
    have := h.cap t
    obtain ⟨s, hs⟩ := h.slot (t := t) (p := p) (by omega)
    simp only [slotAt] at hs
    simp only [slotAt, hs, orUb, bind_ok, Option.getD_some, pure_eq_ok]
    rfl

end Ygo
