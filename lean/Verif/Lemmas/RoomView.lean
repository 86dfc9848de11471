import Verif.Lemmas.RoomStep

/-!
# Clients' views of a room
-/

set_option linter.unusedSimpArgs false

namespace Ygo
open Ygo.Room Ygo.Spec

theorem inbox_append (x : ClientId) (a b : List Sent) : inbox x (a ++ b) = inbox x a ++ inbox x b := by
  simp [inbox]

theorem inbox_cons (x y : ClientId) (e : Event) (b : List Sent) : inbox x ((y, e) :: b) = if y = x then e :: inbox x b else inbox x b := by
  unfold inbox
  by_cases h : y = x <;> simp [h]

theorem inbox_map (x : ClientId) (l : List ClientId) (e : Event) : inbox x (l.map fun c => (c, e)) = List.replicate (l.count x) e := by
  induction l with
  | nil => rfl
  | cons a l ih =>
    rw [List.map_cons, inbox_cons, ih]
    by_cases h : a = x
    · subst h; simp [List.replicate_succ]
    · simp [h]

theorem mem_teamClients {l : List Slot} {x : ClientId} : x ∈ Room.teamClients l ↔ ∃ p : Nat, (l[p]?).bind (fun s => s.client) = some x := by
  unfold Room.teamClients
  rw [List.mem_filterMap]
  constructor
  · rintro ⟨s, hs, hc⟩
    obtain ⟨p, hp⟩ := List.mem_iff_getElem?.mp hs
    exact ⟨p, by simp [hp, hc]⟩
  · rintro ⟨p, hp⟩
    simp only [Option.bind_eq_some_iff] at hp
    obtain ⟨s, hs, hc⟩ := hp
    exact ⟨s, List.mem_of_getElem? hs, hc⟩

/-- Everybody a message to all goes to. -/
def recipients (r : Room) : List ClientId := Room.teamClients (r.teams 0) ++ Room.teamClients (r.teams 1) ++ r.spectators

theorem mem_recipients {r : Room} {x : ClientId} : x ∈ recipients r ↔ Present r x := by
  unfold recipients Present
  simp only [List.mem_append, mem_teamClients]
  constructor
  · rintro ((⟨p, hp⟩ | ⟨p, hp⟩) | h)
    · exact .inl ⟨0, p, hp⟩
    · exact .inl ⟨1, p, hp⟩
    · exact .inr h
  · rintro (⟨t, p, hp⟩ | h)
    · match t with
      | 0 => exact .inl (.inl ⟨p, hp⟩)
      | 1 => exact .inl (.inr ⟨p, hp⟩)
    · exact .inr h

theorem inbox_sendAll (r : Room) (x : ClientId) (e : Event) : inbox x (r.sendAll e) = List.replicate ((recipients r).count x) e :=
  inbox_map x (recipients r) e

/-- Messages that say the same when repeated. -/
def Stable (e : Event) : Prop := ∀ v : ClientView, (v.learn e).learn e = v.learn e

theorem stable_enters (d : Duelist) : Stable (.duelistEnters d) := by
  intro v
  simp only [ClientView.learn, ClientView.seatDuelist]
  congr 1
  funext t p
  split <;> rfl

theorem stable_update (d : Duelist) : Stable (.updateDuelist d) := stable_enters d

theorem stable_count (n : Nat) : Stable (.spectatorCount n) := fun _ => rfl

theorem foldl_replicate {e : Event} (h : Stable e) (v : ClientView) (n : Nat) :
    (List.replicate (n + 1) e).foldl ClientView.learn v = v.learn e := by
  induction n generalizing v with
  | zero => rfl
  | succ n ih => rw [List.replicate_succ, List.foldl_cons, ih, h]

/-- A message to all changes the view of everyone present, once. -/
theorem learn_sendAll {r : Room} {x : ClientId} {e : Event} (he : Stable e) (hx : Present r x) (v : ClientView) :
    (inbox x (r.sendAll e)).foldl ClientView.learn v = v.learn e := by
  rw [inbox_sendAll]
  have : 0 < (recipients r).count x := List.count_pos_iff.mpr (mem_recipients.mpr hx)
  obtain ⟨n, hn⟩ : ∃ n, (recipients r).count x = n + 1 := ⟨(recipients r).count x - 1, by omega⟩
  rw [hn]
  exact foldl_replicate he v n

/-- Messages without news about seats. -/
theorem learn_other {v : ClientView} {l : List Event} (h : ∀ e ∈ l, ∀ v : ClientView, v.learn e = v) : l.foldl ClientView.learn v = v := by
  induction l generalizing v with
  | nil => rfl
  | cons e l ih =>
    rw [List.foldl_cons, h e (by simp)]
    exact ih fun e' he' => h e' (by simp [he'])

theorem mem_inbox {x : ClientId} {l : List Sent} {e : Event} : e ∈ inbox x l ↔ (x, e) ∈ l := by
  unfold inbox
  simp only [List.mem_map, List.mem_filter, decide_eq_true_eq]
  constructor
  · rintro ⟨⟨y, e'⟩, ⟨h1, h2⟩, h3⟩
    simp at h2 h3; subst h2; subst h3; exact h1
  · intro h; exact ⟨(x, e), ⟨h, rfl⟩, rfl⟩

/-- Finding a duelist in the list of one team. -/
theorem find_teamDuelists (env : Env) (host : ClientId) (t : Fin 2) (l : List Slot) (k t' p : Nat) :
    (Room.teamDuelists env host t k l).find? (fun d => decide (d.team = t' ∧ d.pos = p)) =
      if t' = t.val ∧ k ≤ p then (l[p - k]?).bind (fun s => s.client.map fun c => (⟨t.val, p, env.user c, decide (c = host), s.ready⟩ : Duelist))
      else none := by
  induction l generalizing k with
  | nil => simp [Room.teamDuelists]
  | cons s l ih =>
    unfold Room.teamDuelists
    cases hc : s.client with
    | some c =>
      simp only [List.find?_cons, Room.duelist]
      by_cases h : t.val = t' ∧ k = p
      · obtain ⟨rfl, rfl⟩ := h
        simp [hc]
      · simp only [h, decide_false]
        rw [ih]
        by_cases ht : t' = t.val
        · subst ht
          by_cases hk : k + 1 ≤ p
          · have hk' : k ≤ p := by omega
            have : p - k = (p - (k + 1)) + 1 := by omega
            simp [hk, hk', this]
          · have hk' : ¬ k ≤ p := by
              have : k ≠ p := fun e => h ⟨rfl, e⟩
              omega
            simp [hk, hk']
        · simp [ht]
    | none =>
      rw [ih]
      by_cases ht : t' = t.val
      · subst ht
        by_cases hk : k + 1 ≤ p
        · have hk' : k ≤ p := by omega
          have : p - k = (p - (k + 1)) + 1 := by omega
          simp [hk, hk', this]
        · by_cases hk' : k ≤ p
          · have : p = k := by omega
            subst this
            have : ¬ p + 1 ≤ p := by omega
            simp [hc, this]
          · simp [hk, hk']
      · simp [ht]

/-- The first message tells the truth. -/
theorem learn_entering (env : Env) (r : Room) (v : ClientView) : v.learn (enteringEvent env r) = truth env r := by
  unfold enteringEvent
  simp only [ClientView.learn, truth]
  congr 1
  funext t p
  rw [List.find?_append, find_teamDuelists, find_teamDuelists]
  simp only [slotAt]
  by_cases h0 : t = 0
  · subst h0; simp
  · by_cases h1 : t = 1
    · subst h1; simp
    · have : ¬ t < 2 := by omega
      simp [h0, h1, this]

/-- Changing one slot is one message's worth of truth. -/
theorem truth_setSlot {env : Env} {r : Room} {t : Fin 2} {p : Nat} {s : Slot} {c : ClientId} (hp : p < (r.teams t).length)
    (hc : s.client = some c) : truth env (r.setSlot t p s) = (truth env r).seatDuelist (Room.duelist env r.host t p c s.ready) := by
  simp only [truth, ClientView.seatDuelist, Room.duelist]
  have hs : (r.setSlot t p s).spectators = r.spectators := rfl
  have ho : (r.setSlot t p s).options = r.options := rfl
  have hh : (r.setSlot t p s).host = r.host := rfl
  rw [hs, ho, hh]
  congr 1
  funext t' p'
  by_cases h2 : t' < 2
  · simp only [h2, dif_pos]
    rw [slotAt_setSlot hp]
    by_cases e : t' = t.val ∧ p' = p
    · obtain ⟨rfl, rfl⟩ := e
      simp [hc]
    · have : ¬ ((⟨t', h2⟩ : Fin 2) = t ∧ p' = p) := by
        rintro ⟨h, h'⟩; exact e ⟨by rw [← h], h'⟩
      simp only [e, this, if_false]
  · have : ¬ (t' = t.val ∧ p' = p) := by
      rintro ⟨h, _⟩; have := t.isLt; omega
    simp [h2, this]

theorem truth_setSlot_same {env : Env} {r : Room} {t : Fin 2} {p : Nat} {s s' : Slot} (hs : slotAt r t p = some s)
    (hc : s'.client = s.client) (hr : s'.ready = s.ready) : truth env (r.setSlot t p s') = truth env r := by
  have hp : p < (r.teams t).length := (List.getElem?_eq_some_iff.mp hs).1
  simp only [truth]
  have h1 : (r.setSlot t p s').spectators = r.spectators := rfl
  have h2 : (r.setSlot t p s').options = r.options := rfl
  have h3 : (r.setSlot t p s').host = r.host := rfl
  rw [h1, h2, h3]
  congr 1
  funext t' p'
  by_cases h2 : t' < 2
  · simp only [h2, dif_pos]
    rw [slotAt_setSlot hp]
    by_cases e : (⟨t', h2⟩ : Fin 2) = t ∧ p' = p
    · obtain ⟨rfl, rfl⟩ := e
      simp [hs, hc, hr]
    · simp only [e, if_false]
  · simp [h2]

theorem present_setSlot_same {r : Room} {t : Fin 2} {p : Nat} {s s' : Slot} (hs : slotAt r t p = some s) (hc : s'.client = s.client)
    (x : ClientId) : Present (r.setSlot t p s') x ↔ Present r x := by
  unfold Present
  simp only [seat_setSlot_same hs hc]
  rfl

theorem knows_append (x : ClientId) (a b : List Sent) : knows x (a ++ b) = (inbox x b).foldl ClientView.learn (knows x a) := by
  simp [knows, inbox_append]

/-- Everyone present knows the truth, at all times. -/
theorem moved_knows {env : Env} {r : Room} {cs : List Room.Call} {log : List Sent} (h : Moved env r cs log) :
    ∀ x, Present r x → knows x log = truth env r := by
  refine moved_induct (P := fun r _ log => ∀ x, Present r x → knows x log = truth env r) ?_ ?_ h
  · rintro rng host o x (⟨t, p, hp⟩ | hx)
    · simp only [seat, slotAt, emptyRoom, List.getElem?_replicate] at hp
      split at hp <;> simp at hp
    · simp [emptyRoom] at hx
  · intro r r' cs log c out hok ih m x hx
    rw [knows_append]
    cases m with
    | @seat peer t s h1 h2 h3 h4 =>
      have hp : duelists r t < (r.teams t).length := (List.getElem?_eq_some_iff.mp h4).1
      have hnone : s.client = none := by
        have := hok.seat_none (t := t) (Nat.le_refl (duelists r t))
        simpa [seat, h4] using this
      have hready := ((hok.team t).2.untouched _ s h4 hnone).1
      have key : (truth env r).learn (.duelistEnters (Room.duelist env r.host t (duelists r t) peer false)) =
          truth env (r.setSlot t (duelists r t) { s with client := some peer }) := by
        rw [truth_setSlot hp (s := { s with client := some peer }) (c := peer) rfl]
        simp only [ClientView.learn, hready]
      rw [inbox_cons]
      by_cases e : peer = x
      · simp only [e, if_true, List.foldl_cons]
        rw [learn_entering, learn_sendAll (stable_enters _) (e ▸ hx), ← e, key]
      · simp only [e, if_false]
        have hpre : Present r x := by
          rcases hx with ⟨t', p', hx⟩ | hx
          · rw [seat_setSlot hp] at hx
            split at hx
            · simp at hx; exact absurd hx e
            · exact .inl ⟨t', p', hx⟩
          · exact .inr hx
        rw [learn_sendAll (stable_enters _) hx, ih x hpre, key]
    | @spectate peer h1 h2 =>
      have key : (truth env r).learn (.spectatorCount (Room.setInsert peer r.spectators).length) =
          truth env { r with spectators := Room.setInsert peer r.spectators } := rfl
      rw [inbox_cons]
      by_cases e : peer = x
      · simp only [e, if_true, List.foldl_cons]
        rw [learn_entering, learn_sendAll (stable_count _) (e ▸ hx), ← e, key]
      · simp only [e, if_false]
        have hpre : Present r x := by
          rcases hx with hx | hx
          · exact .inl hx
          · rcases mem_setInsert.mp hx with hx | hx
            · exact absurd hx.symm e
            · exact .inr hx
        rw [learn_sendAll (stable_count _) hx, ih x hpre, key]
    | goodDeck h1 h2 h3 h4 =>
      rw [truth_setSlot_same h2 (by rfl) (by rfl), learn_other, ih x ((present_setSlot_same h2 (by rfl) x).mp hx)]
      intro e he
      rw [mem_inbox] at he
      simp at he; rw [he.2]; intro v; rfl
    | badDeck h1 h2 h3 h4 =>
      rw [truth_setSlot_same h2 (by rfl) (by rfl), learn_other, ih x ((present_setSlot_same h2 (by rfl) x).mp hx)]
      intro e he
      rw [mem_inbox] at he
      simp at he; rw [he.2]; intro v; rfl
    | @ready peer b t p s h1 h2 h3 h4 h5 =>
      have hp : p < (r.teams t).length := (List.getElem?_eq_some_iff.mp h2).1
      rw [learn_sendAll (stable_update _) hx, ih x ((present_setSlot_same h2 (by rfl) x).mp hx)]
      rw [truth_setSlot hp (s := { s with ready := b }) (c := peer) h3]
      rfl
    | start h1 h2 h3 =>
      obtain ⟨⟨d, u, rfl⟩, hm⟩ := enterDeciding_ok h3
      rw [learn_other]
      · exact ih x hx
      · intro e he v
        rw [mem_inbox] at he
        rcases hm _ he with h | h | ⟨w, t, h⟩ <;> simp at h <;> rw [h] <;> rfl
    | announce h1 h2 h3 =>
      rw [learn_other, ih x hx]
      intro e he v
      rw [inbox_sendAll] at he
      rw [List.eq_of_mem_replicate he]; rfl
    | nothing => exact ih x hx

theorem lived_knows {env : Env} {r : Room} {cs : List Room.Call} {log : List Sent} (h : Lived env r cs log) :
    ∀ x, Present r x → knows x log = truth env r := moved_knows (lived_moved h)

end Ygo
