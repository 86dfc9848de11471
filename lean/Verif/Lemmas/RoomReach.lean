import Verif.Spec.RoomReach
import Verif.Lemmas.RoomStates

/-!
# What a room can still become
-/

namespace Ygo
open Ygo.Spec Ygo.Room

theorem _root_.Ygo.Spec.Shadowed.grown {check : Deck → Bool} {r r' : Room} (g : Grown check r r') {t : Fin 2} {p : Nat} (h : Shadowed r t p) : Shadowed r' t p := by
  obtain ⟨x, t', p', hb, h1, h2⟩ := h
  exact ⟨x, t', p', hb, g.seats _ _ _ h1, g.seats _ _ _ h2⟩

theorem _root_.Ygo.Spec.Grown.refl (check : Deck → Bool) (r : Room) : Grown check r r :=
  ⟨rfl, rfl, rfl, fun _ _ _ h => h, fun _ _ _ h _ => h, fun t p s s' h1 h2 h3 h4 => (by rw [h1] at h2; cases h2; rw [h3] at h4; cases h4), fun _ h => h⟩

theorem _root_.Ygo.Spec.Grown.same {check : Deck → Bool} {r r' : Room} (ho : r'.options = r.options) (hh : r'.host = r.host) (hr : r'.rng = r.rng)
    (ht : r'.teams = r.teams) (hs : ∀ x ∈ r.spectators, x ∈ r'.spectators) : Grown check r r' := by
  have e : ∀ t p, slotAt r' t p = slotAt r t p := fun t p => by simp only [slotAt, ht]
  refine ⟨ho, hh, hr, fun t p x h => by rw [seat, e]; exact h, fun t p s h _ => by rw [e]; exact h, fun t p s s' h1 h2 h3 h4 => ?_, hs⟩
  rw [e, h1] at h2
  cases h2
  rw [h3] at h4
  cases h4

theorem _root_.Ygo.Spec.Grown.trans {check : Deck → Bool} {r r' r'' : Room} (h : Grown check r r') (k : Grown check r' r'')
    (hl : ∀ t p s, slotAt r t p = some s → ∃ s', slotAt r' t p = some s') : Grown check r r'' := by
  refine ⟨k.options.trans h.options, k.host.trans h.host, k.rng.trans h.rng, fun t p x hx => k.seats _ _ _ (h.seats _ _ _ hx),
    fun t p s hs hx => k.settled _ _ _ (h.settled _ _ _ hs hx) (hx.grown h), fun t p s s' h1 h2 h3 h4 => ?_, fun x hx => k.watchers _ (h.watchers _ hx)⟩
  obtain ⟨s1, e1⟩ := hl t p s h1
  cases e : s1.deckValid with
  | true => exact k.decks t p s1 s' e1 h2 e h4
  | false => exact h.decks t p s s1 h1 e1 h3 e

/-- One call. -/
theorem grown_step {env : Env} {r r' : Room} {fuel : Nat} {c : Room.Call} {out : List Sent} (h : Peopled env r) (hi : InPhase r)
    (hs : r.step env fuel c = .ok (r', out)) : Grown (fun d => (env.check r.options.banlistId d).1) r r' := by
  have hst0 : r.state ≠ .mono := by intro e; simp only [InPhase, e] at hi
  have hok := h.ok hst0
  cases hst : r.state with
  | mono => exact absurd hst hst0
  | deciding d =>
    have : r' = r := by
      cases c with
      | enter x => simp only [Room.step, Room.enter, hst] at hs; cases hs; rfl
      | visit x w =>
        obtain ⟨o, e⟩ := visit_deciding (env := env) (fuel := fuel) hst x w
        rw [e] at hs
        cases hs
        rfl
    subst this
    exact .refl _ _
  | configuring =>
    have hu := hi.set hst
    cases c with
    | enter x =>
      simp only [Room.step, Room.enter, hst] at hs
      rw [hok.enterConfiguring] at hs
      cases hn : nextSeat r with
      | none =>
        simp only [hn] at hs
        by_cases e : r.host = x
        · simp only [e, if_true] at hs; cases hs
        · simp only [e, if_false] at hs
          cases hs
          exact .same rfl rfl rfl rfl fun y hy => mem_setInsert.mpr (.inr hy)
      | some y =>
        obtain ⟨t, p⟩ := y
        obtain ⟨rfl, hlt⟩ := nextSeat_some hn
        simp only [hn] at hs
        cases hs
        obtain ⟨s, h1, h2⟩ := hok.free hn
        have hfree := h.free t _ s h1 h2
        rw [h1, hfree]
        have hp := (List.getElem?_eq_some_iff.mp h1).1
        have hno : seat r t (duelists r t) = none := by simp [seat, h1, h2]
        refine ⟨rfl, rfl, rfl, fun t' p' y hy => ?_, fun t' p' s' hs' hx => ?_, fun t' p' s1 s2 e1 e2 e3 e4 => ?_, fun _ h => h⟩
        · rw [seat_setSlot hp]
          split
          · rename_i e; obtain ⟨rfl, rfl⟩ := e; rw [hno] at hy; cases hy
          · exact hy
        · rw [slotAt_setSlot hp]
          split
          · rename_i e; obtain ⟨rfl, rfl⟩ := e
            obtain ⟨z, _, _, _, _, hz⟩ := hx
            rw [hno] at hz; cases hz
          · exact hs'
        · rw [slotAt_setSlot hp] at e2
          split at e2
          · rename_i e; obtain ⟨rfl, rfl⟩ := e
            rw [h1] at e1; cases e1
            rw [hfree] at e3; cases e3
          · rw [e1] at e2; cases e2; rw [e3] at e4; cases e4
    | visit x w =>
      simp only [Room.step, Room.visit, hst] at hs
      cases w with
      | unset => cases hs; exact .refl _ _
      | deciding _ => cases hs; exact .refl _ _
      | configuring k =>
        dsimp only at hs
        by_cases hk : ∃ b, k = .startDueling b
        · obtain ⟨b, rfl⟩ := hk
          simp only [Room.signalConfiguring, Room.startDueling] at hs
          split at hs
          · cases hs; exact .refl _ _
          · split at hs
            · cases hs; exact .refl _ _
            · rename_i hc
              have hsb : Startable r := canStart_iff.mp (by simpa using hc)
              obtain ⟨d, u, rfl, hdec⟩ := hok.decided hu hsb hs
              exact .same rfl rfl rfl rfl fun _ h => h
        · have hk' : ∀ b, k ≠ .startDueling b := fun b e => hk ⟨b, e⟩
          rcases conf_form (fuel := fuel) hok x k hk' with ⟨_, e⟩ | ⟨t, p, s, hf, h1, h2, e⟩
          · rw [e] at hs; cases hs; exact .refl _ _
          · rw [e] at hs
            cases hs
            have hp := (List.getElem?_eq_some_iff.mp h1).1
            refine ⟨rfl, rfl, rfl, fun t' p' y hy => by rw [seat_setSlot_same h1 (prepared_client ..)]; exact hy, fun t' p' s' hs' hx => ?_,
              fun t' p' s1 s2 e1 e2 e3 e4 => ?_, fun _ h => h⟩
            · rw [slotAt_setSlot hp]
              split
              · rename_i e; obtain ⟨rfl, rfl⟩ := e
                exact absurd hx (hok.found_not_shadowed hf)
              · exact hs'
            · rw [slotAt_setSlot hp] at e2
              split at e2
              · rename_i e; obtain ⟨rfl, rfl⟩ := e
                rw [h1] at e1; cases e1
                cases e2
                cases k with
                | unset => simp only [prepared] at e4; rw [e3] at e4; cases e4
                | startDueling b => exact absurd rfl (hk' b)
                | readyStatus b => 
                  simp only [prepared] at e4
                  split at e4
                  · rw [e3] at e4; cases e4
                  · split at e4 <;> (try dsimp only at e4) <;> (rw [e3] at e4; cases e4)
                | updateDeck d =>
                  simp only [prepared] at e4
                  split at e4
                  · cases e4
                  · rename_i hd; exact ⟨d, by simpa using hd⟩
              · rw [e1] at e2; cases e2; rw [e3] at e4; cases e4

/-- Comes about, and out of the first room. -/
def Arises (env : Env) (r0 r : Room) : Prop := Later env r0 r ∧ Comes env r

theorem Arises.step {env : Env} {r0 r r' : Room} {fuel : Nat} {c : Room.Call} {out : List Sent} (h : Arises env r0 r) (hs : r.step env fuel c = .ok (r', out)) :
    Arises env r0 r' := ⟨.step h.1 hs, h.2.step hs⟩

theorem Arises.enter {env : Env} {r0 r r' : Room} {x : ClientId} {out : List Sent} (h : Arises env r0 r) (hst : r.state = .configuring)
    (he : r.enterConfiguring env x = .ok (r', out)) : Arises env r0 r' :=
  h.step (fuel := 0) (c := .enter x) (by simp only [Room.step, Room.enter, hst]; exact he)

theorem Arises.say {env : Env} {r0 r : Room} {t : Fin 2} {p : Nat} {s : Slot} {x : ClientId} (h : Arises env r0 r) (hst : r.state = .configuring)
    (hs : slotAt r t p = some s) (hc : s.client = some x) (hn : ¬ Shadowed r t p) (k : ConfSignal) (hk : ∀ b, k ≠ .startDueling b) :
    Arises env r0 (r.setSlot t p (prepared env r.options.banlistId k s)) := by
  obtain ⟨hl, cs, log, hc'⟩ := h
  have hok := lived_ok hc'
  have hf := hok.finds hs hc hn
  rcases conf_form (fuel := 0) hok x k hk with ⟨e, _⟩ | ⟨t', p', s', hf', _, _, e⟩
  · rw [hf] at e; cases e
  · rw [hf] at hf'
    cases hf'
    exact Arises.step (fuel := 0) (c := .visit x (.configuring k)) ⟨hl, cs, log, hc'⟩ (by simp only [Room.step, Room.visit, hst]; exact e)

theorem Arises.sayMore {env : Env} {r0 r : Room} {t : Fin 2} {p : Nat} {s s' : Slot} {x : ClientId} (hst : r.state = .configuring)
    (hs : slotAt r t p = some s) (hc : s.client = some x) (hn : ¬ Shadowed r t p) (hc' : s'.client = some x) (h : Arises env r0 (r.setSlot t p s')) (k : ConfSignal)
    (hk : ∀ b, k ≠ .startDueling b) : Arises env r0 (r.setSlot t p (prepared env r.options.banlistId k s')) := by
  have hp : p < (r.teams t).length := (List.getElem?_eq_some_iff.mp hs).1
  have := h.say (t := t) (p := p) (s := s') hst (by rw [slotAt_setSlot hp]; simp) hc' (by rw [shadowed_setSlot hs (hc'.trans hc.symm)]; exact hn) k hk
  rwa [setSlot_twice] at this

/-- A duelist can bring the own seat from any state to any other that fits, but for taking back the deck when none is refused. -/
theorem Arises.adapt {env : Env} {r0 r : Room} {t : Fin 2} {p : Nat} {s0 s : Slot} {x : ClientId} (h : Arises env r0 r) (hst : r.state = .configuring)
    (hs : slotAt r t p = some s0) (hc0 : s0.client = some x) (hn : ¬ Shadowed r t p) (hc : s.client = some x)
    (hf : SlotFits (fun d => (env.check r.options.banlistId d).1) s) (hb : s0.deckValid = true → s.deckValid = false → ∃ d, (env.check r.options.banlistId d).1 = false)
    (hblank : s0.deckValid = false → s0.deck = {}) : Arises env r0 (r.setSlot t p s) := by
  have say := fun (s' : Slot) (hc' : s'.client = some x) (h' : Arises env r0 (r.setSlot t p s')) => Arises.sayMore hst hs hc0 hn hc' h'
  have start : Arises env r0 (r.setSlot t p s0) := by rw [setSlot_self hs]; exact h
  obtain ⟨v, q, c, d⟩ := s
  obtain ⟨v0, q0, c0, d0⟩ := s0
  dsimp only at hc hc0
  subst hc hc0
  have good : ∀ d', (env.check r.options.banlistId d').1 = true → Arises env r0 (r.setSlot t p { client := some x, deck := d', deckValid := true, ready := q0 }) := by
    intro d' hd
    have := say _ rfl start (.updateDeck d') (by simp)
    simpa only [prepared, hd, if_true] using this
  have either : ∀ d' q', (env.check r.options.banlistId d').1 = true → Arises env r0 (r.setSlot t p { client := some x, deck := d', deckValid := true, ready := q' }) := by
    intro d' q' hd
    have := say _ rfl (good d' hd) (.readyStatus q') (by simp)
    by_cases e : q' = q0
    · subst e; exact good d' hd
    · simpa [prepared, e] using this
  have calm : Arises env r0 (r.setSlot t p { client := some x, deck := d0, deckValid := v0, ready := false }) := by
    cases q0 with
    | false => exact start
    | true => simpa [prepared] using say _ rfl start (.readyStatus false) (by simp)
  cases v with
  | true => exact either d q (hf.accepted rfl)
  | false =>
    have hd : d = {} := hf.none rfl
    subst hd
    cases q with
    | true =>
      obtain ⟨d1, h1⟩ := hf.ready rfl
      obtain ⟨d2, h2⟩ := hf.late rfl rfl
      have := say _ rfl (either d1 true h1) (.updateDeck d2) (by simp)
      simpa [prepared, h2] using this
    | false =>
      cases v0 with
      | true =>
        obtain ⟨d2, h2⟩ := hb rfl rfl
        have := say _ rfl calm (.updateDeck d2) (by simp)
        simpa [prepared, h2] using this
      | false =>
        have : d0 = {} := hblank rfl
        subst this
        exact calm

theorem lived_state {env : Env} {r : Room} (h : Comes env r) : Peopled env r ∧ InPhase r := by
  obtain ⟨cs, log, h⟩ := h
  exact lived_peopled h

/-- With the same people, everybody can do what is left to do. -/
theorem Arises.settle {env : Env} {r0 r : Room} (hp : Peopled env r) (hst : r.state = .configuring) (hu : r.used = 0) (L : List (Fin 2 × Nat)) :
    ∀ {q : Room}, Arises env r0 q → q.state = .configuring → Grown (fun d => (env.check r.options.banlistId d).1) q r → (∀ t p, seat q t p = seat r t p) →
      q.spectators = r.spectators → (∀ t p, (t, p) ∉ L → slotAt q t p = slotAt r t p) → Arises env r0 r := by
  induction L with
  | nil =>
    intro q h hq g hse hsp hsl
    have hi := (lived_state h.2).2.set hq
    have : q = r := room_ext g.options.symm g.host.symm (fun t p => hsl t p (by simp)) hsp (hq.trans hst.symm) g.rng.symm (hi.trans hu.symm)
    rw [← this]
    exact h
  | cons y L ih =>
    intro q h hq g hse hsp hsl
    obtain ⟨t, p⟩ := y
    have hpq := (lived_state h.2).1
    have agree : slotAt q t p = slotAt r t p → Arises env r0 r := by
      intro e
      refine ih h hq g hse hsp fun t' p' hx => ?_
      by_cases e' : (t', p') = (t, p)
      · cases e'; exact e
      · exact hsl t' p' (by simp only [List.mem_cons, not_or]; exact ⟨e', hx⟩)
    by_cases h3 : p < 3
    · have hlq : p < (q.teams t).length := by rw [hpq.length]; exact h3
      have hlr : p < (r.teams t).length := by rw [hp.length]; exact h3
      obtain ⟨s0, hs0⟩ : ∃ s, slotAt q t p = some s := ⟨_, List.getElem?_eq_getElem hlq⟩
      obtain ⟨s, hs⟩ : ∃ s, slotAt r t p = some s := ⟨_, List.getElem?_eq_getElem hlr⟩
      have hcc : s0.client = s.client := by
        have := hse t p
        simpa [seat, hs0, hs] using this
      cases hc : s0.client with
      | none =>
        refine agree ?_
        rw [hs0, hs, hpq.free t p s0 hs0 hc, hp.free t p s hs (hcc ▸ hc)]
      | some x =>
        by_cases hsh : Shadowed q t p
        · exact agree (by rw [hs0, g.settled t p s0 hs0 hsh])
        · have hne : s.client ≠ none := by rw [← hcc, hc]; simp
          have hne0 : s0.client ≠ none := by rw [hc]; simp
          have ho : q.options = r.options := g.options.symm
          have a := h.adapt (s := s) hq hs0 hc hsh (hcc ▸ hc) (by rw [ho]; exact hp.taken t p s hs hne)
            (by rw [ho]; exact g.decks t p s0 s hs0 hs) (hpq.taken t p s0 hs0 hne0).none
          have hsl' : ∀ t' p', slotAt (q.setSlot t p s) t' p' = if t' = t ∧ p' = p then some s else slotAt q t' p' := fun t' p' => slotAt_setSlot hlq
          have hse' : ∀ t' p', seat (q.setSlot t p s) t' p' = seat q t' p' := fun t' p' => seat_setSlot_same hs0 hcc.symm _ _
          refine ih a hq ⟨g.options, g.host, g.rng, fun t' p' y hy => g.seats _ _ _ (by rw [← hse']; exact hy), fun t' p' s' e1 hx => ?_,
            fun t' p' s1 s2 e1 e2 e3 e4 => ?_, g.watchers⟩ (fun t' p' => (hse' t' p').trans (hse t' p')) hsp fun t' p' hx => ?_
          · rw [hsl'] at e1
            split at e1
            · rename_i e; obtain ⟨rfl, rfl⟩ := e; rw [← e1]; exact hs
            · exact g.settled t' p' s' e1 ((shadowed_setSlot hs0 hcc.symm t' p').mp hx)
          · rw [hsl'] at e1
            split at e1
            · rename_i e; obtain ⟨rfl, rfl⟩ := e
              rw [hs] at e2; cases e1; cases e2; rw [e3] at e4; cases e4
            · exact g.decks t' p' s1 s2 e1 e2 e3 e4
          · rw [hsl']
            split
            · rename_i e; obtain ⟨rfl, rfl⟩ := e; exact hs.symm
            · rename_i e
              exact hsl t' p' (by simp only [List.mem_cons, not_or]; exact ⟨fun e' => e (by cases e'; exact ⟨rfl, rfl⟩), hx⟩)
    · refine agree ?_
      rw [show slotAt q t p = none from List.getElem?_eq_none (by rw [hpq.length]; omega), show slotAt r t p = none from List.getElem?_eq_none (by rw [hp.length]; omega)]

theorem setInsert_erase {x : ClientId} : ∀ {xs : List ClientId}, xs.Pairwise (· < ·) → x ∈ xs → Room.setInsert x (xs.erase x) = xs
  | [], _, h => by cases h
  | y :: ys, hs, h => by
    obtain ⟨h1, h2⟩ := List.pairwise_cons.mp hs
    by_cases e : y = x
    · subst e
      rw [List.erase_cons_head]
      cases ys with
      | nil => rfl
      | cons z zs => simp [Room.setInsert, h1 z (.head _)]
    · have hx : x ∈ ys := by cases h with | head => exact absurd rfl e | tail _ h => exact h
      have hlt := h1 x hx
      rw [List.erase_cons_tail (by simpa using e)]
      simp only [Room.setInsert, Nat.lt_asymm hlt, if_false, hlt, if_true, setInsert_erase h2 hx]

theorem sorted_ext {xs ys : List ClientId} (hx : xs.Pairwise (· < ·)) (hy : ys.Pairwise (· < ·)) (h : ∀ x, x ∈ xs ↔ x ∈ ys) : xs = ys := by
  induction xs generalizing ys with
  | nil =>
    cases ys with
    | nil => rfl
    | cons y ys => exact absurd ((h y).mpr (.head _)) (by simp)
  | cons x xs ih =>
    cases ys with
    | nil => exact absurd ((h x).mp (.head _)) (by simp)
    | cons y ys =>
      obtain ⟨a1, a2⟩ := List.pairwise_cons.mp hx
      obtain ⟨b1, b2⟩ := List.pairwise_cons.mp hy
      have e : x = y := by
        have h1 := (h x).mp (.head _)
        have h2 := (h y).mpr (.head _)
        rcases List.mem_cons.mp h1 with e | h1
        · exact e
        · rcases List.mem_cons.mp h2 with e | h2
          · exact e.symm
          · exact absurd (b1 x h1) (Nat.lt_asymm (a1 y h2))
      subst e
      congr 1
      refine ih a2 b2 fun z => ⟨fun hz => ?_, fun hz => ?_⟩
      · rcases List.mem_cons.mp ((h z).mp (.tail _ hz)) with e | h1
        · exact absurd (a1 z hz) (by rw [e]; exact Nat.lt_irrefl _)
        · exact h1
      · rcases List.mem_cons.mp ((h z).mpr (.tail _ hz)) with e | h1
        · exact absurd (b1 z hz) (by rw [e]; exact Nat.lt_irrefl _)
        · exact h1

theorem duelists_le_of_seats {env : Env} {r r' : Room} (h : Peopled env r) (h' : Peopled env r') (hs : ∀ t p x, seat r t p = some x → seat r' t p = some x) (t : Fin 2) :
    duelists r t ≤ duelists r' t := by
  rcases Nat.eq_zero_or_pos (duelists r t) with e | e
  · omega
  · have h1 := (h.front t (duelists r t - 1)).mpr (by omega)
    obtain ⟨x, hx⟩ := Option.isSome_iff_exists.mp h1
    have h2 := (h'.front t (duelists r t - 1)).mp (by rw [hs _ _ _ hx]; rfl)
    omega

/-- All that has grown out of a room comes of it, before the start. -/
theorem arises_of {env : Env} {r0 : Room} (h0 : Comes env r0) (hst0 : r0.state = .configuring) (n : Nat) : ∀ {r : Room}, people r ≤ n → Peopled env r →
    r.state = .configuring → r.used = 0 → Grown (fun d => (env.check r0.options.banlistId d).1) r0 r → Arises env r0 r := by
  have hp0 := (lived_state h0).1
  induction n with
  | zero =>
    intro r hn h
    have hpos : 0 < duelists r 0 := by rw [← h.front, h.host]; rfl
    simp only [people] at hn
    omega
  | succ n ih =>
    intro r hn h hst hu g
    have hle := duelists_le_of_seats hp0 h g.seats
    by_cases hsp : ∃ x ∈ r.spectators, x ∉ r0.spectators
    · obtain ⟨x, hx, hx0⟩ := hsp
      have hfull := h.full (List.ne_nil_of_mem hx)
      have hxh : r.host ≠ x := fun e => h.notHost (e ▸ hx)
      have h' : Peopled env { r with spectators := r.spectators.erase x } :=
        ⟨h.maxes, h.length, h.front, h.room, h.host, h.even, h.free, h.taken, h.covered, fun _ => hfull, h.sorted.sublist List.erase_sublist,
          fun e => h.notHost (List.mem_of_mem_erase e)⟩
      have hlen := List.length_erase_of_mem hx
      have hpos := List.length_pos_of_mem hx
      have hc := ih (r := { r with spectators := r.spectators.erase x }) (by
        simp only [people] at hn ⊢
        change duelists r 0 + duelists r 1 + _ ≤ _
        omega) h' hst hu ⟨g.options, g.host, g.rng, g.seats, g.settled, g.decks, fun y hy => by
          refine (List.mem_erase_of_ne ?_).mpr (g.watchers y hy)
          rintro rfl
          exact hx0 hy⟩
      have hok := h'.ok (by rw [hst]; simp)
      have hnone : nextSeat { r with spectators := r.spectators.erase x } = none := (nextSeat_none_iff hok).mpr hfull
      have he := hok.enterConfiguring x
      rw [hnone] at he
      simp only [hxh, if_false, setInsert_erase h.sorted hx] at he
      exact hc.enter hst he
    · have hspe : r0.spectators = r.spectators := sorted_ext hp0.sorted h.sorted fun x =>
        ⟨g.watchers x, fun hx => Classical.byContradiction fun hx0 => hsp ⟨x, hx, hx0⟩⟩
      by_cases hd : ∀ t, duelists r0 t = duelists r t
      · refine Arises.settle h hst hu [(0, 0), (0, 1), (0, 2), (1, 0), (1, 1), (1, 2)] ⟨.now, h0⟩ hst0 (by rw [g.options]; exact g) (fun t p => ?_) hspe fun t p hx => ?_
        · cases e : seat r0 t p with
          | some x => exact (g.seats _ _ _ e).symm
          | none =>
            have h1 : ¬ p < duelists r0 t := by rw [← hp0.front, e]; simp
            rw [hd, ← h.front] at h1
            exact (show seat r t p = none by simpa using h1).symm
        · have h3 : ¬ p < 3 := by
            intro h3
            apply hx
            have : p = 0 ∨ p = 1 ∨ p = 2 := by omega
            rcases fin2_cases t with rfl | rfl <;> rcases this with rfl | rfl | rfl <;> simp
          rw [show slotAt r0 t p = none from List.getElem?_eq_none (by rw [hp0.length]; omega), show slotAt r t p = none from List.getElem?_eq_none (by rw [h.length]; omega)]
      · have hcap : ∀ t, capacity r t = capacity r0 t := fun t => by simp only [capacity, g.options]
        have hsn : r.spectators = [] := by
          refine Classical.byContradiction fun hne => hd fun t => ?_
          have := hp0.full (by rw [hspe]; exact hne) t
          have h1 := h.room t
          have h2 := hle t
          have h3 := hcap t
          omega
        have hd' : duelists r0 0 < duelists r 0 ∨ duelists r0 1 < duelists r 1 := by
          refine Classical.byContradiction fun hx => hd fun t => ?_
          have h2 := hle t
          rcases fin2_cases t with rfl | rfl <;> omega
        have hpos0 : 0 < duelists r0 0 := by rw [← hp0.front, hp0.host]; rfl
        have hone : duelists r 0 + duelists r 1 ≠ 1 := by
          have := hle 0
          have := hle 1
          omega
        obtain ⟨t, p, s, hs, hsc, h', hnext, hlt, hcov⟩ := h.unsit hsn hone
        obtain ⟨x, hx⟩ := Option.ne_none_iff_exists'.mp hsc
        have hp : p < (r.teams t).length := (List.getElem?_eq_some_iff.mp hs).1
        -- the last one to sit down was not there at first
        have hnew : seat r0 t p = none := by
          have hdt : p = duelists (r.setSlot t p {}) t := (nextSeat_some hnext).1
          have hseat : ∀ t' q, seat (r.setSlot t p {}) t' q = if t' = t ∧ q = p then none else seat r t' q := fun t' q => seat_setSlot hp
          have hother : ∀ t', t' ≠ t → duelists (r.setSlot t p {}) t' = duelists r t' := fun t' ht => by
            have e : ∀ q, q < duelists (r.setSlot t p {}) t' ↔ q < duelists r t' := fun q => by
              rw [← h'.front, ← h.front, hseat, if_neg (fun e => ht e.1)]
            have h1 := e (duelists r t')
            have h2 := e (duelists (r.setSlot t p {}) t')
            omega
          have hthis : duelists r t = p + 1 := by
            have h1 := (h.front t p).mp (by simp [seat, hs, hx])
            have h2 : ¬ p + 1 < duelists r t := by
              rw [← h.front]
              have : ¬ p + 1 < duelists (r.setSlot t p {}) t := by omega
              rw [← h'.front, hseat, if_neg (by omega)] at this
              exact this
            omega
          cases e : seat r0 t p with
          | none => rfl
          | some y =>
            exfalso
            have h1 := (hp0.front t p).mp (by rw [e]; rfl)
            obtain ⟨e0, e1⟩ := hp0.even
            obtain ⟨f0, f1⟩ := h'.even
            have l0 := hle 0
            have l1 := hle 1
            have m0 := h.room 0
            have m1 := h.room 1
            have k0 := hcap 0
            have k1 := hcap 1
            have q0 : capacity (r.setSlot t p {}) 0 = capacity r 0 := rfl
            have q1 : capacity (r.setSlot t p {}) 1 = capacity r 1 := rfl
            unfold nextSeat at hnext
            rcases fin2_cases t with rfl | rfl
            · have g1 := hother 1 (by decide)
              split at hnext
              · omega
              · split at hnext <;> simp at hnext
            · have g0 := hother 0 (by decide)
              split at hnext
              · simp at hnext
              · split at hnext
                · omega
                · simp at hnext
        have hp' : p < ((r.setSlot t p {}).teams t).length := by rw [length_setSlot h.length]; rw [h.length] at hp; exact hp
        have hsl : ∀ t' q, slotAt (r.setSlot t p {}) t' q = if t' = t ∧ q = p then some {} else slotAt r t' q := fun t' q => slotAt_setSlot hp
        have g' : Grown (fun d => (env.check r0.options.banlistId d).1) r0 (r.setSlot t p {}) := by
          refine ⟨g.options, g.host, g.rng, fun t' q y hy => ?_, fun t' q s' e1 e2 => ?_, fun t' q s1 s2 e1 e2 e3 e4 => ?_, g.watchers⟩
          · rw [seat_setSlot hp, if_neg]
            · exact g.seats _ _ _ hy
            · rintro ⟨rfl, rfl⟩; rw [hnew] at hy; cases hy
          · rw [hsl, if_neg]
            · exact g.settled _ _ _ e1 e2
            · rintro ⟨rfl, rfl⟩
              obtain ⟨z, _, _, _, _, hz⟩ := e2
              rw [hnew] at hz; cases hz
          · rw [hsl] at e2
            split at e2
            · rename_i e; obtain ⟨rfl, rfl⟩ := e
              rw [hp0.free _ _ _ e1 (by simpa [seat, e1] using hnew)] at e3
              cases e3
            · exact g.decks _ _ _ _ e1 e2 e3 e4
        have hc := ih (r := r.setSlot t p {}) (by omega) h' hst hu g'
        have hok := h'.ok (by change r.state ≠ _; rw [hst]; simp)
        have he := hok.enterConfiguring x
        rw [hnext] at he
        simp only [slotAt_setSlot_self hp, Option.getD_some, setSlot_twice] at he
        have hc2 : Arises env r0 (r.setSlot t p { client := some x }) := hc.enter hst he
        by_cases hsh : Shadowed r t p
        · have hcv := h.covered t p s hs (hcov hsh)
          rw [← hx, ← hcv, setSlot_self hs] at hc2
          exact hc2
        · have := hc2.adapt (t := t) (p := p) (s := s) hst (slotAt_setSlot_self hp) rfl (by rw [shadowed_setSlot hs hx.symm]; exact hsh) hx (h.taken t p s hs hsc)
            (fun e => by cases e) fun _ => rfl
          rw [setSlot_twice, setSlot_self hs] at this
          exact this

end Ygo
