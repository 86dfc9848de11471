import Verif.Spec.RoomStates
import Verif.Lemmas.RoomFuture
import Verif.Lemmas.RoomOrder
import Verif.Lemmas.RoomStart

/-!
# Rooms that can come about
-/

set_option linter.unusedSimpArgs false

namespace Ygo
open Ygo.Room Ygo.Spec

theorem seat_some {r : Room} {t : Fin 2} {p : Nat} {x : ClientId} : seat r t p = some x ↔ ∃ s, slotAt r t p = some s ∧ s.client = some x := by
  simp only [seat, Option.bind_eq_some_iff]

theorem _root_.Ygo.Spec.Peopled.team {env : Env} {r : Room} (h : Peopled env r) (t : Fin 2) : TeamOk (r.teams t) (duelists r t) := by
  refine ⟨h.length t, fun p s hs => ?_, fun p s hs hc => ?_⟩
  · rw [← h.front t p]
    have : seat r t p = s.client := by simp only [seat, slotAt, hs, Option.bind_some]
    rw [this]
  · rw [h.free t p s hs hc]
    exact ⟨rfl, rfl⟩

theorem _root_.Ygo.Spec.Peopled.ok {env : Env} {r : Room} (h : Peopled env r) (hs : r.state ≠ .mono) : RoomOk env r := by
  refine ⟨h.maxes, fun t => ⟨_, h.room t, h.team t⟩, fun t p s hs hv => ?_, hs, nodup_of_sorted h.sorted, h.sorted⟩
  by_cases hc : s.client = none
  · rw [h.free t p s hs hc] at hv
    cases hv
  · exact (h.taken t p s hs hc).accepted hv

/-- Number of duelists of a team whose seats are taken from the first one on. -/
theorem duelists_eq {r : Room} {t : Fin 2} {n : Nat} (hl : (r.teams t).length = 3) (hn : n ≤ 3) (h : ∀ p, (seat r t p).isSome = true ↔ p < n) :
    duelists r t = n := by
  obtain ⟨a, b, c, e⟩ := list3 hl
  have h0 := h 0
  have h1 := h 1
  have h2 := h 2
  simp only [seat, slotAt, e] at h0 h1 h2
  unfold duelists
  rw [e]
  match n, hn with
  | 0, _ => simp at h0 h1 h2; simp [h0, h1, h2]
  | 1, _ => simp at h0 h1 h2; simp [h0, h1, h2, List.countP_cons]
  | 2, _ => simp at h0 h1 h2; simp [h0, h1, h2, List.countP_cons]
  | 3, _ => simp at h0 h1 h2; simp [h0, h1, h2, List.countP_cons]

theorem _root_.Ygo.Spec.Covered.shadowed {r : Room} {t : Fin 2} {p : Nat} (h : Covered r t p) : Shadowed r t p := by
  obtain ⟨x, t', p', h1, _, h2, h3⟩ := h
  exact ⟨x, t', p', h1, h2, h3⟩

theorem fin2_lt {a b : Fin 2} (h : a < b) : a = 0 ∧ b = 1 := by
  revert a b
  decide

theorem fin2_cases (t : Fin 2) : t = 0 ∨ t = 1 := by
  revert t
  decide

/-! ## What can come about is as said -/

theorem _root_.Ygo.Spec.Peopled.same {env : Env} {r r' : Room} (h : Peopled env r) (ho : r'.options = r.options) (hh : r'.host = r.host)
    (ht : r'.teams = r.teams) (hs : r'.spectators = r.spectators) : Peopled env r' := by
  obtain ⟨o, c, ts, sp, st, rng, u⟩ := r
  obtain ⟨o', c', ts', sp', st', rng', u'⟩ := r'
  dsimp only at ho hh ht hs
  subst ho hh ht hs
  exact ⟨h.maxes, h.length, h.front, h.room, h.host, h.even, h.free, h.taken, h.covered, h.full, h.sorted, h.notHost⟩

theorem _root_.Ygo.Spec.Peopled.cap {env : Env} {r : Room} (h : Peopled env r) (t : Fin 2) : 1 ≤ capacity r t ∧ capacity r t ≤ 3 :=
  RoomOk.cap (r := { r with state := .configuring }) ((h.same rfl rfl rfl rfl : Peopled env { r with state := .configuring }).ok (by simp)) t

theorem length_setSlot {r : Room} (h : ∀ t, (r.teams t).length = 3) (t : Fin 2) (p : Nat) (s : Slot) (t' : Fin 2) :
    ((r.setSlot t p s).teams t').length = 3 := by
  simp only [Room.setSlot]
  split
  · rw [List.length_set]; exact h _
  · exact h _

/-- A client says something about the own seat. -/
theorem _root_.Ygo.Spec.Peopled.setSlot {env : Env} {r : Room} {t : Fin 2} {p : Nat} {s s' : Slot} (h : Peopled env r) (hs : slotAt r t p = some s)
    (hc : s'.client = s.client) (ht : s.client ≠ none) (hcov : ¬ Covered r t p) (hf : SlotFits (fun d => (env.check r.options.banlistId d).1) s') :
    Peopled env (r.setSlot t p s') := by
  have hp : p < (r.teams t).length := (List.getElem?_eq_some_iff.mp hs).1
  have hseat := seat_setSlot_same hs hc
  have hlen := length_setSlot h.length t p s'
  have hd : ∀ t', duelists (r.setSlot t p s') t' = duelists r t' := by
    intro t'
    have := h.cap t'
    have := h.room t'
    exact duelists_eq (hlen t') (by omega) fun q => by rw [hseat]; exact h.front t' q
  have hcv : ∀ t' p', Covered (r.setSlot t p s') t' p' ↔ Covered r t' p' := by
    intro t' p'
    simp only [Covered, hseat]
  refine ⟨h.maxes, hlen, fun t' q => by rw [hseat, hd]; exact h.front t' q, fun t' => by rw [hd]; exact h.room t', by rw [hseat]; exact h.host,
    by simp only [hd]; exact h.even, ?_, ?_, ?_, fun he t' => by rw [hd]; exact h.full he t', h.sorted, h.notHost⟩
  · intro t' q x hx hn
    rw [slotAt_setSlot hp] at hx
    split at hx
    · cases hx; rw [hc] at hn; exact absurd hn ht
    · exact h.free t' q x hx hn
  · intro t' q x hx hn
    rw [slotAt_setSlot hp] at hx
    split at hx
    · cases hx; exact hf
    · exact h.taken t' q x hx hn
  · intro t' q x hx hn
    rw [hcv] at hn
    rw [slotAt_setSlot hp] at hx
    split at hx
    · rename_i e; obtain ⟨rfl, rfl⟩ := e; exact absurd hn hcov
    · exact h.covered t' q x hx hn

/-- Somebody sits down. -/
theorem _root_.Ygo.Spec.Peopled.sit {env : Env} {r : Room} {t : Fin 2} (h : Peopled env r) (hn : nextSeat r = some (t, duelists r t)) (x : ClientId) :
    Peopled env (r.setSlot t (duelists r t) { client := some x }) := by
  have hlt := (nextSeat_some hn).2
  have hcap := h.cap t
  have hp : duelists r t < (r.teams t).length := by rw [h.length]; omega
  have hlen := length_setSlot h.length t (duelists r t) { client := some x }
  have hseat : ∀ t' q, seat (r.setSlot t (duelists r t) { client := some x }) t' q = if t' = t ∧ q = duelists r t then some x else seat r t' q :=
    fun t' q => seat_setSlot hp
  have hd : ∀ t', duelists (r.setSlot t (duelists r t) { client := some x }) t' = if t' = t then duelists r t + 1 else duelists r t' := by
    intro t'
    have := h.cap t'
    have := h.room t'
    refine duelists_eq (hlen t') (by split <;> omega) fun q => ?_
    rw [hseat]
    by_cases e : t' = t
    · subst e
      by_cases e2 : q = duelists r t'
      · simp [e2]
      · simp only [e2, and_false, if_false, if_true, h.front]; omega
    · simp only [e, false_and, if_false, h.front]
  have hev := h.even
  have h0 : seat r 0 0 = some r.host := h.host
  have hpos : 0 < duelists r 0 := by rw [← h.front, h0]; rfl
  have hsl : ∀ s, slotAt r t (duelists r t) = some s → s.client = none := by
    intro s hs
    have := h.front t (duelists r t)
    simp only [seat, hs, Option.bind_some, Nat.lt_irrefl, iff_false, Bool.not_eq_true, Option.isSome_eq_false_iff, Option.isNone_iff_eq_none] at this
    exact this
  refine ⟨h.maxes, hlen, ?_, ?_, ?_, ?_, ?_, ?_, ?_, ?_, h.sorted, h.notHost⟩
  · intro t' q
    rw [hseat, hd]
    by_cases e : t' = t
    · subst e
      by_cases e2 : q = duelists r t'
      · simp [e2]
      · simp only [e2, and_false, if_false, if_true, h.front]; omega
    · simp only [e, false_and, if_false, h.front]
  · intro t'
    rw [hd]
    split
    · rename_i e; subst e; exact hlt
    · exact h.room t'
  · rw [hseat, if_neg ?_]
    · exact h0
    · rintro ⟨rfl, e⟩; omega
  · simp only [hd]
    change (_ ∨ _ = capacity r 1) ∧ (_ ∨ _ = capacity r 0)
    have r0 := h.room 0
    have r1 := h.room 1
    unfold nextSeat at hn
    split at hn
    · cases hn; simp only [if_true]; simp; omega
    · split at hn
      · cases hn; simp; omega
      · cases hn
  · intro t' q s hs hc
    rw [slotAt_setSlot hp] at hs
    split at hs
    · cases hs; cases hc
    · exact h.free t' q s hs hc
  · intro t' q s hs hc
    rw [slotAt_setSlot hp] at hs
    split at hs
    · cases hs; exact ⟨(fun e => by cases e), fun _ => rfl, (fun e => by cases e), (fun e => by cases e)⟩
    · exact h.taken t' q s hs hc
  · intro t' q s hs hc
    rw [slotAt_setSlot hp] at hs
    split at hs
    · cases hs; rfl
    · rename_i hne
      refine h.covered t' q s hs ?_
      obtain ⟨y, t'', q', hb, hle, h1, h2⟩ := hc
      rw [hseat, if_neg hne] at h2
      have hq : q < duelists r t' := by rw [← h.front, h2]; rfl
      by_cases e : t'' = t ∧ q' = duelists r t
      · exfalso
        obtain ⟨rfl, rfl⟩ := e
        rcases hb with hb | ⟨rfl, hb⟩
        · have e0 : t'' = 0 ∧ t' = 1 := fin2_lt hb
          obtain ⟨rfl, rfl⟩ := e0
          omega
        · omega
      · rw [hseat, if_neg e] at h1
        exact ⟨y, t'', q', hb, hle, h1, h2⟩
  · intro he
    have := h.full he t
    omega

/-- Somebody looks on. -/
theorem _root_.Ygo.Spec.Peopled.watch {env : Env} {r : Room} (h : Peopled env r) (hn : ∀ t, duelists r t = capacity r t) {x : ClientId} (hx : x ≠ r.host) :
    Peopled env { r with spectators := Room.setInsert x r.spectators } := by
  refine ⟨h.maxes, h.length, h.front, h.room, h.host, h.even, h.free, h.taken, h.covered, fun _ => hn, sorted_setInsert h.sorted, ?_⟩
  change r.host ∉ Room.setInsert x r.spectators
  rw [mem_setInsert]
  rintro (e | e)
  · exact hx e.symm
  · exact h.notHost e

theorem nextSeat_pos {r : Room} {t : Fin 2} {p : Nat} (h : nextSeat r = some (t, p)) : nextSeat r = some (t, duelists r t) := by
  rw [h, (nextSeat_some h).1]

/-- What a client says about the own seat fits. -/
theorem _root_.Ygo.Spec.SlotFits.prepared {env : Env} {b : String} {s : Slot} (h : SlotFits (fun d => (env.check b d).1) s) (c : ConfSignal) :
    SlotFits (fun d => (env.check b d).1) (prepared env b c s) := by
  cases c with
  | unset => exact h
  | startDueling _ => exact h
  | updateDeck d =>
    simp only [Ygo.prepared]
    split
    · rename_i e
      exact ⟨fun _ => e, (fun e => by cases e), h.ready, fun _ e => by cases e⟩
    · rename_i e
      exact ⟨(fun e => by cases e), fun _ => rfl, h.ready, fun _ _ => ⟨d, by simpa using e⟩⟩
  | readyStatus q =>
    simp only [Ygo.prepared]
    split
    · exact h
    · split
      · exact h
      · rename_i e1 e2
        refine ⟨h.accepted, h.none, fun e => ?_, fun e hv => ?_⟩
        · dsimp only at e
          have : s.deckValid = true := by simpa [e] using e2
          exact ⟨s.deck, h.accepted this⟩
        · dsimp only at e hv
          simp [e, hv] at e2

theorem slotAt_first (rng : Nat → Nat) (host : ClientId) (o : Options) (s : Slot) (t : Fin 2) (p : Nat) :
    slotAt ((emptyRoom rng host o).setSlot 0 0 s) t p = if t = 0 ∧ p = 0 then some s else if p < 3 then some {} else none := by
  rw [slotAt_setSlot (by simp [emptyRoom])]
  split
  · rfl
  · simp only [slotAt, emptyRoom, List.getElem?_replicate]

/-- The room when nobody but the host is there. -/
theorem peopled_first (env : Env) (rng : Nat → Nat) (host : ClientId) (o : Options) :
    Peopled env ((emptyRoom rng host o).setSlot 0 0 { client := some host }) := by
  have hsl := slotAt_first rng host o { client := some host }
  have hseat : ∀ t p, seat ((emptyRoom rng host o).setSlot 0 0 { client := some host }) t p = if t = 0 ∧ p = 0 then some host else none := by
    intro t p
    simp only [seat, hsl]
    split
    · rfl
    · split <;> rfl
  have hlen := length_setSlot (r := emptyRoom rng host o) (fun t => by simp [emptyRoom]) 0 0 { client := some host }
  have hd : ∀ t, duelists ((emptyRoom rng host o).setSlot 0 0 { client := some host }) t = if t = 0 then 1 else 0 := by
    intro t
    refine duelists_eq (hlen t) (by split <;> omega) fun p => ?_
    rw [hseat]
    by_cases e : t = 0
    · by_cases e2 : p = 0 <;> simp [e, e2]
    · simp [e]
  have hm := clamp_maxes o
  have hc : ∀ t, 1 ≤ capacity ((emptyRoom rng host o).setSlot 0 0 { client := some host }) t := fun t => ((roomOk_empty env rng host o).cap t).1
  have hno : ∀ t p, ¬ Covered ((emptyRoom rng host o).setSlot 0 0 { client := some host }) t p := by
    rintro t p ⟨x, t', p', hb, _, h1, h2⟩
    rw [hseat] at h1 h2
    split at h1
    · split at h2
      · rename_i e e'
        obtain ⟨rfl, rfl⟩ := e
        obtain ⟨rfl, rfl⟩ := e'
        rcases hb with hb | hb
        · exact absurd hb (by decide)
        · omega
      · cases h2
    · cases h1
  refine ⟨hm, hlen, ?_, ?_, ?_, ?_, ?_, ?_, fun t p s _ h => absurd h (hno t p), fun h => absurd rfl h, .nil, by simp [emptyRoom, Room.setSlot]⟩
  · intro t p
    rw [hseat, hd]
    by_cases e : t = 0
    · by_cases e2 : p = 0 <;> simp [e, e2]
    · simp [e]
  · intro t
    rw [hd]
    have := hc t
    split <;> omega
  · rw [hseat]; rfl
  · simp [hd]
  · intro t p s hs hn
    rw [hsl] at hs
    split at hs
    · cases hs; cases hn
    · split at hs <;> cases hs
      rfl
  · intro t p s hs hn
    rw [hsl] at hs
    split at hs
    · cases hs; exact ⟨(fun e => by cases e), fun _ => rfl, (fun e => by cases e), (fun e => by cases e)⟩
    · split at hs <;> cases hs
      exact absurd rfl hn

theorem init_first (env : Env) (rng : Nat → Nat) (host : ClientId) (o : Options) :
    ∃ out, Room.init env rng host o = .ok ((emptyRoom rng host o).setSlot 0 0 { client := some host }, out) := by
  have h := (roomOk_empty env rng host o).enterConfiguring host
  rw [nextSeat_empty] at h
  exact ⟨_, h⟩

/-- Nothing else of a room than said is in what is known of it. -/
theorem _root_.Ygo.Spec.InPhase.set {r : Room} (h : InPhase r) (hst : r.state = .configuring) : r.used = 0 := by
  simpa only [InPhase, hst] using h

theorem inPhase_conf {r : Room} (hst : r.state = .configuring) (hu : r.used = 0) : InPhase r := by
  simpa only [InPhase, hst] using hu

/-- The start. -/
theorem RoomOk.decided {env : Env} {r r' : Room} {fuel : Nat} {out : List Sent} (hok : RoomOk env r) (hu : r.used = 0) (hs : Startable r)
    (h : r.enterDeciding fuel = .ok (r', out)) : ∃ d u, r' = { r with state := .deciding d, used := u } ∧ Decided { r with state := .deciding d, used := u } d := by
  obtain ⟨h0, h1, h2, h3, h4, h5⟩ := hok.enterDeciding hs fuel
  by_cases e0 : r.options.ftdm = 0
  · rw [h0 e0] at h
    cases h
    exact ⟨some r.host, r.used, rfl, .inl ⟨e0, rfl, hu⟩⟩
  by_cases e2 : r.options.ftdm = 2
  · rw [h2 e2] at h
    have hr := rollDice_eq (rng := r.rng) (fuel := fuel) (used := r.used)
    cases hd : Room.rollDice r.rng fuel r.used with
    | none => rw [hd] at h; cases h
    | some x =>
      obtain ⟨rolls, w, u⟩ := x
      rw [hd] at h hr
      cases h
      obtain ⟨n, _, ha, hb, _, rfl, rfl⟩ := hr
      refine ⟨_, _, rfl, .inr (.inl ⟨e2, n, by simp only [hu]; omega, fun i hi => ?_, ?_⟩)⟩
      · have := ha i hi
        simp only [round, hu, Nat.zero_add] at this
        dsimp only
        omega
      · simp only [round, hu, Nat.zero_add] at hb ⊢
        by_cases hlt : r.rng (2 * n) % 6 + 1 < r.rng (2 * n + 1) % 6 + 1
        · exact .inr ⟨by omega, by simp only [hlt, if_true]; rfl⟩
        · exact .inl ⟨by omega, by simp only [hlt, if_false, if_true]; rfl⟩
  by_cases e3 : r.options.ftdm = 3
  · rw [h3 e3] at h
    cases h
    refine ⟨_, _, rfl, .inr (.inr (.inl ⟨e3, by simp only [hu], ?_⟩))⟩
    simp only [hu]
    by_cases hz : r.rng 0 % 2 = 0
    · exact .inl ⟨hz, by simp only [hz, if_true]; rfl⟩
    · exact .inr ⟨by omega, by simp only [hz, if_false]; rfl⟩
  by_cases e4 : r.options.ftdm = -2147483648 ∨ r.options.ftdm = 2147483647
  · rw [h4 e4] at h
    cases h
  have e4' : r.options.ftdm ≠ -2147483648 ∧ r.options.ftdm ≠ 2147483647 := by omega
  have : r.enterDeciding fuel = .ok ({ r with state := .deciding none }, r.sendAll .decidingEntering) := by
    by_cases e1 : r.options.ftdm = 1
    · exact h1 e1
    · exact h5 e0 e1 e2 e3 e4'.1 e4'.2
  rw [this] at h
  cases h
  exact ⟨_, r.used, rfl, .inr (.inr (.inr ⟨e0, e2, e3, e4'.1, e4'.2, rfl, hu⟩))⟩

theorem startable_same {r : Room} (d : State) (u : Nat) : Startable { r with state := d, used := u } ↔ Startable r := Iff.rfl

/-- One call. -/
theorem peopled_step {env : Env} {r r' : Room} {fuel : Nat} {c : Room.Call} {out : List Sent} (h : Peopled env r) (hi : InPhase r)
    (hs : r.step env fuel c = .ok (r', out)) : Peopled env r' ∧ InPhase r' := by
  have hst0 : r.state ≠ .mono := by intro e; simp only [InPhase, e] at hi
  have hok := h.ok hst0
  cases hst : r.state with
  | mono => exact absurd hst hst0
  | deciding d =>
    have : r' = r := by
      cases c with
      | enter x => simp only [Room.step, Room.enter, hst] at hs; cases hs; rfl
      | visit x w =>
        obtain ⟨o, e⟩ := visit_deciding (env := env) (fuel := fuel) hst x w
        rw [e] at hs
        cases hs
        rfl
    subst this
    exact ⟨h, hi⟩
  | configuring =>
    have hu := hi.set hst
    cases c with
    | enter x =>
      simp only [Room.step, Room.enter, hst] at hs
      rw [hok.enterConfiguring] at hs
      cases hn : nextSeat r with
      | none =>
        simp only [hn] at hs
        by_cases e : r.host = x
        · simp only [e, if_true] at hs; cases hs
        · simp only [e, if_false] at hs
          cases hs
          exact ⟨h.watch ((nextSeat_none_iff hok).mp hn) fun e' => e e'.symm, inPhase_conf hst hu⟩
      | some y =>
        obtain ⟨t, p⟩ := y
        obtain ⟨rfl, hlt⟩ := nextSeat_some hn
        simp only [hn] at hs
        cases hs
        obtain ⟨s, h1, h2⟩ := hok.free hn
        have hfree := h.free t _ s h1 h2
        rw [h1, hfree]
        exact ⟨h.sit hn x, inPhase_conf hst hu⟩
    | visit x w =>
      simp only [Room.step, Room.visit, hst] at hs
      cases w with
      | unset => cases hs; exact ⟨h, hi⟩
      | deciding _ => cases hs; exact ⟨h, hi⟩
      | configuring k =>
        dsimp only at hs
        by_cases hk : ∃ b, k = .startDueling b
        · obtain ⟨b, rfl⟩ := hk
          simp only [Room.signalConfiguring, Room.startDueling] at hs
          split at hs
          · cases hs; exact ⟨h, hi⟩
          · split at hs
            · cases hs; exact ⟨h, hi⟩
            · rename_i hc
              have hsb : Startable r := canStart_iff.mp (by simpa using hc)
              obtain ⟨d, u, rfl, hdec⟩ := hok.decided hu hsb hs
              exact ⟨h.same rfl rfl rfl rfl, hsb, hdec⟩
        · have hk' : ∀ b, k ≠ .startDueling b := fun b e => hk ⟨b, e⟩
          rcases conf_form (fuel := fuel) hok x k hk' with ⟨_, e⟩ | ⟨t, p, s, hf, h1, h2, e⟩
          · rw [e] at hs; cases hs; exact ⟨h, hi⟩
          · rw [e] at hs
            cases hs
            have hne : s.client ≠ none := by rw [h2]; simp
            exact ⟨h.setSlot h1 (prepared_client ..) hne (fun hc => hok.found_not_shadowed hf hc.shadowed)
              ((h.taken t p s h1 hne).prepared k), inPhase_conf hst hu⟩

/-- What can come about is as said. -/
theorem lived_peopled {env : Env} {r : Room} {cs : List Room.Call} {log : List Sent} (h : Lived env r cs log) : Peopled env r ∧ InPhase r := by
  induction h with
  | @start rng host o r out h =>
    obtain ⟨out', e⟩ := init_first env rng host o
    rw [e] at h
    cases h
    exact ⟨peopled_first env rng host o, rfl⟩
  | step _ hs ih => exact peopled_step ih.1 ih.2 hs

/-! ## What is as said can come about -/

/-- There is a history that leads to the room. -/
def Comes (env : Env) (r : Room) : Prop := ∃ cs log, Lived env r cs log

theorem Comes.step {env : Env} {r r' : Room} {fuel : Nat} {c : Room.Call} {out : List Sent} (h : Comes env r) (hs : r.step env fuel c = .ok (r', out)) :
    Comes env r' := by
  obtain ⟨cs, log, h⟩ := h
  exact ⟨_, _, .step h hs⟩

theorem setSlot_twice (r : Room) (t : Fin 2) (p : Nat) (s s' : Slot) : (r.setSlot t p s).setSlot t p s' = r.setSlot t p s' := by
  simp only [Room.setSlot]
  congr 1
  funext t'
  split
  · rename_i e; simp [e]
  · rfl

theorem Comes.enter {env : Env} {r r' : Room} {x : ClientId} {out : List Sent} (h : Comes env r) (hst : r.state = .configuring)
    (he : r.enterConfiguring env x = .ok (r', out)) : Comes env r' :=
  h.step (fuel := 0) (c := .enter x) (by simp only [Room.step, Room.enter, hst]; exact he)

/-- A duelist says something about the own seat. -/
theorem Comes.say {env : Env} {r : Room} {t : Fin 2} {p : Nat} {s : Slot} {x : ClientId} (h : Comes env r) (hst : r.state = .configuring)
    (hs : slotAt r t p = some s) (hc : s.client = some x) (hn : ¬ Shadowed r t p) (k : ConfSignal) (hk : ∀ b, k ≠ .startDueling b) :
    Comes env (r.setSlot t p (prepared env r.options.banlistId k s)) := by
  obtain ⟨cs, log, hl⟩ := h
  have hok := lived_ok hl
  have hf := hok.finds hs hc hn
  rcases conf_form (fuel := 0) hok x k hk with ⟨e, _⟩ | ⟨t', p', s', hf', _, _, e⟩
  · rw [hf] at e; cases e
  · rw [hf] at hf'
    cases hf'
    exact Comes.step (fuel := 0) (c := .visit x (.configuring k)) ⟨cs, log, hl⟩ (by simp only [Room.step, Room.visit, hst]; exact e)

/-- The seat stays the one that is found. -/
theorem shadowed_setSlot {r : Room} {t : Fin 2} {p : Nat} {s s' : Slot} (hs : slotAt r t p = some s) (hc : s'.client = s.client) (t' : Fin 2) (p' : Nat) :
    Shadowed (r.setSlot t p s') t' p' ↔ Shadowed r t' p' := by
  simp only [Shadowed, seat_setSlot_same hs hc]

/-- Saying something after having said something. -/
theorem Comes.sayMore {env : Env} {r : Room} {t : Fin 2} {p : Nat} {s s' : Slot} {x : ClientId} (hst : r.state = .configuring)
    (hs : slotAt r t p = some s) (hc : s.client = some x) (hn : ¬ Shadowed r t p) (hc' : s'.client = some x) (h : Comes env (r.setSlot t p s')) (k : ConfSignal)
    (hk : ∀ b, k ≠ .startDueling b) : Comes env (r.setSlot t p (prepared env r.options.banlistId k s')) := by
  have hp : p < (r.teams t).length := (List.getElem?_eq_some_iff.mp hs).1
  have := h.say (t := t) (p := p) (s := s') hst (by rw [slotAt_setSlot hp]; simp) hc' (by rw [shadowed_setSlot hs (hc'.trans hc.symm)]; exact hn) k hk
  rwa [setSlot_twice] at this

/-- A duelist who has just sat down can bring the seat into any state that fits. -/
theorem Comes.prepare {env : Env} {r : Room} {t : Fin 2} {p : Nat} {s : Slot} {x : ClientId} (h : Comes env r) (hst : r.state = .configuring)
    (hs : slotAt r t p = some { client := some x }) (hn : ¬ Shadowed r t p) (hc : s.client = some x)
    (hf : SlotFits (fun d => (env.check r.options.banlistId d).1) s) : Comes env (r.setSlot t p s) := by
  have say := fun (s' : Slot) (hc' : s'.client = some x) (h' : Comes env (r.setSlot t p s')) => Comes.sayMore hst hs rfl hn hc' h'
  have start : Comes env (r.setSlot t p { client := some x }) := by rw [setSlot_self hs]; exact h
  obtain ⟨v, q, c, d⟩ := s
  dsimp only at hc
  subst hc
  have good : ∀ d', (env.check r.options.banlistId d').1 = true → Comes env (r.setSlot t p { client := some x, deck := d', deckValid := true }) := by
    intro d' hd
    have := say _ rfl start (.updateDeck d') (by simp)
    simpa only [prepared, hd, if_true] using this
  have eager : ∀ d', (env.check r.options.banlistId d').1 = true → Comes env (r.setSlot t p { client := some x, deck := d', deckValid := true, ready := true }) := by
    intro d' hd
    have := say _ rfl (good d' hd) (.readyStatus true) (by simp)
    simpa [prepared] using this
  cases v with
  | true =>
    have hd : (env.check r.options.banlistId d).1 = true := hf.accepted rfl
    cases q with
    | true => exact eager d hd
    | false => exact good d hd
  | false =>
    have hd : d = {} := hf.none rfl
    subst hd
    cases q with
    | true =>
      obtain ⟨d1, h1⟩ := hf.ready rfl
      obtain ⟨d2, h2⟩ := hf.late rfl rfl
      have := say _ rfl (eager d1 h1) (.updateDeck d2) (by simp)
      simpa [prepared, h2] using this
    | false => exact start

/-- Number of people in the room, as far as it is needed to go back in time. -/
def people (r : Room) : Nat := duelists r 0 + duelists r 1 + r.spectators.length

theorem clamp_fits {o : Options} {m0 m1 : Nat} (h : o.maxDuelists = [m0, m1]) (h0 : 1 ≤ m0 ∧ m0 ≤ 3) (h1 : 1 ≤ m1 ∧ m1 ≤ 3) : Room.clampOptions o = o := by
  obtain ⟨ms, dl, b, f⟩ := o
  dsimp only at h
  subst h
  have a0 : ¬ m0 < 1 := by omega
  have a1 : ¬ 3 < m0 := by omega
  have b0 : ¬ m1 < 1 := by omega
  have b1 : ¬ 3 < m1 := by omega
  simp [Room.clampOptions, a1, b1]
  omega

/-- Rooms with the same seats and the same rest. -/
theorem room_ext {r r' : Room} (ho : r'.options = r.options) (hh : r'.host = r.host) (ht : ∀ t p, slotAt r' t p = slotAt r t p)
    (hs : r'.spectators = r.spectators) (hst : r'.state = r.state) (hr : r'.rng = r.rng) (hu : r'.used = r.used) : r' = r := by
  obtain ⟨o, c, ts, sp, st, rng, u⟩ := r
  obtain ⟨o', c', ts', sp', st', rng', u'⟩ := r'
  dsimp only at ho hh hs hst hr hu
  subst ho hh hs hst hr hu
  congr 1
  funext t
  exact List.ext_getElem? fun p => ht t p

/-- The last one to sit down, of a room without spectators. -/
theorem _root_.Ygo.Spec.Peopled.unsit {env : Env} {r : Room} (h : Peopled env r) (hsp : r.spectators = []) (hmany : duelists r 0 + duelists r 1 ≠ 1) :
    ∃ t p s, slotAt r t p = some s ∧ s.client ≠ none ∧ Peopled env (r.setSlot t p {}) ∧ nextSeat (r.setSlot t p {}) = some (t, p) ∧
      people (r.setSlot t p {}) < people r ∧ (Shadowed r t p → Covered r t p) := by
  have hpos : 0 < duelists r 0 := by rw [← h.front, h.host]; rfl
  obtain ⟨hev0, hev1⟩ := h.even
  have r0 := h.room 0
  have r1 := h.room 1
  have c0 := h.cap 0
  have c1 := h.cap 1
  obtain ⟨t, ht, ht0, ht1⟩ : ∃ t : Fin 2, 0 < duelists r t ∧ (t = 0 → duelists r 1 < duelists r 0) ∧ (t = 1 → duelists r 0 ≤ duelists r 1) := by
    by_cases e : duelists r 1 < duelists r 0
    · exact ⟨0, hpos, fun _ => e, fun e => by cases e⟩
    · exact ⟨1, by omega, (fun e => by cases e), fun _ => by omega⟩
  obtain ⟨p, hp⟩ : ∃ p, duelists r t = p + 1 := ⟨duelists r t - 1, by omega⟩
  have hroom := h.room t
  have hcap := h.cap t
  have hp3 : p < (r.teams t).length := by rw [h.length]; omega
  obtain ⟨s, hs⟩ : ∃ s, slotAt r t p = some s := ⟨_, List.getElem?_eq_getElem hp3⟩
  have hsc : s.client ≠ none := by
    have := (h.front t p).mpr (by omega)
    simp only [seat, hs, Option.bind_some] at this
    intro e
    rw [e] at this
    cases this
  have hlen := length_setSlot h.length t p {}
  have hseat : ∀ t' q, seat (r.setSlot t p {}) t' q = if t' = t ∧ q = p then none else seat r t' q := fun t' q => seat_setSlot hp3
  have hfr : ∀ t' q, (seat (r.setSlot t p {}) t' q).isSome = true ↔ q < if t' = t then p else duelists r t' := by
    intro t' q
    rw [hseat]
    by_cases e : t' = t
    · subst e
      by_cases e2 : q = p
      · simp [e2]
      · simp only [e2, and_false, if_false, if_true, h.front]; omega
    · simp only [e, false_and, if_false, h.front]
  have hd : ∀ t', duelists (r.setSlot t p {}) t' = if t' = t then p else duelists r t' := by
    intro t'
    have := h.cap t'
    have := h.room t'
    exact duelists_eq (hlen t') (by split <;> omega) (hfr t')
  have htt := fin2_cases t
  refine ⟨t, p, s, hs, hsc, ⟨h.maxes, hlen, fun t' q => by rw [hd]; exact hfr t' q, ?_, ?_, ?_, ?_, ?_, ?_, fun e => absurd hsp e, h.sorted, h.notHost⟩, ?_, ?_, ?_⟩
  · intro t'
    rw [hd]
    split
    · rename_i e; subst e; change _ ≤ capacity r _; omega
    · exact h.room t'
  · rw [hseat, if_neg ?_]
    · exact h.host
    · rintro ⟨rfl, rfl⟩
      have := ht0 rfl
      omega
  · simp only [hd]
    change (_ ∨ _ = capacity r 1) ∧ (_ ∨ _ = capacity r 0)
    rcases htt with rfl | rfl
    · have := ht0 rfl; simp; omega
    · have := ht1 rfl; simp; omega
  · intro t' q s' hs' hc
    rw [slotAt_setSlot hp3] at hs'
    split at hs'
    · cases hs'; rfl
    · exact h.free t' q s' hs' hc
  · intro t' q s' hs' hc
    rw [slotAt_setSlot hp3] at hs'
    split at hs'
    · cases hs'; exact absurd rfl hc
    · exact h.taken t' q s' hs' hc
  · intro t' q s' hs' hc
    rw [slotAt_setSlot hp3] at hs'
    split at hs'
    · cases hs'; rfl
    · refine h.covered t' q s' hs' ?_
      obtain ⟨y, t'', q', hb, hle, h1, h2⟩ := hc
      rw [hseat] at h1 h2
      split at h1
      · cases h1
      · split at h2
        · cases h2
        · exact ⟨y, t'', q', hb, hle, h1, h2⟩
  · unfold nextSeat
    simp only [hd]
    change (if _ < capacity r 0 ∧ (_ ∨ ¬ _ < capacity r 1) then _ else if _ < capacity r 1 then _ else _) = _
    have e10 : ¬ ((1 : Fin 2) = 0) := by decide
    have e01 : ¬ ((0 : Fin 2) = 1) := by decide
    rcases htt with rfl | rfl
    · have := ht0 rfl
      simp only [e10, if_false, if_true]
      rw [if_pos (by omega)]
    · have := ht1 rfl
      simp only [e01, if_false, if_true]
      rw [if_neg (by omega), if_pos (by omega)]
  · simp only [people, hd]
    change _ + _ + r.spectators.length < _
    rcases htt with rfl | rfl <;> simp <;> omega
  · rintro ⟨x, t', p', hb, h1, h2⟩
    refine ⟨x, t', p', hb, ?_, h1, h2⟩
    have hp' : p' < duelists r t' := by rw [← h.front, h1]; rfl
    rcases hb with hb | ⟨_, hb⟩
    · obtain ⟨rfl, rfl⟩ := fin2_lt hb
      have := ht1 rfl
      omega
    · omega

theorem slotAt_setSlot_self {r : Room} {t : Fin 2} {p : Nat} {s : Slot} (hp : p < (r.teams t).length) : slotAt (r.setSlot t p s) t p = some s := by
  rw [slotAt_setSlot hp, if_pos ⟨rfl, rfl⟩]

/-- All that is as said comes about, before the start. -/
theorem comes_of {env : Env} (n : Nat) : ∀ {r : Room}, people r ≤ n → Peopled env r → r.state = .configuring → r.used = 0 → Comes env r := by
  induction n with
  | zero =>
    intro r hn h
    have hpos : 0 < duelists r 0 := by rw [← h.front, h.host]; rfl
    simp only [people] at hn
    omega
  | succ n ih =>
    intro r hn h hst hu
    cases hsp : r.spectators with
    | cons x xs =>
      have hsort := h.sorted
      rw [hsp] at hsort
      have hfull := h.full (by rw [hsp]; simp)
      have hx : r.host ≠ x := by
        have := h.notHost
        rw [hsp] at this
        intro e
        exact this (by rw [e]; exact .head _)
      have h' : Peopled env { r with spectators := xs } := by
        refine ⟨h.maxes, h.length, h.front, h.room, h.host, h.even, h.free, h.taken, h.covered, fun _ => hfull, (List.pairwise_cons.mp hsort).2, ?_⟩
        have := h.notHost
        rw [hsp] at this
        exact fun e => this (.tail _ e)
      have hc := ih (r := { r with spectators := xs }) (by simp only [people, hsp, List.length_cons] at hn ⊢; change duelists r 0 + duelists r 1 + _ ≤ _; omega) h' hst hu
      have hok := h'.ok (by rw [hst]; simp)
      have hnone : nextSeat { r with spectators := xs } = none := (nextSeat_none_iff hok).mpr hfull
      have hins : Room.setInsert x xs = x :: xs := by
        cases xs with
        | nil => rfl
        | cons y ys =>
          have : x < y := (List.pairwise_cons.mp hsort).1 y (.head _)
          simp [Room.setInsert, this]
      have he := hok.enterConfiguring x
      rw [hnone] at he
      simp only [hx, if_false, hins] at he
      have := hc.enter hst he
      rw [← hsp] at this
      exact this
    | nil =>
      by_cases hone : duelists r 0 + duelists r 1 = 1
      · have hpos : 0 < duelists r 0 := by rw [← h.front, h.host]; rfl
        obtain ⟨m0, m1, hm, hm0, hm1⟩ := h.maxes
        obtain ⟨s, hs, hsc⟩ := seat_some.mp h.host
        have hfree : ∀ t p, ¬ (t = 0 ∧ p = 0) → slotAt r t p = if p < 3 then some {} else none := by
          intro t p hne
          have hl := h.length t
          split
          · rename_i hp
            obtain ⟨s', hs'⟩ : ∃ s', slotAt r t p = some s' := ⟨_, List.getElem?_eq_getElem (by omega)⟩
            have : ¬ p < duelists r t := by
              rcases fin2_cases t with rfl | rfl
              · have : p ≠ 0 := fun e => hne ⟨rfl, e⟩
                omega
              · omega
            have hnone : s'.client = none := by
              rw [← h.front] at this
              simpa [seat, hs'] using this
            rw [hs', h.free t p s' hs' hnone]
          · exact List.getElem?_eq_none (by omega)
        have hr : (emptyRoom r.rng r.host r.options).setSlot 0 0 s = r := by
          refine room_ext (clamp_fits hm hm0 hm1) rfl (fun t p => ?_) hsp.symm hst.symm rfl hu.symm
          rw [slotAt_first]
          split
          · rename_i e; obtain ⟨rfl, rfl⟩ := e; exact hs.symm
          · rename_i e; exact (hfree t p e).symm
        obtain ⟨out, hi⟩ := init_first env r.rng r.host r.options
        have hc0 : Comes env ((emptyRoom r.rng r.host r.options).setSlot 0 0 { client := some r.host }) := ⟨_, _, .start hi⟩
        have := hc0.prepare (t := 0) (p := 0) (s := s) rfl (slotAt_setSlot_self (by simp [emptyRoom])) ?_ hsc ?_
        · rw [setSlot_twice, hr] at this
          exact this
        · rintro ⟨x, t', p', hb, _, _⟩
          rcases hb with hb | ⟨_, hb⟩
          · exact absurd (fin2_lt hb).2 (by decide)
          · omega
        · change SlotFits (fun d => (env.check (Room.clampOptions r.options).banlistId d).1) s
          rw [clamp_fits hm hm0 hm1]
          exact h.taken 0 0 s hs (by rw [hsc]; simp)
      · obtain ⟨t, p, s, hs, hsc, h', hnext, hlt, hcov⟩ := h.unsit hsp hone
        obtain ⟨x, hx⟩ := Option.ne_none_iff_exists'.mp hsc
        have hp : p < (r.teams t).length := (List.getElem?_eq_some_iff.mp hs).1
        have hp' : p < ((r.setSlot t p {}).teams t).length := by rw [length_setSlot h.length]; rw [h.length] at hp; exact hp
        have hc := ih (r := r.setSlot t p {}) (by omega) h' hst hu
        have hok := h'.ok (by change r.state ≠ _; rw [hst]; simp)
        have he := hok.enterConfiguring x
        rw [hnext] at he
        simp only [slotAt_setSlot_self hp, Option.getD_some, setSlot_twice] at he
        have hc2 : Comes env (r.setSlot t p { client := some x }) :=
          hc.enter hst he
        by_cases hsh : Shadowed r t p
        · have hcv := h.covered t p s hs (hcov hsh)
          rw [← hx, ← hcv, setSlot_self hs] at hc2
          exact hc2
        · have := hc2.prepare (t := t) (p := p) (s := s) hst (slotAt_setSlot_self hp) (by rw [shadowed_setSlot hs hx.symm]; exact hsh) hx (h.taken t p s hs hsc)
          rw [setSlot_twice, setSlot_self hs] at this
          exact this

/-- The start leads to it. -/
theorem started_step {env : Env} {r : Room} (h : Peopled env r) {d : Option ClientId} (hst : r.state = .deciding d) (hs : Startable r) (hd : Decided r d) :
    ∃ fuel c out, ({ r with state := .configuring, used := 0 } : Room).step env fuel c = .ok (r, out) := by
  have h' : Peopled env { r with state := .configuring, used := 0 } := h.same rfl rfl rfl rfl
  have hok := h'.ok (by simp)
  have hs' : Startable { r with state := .configuring, used := 0 } := hs
  suffices hfuel : ∃ fuel out, ({ r with state := .configuring, used := 0 } : Room).enterDeciding fuel = .ok (r, out) by
    obtain ⟨fuel, out, e⟩ := hfuel
    refine ⟨fuel, .visit r.host (.configuring (.startDueling true)), out, ?_⟩
    have hcs : ({ r with state := .configuring, used := 0 } : Room).canStart = true := canStart_iff.mpr hs'
    simp only [Room.step, Room.visit, Room.signalConfiguring, Room.startDueling, hcs]
    simpa using e
  have fin : ∀ (fuel : Nat) (out : List Sent) (r1 : Room) (u : Nat) (q : Option ClientId),
      ({ r with state := .configuring, used := 0 } : Room).enterDeciding fuel = .ok (r1, out) → u = r.used → q = d →
      r1 = { r with state := .deciding q, used := u } → ∃ fuel out, ({ r with state := .configuring, used := 0 } : Room).enterDeciding fuel = .ok (r, out) := by
    rintro fuel out r1 u q he rfl rfl rfl
    rw [← hst] at he
    exact ⟨fuel, out, he⟩
  rcases hd with ⟨e, hdd, hu⟩ | ⟨e, n, hu, hn, hw⟩ | ⟨e, hu, hw⟩ | ⟨e0, e2, e3, e4, e5, hdd, hu⟩
  · exact fin _ _ _ 0 _ ((hok.enterDeciding hs' 0).1 e) hu.symm hdd.symm rfl
  · have hr := rollDice_eq (rng := r.rng) (fuel := n + 1) (used := 0)
    have hne : r.rng (2 * n) % 6 ≠ r.rng (2 * n + 1) % 6 := by
      rcases hw with ⟨h1, _⟩ | ⟨h1, _⟩ <;> omega
    have he := (hok.enterDeciding hs' (n + 1)).2.2.1 e
    cases hd : Room.rollDice r.rng (n + 1) 0 with
    | none =>
      rw [hd] at hr
      have := hr n (by omega)
      simp only [round, Nat.zero_add] at this
      omega
    | some z =>
      obtain ⟨rolls, w, u⟩ := z
      rw [hd] at hr
      obtain ⟨k, hk, ha, hb, _, hwin, hu'⟩ := hr
      simp only [round, Nat.zero_add] at ha hb hwin
      have hkn : k = n := by
        rcases Nat.lt_or_ge k n with hlt | hge
        · have := hn k hlt; omega
        · omega
      subst hkn
      dsimp only at he
      rw [hd] at he
      refine fin _ _ _ u _ he (by omega) ?_ rfl
      change seat r _ 0 = d
      rcases hw with ⟨h1, h2⟩ | ⟨h1, h2⟩
      · have : w = 0 := by rw [hwin, if_neg (by omega)]
        rw [this, h2]; rfl
      · have : w = 1 := by rw [hwin, if_pos (by omega)]
        rw [this, h2]; rfl
  · refine fin _ _ _ 1 _ ((hok.enterDeciding hs' 0).2.2.2.1 e) hu.symm ?_ rfl
    change seat r (if r.rng 0 % 2 = 0 then 0 else 1) 0 = d
    rcases hw with ⟨h1, h2⟩ | ⟨h1, h2⟩
    · rw [if_pos h1, h2]
    · rw [if_neg (by omega), h2]
  · have he : ({ r with state := .configuring, used := 0 } : Room).enterDeciding 0 = .ok ({ r with state := .deciding none, used := 0 },
        ({ r with state := .configuring, used := 0 } : Room).sendAll .decidingEntering) := by
      by_cases e1 : r.options.ftdm = 1
      · exact (hok.enterDeciding hs' 0).2.1 e1
      · exact (hok.enterDeciding hs' 0).2.2.2.2.2 e0 e1 e2 e3 e4 e5
    exact fin _ _ _ 0 _ he hu.symm hdd.symm rfl

/-- And after it. -/
theorem comes_started {env : Env} {r : Room} (h : Peopled env r) {d : Option ClientId} (hst : r.state = .deciding d) (hs : Startable r) (hd : Decided r d) :
    Comes env r := by
  have h' : Peopled env { r with state := .configuring, used := 0 } := h.same rfl rfl rfl rfl
  obtain ⟨fuel, c, out, e⟩ := started_step h hst hs hd
  exact (comes_of _ (Nat.le_refl _) h' rfl rfl).step e

end Ygo
