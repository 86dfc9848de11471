import Verif.Props.Room
import Verif.Lemmas.RoomFuture
import Verif.Lemmas.RoomHide

/-!
# Properties C76 to C78: own seats, private decks, and which rooms can still start
-/

set_option linter.unusedSimpArgs false

namespace Ygo.Props
open Ygo Ygo.Room Ygo.Spec

/-! ## Lemmas -/

theorem record_enter {check : Deck → Bool} {x : ClientId} {cs : List Room.Call} (h : .enter x ∈ cs) (c : Room.Call) :
    record check x (cs ++ [c]) = Record.next check x (record check x cs) c := by
  unfold record
  have : (cs ++ [c]).dropWhile (fun c => c ≠ .enter x) = cs.dropWhile (fun c => c ≠ .enter x) ++ [c] := by
    induction cs with
    | nil => simp at h
    | cons a cs ih =>
      simp only [List.cons_append, List.dropWhile_cons]
      by_cases e : a = .enter x
      · simp [e]
      · simp only [ne_eq, e, not_false_eq_true, decide_true, if_true]
        refine ih ?_
        rcases List.mem_cons.mp h with h | h
        · exact absurd h.symm e
        · exact h
  rw [this, List.foldl_append]
  rfl

theorem record_fresh {check : Deck → Bool} {x : ClientId} {cs : List Room.Call} (h : .enter x ∉ cs) :
    record check x (cs ++ [.enter x]) = {} := by
  unfold record
  have : (cs ++ [Room.Call.enter x]).dropWhile (fun c => c ≠ .enter x) = [.enter x] := by
    induction cs with
    | nil => simp
    | cons a cs ih =>
      simp only [List.mem_cons, not_or] at h
      simp only [List.cons_append, List.dropWhile_cons]
      rw [if_pos (by simpa using Ne.symm h.1)]
      exact ih h.2
  rw [this]
  rfl

/-- Nobody watches while there are free seats. -/
theorem watchers_full {env : Env} {r : Room} {calls : List Room.Call} {log : List Sent} (h : Lived env r calls log) {x : ClientId}
    (hx : x ∈ r.spectators) : nextSeat r = none := by
  have key : ∀ t p, p < capacity r t → seat r t p ≠ none := by
    revert x
    refine lived_induct (P := fun r _ _ => ∀ {x : ClientId}, x ∈ r.spectators → ∀ t p, p < capacity r t → seat r t p ≠ none) ?_ ?_ h
    · intro rng host o x hx; simp [emptyRoom] at hx
    · intro r r' cs log c out hok ih m x hx t p hp
      have hcap : capacity r' t = capacity r t := by simp [capacity, m.host.2]
      rw [hcap] at hp
      have keep : seat r t p ≠ none → seat r' t p ≠ none := by
        intro hs
        obtain ⟨y, hy⟩ := Option.ne_none_iff_exists'.mp hs
        rw [m.seat_mono hok hy]; simp
      have old : r'.spectators = r.spectators → seat r' t p ≠ none := fun e => keep (ih (e ▸ hx) t p hp)
      cases m with
      | spectate _ h2 =>
        refine keep ?_
        have := (nextSeat_none_iff hok).mp h2 t
        have := (hok.seat_isSome t p).mpr (by omega)
        intro e; rw [e] at this; cases this
      | start _ _ h3 => obtain ⟨⟨d, u, rfl⟩, _⟩ := enterDeciding_ok h3; exact old rfl
      | _ => exact old rfl
  have hok := lived_ok h
  rw [nextSeat_none_iff hok]
  intro t
  have hle := (hok.team t).1
  rcases Nat.lt_or_ge (duelists r t) (capacity r t) with hlt | hge
  · exact absurd (hok.seat_none (Nat.le_refl _)) (key t _ hlt)
  · omega

/-- Whoever called is present, before the room starts. -/
theorem entered_present {env : Env} {r : Room} {calls : List Room.Call} {log : List Sent} (h : Lived env r calls log)
    (hst : r.state = .configuring) {x : ClientId} (hx : .enter x ∈ calls) : Present r x := by
  induction h with
  | @start rng host o r out h0 =>
    simp at hx; subst hx
    have := lived_host_seat (.start h0)
    rw [(init_move h0).host.1] at this
    exact .inl ⟨0, 0, this⟩
  | @step r r' calls log out fuel c hl hs ih =>
    have h0 : r.state = .configuring := by
      by_cases e : r.state = .configuring
      · exact e
      · have := (C52_never_back hl hs e).1; rw [hst] at this; exact absurd this.symm e
    refine (C54_present hl hs x).mpr ?_
    rcases List.mem_append.mp hx with hx | hx
    · exact .inl (ih h0 hx)
    · simp at hx; exact .inr ⟨hx.symm, h0⟩

theorem seated_entered {env : Env} {r : Room} {calls : List Room.Call} {log : List Sent} (h : Lived env r calls log) {t : Fin 2} {p : Nat}
    {x : ClientId} (hx : seat r t p = some x) : .enter x ∈ calls := by
  have h1 := C55_seats_le_enters h x
  have h2 : 0 < (Room.teamClients (r.teams t)).count x := List.count_pos_iff.mpr (mem_teamClients.mpr ⟨p, hx⟩)
  refine List.count_pos_iff.mp ?_
  match t, h2 with
  | 0, h2 => omega
  | 1, h2 => omega

theorem was_configuring {env : Env} {r r' : Room} {calls : List Room.Call} {log out : List Sent} {fuel : Nat} {c : Room.Call}
    (h : Lived env r calls log) (hs : r.step env fuel c = .ok (r', out)) (hst : r'.state = .configuring) : r.state = .configuring := by
  by_cases e : r.state = .configuring
  · exact e
  · have := (C52_never_back h hs e).1; rw [hst] at this; exact absurd this.symm e

/-- Free seats are untouched. -/
theorem free_slot {env : Env} {r : Room} {calls : List Room.Call} {log : List Sent} (h : Lived env r calls log) {t : Fin 2} {p : Nat} {s : Slot}
    (hs : slotAt r t p = some s) (hc : s.client = none) : s = {} := by
  revert t p s
  refine lived_induct (P := fun r _ _ => ∀ {t : Fin 2} {p : Nat} {s : Slot}, slotAt r t p = some s → s.client = none → s = {}) ?_ ?_ h
  · intro rng host o t p s hs _
    simp only [slotAt, emptyRoom, List.getElem?_replicate] at hs
    split at hs <;> simp at hs
    exact hs.symm
  · intro r r' cs log c out hok ih m t p s hs hc
    have hset : ∀ {t' : Fin 2} {p' : Nat} {a a' : Slot}, slotAt r t' p' = some a → a'.client ≠ none →
        slotAt (r.setSlot t' p' a') t p = some s → s = {} := by
      intro t' p' a a' ha hn hx
      rw [slotAt_setSlot (List.getElem?_eq_some_iff.mp ha).1] at hx
      split at hx
      · cases hx; exact absurd hc hn
      · exact ih hx hc
    cases m with
    | seat _ _ _ h4 => exact hset h4 (by simp) hs
    | spectate => exact ih hs hc
    | goodDeck _ h2 h3 => exact hset h2 (by simp [h3]) hs
    | badDeck _ h2 h3 => exact hset h2 (by simp [h3]) hs
    | ready _ h2 h3 => exact hset h2 (by simp [h3]) hs
    | start _ _ h3 => obtain ⟨⟨d, u, rfl⟩, _⟩ := enterDeciding_ok h3; exact ih hs hc
    | announce => exact ih hs hc
    | nothing => exact ih hs hc

/-! ## C76 -/

/-- A client's signals change nothing but the first seat of that client. -/
theorem C76_own_seat {env : Env} {r r' : Room} {calls : List Room.Call} {log out : List Sent} {fuel : Nat} {x : ClientId} {s : Signal}
    (h : Lived env r calls log) (hs : r.step env fuel (.visit x s) = .ok (r', out)) :
    r'.spectators = r.spectators ∧ (∀ t p, seat r' t p = seat r t p) ∧
    ∀ t p, (seat r t p ≠ some x ∨ Shadowed r t p) → slotAt r' t p = slotAt r t p := by
  have hok := lived_ok h
  have hset : ∀ {t : Fin 2} {p : Nat} {a a' : Slot}, r.findPeer x = .ok (some (t, p, a)) → a'.client = a.client →
      (r.setSlot t p a').spectators = r.spectators ∧ (∀ t' p', seat (r.setSlot t p a') t' p' = seat r t' p') ∧
      ∀ t' p', (seat r t' p' ≠ some x ∨ Shadowed r t' p') → slotAt (r.setSlot t p a') t' p' = slotAt r t' p' := by
    intro t p a a' hf ha
    obtain ⟨h1, h2, h3⟩ := hok.findPeer_first hf
    refine ⟨rfl, fun t' p' => seat_setSlot_same h1 ha t' p', ?_⟩
    intro t' p' hn
    rw [slotAt_setSlot (List.getElem?_eq_some_iff.mp h1).1]
    split
    · rename_i e; obtain ⟨rfl, rfl⟩ := e
      rcases hn with hn | hn
      · exact absurd (by simp [seat, h1, h2]) hn
      · exact absurd hn (hok.found_not_shadowed hf)
    · rfl
  by_cases hst : r.state = .configuring
  · match s, hs with
    | .configuring (.updateDeck d), hs =>
      rcases hok.findPeer x with ⟨t, p, a, hf, _⟩ | ⟨hf, _⟩
      · rw [step_deck hst hf] at hs
        split at hs <;> cases hs <;> exact hset hf (by rfl)
      · rw [(step_unseated hst hf).1] at hs; cases hs; exact ⟨rfl, fun _ _ => rfl, fun _ _ _ => rfl⟩
    | .configuring (.readyStatus b), hs =>
      rcases hok.findPeer x with ⟨t, p, a, hf, _⟩ | ⟨hf, _⟩
      · rw [step_ready hst hf] at hs
        split at hs <;> cases hs
        · exact ⟨rfl, fun _ _ => rfl, fun _ _ _ => rfl⟩
        · exact hset hf (by rfl)
      · rw [(step_unseated hst hf).2] at hs; cases hs; exact ⟨rfl, fun _ _ => rfl, fun _ _ _ => rfl⟩
    | .configuring (.startDueling b), hs =>
      simp only [Room.step, Room.visit, hst, Room.signalConfiguring, Room.startDueling] at hs
      split at hs
      · cases hs; exact ⟨rfl, fun _ _ => rfl, fun _ _ _ => rfl⟩
      · split at hs
        · cases hs; exact ⟨rfl, fun _ _ => rfl, fun _ _ _ => rfl⟩
        · obtain ⟨⟨d, u, rfl⟩, _⟩ := enterDeciding_ok hs
          exact ⟨rfl, fun _ _ => rfl, fun _ _ _ => rfl⟩
    | .configuring .unset, hs =>
      simp only [Room.step, Room.visit, hst, Room.signalConfiguring] at hs
      cases hs; exact ⟨rfl, fun _ _ => rfl, fun _ _ _ => rfl⟩
    | .unset, hs =>
      simp only [Room.step, Room.visit, hst] at hs
      cases hs; exact ⟨rfl, fun _ _ => rfl, fun _ _ _ => rfl⟩
    | .deciding _, hs =>
      simp only [Room.step, Room.visit, hst] at hs
      cases hs; exact ⟨rfl, fun _ _ => rfl, fun _ _ _ => rfl⟩
  · obtain ⟨_, h2, h3⟩ := C52_never_back h hs hst
    exact ⟨h3, fun t p => by simp [seat, slotAt, h2], fun t p _ => by simp [slotAt, h2]⟩

/-- Before the start, the only seat of a duelist is what that duelist's own calls made it. -/
theorem C76_record {env : Env} {r : Room} {calls : List Room.Call} {log : List Sent} (h : Lived env r calls log)
    (hst : r.state = .configuring) {x : ClientId} {t : Fin 2} {p : Nat} (hx : seat r t p = some x)
    (h1 : ∀ t' p', seat r t' p' = some x → t' = t ∧ p' = p) :
    let k := record (fun d => (env.check r.options.banlistId d).1) x calls
    slotAt r t p = some { deckValid := k.valid, ready := k.ready, client := some x, deck := k.deck } := by
  simp only
  induction h generalizing x t p with
  | @start rng host o r out h0 =>
    have hl := Lived.start h0
    have hh := (init_move h0).host.1
    have hseat := lived_host_seat hl
    have hin := seated_entered hl hx
    simp at hin
    subst hin
    have hh' : r.host = x := hh
    rw [hh'] at hseat
    obtain ⟨rfl, rfl⟩ := h1 _ _ hseat
    have e := (roomOk_empty env rng x o).enterConfiguring x
    simp only [nextSeat_empty] at e
    have := Eq.trans (Eq.symm h0) e
    cases this
    have e2 : record (fun d => (env.check (Room.clampOptions o).banlistId d).1) x [.enter x] = {} :=
      record_fresh (cs := []) (by simp)
    rw [slotAt_setSlot (by simp [emptyRoom])]
    simp only [and_self, if_true, Room.setSlot]
    have e3 : (emptyRoom rng x o).options = Room.clampOptions o := rfl
    rw [e3, e2]
    simp [emptyRoom, slotAt]
  | @step r r' calls log out fuel c hl hs ih =>
    have hok := lived_ok hl
    have h0 := was_configuring hl hs hst
    have m := hok.move hs
    rw [m.host.2]
    have h1' : ∀ t' p', seat r t' p' = some x → t' = t ∧ p' = p := fun t' p' e => h1 t' p' (m.seat_mono hok e)
    -- the seat was there before
    have old : seat r t p = some x → slotAt r' t p = some
        { deckValid := (record (fun d => (env.check r.options.banlistId d).1) x (calls ++ [c])).valid,
          ready := (record (fun d => (env.check r.options.banlistId d).1) x (calls ++ [c])).ready, client := some x,
          deck := (record (fun d => (env.check r.options.banlistId d).1) x (calls ++ [c])).deck } := by
      intro hold
      have i := ih h0 hold h1'
      rw [record_enter (seated_entered hl hold)]
      generalize hk : record (fun d => (env.check r.options.banlistId d).1) x calls = k at i ⊢
      have hns : ¬ Shadowed r t p := by
        rintro ⟨y, t', p', hb, e1, e2⟩
        rw [hold] at e2; cases e2
        obtain ⟨rfl, rfl⟩ := h1' _ _ e1
        rcases hb with hb | ⟨_, hb⟩
        · exact absurd hb (by simp)
        · omega
      have hf := hok.finds i rfl hns
      have hlt := (List.getElem?_eq_some_iff.mp i).1
      match c, hs with
      | .enter y, hs =>
        simp only [Record.next]
        cases m with
        | seat _ _ _ h4 =>
          rw [slotAt_setSlot (List.getElem?_eq_some_iff.mp h4).1]
          split
          · rename_i e; obtain ⟨rfl, rfl⟩ := e
            rw [hok.seat_none (Nat.le_refl _)] at hold; cases hold
          · exact i
        | spectate => exact i
        | nothing => exact i
      | .visit y s, hs =>
        by_cases hy : y = x
        · subst hy
          match s, hs with
          | .configuring (.updateDeck d), hs =>
            rw [step_deck h0 hf] at hs
            simp only [Record.next, if_true]
            split at hs
            · rename_i hd; cases hs; rw [slotAt_setSlot hlt]; simp [hd]
            · rename_i hd; cases hs; rw [slotAt_setSlot hlt]; simp [hd]
          | .configuring (.readyStatus b), hs =>
            rw [step_ready h0 hf] at hs
            simp only [Record.next, if_true]
            split at hs
            · rename_i hd; cases hs; rw [i]
              rcases hd with hd | ⟨rfl, hd⟩
              · simp only at hd; subst hd; cases k.ready <;> simp
              · simp only at hd; simp [hd]
            · rename_i hd; cases hs; rw [slotAt_setSlot hlt]
              simp only [not_or, not_and] at hd
              simp only [and_self, if_true, Option.some.injEq, Slot.mk.injEq, true_and, and_true]
              obtain ⟨hd1, hd2⟩ := hd
              cases b
              · simp
              · have := hd2 rfl
                simp at this
                simp [this]
          | .configuring (.startDueling b), hs =>
            have : slotAt r' t p = slotAt r t p := by
              simp only [Room.step, Room.visit, h0, Room.signalConfiguring, Room.startDueling] at hs
              split at hs
              · cases hs; rfl
              · split at hs
                · cases hs; rfl
                · obtain ⟨⟨d, u, rfl⟩, _⟩ := enterDeciding_ok hs; rfl
            rw [this]; exact i
          | .configuring .unset, hs =>
            simp only [Room.step, Room.visit, h0, Room.signalConfiguring] at hs
            cases hs; exact i
          | .unset, hs =>
            simp only [Room.step, Room.visit, h0] at hs
            cases hs; exact i
          | .deciding _, hs =>
            simp only [Room.step, Room.visit, h0] at hs
            cases hs; exact i
        · have e : Record.next (fun d => (env.check r.options.banlistId d).1) x k (.visit y s) = k := by
            cases s with
            | configuring s => cases s <;> simp [Record.next, hy]
            | _ => rfl
          rw [e, (C76_own_seat hl hs).2.2 t p (.inl (by rw [hold]; simpa using Ne.symm hy))]
          exact i
    by_cases hold : seat r t p = some x
    · exact old hold
    · -- a new seat
      cases m with
      | @seat peer t0 s hc hn hlt h4 =>
        have hx' := hx
        rw [seat_setSlot (List.getElem?_eq_some_iff.mp h4).1] at hx'
        split at hx'
        · rename_i e; obtain ⟨rfl, rfl⟩ := e
          simp at hx'; subst hx'
          have hno : .enter peer ∉ calls := by
            intro hin
            rcases entered_present hl h0 hin with ⟨t', p', e⟩ | e
            · obtain ⟨rfl, rfl⟩ := h1' _ _ e
              exact hold e
            · rw [watchers_full hl e] at hn; cases hn
          rw [record_fresh hno, slotAt_setSlot (List.getElem?_eq_some_iff.mp h4).1]
          have hcl : s.client = none := by
            have := hok.seat_none (t := t) (Nat.le_refl (duelists r t))
            simpa [seat, h4] using this
          rw [free_slot hl h4 hcl]
          simp
        · exact absurd hx' hold
      | spectate => exact absurd hx hold
      | goodDeck _ h2 => rw [seat_setSlot_same h2 (by rfl)] at hx; exact absurd hx hold
      | badDeck _ h2 => rw [seat_setSlot_same h2 (by rfl)] at hx; exact absurd hx hold
      | ready _ h2 => rw [seat_setSlot_same h2 (by rfl)] at hx; exact absurd hx hold
      | start _ _ h3 => obtain ⟨⟨d, u, rfl⟩, _⟩ := enterDeciding_ok h3; exact absurd hx hold
      | announce => exact absurd hx hold
      | nothing => exact absurd hx hold

/-- Non-vacuity: client 2 sent its signals among those of client 1. -/
example : record (fun d => !d.main.isEmpty) 2 ([.enter 1] ++ prepare 1 ++ [.visit 2 (.configuring (.updateDeck { main := [9] })), .enter 2,
      .visit 2 (.configuring (.readyStatus true)), .visit 2 (.configuring (.updateDeck { main := [8] }))] ++ prepare 1) =
    { deck := { main := [8] }, valid := true, ready := false } := by decide

example : ∃ r log, Lived demoEnv r (.enter 1 :: ([.enter 2] ++ prepare 2 ++ prepare 1)) log ∧
    (r.state == .configuring && seat r 1 0 == some 2 && (r.teams 1).length == 3 && seat r 1 1 == none && seat r 0 1 == none) = true :=
  play_witness (rng := demoRng) (o := {}) (cs := [.enter 2] ++ prepare 2 ++ prepare 1) _ (by decide)

/-! ## C53 exactly -/

/-- The record with a refused deck while ready: the last deck was refused when already ready, and the client has not said otherwise since. -/
theorem record_ready_refused {check : Deck → Bool} {x : ClientId} (calls : List Room.Call) :
    (record check x calls).ready = true ∧ (record check x calls).valid = false ↔
      ∃ before after d, calls = before ++ .visit x (.configuring (.updateDeck d)) :: after ∧ check d = false ∧
        (record check x before).ready = true ∧ ∀ c ∈ after, (∀ d', c ≠ .visit x (.configuring (.updateDeck d'))) ∧
          c ≠ .visit x (.configuring (.readyStatus false)) := by
  have hne : ∀ {cs : List Room.Call}, (record check x cs).ready = true → .enter x ∈ cs := by
    intro cs h
    by_cases e : .enter x ∈ cs
    · exact e
    · unfold record at h
      have : cs.dropWhile (fun c => c ≠ .enter x) = [] := by
        clear h
        induction cs with
        | nil => rfl
        | cons a cs ih =>
          simp only [List.mem_cons, not_or] at e
          rw [List.dropWhile_cons, if_pos (by simpa using Ne.symm e.1)]
          exact ih e.2
      rw [this] at h
      simp at h
  constructor
  · rintro ⟨h1, h2⟩
    generalize hl : calls.length = n
    induction n generalizing calls with
    | zero =>
      cases calls with
      | nil => simp [record] at h1
      | cons => simp at hl
    | succ n ih =>
      rcases List.eq_nil_or_concat calls with rfl | ⟨cs, c, rfl⟩
      · simp [record] at h1
      simp only [List.concat_eq_append] at *
      have hl' : cs.length = n := by simpa using hl
      by_cases hin : .enter x ∈ cs
      · rw [record_enter hin] at h1 h2
        have keep : (record check x cs).ready = true → (record check x cs).valid = false →
            (∀ d', c ≠ .visit x (.configuring (.updateDeck d'))) → c ≠ .visit x (.configuring (.readyStatus false)) →
            ∃ before after d, cs ++ [c] = before ++ .visit x (.configuring (.updateDeck d)) :: after ∧ check d = false ∧
              (record check x before).ready = true ∧ ∀ c ∈ after, (∀ d', c ≠ .visit x (.configuring (.updateDeck d'))) ∧
                c ≠ .visit x (.configuring (.readyStatus false)) := by
          intro a1 a2 a3 a4
          obtain ⟨b, a, d, e, hd, hb, ha⟩ := ih cs a1 a2 hl'
          refine ⟨b, a ++ [c], d, by rw [e]; simp, hd, hb, ?_⟩
          intro c' hc'
          rcases List.mem_append.mp hc' with hc' | hc'
          · exact ha _ hc'
          · simp at hc'; subst hc'; exact ⟨a3, a4⟩
        match c, h1, h2, keep with
        | .enter y, h1, h2, keep => exact keep h1 h2 (by simp) (by simp)
        | .visit y .unset, h1, h2, keep => exact keep h1 h2 (by simp) (by simp)
        | .visit y (.deciding _), h1, h2, keep => exact keep h1 h2 (by simp) (by simp)
        | .visit y (.configuring .unset), h1, h2, keep => exact keep h1 h2 (by simp) (by simp)
        | .visit y (.configuring (.startDueling _)), h1, h2, keep => exact keep h1 h2 (by simp) (by simp)
        | .visit y (.configuring (.updateDeck d)), h1, h2, keep =>
          simp only [Record.next] at h1 h2
          by_cases hy : y = x
          · subst hy
            simp only [if_true] at h1 h2
            cases hd : check d with
            | true => simp [hd] at h2
            | false =>
              simp only [hd] at h1
              exact ⟨cs, [], d, rfl, hd, by simpa using h1, by simp⟩
          · simp only [hy, if_false] at h1 h2
            exact keep h1 h2 (by simp [hy]) (by simp)
        | .visit y (.configuring (.readyStatus b)), h1, h2, keep =>
          simp only [Record.next] at h1 h2
          by_cases hy : y = x
          · subst hy
            simp only [if_true] at h1 h2
            simp only [Bool.and_eq_true, Bool.or_eq_true] at h1
            obtain ⟨rfl, h1⟩ := h1
            rcases h1 with h1 | h1
            · rw [h1] at h2; cases h2
            · exact keep h1 h2 (by simp) (by simp)
          · simp only [hy, if_false] at h1 h2
            exact keep h1 h2 (by simp) (by simp [hy])
      · have := hne h1
        rcases List.mem_append.mp this with e | e
        · exact absurd e hin
        · simp at e; subst e
          rw [record_fresh hin] at h1
          simp at h1
  · rintro ⟨b, a, d, rfl, hd, hb, ha⟩
    have hin := hne hb
    have base : (record check x (b ++ [.visit x (.configuring (.updateDeck d))])).ready = true ∧
        (record check x (b ++ [.visit x (.configuring (.updateDeck d))])).valid = false := by
      rw [record_enter hin]
      simp [Record.next, hd, hb]
    rw [show b ++ .visit x (.configuring (.updateDeck d)) :: a = (b ++ [.visit x (.configuring (.updateDeck d))]) ++ a by simp]
    have hin' : .enter x ∈ b ++ [.visit x (.configuring (.updateDeck d))] := by simp [hin]
    generalize b ++ [.visit x (.configuring (.updateDeck d))] = b' at base hin'
    clear hin hb hd
    induction a generalizing b' with
    | nil => simpa using base
    | cons c a ih =>
      rw [show b' ++ c :: a = (b' ++ [c]) ++ a by simp]
      refine ih (fun c' hc' => ha c' (by simp [hc'])) (b' ++ [c]) ?_ (by simp [hin'])
      rw [record_enter hin']
      obtain ⟨n1, n2⟩ := ha c (by simp)
      match c, n1, n2 with
      | .enter y, _, _ => exact base
      | .visit y .unset, _, _ => exact base
      | .visit y (.deciding _), _, _ => exact base
      | .visit y (.configuring .unset), _, _ => exact base
      | .visit y (.configuring (.startDueling _)), _, _ => exact base
      | .visit y (.configuring (.updateDeck d)), n1, _ =>
        have hy : y ≠ x := by rintro rfl; exact n1 d rfl
        simpa [Record.next, hy] using base
      | .visit y (.configuring (.readyStatus b)), _, n2 =>
        by_cases hy : y = x
        · subst hy
          cases b with
          | false => exact absurd rfl n2
          | true => simp [Record.next, base.1, base.2]
        · simpa [Record.next, hy] using base

/-- Exactly when a duelist with one seat is ready without a valid deck: a deck was refused while ready, and since then the duelist has
neither submitted another nor withdrawn. -/
theorem C53_exactly {env : Env} {r : Room} {calls : List Room.Call} {log : List Sent} (h : Lived env r calls log)
    (hst : r.state = .configuring) {x : ClientId} {t : Fin 2} {p : Nat} {s : Slot} (hs : slotAt r t p = some s) (hx : s.client = some x)
    (h1 : ∀ t' p', seat r t' p' = some x → t' = t ∧ p' = p) :
    s.ready = true ∧ s.deckValid = false ↔
      ∃ before after d, calls = before ++ .visit x (.configuring (.updateDeck d)) :: after ∧
        (env.check r.options.banlistId d).1 = false ∧
        (record (fun d => (env.check r.options.banlistId d).1) x before).ready = true ∧
        ∀ c ∈ after, (∀ d', c ≠ .visit x (.configuring (.updateDeck d'))) ∧ c ≠ .visit x (.configuring (.readyStatus false)) := by
  have := C76_record h hst (x := x) (t := t) (p := p) (by simp [seat, hs, hx]) h1
  simp only at this
  rw [hs] at this
  cases this
  exact record_ready_refused calls

/-! ## C55 exactly -/

/-- Before the start, a client holds as many seats as it is among those who entered first, up to the number of seats; so it has two
seats exactly when it entered twice while seats were free. -/
theorem C55_exactly {env : Env} {r : Room} {calls : List Room.Call} {log : List Sent} (h : Lived env r calls log)
    (hst : r.state = .configuring) (x : ClientId) :
    (Room.teamClients (r.teams 0)).count x + (Room.teamClients (r.teams 1)).count x =
      ((enters calls).take (capacity r 0 + capacity r 1)).count x := by
  have main : duelists r 0 + duelists r 1 = min (enters calls).length (capacity r 0 + capacity r 1) ∧
      (Room.teamClients (r.teams 0)).count x + (Room.teamClients (r.teams 1)).count x =
      ((enters calls).take (capacity r 0 + capacity r 1)).count x := by
    revert hst
    refine lived_induct (P := fun r calls _ => r.state = .configuring →
      duelists r 0 + duelists r 1 = min (enters calls).length (capacity r 0 + capacity r 1) ∧
      (Room.teamClients (r.teams 0)).count x + (Room.teamClients (r.teams 1)).count x =
      ((enters calls).take (capacity r 0 + capacity r 1)).count x) ?_ ?_ h
    · intro rng host o _
      have : Room.teamClients (List.replicate 3 {}) = [] := rfl
      rw [duelists_empty, duelists_empty]
      refine ⟨by simp [enters], ?_⟩
      simp only [emptyRoom, this]
      simp [enters]
    · intro r r' cs log c out hok ih m hst
      have hcap : ∀ t, capacity r' t = capacity r t := by intro t; simp [capacity, m.host.2]
      rw [hcap, hcap]
      have hcount : ∀ r'' : Room, ∀ t, duelists r'' t = (Room.teamClients (r''.teams t)).length := by
        intro r'' t
        unfold duelists Room.teamClients
        generalize r''.teams t = l
        induction l with
        | nil => rfl
        | cons a l ih => cases hc : a.client <;> simp [List.countP_cons, hc, ih]
      have same : ∀ {y s}, c = .visit y s → r.state = .configuring → (∀ t, Room.teamClients (r'.teams t) = Room.teamClients (r.teams t)) →
          duelists r' 0 + duelists r' 1 = min (enters (cs ++ [c])).length (capacity r 0 + capacity r 1) ∧
          (Room.teamClients (r'.teams 0)).count x + (Room.teamClients (r'.teams 1)).count x =
          ((enters (cs ++ [c])).take (capacity r 0 + capacity r 1)).count x := by
        rintro y s rfl h0 ht
        have : enters (cs ++ [.visit y s]) = enters cs := by simp [enters]
        rw [this, hcount, hcount, ht, ht, ← hcount, ← hcount]
        exact ih h0
      have hset : ∀ {t : Fin 2} {p : Nat} {a a' : Slot}, slotAt r t p = some a → a'.client = a.client →
          ∀ t', Room.teamClients ((r.setSlot t p a').teams t') = Room.teamClients (r.teams t') := by
        intro t p a a' ha hc t'
        simp only [Room.setSlot]
        split
        · rename_i e; subst e; exact teamClients_set_same ha hc
        · rfl
      cases m with
      | @seat peer t s hc hn hlt h4 =>
        obtain ⟨i1, i2⟩ := ih hc
        have he : enters (cs ++ [.enter peer]) = enters cs ++ [peer] := by simp [enters]
        have l0 := (hok.team 0).1
        have l1 := (hok.team 1).1
        have hfree : (enters cs).length < capacity r 0 + capacity r 1 := by
          match t, hlt with
          | 0, hlt => omega
          | 1, hlt => omega
        have hcl : s.client = none := by
          have := hok.seat_none (t := t) (Nat.le_refl (duelists r t))
          simpa [seat, h4] using this
        have hd : ∀ y, (Room.teamClients ((r.setSlot t (duelists r t) { s with client := some peer }).teams 0)).count y +
            (Room.teamClients ((r.setSlot t (duelists r t) { s with client := some peer }).teams 1)).count y =
            (Room.teamClients (r.teams 0)).count y + (Room.teamClients (r.teams 1)).count y + if peer = y then 1 else 0 := by
          intro y
          have := count_set_new (s' := { s with client := some peer }) h4 hcl rfl y
          match t, this with
          | 0, this => simp only [Room.setSlot, if_true] at this ⊢; rw [this]; simp; omega
          | 1, this => simp only [Room.setSlot, if_true] at this ⊢; rw [this]; simp; omega
        have hl : duelists (r.setSlot t (duelists r t) { s with client := some peer }) 0 +
            duelists (r.setSlot t (duelists r t) { s with client := some peer }) 1 = duelists r 0 + duelists r 1 + 1 := by
          have hcnt : ((r.teams t).set (duelists r t) { s with client := some peer }).countP (fun s => s.client.isSome) = duelists r t + 1 := by
            have := (hok.team t).2.seat h4 peer
            exact this.count (by have := hok.cap t; omega)
          match t, hcnt with
          | 0, hcnt => simp only [duelists, Room.setSlot, if_true] at hcnt ⊢; rw [hcnt]; simp; omega
          | 1, hcnt => simp only [duelists, Room.setSlot, if_true] at hcnt ⊢; rw [hcnt]; simp; omega
        rw [he, hl, hd]
        refine ⟨by simp; omega, ?_⟩
        rw [List.take_of_length_le (by simp; omega), i2, List.take_of_length_le (by omega)]
        simp [List.count_append, List.count_cons]
      | @spectate peer hc hn =>
        obtain ⟨i1, i2⟩ := ih hc
        have he : enters (cs ++ [.enter peer]) = enters cs ++ [peer] := by simp [enters]
        have full := (nextSeat_none_iff hok).mp hn
        have f0 := full 0
        have f1 := full 1
        rw [he]
        refine ⟨?_, ?_⟩
        · show duelists r 0 + duelists r 1 = _
          simp; omega
        · show (Room.teamClients (r.teams 0)).count x + (Room.teamClients (r.teams 1)).count x = _
          rw [i2, List.take_append_of_le_length (by omega)]
      | goodDeck h0 h2 => exact same rfl h0 (hset h2 rfl)
      | badDeck h0 h2 => exact same rfl h0 (hset h2 rfl)
      | ready h0 h2 => exact same rfl h0 (hset h2 rfl)
      | start h0 _ h3 => obtain ⟨⟨d, u, rfl⟩, _⟩ := enterDeciding_ok h3; exact same rfl h0 (fun _ => rfl)
      | announce h0 => rw [h0] at hst; cases hst
      | nothing hno =>
        cases c with
        | visit y s => exact same rfl hst (fun _ => rfl)
        | enter y => exact absurd hst (hno y rfl)
  exact main.2

/-! ## C77 -/

/-- What two outcomes have in common when `y` cannot tell them apart. -/
def AlikeOutcome (y : ClientId) : Res (Room × List Sent) → Res (Room × List Sent) → Prop
  | .ok (r, out), .ok (r', out') => SameButDecks r r' ∧ inbox y out = inbox y out'
  | .error e, .error e' => e = e'
  | _, _ => False

theorem alike_of_hide {y : ClientId} {a b : Res (Room × List Sent)} (h : hideRes a = hideRes b) : AlikeOutcome y a b := by
  cases a with
  | error e => cases b with
    | error e' => simpa [hideRes, Except.map, AlikeOutcome] using h
    | ok b => cases h
  | ok a => cases b with
    | error e' => cases h
    | ok b =>
      obtain ⟨r, out⟩ := a
      obtain ⟨r', out'⟩ := b
      simp only [hideRes_ok, Except.ok.injEq, Prod.mk.injEq] at h
      exact ⟨hide_eq_iff.mp h.1, by rw [h.2]⟩

theorem alike_trans {y : ClientId} {a b c : Res (Room × List Sent)} (h : AlikeOutcome y a b) (h' : AlikeOutcome y b c) : AlikeOutcome y a c := by
  cases a with
  | error e => cases b with
    | ok b => exact h.elim
    | error e' => cases c with
      | ok c => exact h'.elim
      | error e'' => exact Eq.trans h h'
  | ok a => cases b with
    | error e' => exact h.elim
    | ok b => cases c with
      | error e'' => exact h'.elim
      | ok c => exact ⟨hide_eq_iff.mp ((hide_eq_iff.mpr h.1).trans (hide_eq_iff.mpr h'.1)), h.2.trans h'.2⟩

/-- One call: with decks exchanged for others judged alike, the same happens, and `y` receives the same. -/
theorem C77_call {env : Env} {r r' : Room} {fuel : Nat} {c c' : Room.Call} {y : ClientId} (h : SameButDecks r r')
    (hc : AlikeFor y (env.check r.options.banlistId) c c') : AlikeOutcome y (r.step env fuel c) (r'.step env fuel c') := by
  have e1 : hideRes (r.step env fuel c) = hideRes (r'.step env fuel c) := by
    rw [← step_hide env fuel r c, hide_eq_iff.mpr h, step_hide]
  refine alike_trans (alike_of_hide e1) ?_
  have ho := h.1
  rw [ho] at hc
  clear e1 h ho
  have nop : ∀ out, AlikeOutcome y (.ok (r', out)) (.ok (r', out)) := fun out => ⟨hide_eq_iff.mp rfl, rfl⟩
  have same : ∀ a : Res (Room × List Sent), AlikeOutcome y a a := fun a => alike_of_hide rfl
  have core : ∀ {x : ClientId} {d d' : Deck}, (env.check r'.options.banlistId d).1 = (env.check r'.options.banlistId d').1 →
      (x ≠ y ∨ env.check r'.options.banlistId d = env.check r'.options.banlistId d') →
      AlikeOutcome y (r'.step env fuel (.visit x (.configuring (.updateDeck d)))) (r'.step env fuel (.visit x (.configuring (.updateDeck d')))) := by
    intro x d d' hv hx
    cases hst : r'.state with
    | mono => simp only [Room.step, Room.visit, hst]; exact nop _
    | deciding => simp only [Room.step, Room.visit, hst]; exact nop _
    | configuring =>
      cases hf : r'.findPeer x with
      | error e =>
        simp only [Room.step, Room.visit, hst, Room.signalConfiguring, Room.updateDeck, hf]
        exact same _
      | ok o =>
        cases o with
        | none =>
          rw [(step_unseated hst hf).1, (step_unseated hst hf).1]; exact nop _
        | some z =>
          obtain ⟨t, p, s⟩ := z
          rw [step_deck hst hf, step_deck hst hf, hv]
          by_cases hd : (env.check r'.options.banlistId d').1 = true
          · simp only [hd, if_true]
            refine ⟨hide_eq_iff.mp ?_, rfl⟩
            rw [setSlot_hide, setSlot_hide]; rfl
          · simp only [hd, if_false]
            refine ⟨hide_eq_iff.mp rfl, ?_⟩
            rcases hx with hx | hx
            · simp [inbox, hx]
            · rw [hx]
  cases hc with
  | same => exact same _
  | deck hx hv => exact core hv (.inl hx)
  | own hv => exact core (by rw [hv]) (.inr hv)

theorem alikeCalls_snoc {y : ClientId} {check : Deck → Bool × DeckError} {l m : List Room.Call} {a : Room.Call}
    (h : AlikeCalls y check (l ++ [a]) m) : ∃ m' b, m = m' ++ [b] ∧ AlikeCalls y check l m' ∧ AlikeFor y check a b := by
  induction l generalizing m with
  | nil => cases h with | cons h1 h2 => cases h2; exact ⟨[], _, rfl, .nil, h1⟩
  | cons x l ih =>
    cases h with
    | cons h1 h2 =>
      obtain ⟨m', b, rfl, h3, h4⟩ := ih h2
      exact ⟨_ :: m', b, rfl, .cons h1 h3, h4⟩

/-- Whole histories: exchanging decks of others for decks judged alike, `y` receives the very same messages, and the rooms differ only
in those decks. So what `y` receives tells nothing about the others' decks but whether they are valid. -/
theorem C77_private {env : Env} {r : Room} {calls calls' : List Room.Call} {log : List Sent} {y : ClientId} (h : Lived env r calls log)
    (hc : AlikeCalls y (env.check r.options.banlistId) calls calls') :
    ∃ r' log', Lived env r' calls' log' ∧ SameButDecks r r' ∧ inbox y log = inbox y log' := by
  induction h generalizing calls' with
  | start h0 =>
    cases hc with
    | cons h1 h2 =>
      cases h2
      cases h1
      exact ⟨_, _, .start h0, hide_eq_iff.mp rfl, rfl⟩
  | @step r r1 calls log out fuel c hl hs ih =>
    have ho := ((lived_ok hl).move hs).host.2
    rw [ho] at hc
    obtain ⟨cs', c', rfl, h1, h2⟩ := alikeCalls_snoc hc
    obtain ⟨r', log', i1, i2, i3⟩ := ih h1
    have k := C77_call (fuel := fuel) i2 h2
    rw [hs] at k
    cases hs' : r'.step env fuel c' with
    | error e => rw [hs'] at k; exact k.elim
    | ok z =>
      obtain ⟨r1', out'⟩ := z
      rw [hs'] at k
      refine ⟨r1', log' ++ out', i1.step hs', k.1, ?_⟩
      have hk := k.2
      simp only [inbox, List.filter_append, List.map_append] at i3 hk ⊢
      rw [i3, hk]

/-- Non-vacuity: client 1 cannot tell which deck client 2 submitted. -/
example : AlikeCalls 1 (demoEnv.check "") ([.enter 1, .enter 2] ++ prepare 2)
    [.enter 1, .enter 2, .visit 2 (.configuring (.updateDeck { main := [8, 8] })), .visit 2 (.configuring (.readyStatus true))] :=
  .cons .same (.cons .same (.cons (.deck (by decide) (by decide)) (.cons .same .nil)))

/-- But client 2 is told whether the deck is valid. -/
example : (match play demoEnv demoRng 1 {} ([.enter 2] ++ prepare 2) with
    | .ok (_, log) => decide (inbox 2 log ≠ inbox 1 log ∧ Event.deckStatus none ∈ inbox 2 log) | .error _ => false) = true := by decide

/-! ## C78 -/

theorem later_lived {env : Env} {r r' : Room} {calls : List Room.Call} {log : List Sent} (h : Lived env r calls log) (hl : Later env r r') :
    ∃ calls' log', Lived env r' calls' log' := by
  induction hl with
  | now => exact ⟨_, _, h⟩
  | step _ hs ih => obtain ⟨c, l, i⟩ := ih; exact ⟨_, _, i.step hs⟩

theorem later_trans {env : Env} {a b c : Room} (h1 : Later env a b) (h2 : Later env b c) : Later env a c := by
  induction h2 with
  | now => exact h1
  | step _ hs ih => exact .step ih hs

/-- Shadowed seats stay as they are. -/
theorem shadowed_stays {env : Env} {r r' : Room} {calls : List Room.Call} {log out : List Sent} {fuel : Nat} {c : Room.Call}
    (h : Lived env r calls log) (hs : r.step env fuel c = .ok (r', out)) {t : Fin 2} {p : Nat} (hp : Shadowed r t p) :
    Shadowed r' t p ∧ slotAt r' t p = slotAt r t p := by
  have hok := lived_ok h
  have m := hok.move hs
  obtain ⟨x, t', p', hb, h1, h2⟩ := hp
  refine ⟨⟨x, t', p', hb, m.seat_mono hok h1, m.seat_mono hok h2⟩, ?_⟩
  cases c with
  | visit y s => exact (C76_own_seat h hs).2.2 t p (.inr ⟨x, t', p', hb, h1, h2⟩)
  | enter y =>
    cases m with
    | seat _ _ _ h4 =>
      rw [slotAt_setSlot (List.getElem?_eq_some_iff.mp h4).1]
      split
      · rename_i e; obtain ⟨rfl, rfl⟩ := e
        rw [hok.seat_none (Nat.le_refl _)] at h2; cases h2
      · rfl
    | spectate => rfl
    | nothing => rfl

theorem configuring_keeps {env : Env} {r r' : Room} {calls : List Room.Call} {log out : List Sent} {fuel : Nat} {c : Room.Call}
    (h : Lived env r calls log) (hs : r.step env fuel c = .ok (r', out)) (hst : r'.state = .configuring) : r'.rng = r.rng ∧ r'.used = r.used := by
  cases (lived_ok h).move hs with
  | start _ _ h3 => obtain ⟨⟨d, u, rfl⟩, _⟩ := enterDeciding_ok h3; cases hst
  | _ => exact ⟨rfl, rfl⟩

/-- A room that starts some day had what it takes. -/
theorem started_could {env : Env} {r r' : Room} {calls : List Room.Call} {log : List Sent} (h : Lived env r calls log) (hl : Later env r r') :
    (r'.state = .configuring → r'.rng = r.rng ∧ r'.used = r.used ∧ r'.options = r.options ∧
      ∀ t p, Shadowed r t p → Shadowed r' t p ∧ slotAt r' t p = slotAt r t p) ∧
    (r.state = .configuring → r'.state ≠ .configuring → CanStart env r) := by
  induction hl with
  | now => exact ⟨fun _ => ⟨rfl, rfl, rfl, fun _ _ h => ⟨h, rfl⟩⟩, fun a b => absurd a b⟩
  | @step r1 r2 fuel c out hl hs ih =>
    obtain ⟨cs, lg, hv⟩ := later_lived h hl
    have hok := lived_ok hv
    refine ⟨?_, ?_⟩
    · intro h2
      have h1 := was_configuring hv hs h2
      obtain ⟨a1, a2, a3, a4⟩ := ih.1 h1
      obtain ⟨b1, b2⟩ := configuring_keeps hv hs h2
      refine ⟨b1.trans a1, b2.trans a2, (hok.move hs).host.2.trans a3, ?_⟩
      intro t p hp
      obtain ⟨c1, c2⟩ := a4 t p hp
      obtain ⟨d1, d2⟩ := shadowed_stays hv hs c1
      exact ⟨d1, d2.trans c2⟩
    · intro h0 h2
      by_cases h1 : r1.state = .configuring
      · obtain ⟨a1, a2, a3, a4⟩ := ih.1 h1
        obtain ⟨⟨b, rfl⟩, h4, h5⟩ := C52_start hv hs h1 h2
        have hstart : Startable r1 := by
          intro t
          obtain ⟨p, x, hx⟩ := h4 t
          simp only [seat, Option.bind_eq_some_iff] at hx
          obtain ⟨s, hx, hc⟩ := hx
          exact ⟨⟨p, s, hx, by simp [hc]⟩, fun p s e1 e2 => ⟨(h5 t p s e1 e2).1, (h5 t p s e1 e2).2.1⟩⟩
        refine ⟨?_, ?_, ?_, ?_⟩
        · intro t p s e1 e2
          obtain ⟨e3, e4⟩ := a4 t p e2
          rw [← e4] at e1
          obtain ⟨x, _, _, _, _, e5⟩ := e3
          have := h5 t p s e1 (by intro e; simp [seat, e1, e] at e5)
          exact ⟨this.1, this.2.1⟩
        · obtain ⟨p, x, hx⟩ := h4 0
          simp only [seat, Option.bind_eq_some_iff] at hx
          obtain ⟨s, hx, hc⟩ := hx
          exact ⟨s.deck, a3 ▸ (h5 0 p s hx (by simp [hc])).2.2⟩
        · have := mt (C59_undefined_iff (fuel := fuel) (c := .visit r1.host (.configuring (.startDueling b))) hv).mpr (by rw [hs]; simp)
          rw [← a3]
          constructor <;> intro e <;> exact this ⟨h1, ⟨b, rfl⟩, hstart, by simp [e]⟩
        · intro e
          have := mt (C59_hang_iff (fuel := fuel) (c := .visit r1.host (.configuring (.startDueling b))) hv).mpr (by rw [hs]; simp)
          rw [a1, a2, a3] at this
          by_cases hn : ∃ n, r.rng (r.used + 2 * n) % 6 ≠ r.rng (r.used + 2 * n + 1) % 6
          · exact hn
          · refine absurd ⟨h1, ⟨b, rfl⟩, hstart, e, ?_⟩ this
            intro i _
            exact Decidable.byContradiction fun hc => hn ⟨i, hc⟩
      · exact ih.2 h0 h1

/-- Seats yet to become ready. -/
def pendingSeats (r : Room) : Nat :=
  ([(0, 0), (0, 1), (0, 2), (1, 0), (1, 1), (1, 2)] : List (Fin 2 × Nat)).countP fun a =>
    match slotAt r a.1 a.2 with
    | some s => s.client.isSome && !(s.ready && s.deckValid)
    | none => false

theorem countP_lt {α : Type} {l : List α} {p q : α → Bool} (h : ∀ a ∈ l, q a = true → p a = true) (h' : ∃ a ∈ l, p a = true ∧ q a = false) :
    l.countP q < l.countP p := by
  induction l with
  | nil => simp at h'
  | cons a l ih =>
    have hle : l.countP q ≤ l.countP p := List.countP_mono_left (fun a ha => h a (by simp [ha]))
    obtain ⟨b, hb, hp, hq⟩ := h'
    rcases List.mem_cons.mp hb with rfl | hb
    · simp only [List.countP_cons, hp, hq]; simp; omega
    · have := ih (fun a ha => h a (by simp [ha])) ⟨b, hb, hp, hq⟩
      have := h a (by simp)
      simp only [List.countP_cons]
      cases hq' : q a <;> cases hp' : p a <;> simp_all <;> omega

/-- A seat can be made ready. -/
theorem make_ready {env : Env} {r : Room} (hok : RoomOk env r) (hst : r.state = .configuring) {t : Fin 2} {p : Nat} {s : Slot} {x : ClientId}
    (hs : slotAt r t p = some s) (hc : s.client = some x) (hn : ¬ Shadowed r t p) {d : Deck} (hd : (env.check r.options.banlistId d).1 = true) :
    ∃ r' s', Later env r r' ∧ r'.state = .configuring ∧ r'.options = r.options ∧ r'.rng = r.rng ∧ r'.used = r.used ∧
      s'.client = some x ∧ s'.ready = true ∧ s'.deckValid = true ∧
      ∀ t' p', slotAt r' t' p' = if t' = t ∧ p' = p then some s' else slotAt r t' p' := by
  have hf := hok.finds hs hc hn
  have hlt := (List.getElem?_eq_some_iff.mp hs).1
  have e1 := step_deck (env := env) (fuel := 0) hst hf d
  rw [if_pos hd] at e1
  have l1 : Later env r _ := .step .now e1
  cases hr : s.ready with
  | true => exact ⟨_, { s with deck := d, deckValid := true }, l1, hst, rfl, rfl, rfl, hc, hr, rfl, fun t' p' => slotAt_setSlot hlt⟩
  | false =>
    have hok1 : RoomOk env (r.setSlot t p { s with deck := d, deckValid := true }) := hok.setSlot hs rfl (by simp [hc]) (fun _ => hd)
    have hs1 : slotAt (r.setSlot t p { s with deck := d, deckValid := true }) t p = some { s with deck := d, deckValid := true } := by
      rw [slotAt_setSlot hlt]; simp
    have hn1 : ¬ Shadowed (r.setSlot t p { s with deck := d, deckValid := true }) t p := by
      rintro ⟨y, t', p', hb, a1, a2⟩
      rw [seat_setSlot_same hs (by rfl)] at a1 a2
      exact hn ⟨y, t', p', hb, a1, a2⟩
    have hf1 := hok1.finds hs1 hc hn1
    have e2 := step_ready (env := env) (fuel := 0) (by exact hst) hf1 true
    rw [if_neg (by simp [hr])] at e2
    have hlt1 := (List.getElem?_eq_some_iff.mp hs1).1
    refine ⟨_, { s with deck := d, deckValid := true, ready := true }, .step l1 e2, hst, rfl, rfl, rfl, hc, rfl, rfl, ?_⟩
    intro t' p'
    rw [slotAt_setSlot hlt1]
    split
    · rfl
    · rename_i h; rw [slotAt_setSlot hlt, if_neg h]

/-- Rooms where both teams have a duelist. -/
theorem could_start {env : Env} (n : Nat) {r : Room} {calls : List Room.Call} {log : List Sent} (h : Lived env r calls log)
    (hst : r.state = .configuring) (hboth : ∀ t, seat r t 0 ≠ none) (hcan : CanStart env r) (hm : pendingSeats r = n) :
    ∃ r', Later env r r' ∧ r'.state ≠ .configuring := by
  induction n using Nat.strongRecOn generalizing r calls log with
  | _ n ih =>
    have hok := lived_ok h
    by_cases hS : Startable r
    · obtain ⟨_, _, ⟨m1, m2⟩, m3⟩ := hcan
      have : ∃ fuel, ∃ r' out, r.step env fuel (.visit r.host (.configuring (.startDueling true))) = .ok (r', out) := by
        obtain ⟨fuel, hfuel⟩ : ∃ fuel, ¬ (r.options.ftdm = 2 ∧ ∀ i < fuel, r.rng (r.used + 2 * i) % 6 = r.rng (r.used + 2 * i + 1) % 6) := by
          by_cases e : r.options.ftdm = 2
          · obtain ⟨n, hn⟩ := m3 e
            exact ⟨n + 1, fun hh => hn (hh.2 n (by omega))⟩
          · exact ⟨0, fun hh => e hh.1⟩
        refine ⟨fuel, ?_⟩
        cases hres : r.step env fuel (.visit r.host (.configuring (.startDueling true))) with
        | ok y => exact ⟨y.1, y.2, rfl⟩
        | error e =>
          cases e with
          | assert => have := ((C59_abort_iff h).mp hres).2.1; cases this
          | ub =>
            rcases ((C59_undefined_iff h).mp hres).2.2.2 with e | e
            · exact absurd e m1
            · exact absurd e m2
          | hang =>
            have := ((C59_hang_iff h).mp hres).2.2.2
            exact absurd this hfuel
      obtain ⟨fuel, r', out, hs⟩ := this
      refine ⟨r', .step .now hs, ?_⟩
      simp only [Room.step, Room.visit, hst, Room.signalConfiguring, Room.startDueling, canStart_iff.mpr hS] at hs
      obtain ⟨⟨d, u, rfl⟩, _⟩ := enterDeciding_ok (by simpa using hs)
      simp
    · -- some seat is not ready
      have : ∃ t p s, slotAt r t p = some s ∧ s.client ≠ none ∧ ¬ (s.ready = true ∧ s.deckValid = true) := by
        refine Classical.byContradiction fun hno => hS ?_
        intro t
        refine ⟨?_, ?_⟩
        · obtain ⟨x, hx⟩ := Option.ne_none_iff_exists'.mp (hboth t)
          simp only [seat, Option.bind_eq_some_iff] at hx
          obtain ⟨s, hx, hc⟩ := hx
          exact ⟨0, s, hx, by simp [hc]⟩
        · intro p s hs hc
          exact Classical.byContradiction fun hb => hno ⟨t, p, s, hs, hc, hb⟩
      obtain ⟨t, p, s, hs, hc, hb⟩ := this
      obtain ⟨x, hx⟩ := Option.ne_none_iff_exists'.mp hc
      obtain ⟨c1, ⟨d, hd⟩, c3, c4⟩ := hcan
      have hn : ¬ Shadowed r t p := fun hsh => hb (c1 t p s hs hsh)
      obtain ⟨r', s', l, a1, a2, a3, a4, a5, a6, a7, a8⟩ := make_ready hok hst hs hx hn hd
      obtain ⟨cs, lg, hv⟩ := later_lived h l
      have hseat : ∀ t' p', seat r' t' p' = seat r t' p' := by
        intro t' p'
        simp only [seat, a8]
        split
        · rename_i e; obtain ⟨rfl, rfl⟩ := e; simp [hs, a5, hx]
        · rfl
      have hp3 : p < 3 := by
        have := (List.getElem?_eq_some_iff.mp hs).1
        rwa [(hok.team t).2.length] at this
      have hlt : pendingSeats r' < n := by
        rw [← hm]
        refine countP_lt ?_ ⟨(t, p), ?_, ?_, ?_⟩
        · intro a _ ha
          rw [a8] at ha
          by_cases e : a.1 = t ∧ a.2 = p
          · simp [e, a6, a7] at ha
          · rw [if_neg e] at ha; exact ha
        · have h2 : t = 0 ∨ t = 1 := by omega
          have h3 : p = 0 ∨ p = 1 ∨ p = 2 := by omega
          rcases h2 with rfl | rfl <;> rcases h3 with rfl | rfl | rfl <;> simp
        · simp only [hs, hx]
          cases h1 : s.ready <;> cases h2 : s.deckValid <;> simp_all
        · simp only [a8, and_self, if_true, a6, a7]; simp
      have hcan' : CanStart env r' := by
        refine ⟨?_, ⟨d, a2 ▸ hd⟩, a2 ▸ c3, ?_⟩
        · rintro t' p' s'' hs'' ⟨y, t2, p2, hb2, g1, g2⟩
          rw [hseat] at g1 g2
          rw [a8] at hs''
          split at hs''
          · cases hs''; exact ⟨a6, a7⟩
          · exact c1 t' p' s'' hs'' ⟨y, t2, p2, hb2, g1, g2⟩
        · rw [a2, a3, a4]; exact c4
      obtain ⟨r2, l2, e2⟩ := ih _ hlt hv a1 (fun t => by rw [hseat]; exact hboth t) hcan' rfl
      exact ⟨r2, later_trans l l2, e2⟩

/-- Which rooms can still start: those where every seat whose client also has an earlier seat is already ready with a valid deck (such
a seat never changes again), some deck is valid, and the way of deciding the first turn neither overflows nor ties forever. -/
theorem C78_can_start {env : Env} {r : Room} {calls : List Room.Call} {log : List Sent} (h : Lived env r calls log)
    (hst : r.state = .configuring) : (∃ r', Later env r r' ∧ r'.state ≠ .configuring) ↔ CanStart env r := by
  constructor
  · rintro ⟨r', hl, hr⟩
    exact (started_could h hl).2 hst hr
  · intro hcan
    have hok := lived_ok h
    by_cases hboth : ∀ t, seat r t 0 ≠ none
    · exact could_start _ h hst hboth hcan rfl
    · -- somebody new enters
      have hno : seat r 1 0 = none := by
        refine Classical.byContradiction fun h1 => hboth fun t => ?_
        match t with
        | 0 => rw [lived_host_seat h]; simp
        | 1 => exact h1
      have h0 : duelists r 1 = 0 := by
        have := hok.seat_isSome 1 0
        rw [hno] at this
        simp at this
        exact this
      have h1 : 0 < duelists r 0 := (hok.seat_isSome 0 0).mp (by rw [lived_host_seat h]; rfl)
      have c1 := hok.cap 1
      have hnext : nextSeat r = some (1, 0) := by
        unfold nextSeat
        rw [if_neg (by omega), if_pos (by omega), h0]
      -- a client nobody has heard of
      obtain ⟨x, hx⟩ : ∃ x, ∀ t p, seat r t p ≠ some x := by
        have hb : ∀ l : List ClientId, ∃ x, x ∉ l := by
          intro l
          refine ⟨l.sum + 1, ?_⟩
          intro hin
          have : l.sum + 1 ≤ l.sum := by
            have : ∀ (l : List Nat) y, y ∈ l → y ≤ l.sum := by
              intro l
              induction l with
              | nil => simp
              | cons a l ih =>
                intro y hy
                rcases List.mem_cons.mp hy with rfl | hy
                · simp
                · have := ih y hy; simp; omega
            exact this l _ hin
          exact Nat.not_succ_le_self _ this
        obtain ⟨x, hx⟩ := hb (Room.teamClients (r.teams 0) ++ Room.teamClients (r.teams 1))
        refine ⟨x, ?_⟩
        intro t p hp
        refine hx (List.mem_append.mpr ?_)
        match t, hp with
        | 0, hp => exact .inl (mem_teamClients.mpr ⟨p, hp⟩)
        | 1, hp => exact .inr (mem_teamClients.mpr ⟨p, hp⟩)
      obtain ⟨s, hs⟩ := hok.slot (t := 1) (p := 0) (by omega)
      have hlt := (List.getElem?_eq_some_iff.mp hs).1
      obtain ⟨out, e⟩ : ∃ out, r.step env 0 (.enter x) = .ok (r.setSlot 1 0 { s with client := some x }, out) := by
        simp only [Room.step, Room.enter, hst]
        rw [hok.enterConfiguring]
        simp only [hnext, hs, Option.getD_some]
        exact ⟨_, rfl⟩
      have hseat : ∀ t p, seat (r.setSlot 1 0 { s with client := some x }) t p = if t = 1 ∧ p = 0 then some x else seat r t p :=
        fun t p => seat_setSlot hlt
      obtain ⟨r', l, hr⟩ := could_start _ (h.step e) hst (by
        intro t
        rw [hseat]
        match t with
        | 0 => simp [lived_host_seat h]
        | 1 => simp) ⟨by
          rintro t p s' hs' ⟨y, t', p', hb, g1, g2⟩
          rw [hseat] at g1 g2
          rw [slotAt_setSlot hlt] at hs'
          by_cases e1 : t = 1 ∧ p = 0
          · rw [if_pos e1] at g2
            cases g2
            split at g1
            · rename_i e2
              obtain ⟨rfl, rfl⟩ := e1
              obtain ⟨rfl, rfl⟩ := e2
              rcases hb with hb | ⟨_, hb⟩
              · exact absurd hb (by simp)
              · omega
            · exact absurd g1 (hx _ _)
          · rw [if_neg e1] at g2 hs'
            split at g1
            · cases g1; exact absurd g2 (hx _ _)
            · exact hcan.1 t p s' hs' ⟨y, t', p', hb, g1, g2⟩, hcan.2⟩ rfl
      exact ⟨r', later_trans (.step .now e) l, hr⟩

/-- A room where the host entered twice can never start, whatever happens; it could before. -/
theorem C78_never : ∃ (env : Env) (r r' : Room) (calls : List Room.Call) (log out : List Sent), Lived env r calls log ∧
    r.state = .configuring ∧ CanStart env r ∧ r.step env 0 (.enter r.host) = .ok (r', out) ∧
    ∀ r'', Later env r' r'' → r''.state = .configuring := by
  obtain ⟨r, log, h, hp⟩ := play_witness (env := demoEnv) (rng := demoRng) (host := 1) (o := {}) (cs := [])
    (fun r => r.teams 0 == [{ client := some 1 }, {}, {}] && r.teams 1 == [{}, {}, {}] && r.host == 1 && r.state == .configuring &&
      r.options.maxDuelists == [1, 1] && r.options.ftdm == 0 && r.spectators == [])
    (by decide)
  simp only [Bool.and_eq_true, beq_iff_eq] at hp
  obtain ⟨⟨⟨⟨⟨⟨p1, p2⟩, p3⟩, p4⟩, p5⟩, p6⟩, p7⟩ := hp
  have two : ∀ t : Fin 2, t = 0 ∨ t = 1 := by decide
  have hseat : ∀ t p x, seat r t p = some x → t = 0 ∧ p = 0 := by
    intro t p x hx
    rcases two t with rfl | rfl
    · refine ⟨rfl, ?_⟩
      match p, hx with
      | 0, _ => rfl
      | 1, hx => simp [seat, slotAt, p1] at hx
      | 2, hx => simp [seat, slotAt, p1] at hx
      | p + 3, hx => simp [seat, slotAt, p1] at hx
    · match p, hx with
      | 0, hx => simp [seat, slotAt, p2] at hx
      | 1, hx => simp [seat, slotAt, p2] at hx
      | 2, hx => simp [seat, slotAt, p2] at hx
      | p + 3, hx => simp [seat, slotAt, p2] at hx
  have hok := lived_ok h
  have d0 : duelists r 0 = 1 := by simp [duelists, p1]
  have d1 : duelists r 1 = 0 := by simp [duelists, p2]
  have hnext : nextSeat r = some (1, 0) := by simp [nextSeat, d0, d1, capacity, p5]
  obtain ⟨out, e⟩ : ∃ out, r.step demoEnv 0 (.enter r.host) = .ok (r.setSlot 1 0 { client := some r.host }, out) := by
    simp only [Room.step, Room.enter, p4]
    rw [hok.enterConfiguring]
    simp only [hnext, slotAt, p2, Option.getD_some]
    exact ⟨_, rfl⟩
  refine ⟨_, r, _, _, log, out, h, p4, ?_, e, ?_⟩
  · refine ⟨?_, ⟨{ main := [7] }, rfl⟩, by rw [p6]; decide, by simp [p6]⟩
    rintro t p s hs ⟨x, t', p', hb, h1, h2⟩
    obtain ⟨rfl, rfl⟩ := hseat _ _ _ h1
    obtain ⟨rfl, rfl⟩ := hseat _ _ _ h2
    rcases hb with hb | ⟨_, hb⟩
    · exact absurd hb (by simp)
    · omega
  · intro r'' hl
    refine Classical.byContradiction fun hne => ?_
    have := ((C78_can_start (h.step e) p4).mp ⟨r'', hl, hne⟩).1 1 0 { client := some r.host }
      (by rw [slotAt_setSlot (by simp [p2])]; simp) ⟨r.host, 0, 0, .inl (by decide), by
        rw [seat_setSlot (by simp [p2])]; simp [lived_host_seat h], by rw [seat_setSlot (by simp [p2])]; simp⟩
    simp at this

end Ygo.Props
