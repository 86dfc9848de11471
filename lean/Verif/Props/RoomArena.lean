import Verif.Lemmas.RoomArena

/-!
# C121: what a room keeps of what it has said

Every event of a room is an object in an arena that is never reset.  So the room keeps everything it ever said, and a client who
repeats one request makes it grow without any change to the room.
-/

namespace Ygo.Props
open Ygo Ygo.Room Ygo.Spec

/-- **C121.** What is sent is, in order, each object of the arena to those it is for; this holds for every room, every call and every outcome. -/
theorem C121_sent (env : Env) (fuel : Nat) (r : Room) (c : Room.Call) :
    r.step env fuel c = (r.stepL env fuel c >>= fun (r', ls) => .ok (r', Room.delivered ls)) := step_mailed env fuel r c

/-- **C121.** Rooms with an arena are the rooms of the other properties. -/
theorem C121_rooms {env : Env} {r : Room} {calls : List Room.Call} {log : List Sent} :
    Lived env r calls log ↔ ∃ arena, Kept env r calls arena ∧ Room.delivered arena = log :=
  ⟨lived_kept, fun ⟨_, h, e⟩ => e ▸ kept_lived h⟩

/-- **C121.** A call leaves no object in the arena and nothing changes, or as many as its kind needs, each sent to someone. -/
theorem C121_call {env : Env} {r r' : Room} {calls : List Room.Call} {arena ls : List Letter} {fuel : Nat} {c : Room.Call}
    (h : Kept env r calls arena) (hs : r.stepL env fuel c = .ok (r', ls)) :
    (ls = [] ∧ r' = r) ∨ (ls.length = Wordy r c ∧ ∀ l ∈ ls, l.to ≠ []) := by
  rcases stepL_shape hs with h1 | ⟨h1, h2⟩
  · exact .inl h1
  · refine .inr ⟨h1, fun l hl => ?_⟩
    have := kept_everyone (h.step hs)
    rcases h2 l hl with e | ⟨x, e⟩
    · rw [e]; intro e'; rw [e'] at this; cases this
    · rw [e]; simp

/-- **C121.** A call that sends nothing leaves nothing behind. -/
theorem C121_quiet {env : Env} {r r' : Room} {calls : List Room.Call} {arena ls : List Letter} {fuel : Nat} {c : Room.Call}
    (h : Kept env r calls arena) (hs : r.stepL env fuel c = .ok (r', ls)) : Room.delivered ls = [] ↔ ls = [] := by
  constructor
  · intro e
    rcases C121_call h hs with ⟨h1, _⟩ | ⟨_, h2⟩
    · exact h1
    · cases ls with
      | nil => rfl
      | cons l ls =>
        rw [delivered_cons] at e
        exact absurd (List.map_eq_nil_iff.mp (List.append_eq_nil_iff.mp e).1) (h2 l (by simp))
  · rintro rfl; rfl

/-- **C121.** Of everything in an arena only the first object, made by the constructor, was sent to nobody. -/
theorem C121_unsent {env : Env} {r : Room} {calls : List Room.Call} {arena : List Letter} (h : Kept env r calls arena) :
    ∃ rest, arena = ⟨[], .entering {} [] 0⟩ :: rest ∧ ∀ l ∈ rest, l.to ≠ [] := by
  induction h with
  | @start rng host o r ls h =>
    obtain ⟨ls', rfl, _, h2, _⟩ := initL_eq h
    refine ⟨ls', rfl, fun l hl => ?_⟩
    have := kept_everyone (.start h)
    rcases h2 l hl with e | ⟨x, e⟩
    · rw [e]; intro e'; rw [e'] at this; cases this
    · rw [e]; simp
  | @step r r' calls arena ls fuel c h hs ih =>
    obtain ⟨rest, rfl, h1⟩ := ih
    refine ⟨rest ++ ls, rfl, fun l hl => ?_⟩
    rcases List.mem_append.mp hl with hl | hl
    · exact h1 l hl
    · rcases C121_call h hs with ⟨rfl, _⟩ | ⟨_, h2⟩
      · cases hl
      · exact h2 l hl

theorem deciding_stays {env : Env} {r r' : Room} {fuel : Nat} {c : Room.Call} {ls : List Letter} {d : Option ClientId}
    (hd : r.state = .deciding d) (hs : r.stepL env fuel c = .ok (r', ls)) : r' = r ∧ ls.length ≤ 1 ∧ ((∃ x, c = .enter x) → ls = []) ∧
      (r.options.ftdm ≠ 0 → ls = []) := by
  cases c with
  | enter x => simp only [Room.stepL, Room.enterL, hd] at hs; cases hs; simp
  | visit x s =>
    simp only [Room.stepL, Room.visitL, hd] at hs
    cases s with
    | unset => cases hs; simp
    | configuring _ => cases hs; simp
    | deciding s =>
      cases s with
      | unset => cases hs; simp
      | teamGoingFirst n =>
        simp only [Room.signalDecidingL] at hs
        split at hs
        · cases hs; simp
        · rename_i e
          split at hs
          · cases hs; simp
          · cases hs
            refine ⟨rfl, by simp, by simp, fun e' => absurd (.inl e') e⟩

/-- **C121.** The arena holds at most an object for each call, another for each call to enter, one for the construction, and two more once
the room started: never more than what the clients asked for. -/
theorem C121_kept_partial {env : Env} {r : Room} {calls : List Room.Call} {arena : List Letter} (h : Kept env r calls arena) :
    arena.length ≤ calls.length + (enters calls).length + (if r.state = .configuring then 1 else 3) := by
  induction h with
  | @start rng host o r ls h =>
    obtain ⟨ls', rfl, h1, _, h3⟩ := initL_eq h
    simp [h1, h3, enters]
  | @step r r' calls arena ls fuel c h hs ih =>
    have he : (enters (calls ++ [c])).length = (enters calls).length + (enters [c]).length := by simp [enters]
    simp only [List.length_append, he, List.length_cons, List.length_nil]
    cases hst : r.state with
    | mono => exact absurd hst (lived_ok (kept_lived h)).state
    | deciding d =>
      obtain ⟨rfl, h1, _, _⟩ := deciding_stays hst hs
      omega
    | configuring =>
      rw [hst] at ih
      simp only [if_true] at ih
      have hlt : (if r'.state = .configuring then 1 else 3) ≥ 1 := by split <;> omega
      rcases stepL_shape hs with ⟨rfl, rfl⟩ | ⟨h1, _⟩
      · simp only [List.length_nil]; omega
      · rw [h1]
        by_cases hw : ∃ x b, c = .visit x (.configuring (.startDueling b))
        · obtain ⟨x, b, rfl⟩ := hw
          have hne : r'.state ≠ .configuring := by
            simp only [Room.stepL, Room.visitL, hst, Room.signalConfiguringL, Room.startDuelingL] at hs
            have hl := (wordy_le r (.visit x (.configuring (.startDueling b)))).1
            split at hs
            · cases hs; simp only [List.length_nil] at h1; omega
            · split at hs
              · cases hs; simp only [List.length_nil] at h1; omega
              · obtain ⟨_, _, ⟨d, hd⟩, _⟩ := enterDecidingL_shape (x := x) (b := b) hs
                rw [hd]; simp
          have := (wordy_le r (.visit x (.configuring (.startDueling b)))).2
          rw [if_neg hne]
          simp only [enters, List.filterMap_cons, List.filterMap_nil, List.length_nil] at *
          omega
        · cases c with
          | enter x => simp only [Wordy, enters, List.filterMap_cons, List.filterMap_nil, List.length_nil, List.length_cons] at *; omega
          | visit x s =>
            have : Wordy r (.visit x s) = 1 := by
              unfold Wordy
              split
              · rename_i e; cases e
              · rename_i e; cases e; exact absurd ⟨_, _, rfl⟩ hw
              · rfl
            rw [this]
            omega

/-- **C121.** Someone with a seat sends the same deck again and again: from the first time on the room stays as it is, and each time keeps one more event. -/
theorem C121_decks {env : Env} {r : Room} {calls : List Room.Call} {arena : List Letter} (h : Kept env r calls arena) (hst : r.state = .configuring)
    {x : ClientId} {t : Fin 2} {p : Nat} (hx : seat r t p = some x) (d : Deck) : ∃ r' e, ∀ n,
      Kept env r' (calls ++ List.replicate (n + 1) (.visit x (.configuring (.updateDeck d)))) (arena ++ List.replicate (n + 1) ⟨[x], .deckStatus e⟩) := by
  obtain ⟨r', e, hr⟩ := runL_decks (lived_ok (kept_lived h)) hst hx d
  exact ⟨r', e, fun n => h.run (hr n)⟩

/-- Answering who goes first. -/
theorem step_answer {env : Env} {r : Room} {c : Option ClientId} (hst : r.state = .deciding c) (hf : r.options.ftdm = 0) {team : Nat} (ht : team ≤ 1)
    (fuel : Nat) : r.stepL env fuel (.visit r.host (.deciding (.teamGoingFirst team))) = .ok (r, [⟨r.everyone, .result team .unset⟩]) := by
  have : ¬ team > 1 := by omega
  simp [Room.stepL, Room.visitL, hst, Room.signalDecidingL, hf, this]

/-- **C121.** The host who may choose who goes first answers again and again: the room stays as it is, and each time keeps one more event. -/
theorem C121_answers {env : Env} {r : Room} {calls : List Room.Call} {arena : List Letter} (h : Kept env r calls arena) {c : Option ClientId}
    (hst : r.state = .deciding c) (hf : r.options.ftdm = 0) {team : Nat} (ht : team ≤ 1) (n : Nat) :
    Kept env r (calls ++ List.replicate n (.visit r.host (.deciding (.teamGoingFirst team))))
      (arena ++ List.replicate n ⟨r.everyone, .result team .unset⟩) :=
  h.run (runL_replicate (step_answer hst hf ht 0) n)

/-- **C121.** With any other method nothing is said any more after the start. -/
theorem C121_silent {env : Env} {r : Room} {calls : List Room.Call} {arena : List Letter} (h : Kept env r calls arena) (hq : ¬ Talking r)
    (fuel : Nat) (c : Room.Call) : r.stepL env fuel c = .ok (r, []) := by
  simp only [Talking, not_or] at hq
  cases hst : r.state with
  | mono => exact absurd hst (lived_ok (kept_lived h)).state
  | configuring => exact absurd hst hq.1
  | deciding d =>
    have ⟨r', ls, e⟩ : ∃ r' ls, r.stepL env fuel c = .ok (r', ls) := by
      cases c with
      | enter x => simp [Room.stepL, Room.enterL, hst]
      | visit x s =>
        simp only [Room.stepL, Room.visitL, hst]
        cases s with
        | unset => simp
        | configuring _ => simp
        | deciding s =>
          cases s with
          | unset => simp [Room.signalDecidingL]
          | teamGoingFirst n => simp [Room.signalDecidingL, hq.2]
    obtain ⟨rfl, _, _, h2⟩ := deciding_stays hst e
    rw [e, h2 hq.2]

/-- **C121.** An arena can grow beyond any bound exactly if the room is still being configured or the host chooses who goes first. -/
theorem C121_exactly {env : Env} {r : Room} {calls : List Room.Call} {arena : List Letter} (h : Kept env r calls arena) :
    (∀ k, ∃ fuel more r' ls, r.runL env fuel more = .ok (r', ls) ∧ k ≤ ls.length) ↔ Talking r := by
  constructor
  · intro hk
    apply Classical.byContradiction
    intro hq
    have hs : ∀ fuel more, r.runL env fuel more = .ok (r, []) := by
      intro fuel more
      induction more with
      | nil => rfl
      | cons c more ih => simp [Room.runL, C121_silent h hq, ih]
    obtain ⟨fuel, more, r', ls, e, hl⟩ := hk 1
    rw [hs] at e
    cases e
    exact absurd hl (by decide)
  · intro ht k
    cases hst : r.state with
    | mono => exact absurd hst (lived_ok (kept_lived h)).state
    | configuring =>
      obtain ⟨r', e, hr⟩ := runL_decks (lived_ok (kept_lived h)) hst (lived_host_seat (kept_lived h)) {}
      exact ⟨0, _, r', _, hr k, by simp⟩
    | deciding d =>
      rcases ht with ht | ht
      · rw [hst] at ht; cases ht
      · exact ⟨0, _, r, _, runL_replicate (step_answer hst ht (Nat.zero_le 1) 0) k, by simp⟩

/-- **C121.** Whatever the validator, generator, host and options: no bound holds for what the room keeps, even if nobody but the host ever calls. -/
theorem C121_unbounded (env : Env) (rng : Nat → Nat) (host : ClientId) (o : Options) : ∃ r ls, Room.initL env rng host o = .ok (r, ls) ∧
    ¬ ∃ bound, ∀ fuel calls r' ls', (∀ c ∈ calls, ∃ s, c = .visit host s) → r.runL env fuel calls = .ok (r', ls') → (ls ++ ls').length ≤ bound := by
  obtain ⟨r, out, h⟩ := init_ok env rng host o
  have hh : r.host = host := (init_move h).host.1
  rw [init_mailed] at h
  obtain ⟨ls, h1, _⟩ := of_mailed h
  refine ⟨r, ls, h1, ?_⟩
  rintro ⟨bound, hb⟩
  have hk : Kept env r [.enter host] ls := .start h1
  obtain ⟨_, _, _, _, hst⟩ := initL_eq h1
  obtain ⟨r', e, hr⟩ := runL_decks (lived_ok (kept_lived hk)) hst (lived_host_seat (kept_lived hk)) {}
  have := hb 0 _ _ _ (fun c hc => ⟨.configuring (.updateDeck {}), by rw [List.eq_of_mem_replicate hc, hh]⟩) (hr bound)
  simp at this
  omega

/-! ## Concrete rooms -/

/-- A validator that accepts the decks with a main part. -/
def someDecks : Env := ⟨fun _ => {}, fun _ d => (!d.main.isEmpty, { })⟩

/-- One against one: both send a deck and get ready, the host starts and answers twice. -/
def shortDuel : List Room.Call :=
  [.enter 8, .visit 7 (.configuring (.updateDeck { main := [1] })), .visit 8 (.configuring (.updateDeck { main := [2] })),
    .visit 7 (.configuring (.readyStatus true)), .visit 8 (.configuring (.readyStatus true)), .visit 7 (.configuring (.startDueling true)),
    .visit 7 (.deciding (.teamGoingFirst 1)), .visit 7 (.deciding (.teamGoingFirst 1)), .visit 8 (.deciding (.teamGoingFirst 0))]

/-- How many objects are in the arena after a history. -/
def arenaSize (ftdm : Int) (cs : List Room.Call) : Option Nat := do
  let (r, ls) ← (Room.initL someDecks (fun n => n) 7 { ftdm := ftdm, maxDuelists := [1, 1] }).toOption
  let (_, ls') ← (r.runL someDecks 1 cs).toOption
  return ls.length + ls'.length

/-- Three by the constructor, two by the second client entering, four decks and readiness, two at the start, two answers; the last call is ignored. -/
example : arenaSize 0 shortDuel = some 13 := by decide +kernel
/-- With dice three at the start, and no answers. -/
example : arenaSize 2 shortDuel = some 12 := by decide +kernel

/-- The bound of `C121_kept_partial` is reached: with dice, at the start. -/
example : arenaSize 2 (shortDuel.take 6) = some ((.enter 7 :: shortDuel.take 6).length + (enters (.enter 7 :: shortDuel.take 6)).length + 3) := by decide +kernel

/-- The hypotheses of `C121_decks` are met by every room as it is made, those of `C121_answers` by the room above after the start. -/
example : ∃ r calls arena, Kept someDecks r calls arena ∧ r.state = .deciding (some 7) ∧ r.options.ftdm = 0 ∧ arena.length = 11 := by
  have ⟨r, ls, h⟩ : ∃ r ls, Room.initL someDecks (fun n => n) 7 { maxDuelists := [1, 1] } = .ok (r, ls) := by
    obtain ⟨r, out, h⟩ := init_ok someDecks (fun n => n) 7 { maxDuelists := [1, 1] }
    rw [init_mailed] at h
    obtain ⟨ls, h1, _⟩ := of_mailed h
    exact ⟨r, ls, h1⟩
  have key : ((Room.initL someDecks (fun n => n) 7 { maxDuelists := [1, 1] } >>= fun (r, ls) => (r.runL someDecks 0 (shortDuel.take 6)).map
      fun (r', ls') => (r'.state, r'.options.ftdm, (ls ++ ls').length)).toOption) = some (.deciding (some 7), 0, 11) := by decide +kernel
  rw [h, bind_ok] at key
  cases hr : r.runL someDecks 0 (shortDuel.take 6) with
  | error e => simp only [hr] at key; cases key
  | ok x =>
    obtain ⟨r', ls'⟩ := x
    simp only [hr, Except.map, Except.toOption, Option.some.injEq, Prod.mk.injEq] at key
    exact ⟨r', _, _, (Kept.start h).run hr, key.1, key.2.1, key.2.2⟩

end Ygo.Props
