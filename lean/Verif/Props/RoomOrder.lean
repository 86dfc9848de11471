import Verif.Lemmas.RoomOrder
import Verif.Lemmas.RoomStart
import Verif.Lemmas.RoomView
import Verif.Props.Room

/-!
# C116: the order in which players get ready
-/

namespace Ygo.Props
open Ygo Ygo.Room Ygo.Spec

/-- Players hand in decks and get ready in any order among each other: the room becomes the same, nothing fails, and to each signal
exactly the same is sent. -/
theorem C116_order {env : Env} {r : Room} {calls : List Room.Call} {log : List Sent} (h : Lived env r calls log) (fuel : Nat) {cs cs' : List Room.Call}
    (hs : ∀ c ∈ cs, Prepares c) (ho : ∀ x, callsBy x cs = callsBy x cs') :
    ∃ r' l l', runEach env fuel r cs = .ok (r', l) ∧ runEach env fuel r cs' = .ok (r', l') ∧ ∀ x, answersTo x l = answersTo x l' :=
  runEach_order cs (lived_ok h) hs ho

/-- With newcomers among them, as long as these come in the same order, the room becomes the same, or the same failure happens. -/
theorem C116_newcomers {env : Env} {r : Room} {calls : List Room.Call} {log : List Sent} (h : Lived env r calls log) (fuel : Nat) {cs cs' : List Room.Call}
    (hs : ∀ c ∈ cs, ¬ IsStart c) (ho : ∀ x, callsBy x cs = callsBy x cs')
    (he : cs.filter (fun c => IsEnter c) = cs'.filter fun c => IsEnter c) :
    (r.run env fuel cs).map Prod.fst = (r.run env fuel cs').map Prod.fst := roomRun_order cs (lived_ok h) hs ho he

/-- Then whoever is in the room knows the same, whatever the order, although the messages come in different orders. -/
theorem C116_views {env : Env} {r r1 r2 : Room} {calls : List Room.Call} {log out1 out2 : List Sent} (h : Lived env r calls log) {fuel : Nat}
    {cs cs' : List Room.Call} (hs : ∀ c ∈ cs, ¬ IsStart c) (ho : ∀ x, callsBy x cs = callsBy x cs')
    (he : cs.filter (fun c => IsEnter c) = cs'.filter fun c => IsEnter c) (h1 : r.run env fuel cs = .ok (r1, out1)) (h2 : r.run env fuel cs' = .ok (r2, out2))
    {x : ClientId} (hx : Present r1 x) : knows x (log ++ out1) = knows x (log ++ out2) := by
  have e := C116_newcomers h fuel hs ho he
  rw [h1, h2] at e
  have e' : r1 = r2 := Except.ok.inj e
  subst e'
  rw [lived_knows (lived_run h h1) x hx, lived_knows (lived_run h h2) x hx]

/-- And whatever comes next, the start above all, has the same effect and sends the same. -/
theorem C116_next {env : Env} {r r1 r2 : Room} {calls : List Room.Call} {log out1 out2 : List Sent} (h : Lived env r calls log) {fuel : Nat}
    {cs cs' : List Room.Call} (hs : ∀ c ∈ cs, ¬ IsStart c) (ho : ∀ x, callsBy x cs = callsBy x cs')
    (he : cs.filter (fun c => IsEnter c) = cs'.filter fun c => IsEnter c) (h1 : r.run env fuel cs = .ok (r1, out1)) (h2 : r.run env fuel cs' = .ok (r2, out2))
    (fuel' : Nat) (more : List Room.Call) : r1.run env fuel' more = r2.run env fuel' more := by
  have e := C116_newcomers h fuel hs ho he
  rw [h1, h2] at e
  have e' : r1 = r2 := Except.ok.inj e
  rw [e']

/-! ## Conditions -/

private theorem differ {α : Type} [BEq α] [LawfulBEq α] {f : Room → α} {a b : Res (Room × List Sent)}
    (h : (match a, b with | .ok a, .ok b => f a.1 != f b.1 | _, _ => false) = true) : a.map Prod.fst ≠ b.map Prod.fst := by
  intro e
  match a, b, h with
  | .ok a, .ok b, h =>
    have e' : a.1 = b.1 := Except.ok.inj e
    simp [e'] at h

/-- The order of newcomers does matter: it decides who sits where. -/
theorem C116_newcomers_matter : ∃ (env : Env) (r : Room) (calls : List Room.Call) (log : List Sent), Lived env r calls log ∧
    ∃ (cs cs' : List Room.Call), (∀ x, callsBy x cs = callsBy x cs') ∧ (∀ c ∈ cs, ¬ IsStart c) ∧
      (r.run env 100 cs).map Prod.fst ≠ (r.run env 100 cs').map Prod.fst := by
  obtain ⟨r, log, h, hp⟩ := play_witness (env := demoEnv) (rng := demoRng) (host := 1) (o := {}) (cs := [])
    (fun r => match r.run demoEnv 100 [.enter 2, .enter 3], r.run demoEnv 100 [.enter 3, .enter 2] with
      | .ok a, .ok b => a.1.teams 1 != b.1.teams 1
      | _, _ => false) (by decide)
  refine ⟨_, r, _, log, h, [.enter 2, .enter 3], [.enter 3, .enter 2], fun x => ?_, by simp [IsStart], differ (f := fun r => r.teams 1) hp⟩
  by_cases h2 : (2 : ClientId) = x
  · subst h2; rfl
  · by_cases h3 : (3 : ClientId) = x
    · subst h3; rfl
    · simp [callsBy, callOf, h2, h3]

/-- The order of the start and the rest matters too. -/
theorem C116_start_matters : ∃ (env : Env) (r : Room) (calls : List Room.Call) (log : List Sent), Lived env r calls log ∧
    ∃ (cs cs' : List Room.Call), (∀ x, callsBy x cs = callsBy x cs') ∧ cs.filter (fun c => IsEnter c) = cs'.filter (fun c => IsEnter c) ∧
      (r.run env 100 cs).map Prod.fst ≠ (r.run env 100 cs').map Prod.fst := by
  obtain ⟨r, log, h, hp⟩ := play_witness (env := demoEnv) (rng := demoRng) (host := 1) (o := {}) (cs := [.enter 2] ++ prepare 1)
    (fun r => match r.run demoEnv 100 (prepare 2 ++ [startCall 1]), r.run demoEnv 100 (startCall 1 :: prepare 2) with
      | .ok a, .ok b => a.1.state != b.1.state
      | _, _ => false) (by decide)
  refine ⟨_, r, _, log, h, prepare 2 ++ [startCall 1], startCall 1 :: prepare 2, fun x => ?_, rfl, differ (f := fun r => r.state) hp⟩
  by_cases h2 : (2 : ClientId) = x
  · subst h2; rfl
  · by_cases h3 : (1 : ClientId) = x
    · subst h3; rfl
    · simp [callsBy, callOf, h2, h3, prepare, startCall]

/-- Orders as in the theorems, with a newcomer in between. -/
example : ∃ r log, Lived demoEnv r [.enter 1, .enter 2] log ∧
    (∀ c ∈ prepare 1 ++ [.enter 3] ++ prepare 2, ¬ IsStart c) ∧
    (∀ x, callsBy x (prepare 1 ++ [.enter 3] ++ prepare 2) = callsBy x ([.enter 3] ++ prepare 2 ++ prepare 1)) ∧
    (match r.run demoEnv 100 (prepare 1 ++ [.enter 3] ++ prepare 2), r.run demoEnv 100 ([.enter 3] ++ prepare 2 ++ prepare 1) with
      | .ok a, .ok b => a.2 != b.2 && a.1.canStart && b.1.canStart && a.1.spectators == [3]
      | _, _ => false) = true := by
  obtain ⟨r, log, h, hp⟩ := play_witness (env := demoEnv) (rng := demoRng) (host := 1) (o := {}) (cs := [.enter 2])
    (fun r => match r.run demoEnv 100 (prepare 1 ++ [.enter 3] ++ prepare 2), r.run demoEnv 100 ([.enter 3] ++ prepare 2 ++ prepare 1) with
      | .ok a, .ok b => a.2 != b.2 && a.1.canStart && b.1.canStart && a.1.spectators == [3]
      | _, _ => false) (by decide)
  refine ⟨r, log, h, by simp [prepare, IsStart], fun x => ?_, hp⟩
  by_cases h1 : (1 : ClientId) = x
  · subst h1; rfl
  · by_cases h2 : (2 : ClientId) = x
    · subst h2; rfl
    · by_cases h3 : (3 : ClientId) = x
      · subst h3; rfl
      · simp [callsBy, callOf, h1, h2, h3, prepare]

end Ygo.Props
