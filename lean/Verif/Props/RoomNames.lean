import Verif.Lemmas.RoomNames
import Verif.Props.Room

/-!
# Rooms treat clients by what they do, not by their addresses (C132)
-/

namespace Ygo.Props
open Ygo Ygo.Spec Ygo.Room

/-- **C132.** Whatever other addresses the clients have, a room does the same: it ends in the same way, with the same clients in the same seats, and
every client is sent the same messages in the same order. -/
theorem C132_rooms {σ : ClientId → ClientId} (hσ : Function.Injective σ) {env env' : Env} (he : SameEnv σ env env') (rng : Nat → Nat) (host : ClientId)
    (o : Options) (fuel : Nat) (calls : List Room.Call) :
    SameLife σ (roomLife env rng host o fuel calls) (roomLife env' rng (σ host) o fuel (calls.map (callBy σ))) :=
  life_names he hσ rng host o fuel calls

/-- **C132.** No client can find out addresses: what it receives does not depend on them. -/
theorem C132_received {σ : ClientId → ClientId} (hσ : Function.Injective σ) {env env' : Env} (he : SameEnv σ env env') {rng : Nat → Nat} {host : ClientId}
    {o : Options} {fuel : Nat} {calls : List Room.Call} {r r' : Room} {log log' : List Sent} (h : roomLife env rng host o fuel calls = .ok (r, log))
    (h' : roomLife env' rng (σ host) o fuel (calls.map (callBy σ)) = .ok (r', log')) (c : ClientId) : inbox (σ c) log' = inbox c log := by
  have hs := C132_rooms hσ he rng host o fuel calls
  rw [h, h'] at hs
  exact hs.2.inboxes c

/-- **C132.** It fails in the same way. -/
theorem C132_fails {σ : ClientId → ClientId} (hσ : Function.Injective σ) {env env' : Env} (he : SameEnv σ env env') (rng : Nat → Nat) (host : ClientId)
    (o : Options) (fuel : Nat) (calls : List Room.Call) (e : Err) :
    roomLife env' rng (σ host) o fuel (calls.map (callBy σ)) = .error e ↔ roomLife env rng host o fuel calls = .error e := by
  have hs := C132_rooms hσ he rng host o fuel calls
  generalize roomLife env rng host o fuel calls = x at hs ⊢
  generalize roomLife env' rng (σ host) o fuel (calls.map (callBy σ)) = y at hs ⊢
  match x, y, hs with
  | .error _, .error _, hs => rw [show _ = _ from hs]
  | .ok _, .ok _, _ => simp

/-- Clients without names, a validator that accepts everything. -/
def plainEnv : Env := ⟨fun _ => {}, fun _ _ => (true, {})⟩

/-- Who enters a full room watches. -/
theorem watches {env : Env} {r : Room} (hst : r.state = .configuring) (hf : r.findEmpty = .ok none) {a : ClientId} (ha : r.host ≠ a) (fuel : Nat) :
    ∃ m, r.step env fuel (.enter a) = .ok ({ r with spectators := setInsert a r.spectators },
      m :: ({ r with spectators := setInsert a r.spectators } : Room).sendAll (.spectatorCount (setInsert a r.spectators).length)) := by
  simp only [Room.step, Room.enter, hst, Room.enterConfiguring, hf, bind_ok, massert_true ha, pure_eq_ok]
  exact ⟨_, rfl⟩

/-- A host who takes both seats. -/
theorem plays_alone (rng : Nat → Nat) (y : ClientId) : ∃ r1 o1 r2 o2, Room.init plainEnv rng y {} = .ok (r1, o1) ∧ r1.step plainEnv 0 (.enter y) = .ok (r2, o2) ∧
    r2.state = .configuring ∧ r2.findEmpty = .ok none ∧ r2.host = y ∧ r2.spectators = [] :=
  ⟨_, _, _, _, rfl, rfl, rfl, rfl, rfl, rfl⟩

/-- Two watch a room in which one plays against themselves: the one with the higher address is told last. -/
theorem told_last (rng : Nat → Nat) {a b y : ClientId} (ha : y ≠ a) (hb : y ≠ b) (hab : a ≠ b) :
   ∃ r log, roomLife plainEnv rng y {} 0 [.enter y, .enter a, .enter b] = .ok (r, log) ∧
     log.getLast?.map (·.1) = some (if a < b then b else a) := by
  obtain ⟨r1, o1, r2, o2, h1, h2, h3, h4, h5, h6⟩ := plays_alone rng y
  obtain ⟨m1, g1⟩ := watches (env := plainEnv) h3 h4 (a := a) (h5 ▸ ha) 0
  obtain ⟨m2, g2⟩ := watches (env := plainEnv) (r := { r2 with spectators := setInsert a r2.spectators }) h3 h4 (a := b) (h5 ▸ hb) 0
  refine ⟨_, _, by simp only [roomLife, h1, bind_ok, Room.run, h2, g1, g2, pure_eq_ok]; rfl, ?_⟩
  simp only [h6, setInsert, Room.sendAll]
  rcases Nat.lt_trichotomy a b with h | h | h
  · rw [if_neg (Nat.lt_asymm h), if_pos h, if_pos h]
    simp [List.getLast?_append, List.getLast?_cons]
  · exact absurd h hab
  · rw [if_pos h, if_neg (Nat.lt_asymm h)]
    simp [List.getLast?_append, List.getLast?_cons]

/-- **C132.** Messages that go to several clients are sent in the same order exactly if the addresses are in the same order: spectators are told in
the order of their addresses. -/
theorem C132_order_exactly {σ : ClientId → ClientId} (hσ : Function.Injective σ) (rng : Nat → Nat) :
    (∀ env env' host o fuel calls r r' log log', SameEnv σ env env' → roomLife env rng host o fuel calls = .ok (r, log) →
      roomLife env' rng (σ host) o fuel (calls.map (callBy σ)) = .ok (r', log') → log' = log.map fun m => (σ m.1, m.2)) ↔ KeepsOrder σ := by
  constructor
  · intro h c d hcd
    apply Nat.lt_of_not_le
    intro hle
    have hne : c ≠ d := Nat.ne_of_lt hcd
    have hc : c + d + 1 ≠ c := Nat.ne_of_gt (Nat.lt_succ_of_le (Nat.le_add_right c d))
    have hd : c + d + 1 ≠ d := Nat.ne_of_gt (Nat.lt_succ_of_le (Nat.le_add_left d c))
    obtain ⟨r, log, h1, e1⟩ := told_last rng hc hd hne
    obtain ⟨r', log', h2, e2⟩ := told_last rng (hσ.ne hc) (hσ.ne hd) (hσ.ne hne)
    have e := h plainEnv plainEnv _ {} 0 _ r r' log log' ⟨fun _ => rfl, rfl⟩ h1 h2
    rw [e, List.getLast?_map, Option.map_map, show (fun x : Sent => x.1) ∘ (fun m : Sent => (σ m.1, m.2)) = σ ∘ (·.1) from rfl, ← Option.map_map, e1,
      if_pos hcd, if_neg (Nat.not_lt_of_le hle)] at e2
    exact hne (hσ (Option.some.inj e2)).symm
  · intro hm env env' host o fuel calls r r' log log' he h h'
    have hs := C132_rooms hσ he rng host o fuel calls
    rw [h, h'] at hs
    exact hs.2.inOrder hm

/-! ## Examples -/

/-- The addresses of 3 and 4 exchanged. -/
def exchanged (c : ClientId) : ClientId := if c = 3 then 4 else if c = 4 then 3 else c

theorem exchanged_injective : Function.Injective exchanged := by
  intro a b h
  simp only [exchanged] at h
  split at h <;> split at h <;> (try split at h) <;> (try split at h) <;> simp_all

/-- A host and a guest get ready while two watch, and the dice are rolled. -/
def watched : List Room.Call :=
  [.enter 2, .enter 4, .enter 3] ++ prepare 1 ++ prepare 2 ++ [.visit 1 (.configuring (.startDueling true))]

/-- Everything goes well, four clients get messages, and the order in which the spectators are told differs. -/
example : ((roomLife plainEnv (fun i => i) 1 { ftdm := 2 } 5 watched).toOption.map fun x => (x.2.map (·.1)).drop (x.2.length - 5)) = some [1, 2, 3, 4, 2] ∧
    ((roomLife plainEnv (fun i => i) 1 { ftdm := 2 } 5 (watched.map (callBy exchanged))).toOption.map fun x =>
      ((x.2.map fun m => exchanged m.1).drop (x.2.length - 5))) = some [1, 2, 4, 3, 2] := by
  decide +kernel

/-- They differ in nothing else. -/
example : SameLife exchanged (roomLife plainEnv (fun i => i) 1 { ftdm := 2 } 5 watched)
    (roomLife plainEnv (fun i => i) 1 { ftdm := 2 } 5 (watched.map (callBy exchanged))) :=
  C132_rooms exchanged_injective ⟨fun _ => rfl, rfl⟩ _ 1 _ _ _

/-- Different clients must stay different: a room that is full refuses its own host with an assertion. -/
example : ∃ (σ : ClientId → ClientId) (calls : List Room.Call), ¬ SameLife σ (roomLife plainEnv (fun i => i) 1 { ftdm := 2 } 5 calls)
    (roomLife plainEnv (fun i => i) (σ 1) { ftdm := 2 } 5 (calls.map (callBy σ))) := by
  refine ⟨fun _ => 1, [.enter 2, .enter 3], ?_⟩
  have h : (match roomLife plainEnv (fun i => i) 1 { ftdm := 2 } 5 [.enter 2, .enter 3] with | .ok _ => true | .error _ => false) = true ∧
      (match roomLife plainEnv (fun i => i) 1 { ftdm := 2 } 5 [.enter 1, .enter 1] with | .ok _ => true | .error _ => false) = false := by
    constructor <;> rfl
  intro hs
  simp only [List.map_cons, List.map_nil, callBy] at hs
  generalize roomLife plainEnv (fun i => i) 1 { ftdm := 2 } 5 [.enter 2, .enter 3] = x at hs h
  generalize roomLife plainEnv (fun i => i) 1 { ftdm := 2 } 5 [.enter 1, .enter 1] = y at hs h
  match x, y, hs, h with
  | .error _, .error _, _, h => exact Bool.noConfusion h.1
  | .ok _, .ok _, _, h => exact Bool.noConfusion h.2

end Ygo.Props
