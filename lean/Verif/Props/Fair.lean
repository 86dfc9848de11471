import Verif.Lemmas.Fair
import Verif.Props.Room

/-!
# Who goes first is decided fairly (C131)
-/

namespace Ygo.Props
open Ygo Ygo.Spec Ygo.Room

/-- Dice as they fall. -/
theorem ways_dice {env : Env} {r : Room} {calls : List Room.Call} {log : List Sent} (h : Lived env r calls log) (h0 : r.state = .configuring)
    (hm : r.options.ftdm = 2) (hr : Startable r) (vals : List Nat) (n : Nat) :
    (∀ w, ways vals (2 * n) (fun ds => announces w (starts env r ds)) = ways vals (2 * n) fun ds => race ds == some w) ∧
    ways vals (2 * n) (fun ds => rolling (starts env r ds)) = ways vals (2 * n) fun ds => race ds == none := by
  refine ⟨fun w => List.countP_congr fun ds hd => ?_, List.countP_congr fun ds hd => ?_⟩
  · rw [(starts_dice (lived_ok h) h0 hm hr (draws_length hd) w).1]
  · rw [(starts_dice (lived_ok h) h0 hm hr (draws_length hd) 0).2]

/-- **C131.** Dice: whatever values the generator may give, however likely each is, as long as draws do not depend on each other, both teams are
equally likely to go first: there are as many sequences of draws in which it is the one as in which it is the other. -/
theorem C131_dice {env : Env} {r : Room} {calls : List Room.Call} {log : List Sent} (h : Lived env r calls log) (h0 : r.state = .configuring)
    (hm : r.options.ftdm = 2) (hr : Startable r) (vals : List Nat) (n : Nat) :
    ways vals (2 * n) (fun ds => announces 0 (starts env r ds)) = ways vals (2 * n) fun ds => announces 1 (starts env r ds) := by
  obtain ⟨h1, _⟩ := ways_dice h h0 hm hr vals n
  rw [h1 0, h1 1]
  exact ways_fair vals n

/-- **C131.** Dice: after `n` rounds one team was announced or the dice are still rolling, which is as likely as `n` ties. -/
theorem C131_dice_ends {env : Env} {r : Room} {calls : List Room.Call} {log : List Sent} (h : Lived env r calls log) (h0 : r.state = .configuring)
    (hm : r.options.ftdm = 2) (hr : Startable r) (vals : List Nat) (n : Nat) :
    2 * ways vals (2 * n) (fun ds => announces 0 (starts env r ds)) + ways vals (2 * n) (fun ds => rolling (starts env r ds)) = vals.length ^ (2 * n) ∧
    ways vals (2 * n) (fun ds => rolling (starts env r ds)) = (ways vals 2 fun ds => ds.getD 0 0 % 6 == ds.getD 1 0 % 6) ^ n := by
  obtain ⟨h1, h2⟩ := ways_dice h h0 hm hr vals n
  rw [h1 0, h2]
  have ht := ways_total vals n
  rw [← ways_fair] at ht
  refine ⟨by omega, ?_⟩
  rw [ways_undecided]
  congr 1
  rw [show (2 : Nat) = 0 + 1 + 1 from rfl, countP_draws, ties]
  congr 1
  apply List.map_congr_left
  intro a _
  rw [countP_draws, ← Nat.mul_one (List.countP _ _), ← sum_ite]
  congr 1
  apply List.map_congr_left
  intro b _
  by_cases hab : a % 6 = b % 6 <;> simp [ways, draws, hab]

/-- **C131.** With a multiple of six consecutive values, the chance that the dice are still rolling after `n` rounds is one in `6 ^ n`. -/
theorem C131_sixth {env : Env} {r : Room} {calls : List Room.Call} {log : List Sent} (h : Lived env r calls log) (h0 : r.state = .configuring)
    (hm : r.options.ftdm = 2) (hr : Startable r) (lo m n : Nat) :
    6 ^ n * ways (List.range' lo (6 * m)) (2 * n) (fun ds => rolling (starts env r ds)) = (6 * m) ^ (2 * n) := by
  rw [(ways_dice h h0 hm hr _ n).2, ways_undecided]
  have : ties (List.range' lo (6 * m)) = 6 * m * m := by
    rw [ties, show (fun a => List.countP (fun b => decide (a % 6 = b % 6)) (List.range' lo (6 * m))) = fun _ => m from funext fun a => ?_, sum_const,
      List.length_range']
    have hc := count_mod lo (6 * m) 6 (a % 6) (by omega)
    have e : (List.range' lo (6 * m)).countP (fun b => decide (a % 6 = b % 6)) = (List.range' lo (6 * m)).countP (fun i => decide (i % 6 = a % 6)) :=
      List.countP_congr fun v _ => by simp [eq_comm]
    rw [e]
    omega
  rw [this, ← Nat.mul_pow, Nat.pow_mul, show 6 * (6 * m * m) = (6 * m) ^ 2 by rw [Nat.pow_two, Nat.mul_assoc 6 m m, Nat.mul_mul_mul_comm, Nat.mul_assoc]]

/-- **C131.** The faces: of consecutive values, each face gets a sixth, up to one value. -/
theorem C131_faces (lo n k : Nat) (hk : k < 6) :
    n / 6 ≤ (List.range' lo n).countP (fun v => v % 6 + 1 == k + 1) ∧ (List.range' lo n).countP (fun v => v % 6 + 1 == k + 1) ≤ n / 6 + 1 := by
  have h := count_mod lo n 6 k hk
  have e : (List.range' lo n).countP (fun v => v % 6 + 1 == k + 1) = (List.range' lo n).countP (fun i => decide (i % 6 = k)) :=
    List.countP_congr fun v _ => by simp
  rw [e]
  omega

/-- **C131.** All faces are equally likely exactly if the number of values is a multiple of six, which it is not for generators of bits. -/
theorem C131_faces_exactly (lo n : Nat) :
    (∀ k < 6, ∀ l < 6, (List.range' lo n).countP (fun v => v % 6 + 1 == k + 1) = (List.range' lo n).countP (fun v => v % 6 + 1 == l + 1)) ↔ 6 ∣ n := by
  have e : ∀ k, (List.range' lo n).countP (fun v => v % 6 + 1 == k + 1) = (List.range' lo n).countP (fun i => decide (i % 6 = k)) := fun k =>
    List.countP_congr fun v _ => by simp
  constructor
  · intro h
    have h0 := count_mod lo n 6 0 (by decide)
    have h1 := count_mod lo n 6 1 (by decide)
    have h2 := count_mod lo n 6 2 (by decide)
    have h3 := count_mod lo n 6 3 (by decide)
    have h4 := count_mod lo n 6 4 (by decide)
    have h5 := count_mod lo n 6 5 (by decide)
    have e1 := h 0 (by decide) 1 (by decide)
    have e2 := h 0 (by decide) 2 (by decide)
    have e3 := h 0 (by decide) 3 (by decide)
    have e4 := h 0 (by decide) 4 (by decide)
    have e5 := h 0 (by decide) 5 (by decide)
    simp only [e] at e1 e2 e3 e4 e5
    omega
  · intro h k hk l hl
    have h0 := count_mod lo n 6 k hk
    have h1 := count_mod lo n 6 l hl
    rw [e, e]
    omega

theorem C131_bits (b : Nat) : ¬ 6 ∣ 2 ^ b := by
  intro h
  have h3 : 3 ∣ 2 ^ b := Nat.dvd_trans (by decide) h
  have : ∀ b, 2 ^ b % 3 ≠ 0 := by
    intro b
    induction b with
    | zero => decide
    | succ b ih => rw [Nat.pow_succ]; omega
  exact this b (Nat.mod_eq_zero_of_dvd h3)

/-- **C131.** Coin: a team is as likely as values of its parity. -/
theorem C131_coin {env : Env} {r : Room} {calls : List Room.Call} {log : List Sent} (h : Lived env r calls log) (h0 : r.state = .configuring)
    (hm : r.options.ftdm = 3) (hr : Startable r) (vals : List Nat) (w : Nat) :
    ways vals 1 (fun ds => announces w (starts env r ds)) = vals.countP fun v => v % 2 == w := by
  rw [show (1 : Nat) = 0 + 1 from rfl, countP_draws]
  simp only [ways, draws, List.countP_cons, List.countP_nil, starts_coin (lived_ok h) h0 hm hr]
  induction vals with
  | nil => rfl
  | cons v vs ih => simp only [List.map_cons, List.sum_cons, ih, List.countP_cons]; omega

/-- **C131.** Coin: with consecutive values it is fair exactly if there is an even number of them, and otherwise one value makes the difference. -/
theorem C131_coin_exactly {env : Env} {r : Room} {calls : List Room.Call} {log : List Sent} (h : Lived env r calls log) (h0 : r.state = .configuring)
    (hm : r.options.ftdm = 3) (hr : Startable r) (lo n : Nat) :
    (ways (List.range' lo n) 1 (fun ds => announces 0 (starts env r ds)) = ways (List.range' lo n) 1 (fun ds => announces 1 (starts env r ds)) ↔ 2 ∣ n) ∧
    (¬ 2 ∣ n → ways (List.range' lo n) 1 (fun ds => announces (lo % 2) (starts env r ds)) =
      ways (List.range' lo n) 1 (fun ds => announces (1 - lo % 2) (starts env r ds)) + 1) := by
  have e : ∀ k, (List.range' lo n).countP (fun v => v % 2 == k) = (List.range' lo n).countP (fun i => decide (i % 2 = k)) := fun k =>
    List.countP_congr fun v _ => by simp
  have h0' := count_mod lo n 2 0 (by decide)
  have h1' := count_mod lo n 2 1 (by decide)
  simp only [C131_coin h h0 hm hr, e]
  refine ⟨by omega, fun hn => ?_⟩
  rcases Nat.mod_two_eq_zero_or_one lo with hl | hl <;> simp only [hl, Nat.sub_zero, Nat.sub_self] <;> omega

/-! ## Examples -/

/-- A room in which two are ready. -/
theorem ready_room (method : Int) (hm : method = 2 ∨ method = 3) :
    ∃ (r : Room) (calls : List Room.Call) (log : List Sent), Lived demoEnv r calls log ∧ r.state = .configuring ∧ r.options.ftdm = method ∧ Startable r := by
  rcases hm with rfl | rfl
  · obtain ⟨r, log, h, hp⟩ := play_witness (env := demoEnv) (rng := demoRng) (host := 1) (o := { ftdm := 2 })
      (cs := [.enter 2] ++ prepare 1 ++ prepare 2) (fun r => r.state == .configuring && r.options.ftdm == 2 && r.canStart) (by decide)
    simp only [Bool.and_eq_true, beq_iff_eq] at hp
    exact ⟨r, _, log, h, hp.1.1, hp.1.2, canStart_iff.mp hp.2⟩
  · obtain ⟨r, log, h, hp⟩ := play_witness (env := demoEnv) (rng := demoRng) (host := 1) (o := { ftdm := 3 })
      (cs := [.enter 2] ++ prepare 1 ++ prepare 2) (fun r => r.state == .configuring && r.options.ftdm == 3 && r.canStart) (by decide)
    simp only [Bool.and_eq_true, beq_iff_eq] at hp
    exact ⟨r, _, log, h, hp.1.1, hp.1.2, canStart_iff.mp hp.2⟩

/-- With a die for a generator, in 15 of 36 cases each team goes first after one round. -/
example : ∃ r : Room, ways (List.range' 0 6) 2 (fun ds => announces 0 (starts demoEnv r ds)) = 15 ∧
    ways (List.range' 0 6) 2 (fun ds => announces 1 (starts demoEnv r ds)) = 15 ∧ ways (List.range' 0 6) 2 (fun ds => rolling (starts demoEnv r ds)) = 6 := by
  obtain ⟨r, _, _, h, h0, hm, hr⟩ := ready_room 2 (.inl rfl)
  have h1 := C131_dice h h0 hm hr (List.range' 0 6) 1
  have h2 := (C131_dice_ends h h0 hm hr (List.range' 0 6) 1).1
  have h3 := C131_sixth h h0 hm hr 0 1 1
  simp only [Nat.mul_one, Nat.pow_one, List.length_range'] at h1 h2 h3
  exact ⟨r, by omega, by omega, by omega⟩

/-- With 2^32 values, a one is likelier than a six, by one value. -/
example (n : Nat) (hn : n = 4294967296) :
    (List.range' 0 n).countP (fun v => v % 6 + 1 == 1) = 715827883 ∧ (List.range' 0 n).countP (fun v => v % 6 + 1 == 6) = 715827882 := by
  have e : ∀ k, (List.range' 0 n).countP (fun v => v % 6 + 1 == k + 1) = (List.range' 0 n).countP (fun i => decide (i % 6 = k)) := fun k =>
    List.countP_congr fun v _ => by simp
  have h0 := count_mod 0 n 6 0 (by decide)
  have h5 := count_mod 0 n 6 5 (by decide)
  refine ⟨(e 0).trans ?_, (e 5).trans ?_⟩ <;> omega

/-- A generator with three values makes an unfair coin. -/
example : ∃ r : Room, ways [0, 1, 2] 1 (fun ds => announces 0 (starts demoEnv r ds)) = 2 ∧ ways [0, 1, 2] 1 (fun ds => announces 1 (starts demoEnv r ds)) = 1 := by
  obtain ⟨r, _, _, h, h0, hm, hr⟩ := ready_room 3 (.inr rfl)
  exact ⟨r, C131_coin h h0 hm hr _ 0, C131_coin h h0 hm hr _ 1⟩

/-- Draws must not depend on each other: of a generator that gives low and high values in turn, the second team always wins. -/
example (fuel n : Nat) : (Room.rollDice (fun i => i % 2) (fuel + 1) (2 * n)).map (·.2.1) = some 1 := by
  simp [Room.rollDice]

end Ygo.Props
