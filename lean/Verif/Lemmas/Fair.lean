import Verif.Lemmas.RoomStart
import Verif.Lemmas.RoomStep
import Verif.Spec.Fair

/-!
# Counting draws
-/

set_option linter.unusedSimpArgs false

namespace Ygo
open Ygo.Spec Ygo.Room

/-- The team that wins when the dice show these values, two for each round. -/
def race : List Nat → Option Nat
  | a :: b :: ds => if a % 6 ≠ b % 6 then some (if a % 6 < b % 6 then 1 else 0) else race ds
  | _ => none

theorem rollDice_race (n : Nat) : ∀ (rng : Nat → Nat) (u : Nat) (ds : List Nat), ds.length = 2 * n → (∀ i, i < 2 * n → rng (u + i) = ds.getD i 0) →
    (Room.rollDice rng n u).map (·.2.1) = race ds := by
  induction n with
  | zero => intro rng u ds hl _; rw [List.length_eq_zero_iff.mp hl]; rfl
  | succ n ih =>
    intro rng u ds hl hr
    match ds, hl with
    | a :: b :: ds, hl =>
      have h0 : rng u = a := by simpa using hr 0 (by omega)
      have h1 : rng (u + 1) = b := by simpa using hr 1 (by omega)
      have ih' := ih rng (u + 2) ds (by simp only [List.length_cons] at hl; omega) (fun i hi => by
        have := hr (i + 2) (by omega)
        rw [show u + 2 + i = u + (i + 2) by omega, this]
        simp)
      simp only [Room.rollDice, h0, h1, race]
      by_cases h : a % 6 = b % 6
      · rw [if_neg (by simp [h]), if_neg (by simp [h]), ← ih', Option.map_map]; rfl
      · rw [if_pos (by omega), if_pos h]
        by_cases h2 : a % 6 < b % 6
        · simp [h2]
        · simp [h2]

theorem draws_length {vals : List Nat} : ∀ {n : Nat} {ds : List Nat}, ds ∈ draws vals n → ds.length = n := by
  intro n
  induction n with
  | zero => intro ds h; rw [List.mem_singleton.mp h]; rfl
  | succ n ih =>
    intro ds h
    simp only [draws, List.mem_flatMap, List.mem_map] at h
    obtain ⟨v, _, ds', h', rfl⟩ := h
    rw [List.length_cons, ih h']

theorem sum_const {α : Type} (l : List α) (k : Nat) : (l.map fun _ => k).sum = l.length * k := by
  induction l with
  | nil => simp
  | cons x xs ih => simp only [List.map_cons, List.sum_cons, ih, List.length_cons, Nat.add_mul]; omega

theorem sum_add {α : Type} (l : List α) (f g : α → Nat) : (l.map fun x => f x + g x).sum = (l.map f).sum + (l.map g).sum := by
  induction l with
  | nil => rfl
  | cons x xs ih => simp only [List.map_cons, List.sum_cons, ih]; omega

theorem sum_mul {α : Type} (l : List α) (f : α → Nat) (k : Nat) : (l.map fun x => f x * k).sum = (l.map f).sum * k := by
  induction l with
  | nil => simp
  | cons x xs ih => simp only [List.map_cons, List.sum_cons, ih, Nat.add_mul]

theorem sum_ite {α : Type} (l : List α) (p : α → Prop) [DecidablePred p] (k : Nat) :
    (l.map fun x => if p x then k else 0).sum = l.countP (fun x => decide (p x)) * k := by
  induction l with
  | nil => simp
  | cons x xs ih =>
    simp only [List.map_cons, List.sum_cons, ih, List.countP_cons]
    by_cases h : p x
    · simp [h, Nat.add_mul]; omega
    · simp [h]

theorem sum_comm {α β : Type} (l : List α) (m : List β) (g : α → β → Nat) :
    (l.map fun a => (m.map fun b => g a b).sum).sum = (m.map fun b => (l.map fun a => g a b).sum).sum := by
  induction l with
  | nil => simp only [List.map_nil, List.sum_nil]; rw [sum_const]; simp
  | cons x xs ih => simp only [List.map_cons, List.sum_cons, ih, sum_add]

theorem draws_count (vals : List Nat) (n : Nat) : (draws vals n).length = vals.length ^ n := by
  induction n with
  | zero => rfl
  | succ n ih =>
    simp only [draws, List.length_flatMap, List.length_map, ih, sum_const, Nat.pow_succ]
    exact Nat.mul_comm _ _

theorem countP_draws (vals : List Nat) (n : Nat) (p : List Nat → Bool) :
    ways vals (n + 1) p = (vals.map fun a => ways vals n fun ds => p (a :: ds)).sum := by
  simp only [ways, draws, List.countP_flatMap]
  congr 1
  apply List.map_congr_left
  intro a _
  simp only [Function.comp, List.countP_map]
  rfl

/-- One round more. -/
theorem ways_race (vals : List Nat) (n : Nat) (q : Option Nat → Bool) :
    ways vals (2 * (n + 1)) (fun ds => q (race ds)) = (vals.map fun a => (vals.map fun b =>
      if a % 6 = b % 6 then ways vals (2 * n) fun ds => q (race ds)
      else if q (some (if a % 6 < b % 6 then 1 else 0)) then vals.length ^ (2 * n) else 0).sum).sum := by
  rw [show 2 * (n + 1) = 2 * n + 1 + 1 by omega, countP_draws]
  congr 1
  apply List.map_congr_left
  intro a _
  rw [countP_draws]
  congr 1
  apply List.map_congr_left
  intro b _
  simp only [race]
  by_cases h : a % 6 = b % 6
  · simp [h]
  · rw [if_neg h]
    simp only [ne_eq, h, not_false_eq_true, if_true]
    generalize q _ = x
    cases x
    · simp [ways]
    · simp [ways, draws_count]

theorem ways_fair (vals : List Nat) (n : Nat) : ways vals (2 * n) (fun ds => race ds == some 0) = ways vals (2 * n) (fun ds => race ds == some 1) := by
  induction n with
  | zero => rfl
  | succ n ih =>
    rw [ways_race vals n (· == some 0), ways_race vals n (· == some 1), sum_comm]
    congr 1
    apply List.map_congr_left
    intro a _
    congr 1
    apply List.map_congr_left
    intro b _
    by_cases h : a % 6 = b % 6
    · rw [if_pos h, if_pos h.symm, ih]
    · rw [if_neg h, if_neg (Ne.symm h)]
      rcases Nat.lt_or_gt_of_ne h with h1 | h1
      · rw [if_neg (show ¬ b % 6 < a % 6 by omega), if_pos h1]; rfl
      · rw [if_pos h1, if_neg (show ¬ a % 6 < b % 6 by omega)]; rfl

/-- How many pairs show the same. -/
def ties (vals : List Nat) : Nat := (vals.map fun a => vals.countP fun b => decide (a % 6 = b % 6)).sum

theorem ways_undecided (vals : List Nat) (n : Nat) : ways vals (2 * n) (fun ds => race ds == none) = ties vals ^ n := by
  induction n with
  | zero => rfl
  | succ n ih =>
    rw [ways_race vals n (· == none), ih, Nat.pow_succ, Nat.mul_comm (ties vals ^ n)]
    generalize ties vals ^ n = K
    rw [ties, ← sum_mul]
    congr 1
    apply List.map_congr_left
    intro a _
    rw [← sum_ite]
    rfl

theorem race_01 : ∀ (ds : List Nat), race ds = none ∨ race ds = some 0 ∨ race ds = some 1
  | [] => .inl rfl
  | [_] => .inl rfl
  | a :: b :: ds => by
    simp only [race]
    split
    · split
      · exact .inr (.inr rfl)
      · exact .inr (.inl rfl)
    · exact race_01 ds

theorem ways_total (vals : List Nat) (n : Nat) : ways vals (2 * n) (fun ds => race ds == some 0) + ways vals (2 * n) (fun ds => race ds == some 1) +
    ways vals (2 * n) (fun ds => race ds == none) = vals.length ^ (2 * n) := by
  rw [← draws_count]
  simp only [ways]
  generalize draws vals (2 * n) = l
  induction l with
  | nil => rfl
  | cons x xs ih =>
    simp only [List.countP_cons, List.length_cons]
    rcases race_01 x with h | h | h <;> rw [h]
    · rw [if_neg (by decide), if_neg (by decide), if_pos (by decide)]; omega
    · rw [if_pos (by decide), if_neg (by decide), if_neg (by decide)]; omega
    · rw [if_neg (by decide), if_pos (by decide), if_neg (by decide)]; omega

/-! ## Consecutive values -/

theorem count_mod (lo n m k : Nat) (hk : k < m) :
    (List.range' lo n).countP (fun i => decide (i % m = k)) + (lo + (m - 1 - k)) / m = (lo + n + (m - 1 - k)) / m := by
  induction n with
  | zero => simp
  | succ n ih =>
    have e : lo + (n + 1) + (m - 1 - k) = (lo + n + (m - 1 - k)) + 1 := by omega
    rw [List.range'_concat, List.countP_append, e, Nat.succ_div, ← ih]
    have hd : m ∣ lo + n + (m - 1 - k) + 1 ↔ (lo + n) % m = k := by
      have : lo + n + (m - 1 - k) + 1 = lo + n + (m - k) := by omega
      rw [this]
      constructor
      · intro h
        have h1 : (lo + n + (m - k)) % m = 0 := Nat.mod_eq_zero_of_dvd h
        rw [Nat.add_mod] at h1
        have h2 : (lo + n) % m < m := Nat.mod_lt _ (by omega)
        rcases Nat.eq_zero_or_pos k with h0 | h0
        · subst h0
          simpa using h1
        · rw [Nat.mod_eq_of_lt (show m - k < m by omega)] at h1
          by_cases h3 : (lo + n) % m + (m - k) < m
          · rw [Nat.mod_eq_of_lt h3] at h1; omega
          · rw [Nat.mod_eq_sub_mod (by omega), Nat.mod_eq_of_lt (by omega)] at h1; omega
      · intro h
        apply Nat.dvd_of_mod_eq_zero
        rw [Nat.add_mod, h]
        rcases Nat.eq_zero_or_pos k with h0 | h0
        · subst h0; simp
        · rw [Nat.mod_eq_of_lt (show m - k < m by omega), show k + (m - k) = m by omega, Nat.mod_self]
    by_cases h : (lo + n) % m = k
    · simp [h, hd.mpr h]; omega
    · simp [h, mt hd.mp h]

/-! ## Rooms -/

theorem RoomOk.about {env : Env} {r : Room} (h : RoomOk env r) (ds : List Nat) : RoomOk env (about r ds) :=
  ⟨h.maxes, h.teams, h.decks, h.state, h.nodup, h.sorted⟩

/-- Somebody hears it. -/
theorem any_sendAll {r : Room} (hs : Startable r) (e : Event) (p : Event → Bool) : ((r.sendAll e).any fun m => p m.2) = p e := by
  obtain ⟨⟨i, s, h1, h2⟩, _⟩ := hs 0
  obtain ⟨c, hc⟩ := Option.ne_none_iff_exists'.mp h2
  have hm : (c, e) ∈ r.sendAll e := by
    simp only [Room.sendAll, List.mem_map, List.mem_append]
    exact ⟨c, .inl (.inl (List.mem_filterMap.mpr ⟨s, List.mem_of_getElem? h1, hc⟩)), rfl⟩
  cases hp : p e with
  | true => exact List.any_eq_true.mpr ⟨_, hm, hp⟩
  | false =>
    rw [List.any_eq_false]
    intro m h
    simp only [Room.sendAll, List.mem_map] at h
    obtain ⟨_, _, rfl⟩ := h
    simp [hp]

theorem starts_eq {env : Env} {r : Room} (h : RoomOk env r) (h0 : r.state = .configuring) (hs : Startable r) (ds : List Nat) :
    starts env r ds = (about r ds).enterDeciding (ds.length / 2) := by
  have : (about r ds).canStart = true := (canStart_iff (r := about r ds)).mpr hs
  have h0' : (about r ds).state = .configuring := h0
  simp only [starts, Room.step, Room.visit, h0', Room.signalConfiguring, Room.startDueling, this]
  rw [if_neg (by simp [about]), if_neg (by simp)]

theorem starts_dice {env : Env} {r : Room} (h : RoomOk env r) (h0 : r.state = .configuring) (hm : r.options.ftdm = 2) (hs : Startable r) {n : Nat}
    {ds : List Nat} (hd : ds.length = 2 * n) (w : Nat) :
    announces w (starts env r ds) = (race ds == some w) ∧ rolling (starts env r ds) = (race ds == none) := by
  have hn : ds.length / 2 = n := by omega
  have hr := rollDice_race n (about r ds).rng (about r ds).used ds hd (fun i _ => by simp [about])
  rw [starts_eq h h0 hs, hn, ((h.about ds).enterDeciding (r := about r ds) hs n).2.2.1 hm, ← hr]
  cases Room.rollDice (about r ds).rng n (about r ds).used with
  | none => exact ⟨rfl, rfl⟩
  | some x =>
    obtain ⟨rolls, v, u⟩ := x
    refine ⟨?_, rfl⟩
    simp only [announces, List.any_append, List.any_cons, List.any_nil, Bool.or_false]
    rw [any_sendAll (r := about r ds) hs .decidingEntering (goesFirst w),
      any_sendAll (r := about r ds) hs (.result v (.dice rolls)) (goesFirst w)]
    simp [goesFirst]

theorem starts_coin {env : Env} {r : Room} (h : RoomOk env r) (h0 : r.state = .configuring) (hm : r.options.ftdm = 3) (hs : Startable r) (d w : Nat) :
    announces w (starts env r [d]) = (d % 2 == w) := by
  rw [starts_eq h h0 hs, ((h.about [d]).enterDeciding (r := about r [d]) hs _).2.2.2.1 hm]
  simp only [announces, List.any_append, List.any_cons, List.any_nil, Bool.or_false]
  rw [any_sendAll (r := about r [d]) hs .decidingEntering (goesFirst w),
    any_sendAll (r := about r [d]) hs (.result _ _) (goesFirst w)]
  simp [about, goesFirst]

end Ygo
