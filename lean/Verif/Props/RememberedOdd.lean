import Verif.Props.Remembered
import Verif.Props.Single
import Verif.Props.Duel

/-!
# What a server remembers when materials have odd numbers (C133)
-/

namespace Ygo.Props
open Ygo Ygo.Spec

/-- The first monster zone of the first player, and that player's extra deck. -/
abbrev oddZone : ZoneKey := ⟨0, .monster, 0, by decide⟩
abbrev oddPile : PileKey := ⟨0, .extraDeck⟩

/-- A monster in the zone, with a material. -/
def stackedBoard : Board := fun C => if C = .slot oddZone then [0] else if C = .mats oddZone then [1] else []

/-- The monster and its material come. -/
def stackUp : List CoreMsg := [.move 0 ⟨0, 0, 0, 0⟩ ⟨0, 4, 0, 1⟩ 0, .move 0 ⟨0, 0, 0, 0⟩ ⟨0, 0x84, 0, 0⟩ 0]

/-- The monster goes to the extra deck, with a number of material that is negative there, and comes back. -/
def oddOut (i : Nat) : MoveMsg := ⟨0, ⟨0, 4, 0, 1⟩, ⟨0, 0xC0, 0, UInt32.ofNat (2 ^ 32 - 2 - i)⟩, 0⟩
def oddBack : MoveMsg := ⟨0, ⟨0, 0x40, 0, 1⟩, ⟨0, 4, 0, 1⟩, 0⟩

/-- The monster goes and comes back so many times. -/
def oddRounds : Nat → List CoreMsg
  | 0 => stackUp
  | n + 1 => oddRounds n ++ [(oddOut n).msg] ++ [oddBack.msg]

theorem oddOut_dst {i : Nat} (h : i < 2 ^ 31 - 1) : (oddOut i).dst.place = ⟨0, 0x40, 0, -2 - (i : Int)⟩ := by
  have e : (UInt32.ofNat (2 ^ 32 - 2 - i)).toNat = 2 ^ 32 - 2 - i := by
    rw [UInt32.toNat_ofNat']
    exact Nat.mod_eq_of_lt (by omega)
  have e' : signed32 (UInt32.ofNat (2 ^ 32 - 2 - i)) = -2 - (i : Int) := by
    unfold signed32
    rw [e, Int.bmod_def]
    omega
  show (⟨_, _, _, if _ then signed32 (UInt32.ofNat (2 ^ 32 - 2 - i)) else -1⟩ : Place) = _
  rw [e']
  have h1 : (0xC0 : UInt8).toNat.testBit 7 = true := by decide
  have h2 : slot ((0xC0 : UInt8).toNat % 128) (0 : UInt32).toNat = (0x40, 0) := by decide +kernel
  show (⟨(0 : UInt8).toNat, (slot ((0xC0 : UInt8).toNat % 128) (0 : UInt32).toNat).1, (slot ((0xC0 : UInt8).toNat % 128) (0 : UInt32).toNat).2,
    if (0xC0 : UInt8).toNat.testBit 7 = true then -2 - (i : Int) else -1⟩ : Place) = _
  rw [h2, if_pos h1]
  rfl

theorem atMost_snoc {n : Nat} {ms : List CoreMsg} {m : CoreMsg} (h : AtMost n ms)
    (hc : ∀ c, After (ms ++ [m]) (ms.length + 1) c → cardsInPlay c ≤ n) : AtMost n (ms ++ [m]) := by
  rintro i c ⟨rs, hi⟩
  by_cases hl : i ≤ ms.length
  · rw [List.take_append_of_le_length hl] at hi
    exact h i c ⟨rs, hi⟩
  · refine hc c ⟨rs, ?_⟩
    rw [List.take_of_length_le (by simp; omega)] at hi
    rw [List.take_of_length_le (by simp)]
    exact hi

theorem after_snoc {ms : List CoreMsg} {m : CoreMsg} {c d : BasicContext} (h : trackAll BasicContext.init ms = .ok c) (k : track c m.bytes = .ok d) :
    trackAll BasicContext.init (ms ++ [m]) = .ok d ∧ ∀ e, After (ms ++ [m]) (ms.length + 1) e → e = d := by
  have t : trackAll BasicContext.init (ms ++ [m]) = .ok d := by rw [trackAll_append, h, bind_ok, trackAll_one k]
  refine ⟨t, fun e he => ?_⟩
  obtain ⟨rs, hr⟩ := trackAll_feed t
  exact he.unique ⟨rs, by rw [List.take_of_length_le (by simp)]; exact hr⟩

theorem stack_away : gone (gone stackedBoard (.slot oddZone) 0 (.pile oddPile) 0 0) (.pile oddPile) 0 (.slot oddZone) 0 0 = stackedBoard := by
  funext C
  exact (show ∀ C ∈ containers, gone (gone stackedBoard (.slot oddZone) 0 (.pile oddPile) 0 0) (.pile oddPile) 0 (.slot oddZone) 0 0 C = stackedBoard C by
    decide +kernel) C (mem_containers C)

theorem oddRounds_does (n : Nat) (hn : n ≤ 2 ^ 31 - 1) : ∃ c, trackAll BasicContext.init (oddRounds n) = .ok c ∧ Spec.boardOf c = stackedBoard ∧ c.deferred = [] ∧
    AtMost 2 (oddRounds n) ∧ ∀ i < n, c.left ⟨0, 0x40, 0, -2 - (i : Int)⟩ = some ⟨0, 4, 0, -1⟩ := by
  induction n with
  | zero =>
    have h1 : ((trackAll BasicContext.init stackUp).toOption.map fun c => (containers.map (Spec.boardOf c), c.deferred)) =
        some (containers.map stackedBoard, []) := by decide +kernel
    have h2 : AtMost 2 stackUp := by
      have h : ∀ i : Fin 3, ((feed BasicContext.init ((stackUp.take i).map (·.bytes))).toOption.map fun x => decide (cardsInPlay x.2 ≤ 2)) = some true := by
        decide +kernel
      rintro i c ⟨rs, hc⟩
      have h' := h ⟨min i 2, by omega⟩
      have e : stackUp.take (min i 2) = stackUp.take i := (List.take_eq_take_min (l := stackUp)).symm
      dsimp only at h'
      rw [e, hc] at h'
      exact of_decide_eq_true (Option.some.inj h')
    cases ht : trackAll BasicContext.init stackUp with
    | error e => rw [ht] at h1; cases h1
    | ok c =>
      rw [ht] at h1
      have h1 := Option.some.inj h1
      refine ⟨c, ht, ?_, congrArg Prod.snd h1, h2, fun i hi => absurd hi (Nat.not_lt_zero _)⟩
      funext C
      exact List.map_inj_left.mp (congrArg Prod.fst h1) C (mem_containers C)
  | succ n ih =>
    obtain ⟨c, h1, h2, h3, h4, h5⟩ := ih (by omega)
    have hd := oddOut_dst (i := n) (by omega)
    have hs : (oddOut n).src.place = ⟨0, 4, 0, -1⟩ := by
      show (LocInfo.mk 0 4 0 1).place = _
      decide +kernel
    obtain ⟨l, lf, k1, k2, -, k4⟩ := C71_moves c (oddOut n) (.slot oddZone) (.pile oddPile) 0 0 0 (by rintro ⟨k, hk⟩; cases hk)
      (by rw [hs]; exact .slot oddZone (-1) (by decide)) (by rw [hd]; exact .pile oddPile 0 _) (by rintro k hk; cases hk)
      (by intro k _; rw [hd]; show -2 - (n : Int) < 0; omega)
      (by rw [h2]; exact ⟨rfl, fun k hk => by simp at hk, Nat.zero_le _, trivial⟩)
    rw [h2] at k2 k4
    obtain ⟨t1, u1⟩ := after_snoc h1 k1
    have bs : oddBack.src.place = ⟨0, 0x40, 0, -1⟩ := by decide +kernel
    have bd : oddBack.dst.place = ⟨0, 4, 0, -1⟩ := by decide +kernel
    have hb : Spec.boardOf { setLayout c l with left := lf } = gone stackedBoard (.slot oddZone) 0 (.pile oddPile) 0 0 := k2
    obtain ⟨l', lf', j1, j2, j3, -⟩ := C71_moves { setLayout c l with left := lf } oddBack (.pile oddPile) (.slot oddZone) 0 0 0 (fun _ => h3)
      (by rw [bs]; exact .pile oddPile 0 _) (by rw [bd]; exact .slot oddZone (-1) (by decide)) (by intro k _; rw [bs]; decide) (by rintro k hk; cases hk)
      (by rw [hb]; exact ⟨by decide +kernel, fun _ _ => by decide +kernel, Nat.zero_le _, trivial⟩)
    rw [hb, stack_away] at j2
    obtain ⟨t2, u2⟩ := after_snoc t1 j1
    have e3 : lf' = lf := j3 (by rintro ⟨_, p, hp⟩; cases hp)
    refine ⟨_, t2, j2, h3, ?_, ?_⟩
    · refine atMost_snoc (atMost_snoc h4 fun d hd => ?_) fun d hd => ?_
      · rw [u1 d hd]
        show (placed (Spec.boardOf _)).length ≤ 2
        rw [hb]
        decide +kernel
      · rw [u2 d hd]
        show (placed (view l')).length ≤ 2
        rw [j2]
        decide +kernel
    · intro i hi
      show lf' _ = _
      rw [e3, k4 ⟨oddZone, .inl rfl, by decide +kernel⟩ ⟨_, rfl⟩, hd, hs]
      split
      · rfl
      · rename_i hne
        refine h5 i ?_
        rcases Nat.lt_succ_iff_lt_or_eq.mp hi with h | rfl
        · exact h
        · exact absurd rfl hne

/-- **C133.** The notes have no such bound when materials may have any number: two cards are enough for as many notes as there are negative numbers. -/
theorem C133_violated_notes (n : Nat) (hn : n ≤ 2 ^ 31 - 1) : ∃ (ms : List CoreMsg) (rs : List Encoded) (c : BasicContext) (ls : List Place), (∀ m ∈ ms, m.Fits) ∧
    AtMost 2 ms ∧ feed BasicContext.init (ms.map (·.bytes)) = .ok (rs, c) ∧ ls.Nodup ∧ ls.length = n ∧ ∀ l ∈ ls, c.left l ≠ none := by
  obtain ⟨c, h1, -, -, h4, h5⟩ := oddRounds_does n hn
  obtain ⟨rs, hr⟩ := trackAll_feed h1
  refine ⟨oddRounds n, rs, c, (List.range n).map fun (i : Nat) => (⟨0, 0x40, 0, -2 - (i : Int)⟩ : Place), ?_, h4, hr, ?_, by simp, ?_⟩
  · clear hn h1 h4 h5 hr
    induction n with
    | zero => intro m hm; simp only [oddRounds, stackUp, List.mem_cons, List.not_mem_nil, or_false] at hm; rcases hm with rfl | rfl <;> trivial
    | succ n ih =>
      intro m hm
      simp only [oddRounds, List.mem_append, List.mem_singleton] at hm
      rcases hm with (hm | rfl) | rfl
      · exact ih m hm
      · trivial
      · trivial
  · refine List.Pairwise.map _ (fun a b hab => ?_) List.nodup_range
    intro h
    simp only [Place.mk.injEq, true_and] at h
    omega
  · intro l hl
    obtain ⟨i, hi, rfl⟩ := List.mem_map.mp hl
    rw [h5 i (List.mem_range.mp hi)]
    simp

/-- Three rounds. -/
example : ((feed BasicContext.init ((oddRounds 3).map (·.bytes))).toOption.map fun x =>
    ([-1, -2, -3, -4, -5].map fun o => x.2.left ⟨0, 0x40, 0, o⟩, cardsInPlay x.2)) =
      some ([none, some ⟨0, 4, 0, -1⟩, some ⟨0, 4, 0, -1⟩, some ⟨0, 4, 0, -1⟩, none], 2) := by
  decide +kernel

end Ygo.Props
