import Verif.Spec.CatchUpSize
import Verif.Lemmas.Size
import Verif.Props.CatchUp

namespace Ygo.Props
open Ygo Ygo.Spec Ygo.Pb

theorem onShow_length (s : Client) : (onShow s).length = (placed (view s.board.frame.layout)).length := by
  simp [onShow, placed, Client.screen, List.length_flatMap, Function.comp_def]

/-- What is said about the cards of some containers. -/
theorem queriesWeight_telling (s : Client) (Cs : List Container) :
    queriesWeight (Cs.flatMap (telling s)) = ((Cs.flatMap (Client.screen s)).map fun c => 2820 + (100 * c.targets.val.length + 60 * c.counters.val.length)).sum := by
  induction Cs with
  | nil => rfl
  | cons C Cs ih =>
    have e : ((telling s C).map fun q => 2820 + q.data.weight) =
        (Client.screen s C).map fun c => 2820 + (100 * c.targets.val.length + 60 * c.counters.val.length) := by
      unfold telling
      rw [List.map_map]
      conv => rhs; rw [← List.zipIdx_map_fst 0 (Client.screen s C), List.map_map]
      rfl
    unfold queriesWeight at ih ⊢
    rw [List.flatMap_cons, List.flatMap_cons, List.map_append, List.map_append, List.sum_append, List.sum_append, ih, e]

theorem sum_weights (cs : List (Card Plain)) :
    (cs.map fun c => 2820 + (100 * c.targets.val.length + 60 * c.counters.val.length)).sum =
      2820 * cs.length + 100 * (cs.map fun c => c.targets.val.length).sum + 60 * (cs.map fun c => c.counters.val.length).sum := by
  induction cs with
  | nil => rfl
  | cons c cs ih => simp only [List.map_cons, List.sum_cons, List.length_cons, ih]; omega

/-- One place for each card that is in a zone or beneath it. -/
theorem tableau_add_length (s : Client) : (tableau s).add.length ≤ (onShow s).length := by
  have h1 : ∀ Cs : List Container, (Cs.flatMap fun C => (List.range (view s.board.frame.layout C).length).map (placeAt C)).length =
      (Cs.flatMap (Client.screen s)).length := by
    intro Cs
    induction Cs with
    | nil => rfl
    | cons C Cs ih => simp only [List.flatMap_cons, List.length_append, ih, List.length_map, List.length_range, Client.screen]
  show (List.flatMap _ _).length ≤ _
  rw [h1]
  unfold onShow containers
  simp only [List.append_assoc, List.flatMap_append, List.length_append]
  omega

/-- **C110.** How many bytes the four messages take at most. -/
theorem C110_size (s : Client) : ∀ m ∈ catchUp s, (sendMsg m).length ≤ catchUpBytes s := by
  have ha := tableau_add_length s
  have hr : (tableau s).resize.length = 10 := rfl
  have hc : (tableau s).chains.length = s.board.chainStack.val.length := rfl
  have hp : (tableau s).lps.length = 2 := rfl
  have hq := (queriesWeight_telling s containers).trans (sum_weights _)
  intro m hm
  have hs := size_msg m
  simp only [catchUp, List.mem_cons, List.not_mem_nil, or_false] at hm
  unfold catchUpBytes targetsShown countersShown
  unfold onShow at ha ⊢
  rcases hm with rfl | rfl | rfl | rfl <;> simp only [Msg.weight, Event.weight, BoardEvent.weight] at hs
  · have : queriesWeight [] = 0 := rfl
    omega
  · have : queriesWeight [] = 0 := rfl
    omega
  · have : queriesWeight [] = 0 := rfl
    omega
  · omega

/-- **C110.** So they can be sent at all sizes that a duel has: nothing but the sizes of what is shown is asked for. -/
theorem C110_arrives (cache cache' : Bool) (bss : List (List Nat)) (hb : ∀ bs ∈ bss, ∀ b ∈ bs, b < 256) (ms0 ms1 : List Msg)
    (hr : receiveAll bss = some ms0) (s t : Client) (h : Client.follow cache' Client.init ms0 = .ok s)
    (h' : Client.follow cache Client.init ms1 = .ok t) (ht : s.board.turn.val < 2 ^ 31) (hn : (onShow s).length ≤ 2 ^ 16)
    (hk : targetsShown s + countersShown s ≤ 2 ^ 22) (hc : s.board.chainStack.val.length ≤ 2 ^ 20) (hz : s.board.blockedZones.val.length ≤ 2 ^ 20) :
    ∃ ms t', receiveAll ((catchUp s).map sendMsg) = some ms ∧ Client.follow cache t ms = .ok t' ∧ LookSame t' s := by
  refine C110_sent cache cache' bss hb ms0 ms1 hr s t h h' ht (fun C => ?_) fun m hm => ?_
  · have h1 : (view s.board.frame.layout C).length ≤ (placed (view s.board.frame.layout)).length := by
      have := List.sublist_flatten_of_mem (List.mem_map_of_mem (f := view s.board.frame.layout) (mem_containers C))
      rw [← List.flatMap_def] at this
      exact this.length_le
    rw [← onShow_length] at h1
    omega
  · have := C110_size s m hm
    unfold catchUpBytes at this
    omega

/-! ## Not vacuous -/

/-- Four cards, one of them a material: far below the bounds; and the bytes that are really sent. -/
example : ((Client.follow false .init busy).toOption.map fun s =>
    ((onShow s).length, targetsShown s, s.board.chainStack.val.length, catchUpBytes s, (catchUp s).map fun m => (sendMsg m).length)) = some (4, 0, 0, 13280, [4, 124, 4, 297]) := by
  decide +kernel

end Ygo.Props
