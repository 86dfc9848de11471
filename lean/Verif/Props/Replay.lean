import Verif.Spec.Replay
import Verif.Props.Duel
import Verif.Props.Rewind

/-!
# C79: watching a duel again
-/

namespace Ygo.Props
open Ygo Ygo.Spec

theorem canGoBack_ordinary {m : CoreMsg} (h : CanGoBack m) : Ordinary m.bytes := by
  intro b rest e
  cases m <;> simp only [CanGoBack] at h <;> simp only [CoreMsg.bytes, List.cons_append, List.nil_append, List.cons.injEq] at e <;>
    (obtain ⟨rfl, _⟩ := e; decide)

theorem replayed {ρ : CardId → CardId} {d : Duel} {b : PlainBoard} {st : CardId → Card Plain} {u : UndoBoard} (h : Shown ρ d b st)
    (hs : Shows b u) : Replayed ρ d u where
  cards := by rw [hs.layout]; exact h.cards
  apart := h.apart
  turn := by rw [hs.turn, h.turn]
  player := by rw [hs.turnController, h.player]
  phase := by rw [hs.phase, h.phase]
  lp i := by rw [hs.lp i, h.lp i]
  chain := by rw [hs.chainStack, h.chain]

/-- **C79.** A client whose board can be undone watches a duel again, going back and forth in any way. It gets through, and wherever it is after
what the server sent for the messages up to some point of the duel, it shows the duel as it was at that point. -/
theorem C79_replay (ms : List CoreMsg) (d : Duel) (h : Plays Duel.empty ms d) (hb : ∀ m ∈ ms, CanGoBack m) :
    ∃ rs c, feed BasicContext.init (ms.map (·.bytes)) = .ok (rs, c) ∧
      ∀ moves, ∃ u i, scrub (events rs) UndoBoard.init 0 moves = .ok (u, i) ∧
        ∀ ms1 ms2 d1, ms = ms1 ++ ms2 → Plays Duel.empty ms1 d1 → eventsFor ms1 i → ∃ ρ, Replayed ρ d1 u := by
  obtain ⟨rs, c, ρ, h1, _, _⟩ := C73_duel_shown ms d h
  refine ⟨rs, c, h1, fun moves => ?_⟩
  obtain ⟨u, i, h2, _, h3⟩ := C68_rewind_partial _ (by
    intro b hbm
    obtain ⟨m, hm, rfl⟩ := List.mem_map.mp hbm
    exact canGoBack_ordinary (hb m hm)) rs c h1 moves
  refine ⟨u, i, h2, ?_⟩
  rintro ms1 ms2 d1 rfl hp ⟨rs', c', h4, h5⟩
  obtain ⟨rs1, c1, ρ1, h6, h7, _⟩ := C73_duel_shown ms1 d1 hp
  rw [h4] at h6; cases h6
  refine ⟨ρ1, replayed h7 (h3 ms1.length rs' c' ?_ h5)⟩
  rw [List.map_append, List.take_left' (by simp)]
  exact h4

/-- **C79.** A card that is in the duel at two points is the same card on the client's board at both, whatever the core sends later. -/
theorem C79_same_card (ms1 ms2 ms3 : List CoreMsg) (d1 d2 : Duel) (h1 : Plays Duel.empty ms1 d1) (h2 : Plays d1 ms2 d2)
    (hb : ∀ m ∈ ms1 ++ (ms2 ++ ms3), CanGoBack m) (rs : List Encoded) (c : BasicContext)
    (hf : feed BasicContext.init ((ms1 ++ (ms2 ++ ms3)).map (·.bytes)) = .ok (rs, c))
    (moves1 moves2 : List Move) (u1 u2 : UndoBoard) (i1 i2 : Nat) (hs1 : scrub (events rs) UndoBoard.init 0 moves1 = .ok (u1, i1))
    (hs2 : scrub (events rs) UndoBoard.init 0 moves2 = .ok (u2, i2)) (he1 : eventsFor ms1 i1) (he2 : eventsFor (ms1 ++ ms2) i2)
    (C D : Container) (i j : Nat) (x : CardId) (hx : (d1.cards C)[i]? = some x) (hy : (d2.cards D)[j]? = some x) :
    ∃ y, (view u1.frame.base.layout C)[i]? = some y ∧ (view u2.frame.base.layout D)[j]? = some y := by
  have hbo : ∀ b ∈ (ms1 ++ (ms2 ++ ms3)).map (·.bytes), Ordinary b := by
    intro b hbm
    obtain ⟨m, hm, rfl⟩ := List.mem_map.mp hbm
    exact canGoBack_ordinary (hb m hm)
  obtain ⟨c1, ρ, t1, k1, _⟩ := plays_tracked h1 tracks_empty
  obtain ⟨c2, σ, t2, k2, e2⟩ := plays_tracked h2 k1
  obtain ⟨rs1, f1⟩ := trackAll_feed t1
  obtain ⟨rs2, f2⟩ := trackAll_feed (show trackAll BasicContext.init (ms1 ++ ms2) = .ok c2 by rw [trackAll_append, t1, bind_ok, t2])
  have key : ∀ (moves : List Move) (u : UndoBoard) (i : Nat) (ns ns' : List CoreMsg) (rs' : List Encoded) (c' : BasicContext),
      scrub (events rs) UndoBoard.init 0 moves = .ok (u, i) → eventsFor ns i → ms1 ++ (ms2 ++ ms3) = ns ++ ns' →
      feed BasicContext.init (ns.map (·.bytes)) = .ok (rs', c') → Shows c'.board u := by
    rintro moves u i ns ns' rs' c' hs ⟨rs2, c2, q1, q2⟩ hn hfn
    obtain ⟨u', i', q3, _, q4⟩ := C68_rewind_partial _ hbo rs c hf moves
    rw [hs] at q3; cases q3
    rw [hfn] at q1; cases q1
    refine q4 ns.length rs' c' ?_ q2
    rw [hn, List.map_append, List.take_left' (by simp)]
    exact hfn
  have g1 := key moves1 u1 i1 ms1 (ms2 ++ ms3) rs1 c1 hs1 he1 rfl f1
  have g2 := key moves2 u2 i2 (ms1 ++ ms2) ms3 rs2 c2 hs2 he2 (List.append_assoc ..).symm f2
  refine ⟨ρ x, ?_, ?_⟩
  · rw [g1.layout, k1.shown.cards, Board.rename, List.getElem?_map, hx]; rfl
  · rw [g2.layout, k2.shown.cards, Board.rename, List.getElem?_map, hy]
    show some (σ x) = _
    rw [e2 x (k1.born x ⟨C, List.mem_of_getElem? hx⟩)]

/-! ## The duel from before -/

def someDuelMessages : List CoreMsg := [.start 0 8000 8000 2 1 1 0] ++ ([.newTurn 0] ++ ([.draw (playerByte 0) [(7, 1)]] ++ ([aSummon.msg] ++
    ([.updateCard ⟨(Row.monsters 0).con, (Row.monsters 0).loc, 2⟩ [.code 1234]] ++ ([.damage 1 500] ++ [])))))

example : Plays Duel.empty someDuelMessages duel5 := some_duel

/-- All the messages of the duel of `some_duel` can be undone. -/
example : ∀ m ∈ someDuelMessages, CanGoBack m := by
  intro m hm
  simp only [someDuelMessages, List.mem_append, List.mem_singleton, List.not_mem_nil, or_false] at hm
  rcases hm with rfl | rfl | rfl | rfl | rfl | rfl <;> trivial

/-- After two steps back from its end the client has the drawn card in the hand again. -/
example : (feed BasicContext.init (someDuelMessages.map (·.bytes))).toOption.bind (fun x =>
      (scrub (events x.1) UndoBoard.init 0 [.forward, .forward, .forward, .forward, .forward, .backward, .backward]).toOption.map fun y =>
        ((events x.1).length, y.2, view y.1.frame.base.layout (.pile ⟨0, .hand⟩), view y.1.frame.base.layout (.slot aZone))) =
    some (5, 3, [1], []) := by decide +kernel

end Ygo.Props
