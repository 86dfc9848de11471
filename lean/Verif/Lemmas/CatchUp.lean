import Verif.Spec.CatchUp
import Verif.Lemmas.Screen
import Verif.Lemmas.Table
import Verif.Lemmas.UndoExact

/-!
# Catching up
-/

set_option linter.unusedSimpArgs false

namespace Ygo
open Ygo.Spec Ygo.Props

theorem at_placeAt {C : Container} {i : Nat} (h : ∀ k, C = .slot k → i = 0) : At (placeAt C i) C i := by
  cases C with
  | pile k => exact .pile k i (-1)
  | slot k => rw [h k rfl]; exact .slot k (-1) (by decide)
  | mats k => exact .mats k i

/-- One more card in a container. -/
theorem add_counts {f : Frame} (hi : Inv f) {C : Container} (hs : ∀ k, C = .slot k → view f.layout C = []) :
    ∃ g, f.step (.add (placeAt C (view f.layout C).length)) = .ok g ∧ Inv g ∧ (view g.layout C).length = (view f.layout C).length + 1 ∧
      ∀ D, D ≠ C → view g.layout D = view f.layout D := by
  have ha : At (placeAt C (view f.layout C).length) C (view f.layout C).length := at_placeAt fun k e => by rw [hs k e]; rfl
  have hf : Fits (view f.layout) C (view f.layout C).length := ⟨Nat.le_refl _, hs⟩
  have hv := view_layoutOf (slot_le_put (i := (view f.layout C).length) (c := f.next) (view_slot_le f.layout) hf.2)
  have h : f.step (.add (placeAt C (view f.layout C).length)) = .ok ⟨layoutOf ((view f.layout).put C (view f.layout C).length f.next), f.next :: f.owned, f.next + 1⟩ := by
    have h := (C07_card_add f (placeAt C (view f.layout C).length) ⟨layoutOf ((view f.layout).put C (view f.layout C).length f.next), f.next :: f.owned, f.next + 1⟩
      f.next).mpr ⟨rfl, rfl, rfl, C, _, ha, hf, hv⟩
    simp only [Frame.step, h, bind_ok]
    rfl
  refine ⟨_, h, hi.step h, ?_, fun D hD => ?_⟩
  · rw [hv, Board.put, upd_self, List.length_insertIdx_of_le_length (Nat.le_refl _)]
  · rw [hv, Board.put, Board.upd, if_neg hD]

theorem adds_counts {f : Frame} (hi : Inv f) {C : Container} (n : Nat) (hs : ∀ k, C = .slot k → (view f.layout C).length + n ≤ 1) :
    ∃ g, runOps f ((List.range' (view f.layout C).length n).map fun i => .add (placeAt C i)) = .ok g ∧ Inv g ∧
      (view g.layout C).length = (view f.layout C).length + n ∧ ∀ D, D ≠ C → view g.layout D = view f.layout D := by
  induction n generalizing f with
  | zero => exact ⟨f, rfl, hi, rfl, fun _ _ => rfl⟩
  | succ n ih =>
    obtain ⟨g, h1, h2, h3, h4⟩ := add_counts hi (C := C) fun k e => by
      have := hs k e
      exact List.length_eq_zero_iff.mp (by omega)
    obtain ⟨g', k1, k2, k3, k4⟩ := ih h2 fun k e => by have := hs k e; omega
    refine ⟨g', ?_, k2, by omega, fun D hD => (k4 D hD).trans (h4 D hD)⟩
    rw [h3] at k1
    simp only [List.range'_succ, List.map_cons, runOps, FrameLike.step, h1, bind_ok]
    exact k1

theorem fills_counts {f : Frame} (hi : Inv f) (N : Container → Nat) (hN : ∀ k, N (.slot k) ≤ 1) (Cs : List Container) (hd : Cs.Nodup)
    (he : ∀ C ∈ Cs, view f.layout C = []) :
    ∃ g, runOps f ((Cs.flatMap fun C => (List.range (N C)).map (placeAt C)).map .add) = .ok g ∧ Inv g ∧
      ∀ C, (view g.layout C).length = if C ∈ Cs then N C else (view f.layout C).length := by
  induction Cs generalizing f with
  | nil => exact ⟨f, rfl, hi, fun C => by simp⟩
  | cons C Cs ih =>
    have h0 : (view f.layout C).length = 0 := by rw [he C (List.mem_cons_self ..)]; rfl
    obtain ⟨g, h1, h2, h3, h4⟩ := adds_counts hi (C := C) (N C) fun k e => by subst e; have := hN k; omega
    have hc := List.nodup_cons.mp hd
    obtain ⟨g', k1, k2, k3⟩ := ih h2 hc.2 fun D hD => by
      rw [h4 D fun e => hc.1 (e ▸ hD)]
      exact he D (List.mem_cons_of_mem _ hD)
    refine ⟨g', ?_, k2, fun D => ?_⟩
    · rw [h0, ← List.range_eq_range'] at h1
      rw [List.flatMap_cons, List.map_append, runOps_concat, List.map_map, show (FrameOp.add ∘ placeAt C) = fun i => .add (placeAt C i) from rfl, h1]
      exact k1
    · rw [k3 D]
      by_cases e : D = C
      · subst e
        rw [if_neg hc.1, if_pos (List.mem_cons_self ..), h3, h0, Nat.zero_add]
      · by_cases hm : D ∈ Cs
        · rw [if_pos hm, if_pos (List.mem_cons_of_mem _ hm)]
        · rw [if_neg hm, if_neg fun h => (List.mem_cons.mp h).elim e hm, h4 D e]

theorem resizes_counts {f : Frame} (hi : Inv f) (N : PileKey → Nat) (ks : List PileKey) :
    ∃ g, runOps f (DuelBoard.resizeOps (ks.map fun k => ⟨placeAt (.pile k) 0, N k⟩)) = .ok g ∧ Inv g ∧
      (∀ k, (view g.layout (.pile k)).length = if k ∈ ks then N k else (view f.layout (.pile k)).length) ∧
      ∀ D, (∀ k, D ≠ .pile k) → view g.layout D = view f.layout D := by
  induction ks generalizing f with
  | nil => exact ⟨f, rfl, hi, fun k => by simp, fun _ _ => rfl⟩
  | cons k ks ih =>
    have ha : At (placeAt (.pile k) 0) (.pile k) 0 := at_placeAt fun _ _ => rfl
    obtain ⟨g, h⟩ := Frame.pileResize_returns (n := N k) hi ha
    obtain ⟨h1, _⟩ := Frame.pileResize_at ha h
    have hi1 : Inv g := hi.step (op := .resize _ _) h
    have hlen : (view g.layout (.pile k)).length = N k := by rw [h1, upd_self]; simp; omega
    obtain ⟨g', k1, k2, k3, k4⟩ := ih hi1
    refine ⟨g', ?_, k2, fun j => ?_, fun D hD => ?_⟩
    · simp only [DuelBoard.resizeOps, List.map_cons, runOps, FrameLike.step, Frame.step, h, bind_ok]
      exact k1
    · rw [k3 j]
      by_cases e : j = k
      · subst e
        rw [hlen, ite_self, if_pos (List.mem_cons_self ..)]
      · have : view g.layout (.pile j) = view f.layout (.pile j) := by
          rw [h1, Board.upd, if_neg fun h => e (Container.pile.inj h)]
        by_cases hm : j ∈ ks
        · rw [if_pos hm, if_pos (List.mem_cons_of_mem _ hm)]
        · rw [if_neg hm, if_neg fun h => (List.mem_cons.mp h).elim e hm, this]
    · rw [k4 D hD, h1, Board.upd, if_neg (hD k)]

/-- The state event gives every container as many cards. -/
theorem tableau_counts {f : Frame} (hi : Inv f) (s : Client) :
    ∃ g, runOps f (DuelBoard.stateOps (tableau s)) = .ok g ∧ SameCounts g.layout s.board.frame.layout := by
  obtain ⟨f1, a1, a2, _, a4, _⟩ := hi.clear
  have hd : (allZones.map Container.slot ++ allZones.map Container.mats).Nodup := by
    refine List.nodup_append.mpr ⟨List.Pairwise.map _ (fun _ _ h e => h (Container.slot.inj e)) nodup_allZones,
      List.Pairwise.map _ (fun _ _ h e => h (Container.mats.inj e)) nodup_allZones, ?_⟩
    intro a ha b hb
    obtain ⟨k, _, rfl⟩ := List.mem_map.mp ha
    obtain ⟨j, _, rfl⟩ := List.mem_map.mp hb
    exact fun e => nomatch e
  obtain ⟨f2, b1, b2, b3⟩ := fills_counts a2 (fun C => (view s.board.frame.layout C).length) (view_slot_le _) _ hd fun C _ => a4 C
  obtain ⟨f3, c1, _, c3, c4⟩ := resizes_counts b2 (fun k => (view s.board.frame.layout (.pile k)).length) allPiles
  refine ⟨f3, ?_, fun C => ?_⟩
  · simp only [DuelBoard.stateOps, tableau]
    rw [runOps_concat]
    simp only [runOps, FrameLike.step, Frame.step, a1, bind_ok]
    rw [b1]
    exact c1
  · cases C with
    | pile k => rw [c3, if_pos (mem_allPiles k)]
    | slot k => rw [c4 _ (by intro _ e; cases e), b3, if_pos (List.mem_append_left _ (List.mem_map_of_mem (mem_allZones k)))]
    | mats k => rw [c4 _ (by intro _ e; cases e), b3, if_pos (List.mem_append_right _ (List.mem_map_of_mem (mem_allZones k)))]

theorem told_everything (c d : Card Plain) : c.told (everything d) = d := by
  cases d
  rfl

/-- After the queries every card they are about is known as the data say. -/
theorem answer_all {cache : Bool} {l : Layout} (T : CardId → Card Plain) (qs : List Query)
    (hq : ∀ q ∈ qs, ∃ C i x, At q.place C i ∧ (view l C)[i]? = some x ∧ q.data = everything (T x)) (st : CardId → Card Plain) :
    ∃ st', Client.answer cache l qs st = .ok st' ∧ (∀ x, st x = T x → st' x = T x) ∧
      ∀ q ∈ qs, ∀ C i x, At q.place C i → (view l C)[i]? = some x → st' x = T x := by
  induction qs generalizing st with
  | nil => exact ⟨st, rfl, fun _ h => h, nofun⟩
  | cons q qs ih =>
    obtain ⟨C, i, x, ha, hx, hd⟩ := hq q (List.mem_cons_self ..)
    obtain ⟨n, e⟩ := parseQuery_told (cache := cache) (st := st) ha hx
    rw [hd, told_everything] at e
    obtain ⟨st', h1, h2, h3⟩ := ih (fun q h => hq q (List.mem_cons_of_mem _ h)) (fun y => if y = x then T x else st y)
    refine ⟨st', by simp only [Client.answer, e, bind_ok]; exact h1, fun y hy => h2 y ?_, fun q' hq' D j y hD hy => ?_⟩
    · by_cases e : y = x
      · simp [e]
      · simpa [e] using hy
    · rcases List.mem_cons.mp hq' with rfl | hq'
      · have : y = x := by
          have e1 := Layout.card_eq_ok.mpr ⟨D, j, hD, hy⟩
          rw [Layout.card_eq_ok.mpr ⟨C, i, ha, hx⟩] at e1
          exact (Except.ok.inj e1).symm
        exact h2 y (by simp [this])
      · exact h3 q' hq' D j y hD hy

theorem queries_catch {cache : Bool} {s t : Client} (hs : Sound s) (ht : Sound t) (hc : SameCounts t.board.frame.layout s.board.frame.layout) :
    ∃ st, Client.answer cache t.board.frame.layout (containers.flatMap (telling s)) t.store = .ok st ∧ Client.screen ⟨t.board, st⟩ = Client.screen s := by
  have hl := labels_same ht.inv hs.inv hc
  have slot0 : ∀ C i, i < (view s.board.frame.layout C).length → ∀ k, C = .slot k → i = 0 := by
    intro C i h k e
    subst e
    have := view_slot_le s.board.frame.layout k
    omega
  have key : ∀ (C : Container) (i : Nat) (x : CardId), (view t.board.frame.layout C)[i]? = some x →
      (Client.screen s C)[i]? = some (Client.dataOf s (t.board.frame.labels x)) := by
    intro C i x hx
    have hi : i < (view s.board.frame.layout C).length := by rw [← hc C]; exact (List.getElem?_eq_some_iff.mp hx).1
    have e := congrArg (fun l => (view l C)[i]?) hl
    simp only [Layout.map_view, List.getElem?_map, hx, List.getElem?_eq_getElem hi, Option.map_some, Option.some.injEq] at e
    rw [e, dataOf_labels (mem_placed.mpr ⟨C, List.getElem_mem hi⟩)]
    simp only [Client.screen, List.getElem?_map, List.getElem?_eq_getElem hi, Option.map_some]
  have mem : ∀ q, q ∈ containers.flatMap (telling s) ↔ ∃ C i c, (Client.screen s C)[i]? = some c ∧ q = ⟨placeAt C i, everything c⟩ := by
    intro q
    simp only [List.mem_flatMap, telling, List.mem_map]
    constructor
    · rintro ⟨C, _, ⟨c, i⟩, hm, rfl⟩
      exact ⟨C, i, c, List.mk_mem_zipIdx_iff_getElem?.mp hm, rfl⟩
    · rintro ⟨C, i, c, h, rfl⟩
      exact ⟨C, mem_containers C, (c, i), List.mk_mem_zipIdx_iff_getElem?.mpr h, rfl⟩
  have lt : ∀ {C i c}, (Client.screen s C)[i]? = some c → i < (view s.board.frame.layout C).length := by
    intro C i c h
    have := (List.getElem?_eq_some_iff.mp h).1
    simpa [Client.screen] using this
  obtain ⟨st, h1, _, h3⟩ := answer_all (cache := cache) (l := t.board.frame.layout) (fun x => Client.dataOf s (t.board.frame.labels x))
    (containers.flatMap (telling s)) (by
      intro q hq
      obtain ⟨C, i, c, h, rfl⟩ := (mem q).mp hq
      have hlt := lt h
      have hlt' : i < (view t.board.frame.layout C).length := by rw [hc C]; exact hlt
      refine ⟨C, i, _, at_placeAt (slot0 C i hlt), List.getElem?_eq_getElem hlt', ?_⟩
      rw [key C i _ (List.getElem?_eq_getElem hlt')] at h
      rw [Option.some.inj h]) t.store
  refine ⟨st, h1, funext fun C => List.ext_getElem? fun i => ?_⟩
  cases hx : (view t.board.frame.layout C)[i]? with
  | none =>
    have hn := List.getElem?_eq_none_iff.mp hx
    have hn' : (Client.screen s C).length ≤ i := by simpa [Client.screen, ← hc C] using hn
    rw [List.getElem?_eq_none_iff.mpr hn']
    simp only [Client.screen, List.getElem?_map, hx, Option.map_none]
  | some x =>
    have k := key C i x hx
    rw [k]
    simp only [Client.screen, List.getElem?_map, hx, Option.map_some]
    rw [h3 _ ((mem _).mpr ⟨C, i, _, k, rfl⟩) C i x (at_placeAt (slot0 C i (lt k))) hx]

theorem parseState_tableau {b : PlainBoard} {g : Frame} {s : Client} (h : runOps b.frame (DuelBoard.stateOps (tableau s)) = .ok g) :
    b.parseState (tableau s) = .ok ⟨g, s.board.chainStack, s.board.turn, b.turnController, s.board.lp, b.phase, b.blockedZones⟩ := by
  have hl : s.board.lp = fun j => if j = 1 then ⟨(s.board.lp 1).val⟩ else if j = 0 then ⟨(s.board.lp 0).val⟩ else b.lp j := by
    funext j
    match j with
    | 0 => rfl
    | 1 => rfl
  rw [hl]
  have ht : (0 : Int) ≤ (tableau s).turnCounter := Int.natCast_nonneg _
  simp only [DuelBoard.parseState, ht, if_true]
  simp only [tableau] at h
  simp only [tableau, List.getElem?_cons_zero, List.getElem?_cons_succ, orUb, bind_ok, DuelBoard.setLp, DuelBoard.onFrame, Cell.set, h, pure_eq_ok, Int.toNat_natCast]

theorem catchUp_looks {s t : Client} (hs : Sound s) (ht : Sound t) (cache : Bool) :
    ∃ t', Client.follow cache t (catchUp s) = .ok t' ∧ LookSame t' s := by
  obtain ⟨g, h1, h2⟩ := tableau_counts ht.inv s
  have hf : ∀ qs, Client.follow cache t [{ body := .event (.nextTurn s.board.turnController.val) }, { body := .event (.board (.state (tableau s))) },
      { body := .event (.nextPhase s.board.phase.val) }, { body := .event (.zoneBlock s.board.blockedZones.val), queries := qs }] =
      (Client.answer cache g.layout qs t.store).bind fun st => .ok ⟨{ s.board with frame := g }, st⟩ := by
    intro qs
    simp only [Client.follow, Msg.event?, DuelBoard.parseEvent, Client.answer, bind_ok, Cell.get, Cell.set, pure_eq_ok]
    rw [parseState_tableau (by exact h1)]
    rfl
  have hb : Sound ⟨{ s.board with frame := g }, t.store⟩ := follow_sound ht (hf [])
  obtain ⟨st, k1, k2⟩ := queries_catch (cache := cache) hs hb h2
  refine ⟨⟨{ s.board with frame := g }, st⟩, ?_, k2, rfl, rfl, rfl, rfl, rfl, rfl⟩
  refine (hf _).trans ?_
  rw [show Client.answer cache g.layout (containers.flatMap (telling s)) t.store = .ok st from k1]
  rfl

/-- A client that shows any given table. -/
theorem sound_with (S : Container → List (Card Plain)) (hS : ∀ k, (S (.slot k)).length ≤ 1) (b : PlainBoard) :
    ∃ s : Client, Sound s ∧ Client.screen s = S ∧ s.board = { b with frame := s.board.frame } := by
  have hv := view_layoutOf (B := fun C => List.replicate (S C).length 0) (by intro k; simpa using hS k)
  obtain ⟨g, h1, h2⟩ := tableau_counts Inv.init ⟨{ b with frame := ⟨layoutOf fun C => List.replicate (S C).length 0, [], 0⟩ }, fun _ => BasicContext.newCard⟩
  have hg : Inv g := Inv.init.run (by rw [run_eq_runOps]; exact h1)
  have hlen : ∀ C, (view g.layout C).length = (S C).length := fun C => by
    rw [h2 C]
    show (view (layoutOf fun C => List.replicate (S C).length 0) C).length = _
    rw [hv, List.length_replicate]
  have hsum : (placed (view g.layout)).length = (containers.flatMap S).length := by
    simp only [placed, List.length_flatMap]
    congr 1
    exact List.map_congr_left fun C _ => hlen C
  let st : CardId → Card Plain := fun x => if x ∈ placed (view g.layout) then (containers.flatMap S)[(placed (view g.layout)).idxOf x]?.getD BasicContext.newCard else BasicContext.newCard
  have hst : (placed (view g.layout)).map st = containers.flatMap S := by
    refine List.ext_getElem (by simpa using hsum) fun i h1 h2 => ?_
    have hi : i < (placed (view g.layout)).length := by simpa using h1
    simp only [List.getElem_map, st, List.getElem_mem, if_true, (placed_nodup hg).idxOf_getElem i hi, List.getElem?_eq_getElem h2, Option.getD_some]
  refine ⟨⟨{ b with frame := g }, st⟩, ⟨hg, fun x hx => if_neg fun hm => ?_⟩, funext fun C => ?_, rfl⟩
  · obtain ⟨C, hC⟩ := mem_placed.mp hm
    have hlt := hg.fresh x (hg.mem_owned hC)
    have hx : g.next ≤ x := hx
    omega
  · refine flatMap_split (cs := containers) (f := fun C => (view g.layout C).map st) (g := S) (fun C _ => by simpa using hlen C) ?_ C (mem_containers C)
    rw [← hst]
    simp only [placed, List.map_flatMap]

/-! ## The wire -/

theorem placeAt_holds {C : Container} {i : Nat} (hi : i < 2 ^ 31) : PlaceHolds (placeAt C i) := by
  have hp : ∀ l : PileLoc, l.code < 2 ^ 32 := by intro l; cases l <;> decide
  have hz : ∀ l : ZoneLoc, l.code < 2 ^ 32 ∧ l.limit < 2 ^ 32 := by intro l; cases l <;> decide
  cases C with
  | pile k =>
    refine ⟨?_, hp _, ?_, ?_⟩ <;> simp only [placeAt, I32, U32] <;> omega
  | slot k =>
    have := hz k.loc
    have := k.lt
    refine ⟨?_, (hz _).1, ?_, ?_⟩ <;> simp only [placeAt, I32, U32] <;> omega
  | mats k =>
    have := hz k.loc
    have := k.lt
    refine ⟨?_, (hz _).1, ?_, ?_⟩ <;> simp only [placeAt, I32, U32] <;> omega

theorem everything_holds {c : Card Plain} (h : CardHolds c) : DataHolds (everything c) := by
  refine ⟨fun f v hv => ?_, fun ps hp => ?_, fun cs hc => ?_⟩
  · cases hv; exact h.single f
  · cases hp; exact h.targets
  · cases hc; exact h.counters

theorem catchUp_holds {s : Client} (hb : BoardHolds s.board) (hc : ∀ x, CardHolds (s.store x)) (ht : s.board.turn.val < 2 ^ 31)
    (hn : ∀ C, (view s.board.frame.layout C).length < 2 ^ 31) : ∀ m ∈ catchUp s, MsgHolds m := by
  have none : All QueryHolds [] := nofun
  simp only [catchUp, List.mem_cons, List.not_mem_nil, or_false]
  rintro m (rfl | rfl | rfl | rfl)
  · exact ⟨fun e he => by cases he; exact hb.turnController, nofun, none⟩
  · refine ⟨fun e he => ?_, nofun, none⟩
    cases he
    refine ⟨?_, ?_, hb.chain, ?_, ?_⟩
    · simp only [tableau, I32]; omega
    · intro n h
      simp only [tableau, List.mem_cons, List.not_mem_nil, or_false] at h
      rcases h with rfl | rfl
      · exact hb.lp 0
      · exact hb.lp 1
    · intro p h
      simp only [tableau, List.mem_flatMap, List.mem_map, List.mem_range] at h
      obtain ⟨C, _, i, hi, rfl⟩ := h
      exact placeAt_holds (Nat.lt_trans hi (hn C))
    · intro r h
      simp only [tableau, List.mem_map] at h
      obtain ⟨k, _, rfl⟩ := h
      exact ⟨placeAt_holds (C := .pile k) (i := 0) (by decide), Nat.lt_trans (hn (.pile k)) (by decide)⟩
  · exact ⟨fun e he => by cases he; exact hb.phase, nofun, none⟩
  · refine ⟨fun e he => by cases he; exact hb.blocked, nofun, fun q hq => ?_⟩
    simp only [List.mem_flatMap, telling, List.mem_map] at hq
    obtain ⟨C, _, ⟨c, i⟩, hm, rfl⟩ := hq
    have hm := List.mk_mem_zipIdx_iff_getElem?.mp hm
    have hi : i < (view s.board.frame.layout C).length := by
      have := (List.getElem?_eq_some_iff.mp hm).1
      simpa [Client.screen] using this
    simp only [Client.screen, List.getElem?_map, List.getElem?_eq_getElem hi, Option.map_some, Option.some.injEq] at hm
    exact ⟨placeAt_holds (Nat.lt_trans hi (hn C)), everything_holds (hm ▸ hc _)⟩

end Ygo
