import Verif.Spec.Duel
import Verif.Props.Overlay
import Verif.Props.Update
import Verif.Props.System

/-!
# Whole duels, from the core to the clients (C73)
-/

set_option linter.unusedSimpArgs false

namespace Ygo.Props
open Ygo Spec P

/-! ## Boards with other names -/

variable {ρ : CardId → CardId}

theorem map_insertIdx' (l : List CardId) (i : Nat) (x : CardId) : (l.insertIdx i x).map ρ = (l.map ρ).insertIdx i (ρ x) := by
  induction l generalizing i with
  | nil => cases i <;> rfl
  | cons a l ih => cases i <;> simp [ih]

theorem map_eraseIdx' (l : List CardId) (i : Nat) : (l.eraseIdx i).map ρ = (l.map ρ).eraseIdx i := by
  induction l generalizing i with
  | nil => rfl
  | cons a l ih => cases i <;> simp [ih]

theorem rename_upd (B : Board) (C : Container) (v : List CardId) : (B.upd C v).rename ρ = (B.rename ρ).upd C (v.map ρ) := by
  funext D
  simp only [Board.rename, Board.upd]
  split <;> rfl

theorem rename_put (B : Board) (C : Container) (i : Nat) (x : CardId) : (B.put C i x).rename ρ = (B.rename ρ).put C i (ρ x) := by
  simp only [Board.put, rename_upd, map_insertIdx']
  rfl

theorem rename_take (B : Board) (C : Container) (i : Nat) : (B.take C i).rename ρ = (B.rename ρ).take C i := by
  simp only [Board.take, rename_upd, map_eraseIdx']
  rfl

theorem rename_carry (B : Board) (C D : Container) : (B.carry C D).rename ρ = (B.rename ρ).carry C D := by
  cases C <;> cases D <;> first | rfl | (simp only [Board.carry, rename_upd]; rfl)

theorem rename_swapMats (B : Board) (C D : Container) : (B.swapMats C D).rename ρ = (B.rename ρ).swapMats C D := by
  cases C <;> cases D <;> first | rfl | (simp only [Board.swapMats, rename_upd]; rfl)

theorem rename_exchange (B : Board) (C D : Container) (i j : Nat) (x y : CardId) :
    (B.exchange C i D j x y).rename ρ = (B.rename ρ).exchange C i D j (ρ x) (ρ y) := by
  simp only [Board.exchange, rename_upd, List.map_set]
  congr 2
  show (B.upd C ((B C).set i y)).rename ρ D = _
  rw [rename_upd, List.map_set]
  rfl

theorem rename_gone (B : Board) (C D : Container) (i j : Nat) (x : CardId) :
    (gone B C i D j x).rename ρ = gone (B.rename ρ) C i D j (ρ x) := by
  simp only [gone, rename_carry, rename_put, rename_take]

theorem rename_summoned (B : Board) (xs : List CardId) (C : Container) (e : Nat) (x : CardId) (k : ZoneKey) :
    (summoned B xs C e x k).rename ρ = summoned (B.rename ρ) (xs.map ρ) C e (ρ x) k := by
  simp only [summoned, rename_upd, rename_take, List.map_append]
  rfl

theorem marked_map (mask : List UInt8) (v : Bool) (cs : List CardId) : marked mask v (cs.map ρ) = (marked mask v cs).map ρ := by
  simp only [marked, List.zipIdx_map, List.filter_map, List.map_map]
  rfl

theorem getElem?_rename {B : Board} {C : Container} {i : Nat} {x : CardId} (h : (B C)[i]? = some x) : (B.rename ρ C)[i]? = some (ρ x) := by
  simp only [Board.rename, List.getElem?_map, h, Option.map_some]

theorem of_getElem?_rename {B : Board} {C : Container} {i : Nat} {y : CardId} (h : (B.rename ρ C)[i]? = some y) :
    ∃ x, (B C)[i]? = some x ∧ ρ x = y := by
  simpa only [Board.rename, List.getElem?_map, Option.map_eq_some_iff] using h

theorem length_rename (B : Board) (C : Container) : (B.rename ρ C).length = (B C).length := List.length_map ..

theorem rename_nil {B : Board} {C : Container} : B.rename ρ C = [] ↔ B C = [] := List.map_eq_nil_iff

theorem placed_rename (B : Board) : placed (B.rename ρ) = (placed B).map ρ := by
  simp only [placed, List.map_flatMap]
  rfl

theorem rename_congr {B : Board} {σ : CardId → CardId} (h : ∀ x, B.Has x → σ x = ρ x) : B.rename σ = B.rename ρ := by
  funext C
  exact List.map_congr_left fun x hx => h x ⟨C, hx⟩

/-- Two boards of the same sizes: names for the cards of one that give the other, where the names of some cards are given. -/
theorem extend_names (born : CardId → Prop) (B V : Board) (hs : B.sizes = V.sizes)
    (hold : ∀ C (i : Nat) x, (B C)[i]? = some x → born x → (V C)[i]? = some (ρ x)) (once : B.Once fun x => ¬ born x) :
    ∃ σ : CardId → CardId, V = B.rename σ ∧ ∀ x, born x → σ x = ρ x := by
  classical
  have hlen : ∀ C (i : Nat) x, (B C)[i]? = some x → ∃ y, (V C)[i]? = some y := by
    intro C i x h
    have : i < (V C).length := by
      have h1 := (List.getElem?_eq_some_iff.mp h).1
      have h2 : (B C).length = (V C).length := congrFun hs C
      omega
    exact ⟨_, List.getElem?_eq_getElem this⟩
  let σ : CardId → CardId := fun x =>
    if h : ∃ y, ¬ born x ∧ ∃ C, ∃ i : Nat, (B C)[i]? = some x ∧ (V C)[i]? = some y then h.choose else ρ x
  have hborn : ∀ x, born x → σ x = ρ x := by
    intro x hx
    simp only [σ]
    rw [dif_neg]
    rintro ⟨_, h, _⟩
    exact h hx
  refine ⟨σ, ?_, hborn⟩
  funext C
  apply List.ext_getElem?
  intro i
  simp only [Board.rename, List.getElem?_map]
  cases hb : (B C)[i]? with
  | none =>
    rw [List.getElem?_eq_none_iff] at hb
    have h2 : (B C).length = (V C).length := congrFun hs C
    simp only [Option.map_none, List.getElem?_eq_none_iff]
    omega
  | some x =>
    simp only [Option.map_some]
    by_cases hx : born x
    · rw [hborn x hx, hold C i x hb hx]
    · obtain ⟨y, hy⟩ := hlen C i x hb
      have hex : ∃ y, ¬ born x ∧ ∃ C, ∃ i : Nat, (B C)[i]? = some x ∧ (V C)[i]? = some y := ⟨y, hx, C, i, hb, hy⟩
      obtain ⟨_, D, j, h1, h2⟩ := hex.choose_spec
      obtain ⟨rfl, rfl⟩ := once C D i j x hx hb h1
      have e : σ x = hex.choose := by simp only [σ]; rw [dif_pos hex]
      rw [e, h2]

/-! ## What is tracked of a duel -/

theorem trackAll_feed {ms : List CoreMsg} {c c' : BasicContext} (h : trackAll c ms = .ok c') :
    ∃ rs, feed c (ms.map (·.bytes)) = .ok (rs, c') := by
  induction ms generalizing c with
  | nil => cases h; exact ⟨[], rfl⟩
  | cons m ms ih =>
    rw [trackAll, bind_eq_ok] at h
    obtain ⟨c1, h1, h2⟩ := h
    obtain ⟨rs, hr⟩ := ih h2
    unfold track at h1
    rw [bind_eq_ok] at h1
    obtain ⟨⟨r, c0⟩, h3, h4⟩ := h1
    refine ⟨r :: rs, ?_⟩
    rw [List.map_cons, feed, h3, bind_ok]
    dsimp only at h4 ⊢
    cases hm : r.msg with
    | none =>
      simp only [hm] at h4 ⊢
      cases h4
      simp only [pure_bind, hr]
      rfl
    | some x =>
      simp only [hm] at h4 ⊢
      rw [h4, bind_ok, hr]
      rfl

theorem trackAll_reason {ms : List CoreMsg} {c c' : BasicContext} (hf : ∀ m ∈ ms, m.Fits) (h : trackAll c ms = .ok c')
    (ha : c.matchWinReason ≠ none ∨ ms.any isMatchKill = true) : c'.matchWinReason ≠ none := by
  induction ms generalizing c with
  | nil => cases h; simpa using ha
  | cons m ms ih =>
    rw [trackAll, bind_eq_ok] at h
    obtain ⟨c1, h1, h2⟩ := h
    refine ih (fun m hm => hf m (by simp [hm])) h2 ?_
    rw [(track_ctx (hf m (by simp)) h1).1]
    simp only [List.any_cons, Bool.or_eq_true] at ha
    by_cases hk : isMatchKill m = true
    · refine .inl ?_
      cases m <;> first | (cases hk; done) | exact fun h => by cases h
    · have e : reasonAfter c.matchWinReason m = c.matchWinReason := by cases m <;> first | exact absurd rfl hk | rfl
      rw [e]
      exact ha.imp id fun h => h.resolve_left hk

/-- What is tracked shows the duel and is ready for more. -/
structure Tracks (ρ : CardId → CardId) (d : Duel) (c : BasicContext) : Prop where
  cards : boardOf c = d.cards.rename ρ
  known : ∀ x, d.cards.Has x → c.store (ρ x) = d.known x
  score : scoreOf c = d.score
  reach : Reachable c.board.frame
  blank : ∀ x, c.board.frame.next ≤ x → c.store x = BasicContext.newCard
  deferred : c.deferred = []
  born : ∀ x, d.cards.Has x → d.born x
  unseen : ∀ x, d.Unseen x → d.known x = BasicContext.newCard
  announced : d.announced = true → c.matchWinReason ≠ none
  trail : ∀ q k, d.trail q k → InPile q.loc ∧ ∃ p, c.left q = some p ∧ Names p k

theorem inj_of_nodup_map {l : List CardId} (hn : (l.map ρ).Nodup) {x y : CardId} (hx : x ∈ l) (hy : y ∈ l) (e : ρ x = ρ y) : x = y := by
  induction l with
  | nil => cases hx
  | cons a l ih =>
    rw [List.map_cons, List.nodup_cons] at hn
    rcases List.mem_cons.mp hx with hx' | hx' <;> rcases List.mem_cons.mp hy with hy' | hy'
    · rw [hx', hy']
    · rw [← hx', e] at hn
      exact absurd (List.mem_map_of_mem hy') hn.1
    · rw [← hy', ← e] at hn
      exact absurd (List.mem_map_of_mem hx') hn.1
    · exact ih hn.2 hx' hy'

theorem Tracks.apart {d : Duel} {c : BasicContext} (h : Tracks ρ d c) {x y : CardId} (hx : d.cards.Has x) (hy : d.cards.Has y)
    (e : ρ x = ρ y) : x = y := by
  have ho := h.reach.inv.owns
  have hn : (placed (boardOf c)).Nodup := ho.perm.nodup_iff.mpr ho.nodup
  rw [h.cards, placed_rename] at hn
  exact inj_of_nodup_map hn (mem_placed.mpr hx) (mem_placed.mpr hy) e

theorem Tracks.shown {d : Duel} {c : BasicContext} (h : Tracks ρ d c) : Shown ρ d c.board c.store where
  cards := h.cards
  apart _ _ := h.apart
  known := h.known
  turn := by rw [← h.score]; rfl
  player := by rw [← h.score]; rfl
  phase := by rw [← h.score]; rfl
  lp i := by rw [← h.score]; rfl
  chain := by rw [← h.score]; rfl

/-- What is left to show after messages got through. -/
theorem Tracks.next {d : Duel} {c c' : BasicContext} {ms : List CoreMsg} {B : Board} {st : CardId → Card Plain} {σ : CardId → CardId}
    (h : Tracks ρ d c) (hf : ∀ m ∈ ms, m.Fits) (ht : trackAll c ms = .ok c') (hd : c'.deferred = []) (hb : boardOf c' = B.rename σ)
    (hk : ∀ x, B.Has x → c'.store (σ x) = st x) (hu : ∀ x, d.Unseen x → st x = BasicContext.newCard)
    (hq : ∀ q k, d.trails ms q k → InPile q.loc ∧ ∃ p, c'.left q = some p ∧ Names p k) : Tracks σ (d.next ms B st) c' := by
  obtain ⟨rs, hfeed⟩ := trackAll_feed ht
  refine ⟨hb, hk, ?_, feed_reachable h.reach hfeed, feed_blank c' _ c rs h.reach h.blank hfeed, hd, fun x hx => .inr hx, ?_, ?_, hq⟩
  · rw [C69_score_of_history ms hf c c' ht, h.score]; rfl
  · intro x hx
    exact hu x fun hb => hx (.inl hb)
  · intro ha
    have ha : (d.announced || ms.any isMatchKill) = true := ha
    rw [Bool.or_eq_true] at ha
    exact trackAll_reason hf ht (ha.imp h.announced id)

/-- Only moves leave materials behind. -/
theorem Tracks.kept {d : Duel} {c c' : BasicContext} {m : CoreMsg} (h : Tracks ρ d c) (hm : ¬ IsMove m) (hf : m.Fits)
    (ht : track c m.bytes = .ok c') : ∀ q k, d.trails [m] q k → InPile q.loc ∧ ∃ p, c'.left q = some p ∧ Names p k := by
  intro q k hq
  rw [C70_left c m hf hm [] c' (by rwa [List.append_nil])]
  refine h.trail q k ?_
  cases m <;> first | exact hq | exact absurd trivial hm

theorem names_zone {p : Place} {k : ZoneKey} (h : Names p k) : ¬ InPile p.loc := by
  rw [h.2.1]; exact not_inPile_code _

/-- Moves from piles, or to zones, leave nothing behind. -/
theorem trails_plain {d : Duel} {m : MoveMsg} (h : InPile m.src.place.loc ∨ m.src.place.loc = 0 ∨ ¬ InPile m.dst.place.loc) {q : Place} {k : ZoneKey}
    (hq : d.trails [m.msg] q k) : d.trail q k := by
  rcases hq with ⟨rfl, h1, h2, _⟩ | hq
  · rcases h with h | h | h
    · exact absurd h (names_zone h2)
    · exact absurd (h2.2.1.symm.trans h) (zone_ne_zero _)
    · exact absurd h1 h
  · exact hq.1

/-! ## Messages that move no cards and tell nothing about them -/

theorem calm_returns {d : Duel} {c : BasicContext} (h : Tracks ρ d c) (m : CoreMsg) (hf : m.Fits) (hm : ¬ MovesCards m) (ht : ¬ TellsData m)
    (ha : d.Allows m) : ∃ c', track c m.bytes = .ok c' := by
  by_cases hs : (scoreOf c).Allows m
  · obtain ⟨c', h1, _⟩ := C69_score_returns c m hs hf []
    rw [List.append_nil] at h1
    exact ⟨c', h1⟩
  cases hmm : m.meaning with
  | some y =>
    unfold track
    rw [← List.append_nil m.bytes, C34_translation c m hf y hmm]
    rw [h.score] at hs
    cases m <;> cases hmm <;> first | exact absurd trivial hm | exact absurd trivial ht | exact absurd trivial hs | exact absurd ha hs | exact ⟨_, rfl⟩
  | none =>
    cases hc : m.inContext c with
    | none => cases m <;> first | exact absurd trivial hm | (cases hmm; done) | simp [CoreMsg.inContext] at hc
    | some y =>
      unfold track
      rw [← List.append_nil m.bytes, C34_translation_in_context c m hf y hc]
      cases m <;> simp only [CoreMsg.inContext, reduceCtorEq] at hc <;> cases hc
      case none.some.matchKill.refl => exact ⟨_, rfl⟩
      case none.some.win.refl =>
        have := h.announced ha
        cases hr : c.matchWinReason with
        | none => exact absurd hr this
        | some n => exact ⟨_, by simp only [EncodeContext.getMatchWinReason, hr]; rfl⟩
      case none.some.deckTop.refl p seq code pos =>
        have hp : p.toNat < 2 := ha
        have hp : p = 0 ∨ p = 1 := by
          rcases Nat.lt_succ_iff_lt_or_eq.mp hp with h | h
          · exact .inl (UInt8.toNat_inj.mp (by simpa using h))
          · exact .inr (UInt8.toNat_inj.mp (by simpa using h))
        rcases hp with rfl | rfl <;> exact ⟨_, rfl⟩
      all_goals exact absurd trivial hm

/-! ## One thing happens -/

theorem trackAll_one {c c' : BasicContext} {m : CoreMsg} (h : track c m.bytes = .ok c') : trackAll c [m] = .ok c' := by
  rw [trackAll, h, bind_ok]; rfl

theorem track_nil {c : BasicContext} {m : CoreMsg} {x : Res BasicContext} (h : track c (m.bytes ++ []) = x) : track c m.bytes = x := by
  rwa [List.append_nil] at h

theorem board_setPiles (c : BasicContext) (g : PileKey → List CardId) : boardOf (setPiles c g) = fun C => match C with
    | .pile k => g k
    | C => boardOf c C := by
  funext C; cases C <;> rfl

theorem board_setPiles_set (c : BasicContext) (g : PileKey → List CardId) (k : PileKey) (v : List CardId) :
    boardOf (setPiles c (Piles.set g k v)) = (boardOf (setPiles c g)).setPile k v := by
  funext C
  cases C <;> simp only [board_setPiles, Board.setPile, Board.upd, Piles.set, Container.pile.injEq, reduceCtorEq, if_false]

theorem board_setPiles_same (c : BasicContext) : boardOf (setPiles c (pileOf c)) = boardOf c := by
  funext C; cases C <;> rfl

theorem rename_setPile (B : Board) (k : PileKey) (v : List CardId) : (B.setPile k v).rename ρ = (B.rename ρ).setPile k (v.map ρ) := rename_upd ..

theorem map_rename (B : Board) (C : Container) : (B C).map ρ = B.rename ρ C := rfl

theorem pileOf_board (c : BasicContext) (k : PileKey) : pileOf c k = boardOf c (.pile k) := rfl

theorem view_layout {c : BasicContext} {l : Layout} : boardOf (setLayout c l) = view l := rfl

/-- The tracked cards move as the duel's do, keeping their names. -/
theorem Tracks.same {d : Duel} {c c' : BasicContext} {ms : List CoreMsg} {B : Board}
    (h : Tracks ρ d c) (hf : ∀ m ∈ ms, m.Fits) (ht : trackAll c ms = .ok c') (hd : c'.deferred = []) (hs : c'.store = c.store)
    (hb : boardOf c' = B.rename ρ) (hB : ∀ x, B.Has x → d.cards.Has x)
    (hq : ∀ q k, d.trails ms q k → InPile q.loc ∧ ∃ p, c'.left q = some p ∧ Names p k) : ∃ c' σ, trackAll c ms = .ok c' ∧ Tracks σ (d.next ms B d.known) c' ∧ ∀ x, d.born x → σ x = ρ x :=
  ⟨c', ρ, ht, h.next hf ht hd hb (fun x hx => by rw [hs]; exact h.known x (hB x hx)) h.unseen hq, fun _ _ => rfl⟩

/-- New cards come. -/
theorem Tracks.renew {d : Duel} {c c' : BasicContext} {ms : List CoreMsg} {B : Board}
    (h : Tracks ρ d c) (hf : ∀ m ∈ ms, m.Fits) (ht : trackAll c ms = .ok c') (hd : c'.deferred = []) (hs : c'.store = c.store)
    (hz : B.sizes = (boardOf c').sizes)
    (hold : ∀ C (i : Nat) x, (B C)[i]? = some x → d.born x → d.cards.Has x ∧ (boardOf c' C)[i]? = some (ρ x))
    (hnew : ∀ C (i : Nat) x y, (B C)[i]? = some x → d.Unseen x → (boardOf c' C)[i]? = some y → NotMade c y)
    (once : B.Once d.Unseen) (hq : ∀ q k, d.trails ms q k → InPile q.loc ∧ ∃ p, c'.left q = some p ∧ Names p k) :
    ∃ c' σ, trackAll c ms = .ok c' ∧ Tracks σ (d.next ms B d.known) c' ∧ ∀ x, d.born x → σ x = ρ x := by
  obtain ⟨σ, hv, hσ⟩ := extend_names (ρ := ρ) d.born B (boardOf c') hz (fun C i x h1 h2 => (hold C i x h1 h2).2) once
  refine ⟨c', σ, ht, h.next hf ht hd hv ?_ h.unseen hq, hσ⟩
  rintro x ⟨C, hx⟩
  obtain ⟨i, hi⟩ := List.mem_iff_getElem?.mp hx
  rw [hs]
  by_cases hb : d.born x
  · rw [hσ x hb, h.known x (hold C i x hi hb).1]
  · rw [h.unseen x hb]
    refine h.blank _ (hnew C i x _ hi hb ?_)
    rw [hv]
    exact getElem?_rename hi

theorem has_upd {B : Board} {C : Container} {v : List CardId} {x : CardId} (h : (B.upd C v).Has x) : x ∈ v ∨ B.Has x := by
  obtain ⟨D, hD⟩ := h
  simp only [Board.upd] at hD
  split at hD
  · exact .inl hD
  · exact .inr ⟨D, hD⟩

theorem mem_insertIdx' {l : List CardId} {i : Nat} {x y : CardId} (h : x ∈ l.insertIdx i y) : x = y ∨ x ∈ l := by
  induction l generalizing i with
  | nil => cases i <;> simp_all
  | cons a l ih =>
    cases i with
    | zero => simpa using h
    | succ i =>
      simp only [List.insertIdx_succ_cons, List.mem_cons] at h ⊢
      rcases h with h | h
      · exact .inr (.inl h)
      · exact (ih h).imp id .inr

theorem has_put {B : Board} {C : Container} {i : Nat} {x y : CardId} (h : (B.put C i y).Has x) : x = y ∨ B.Has x := by
  rcases has_upd h with h | h
  · rcases mem_insertIdx' h with h | h
    · exact .inl h
    · exact .inr ⟨C, h⟩
  · exact .inr h

theorem has_take {B : Board} {C : Container} {i : Nat} {x : CardId} (h : (B.take C i).Has x) : B.Has x := by
  rcases has_upd h with h | h
  · exact ⟨C, List.mem_of_mem_eraseIdx h⟩
  · exact h

theorem has_carry {B : Board} {C D : Container} {x : CardId} (h : (B.carry C D).Has x) : B.Has x := by
  cases C <;> cases D <;> try exact h
  rcases has_upd h with h | h
  · cases h
  · rcases has_upd h with h | h
    · exact ⟨_, h⟩
    · exact h

theorem has_swapMats {B : Board} {C D : Container} {x : CardId} (h : (B.swapMats C D).Has x) : B.Has x := by
  cases C <;> cases D <;> try exact h
  rcases has_upd h with h | h
  · exact ⟨_, h⟩
  · rcases has_upd h with h | h
    · exact ⟨_, h⟩
    · exact h

theorem has_gone {B : Board} {C D : Container} {i j : Nat} {x y : CardId} (hy : (B C)[i]? = some y) (h : (gone B C i D j y).Has x) : B.Has x := by
  rcases has_put (has_carry h) with rfl | h
  · exact ⟨C, List.mem_of_getElem? hy⟩
  · exact has_take h

theorem has_exchange {B : Board} {C D : Container} {i j : Nat} {x y z : CardId} (hx : (B C)[i]? = some x) (hy : (B D)[j]? = some y)
    (h : (B.exchange C i D j x y).Has z) : B.Has z := by
  have one : ∀ {B' : Board} {z : CardId} (w : CardId) (E : Container) (k : Nat), B.Has w → (∀ z, B'.Has z → B.Has z) →
      (B'.upd E ((B' E).set k w)).Has z → B.Has z := by
    intro B' z w E k hw hB h
    rcases has_upd h with h | h
    · rcases List.mem_or_eq_of_mem_set h with h | rfl
      · exact hB z ⟨E, h⟩
      · exact hw
    · exact hB z h
  exact one x D j ⟨C, List.mem_of_getElem? hx⟩ (fun z hz => one y C i ⟨D, List.mem_of_getElem? hy⟩ (fun _ h => h) hz) h

theorem gathered_has {k : ZoneKey} {n : Nat} {B B' : Board} {ms : List CoreMsg} {xs : List CardId} (h : Gathered k n B ms xs B') :
    (∀ x ∈ xs, B.Has x) ∧ ∀ x, B'.Has x → B.Has x := by
  induction h with
  | done n B => exact ⟨by simp, fun _ h => h⟩
  | aside m ha _ ih => exact ih
  | card m C i x hs ps hd hx hC _ ih =>
    refine ⟨fun y hy => ?_, fun y hy => has_take (ih.2 y hy)⟩
    rcases List.mem_cons.mp hy with rfl | hy
    · exact ⟨_, List.mem_of_getElem? hx⟩
    · exact has_take (ih.1 y hy)

theorem gathered_rename {k : ZoneKey} {n : Nat} {B B' : Board} {ms : List CoreMsg} {xs : List CardId} (h : Gathered k n B ms xs B') :
    Gathered k n (B.rename ρ) ms (xs.map ρ) (B'.rename ρ) := by
  induction h with
  | done n B => exact .done n _
  | aside m ha _ ih => exact .aside m ha ih
  | card m C i x hs ps hd hx hC _ ih => exact .card m C i (ρ x) hs ps hd (getElem?_rename hx) hC (by rw [← rename_take]; exact ih)

theorem has_summoned {B : Board} {xs : List CardId} {C : Container} {e : Nat} {x z : CardId} {k : ZoneKey} (hx : (B C)[e]? = some x)
    (h : (summoned B xs C e x k).Has z) : z ∈ xs ∨ B.Has z := by
  rcases has_upd h with h | h
  · rcases List.mem_append.mp h with h | h
    · exact .inl h
    · exact .inr ⟨_, h⟩
  · rcases has_upd h with h | h
    · rw [List.mem_singleton.mp h]
      exact .inr ⟨_, List.mem_of_getElem? hx⟩
    · exact .inr (has_take h)

theorem mem_marked {mask : List UInt8} {v : Bool} {cs : List CardId} {x : CardId} (h : x ∈ marked mask v cs) : x ∈ cs := by
  simp only [marked, List.mem_map, List.mem_filter, Prod.exists] at h
  obtain ⟨a, b, ⟨h, _⟩, rfl⟩ := h
  exact List.mem_of_getElem? (List.mem_zipIdx_iff_getElem?.mp h)

theorem canGo_rename {B : Board} {C D : Container} {i j : Nat} {x : CardId} (h : CanGo B C i D j x) : CanGo (B.rename ρ) C i D j (ρ x) where
  there := getElem?_rename h.there
  free k hk := rename_nil.mpr (h.free k hk)
  room := by rw [← rename_take, length_rename]; exact h.room
  carry := by
    have := h.carry
    cases C <;> cases D <;> first | exact trivial | exact rename_nil.mpr this

theorem swapOk_rename {B : Board} {C D : Container} (h : SwapOk B C D) : SwapOk (B.rename ρ) C D := by
  cases C <;> cases D <;> first | exact trivial | exact rename_nil.mpr h

theorem plain_get {α : Type} {a b : Plain α} {v : α} (h : Cell.get a = .ok v) (h' : Cell.get b = .ok v) : a = b := by
  cases a; cases b; cases h; cases h'; rfl

theorem answered_unique {q : QueryData} {a b b' : Card Plain} (h : Answered Cell.get q a b) (h' : Answered Cell.get q a b') : b = b' := by
  obtain ⟨s, t, u⟩ := b
  obtain ⟨s', t', u'⟩ := b'
  have e1 : s = s' := by
    funext f
    cases hq : q.single f with
    | none => exact (h.kept f hq).trans (h'.kept f hq).symm
    | some v => exact plain_get (h.given f v hq) (h'.given f v hq)
  have e2 : t = t' := by
    cases hq : q.targets with
    | none => exact (h.targetsKept hq).trans (h'.targetsKept hq).symm
    | some v => exact plain_get (h.targetsGiven v hq) (h'.targetsGiven v hq)
  have e3 : u = u' := by
    cases hq : q.counters with
    | none => exact (h.countersKept hq).trans (h'.countersKept hq).symm
    | some v => exact plain_get (h.countersGiven v hq) (h'.countersGiven v hq)
  rw [e1, e2, e3]

theorem told_rename {B : Board} {r : Row} {i : Nat} {is : List QueryItem} {x : CardId} {q : QueryData} (h : Told B r i is x q) :
    Told (B.rename ρ) r i is (ρ x) q := by
  cases h with
  | card C j x hc hx => exact .card C j _ hc (getElem?_rename hx)
  | material z n code x hz hc hx => exact .material z n code _ hz hc (getElem?_rename hx)

theorem of_told_rename {B : Board} {r : Row} {i : Nat} {is : List QueryItem} {y : CardId} {q : QueryData} (h : Told (B.rename ρ) r i is y q) :
    ∃ x, ρ x = y ∧ Told B r i is x q := by
  cases h with
  | card C j y hc hx =>
    obtain ⟨x, hx, e⟩ := of_getElem?_rename hx
    exact ⟨x, e, .card C j x hc hx⟩
  | material z n code y hz hc hx =>
    obtain ⟨x, hx, e⟩ := of_getElem?_rename hx
    exact ⟨x, e, .material z n code x hz hc hx⟩

theorem told_has {B : Board} {r : Row} {i : Nat} {is : List QueryItem} {x : CardId} {q : QueryData} (h : Told B r i is x q) : B.Has x := by
  cases h with
  | card C j x hc hx => exact ⟨_, List.mem_of_getElem? hx⟩
  | material z n code x hz hc hx => exact ⟨_, List.mem_of_getElem? hx⟩

theorem rowOnBoard_rename {B : Board} {r : Row} {i : Nat} {is : List QueryItem} (h : RowOnBoard B r i is) : RowOnBoard (B.rename ρ) r i is := by
  simp only [RowOnBoard, length_rename]
  exact h

theorem Tracks.learn {d : Duel} {c : BasicContext} {m : CoreMsg} {st st' : CardId → Card Plain} (h : Tracks ρ d c) (hm : ¬ IsMove m) (hf : m.Fits)
    (ht : track c m.bytes = .ok { c with store := st' }) (T : Board → CardId → QueryData → Prop)
    (hT : ∀ x q, T d.cards x q → T (d.cards.rename ρ) (ρ x) q) (hT' : ∀ y q, T (d.cards.rename ρ) y q → ∃ x, ρ x = y ∧ T d.cards x q)
    (hh : ∀ x q, T d.cards x q → d.cards.Has x)
    (a1 : ∀ x q, T d.cards x q → Answered Cell.get q (d.known x) (st x)) (a2 : ∀ x, (∀ q, ¬ T d.cards x q) → st x = d.known x)
    (b1 : ∀ x q, T (boardOf c) x q → Answered Cell.get q (c.store x) (st' x)) (b2 : ∀ x, (∀ q, ¬ T (boardOf c) x q) → st' x = c.store x) :
    ∃ c' σ, trackAll c [m] = .ok c' ∧ Tracks σ (d.next [m] d.cards st) c' ∧ ∀ x, d.born x → σ x = ρ x := by
  rw [h.cards] at b1 b2
  refine ⟨_, ρ, trackAll_one ht, h.next (by simpa using hf) (trackAll_one ht) h.deferred h.cards ?_ ?_ (h.kept hm hf ht), fun _ _ => rfl⟩
  · intro x hx
    show st' (ρ x) = st x
    by_cases hq : ∃ q, T d.cards x q
    · obtain ⟨q, hq⟩ := hq
      have e1 := b1 _ q (hT x q hq)
      rw [h.known x hx] at e1
      exact answered_unique e1 (a1 x q hq)
    · rw [a2 x fun q hq' => hq ⟨q, hq'⟩, b2, h.known x hx]
      intro q hq'
      obtain ⟨y, e, hy⟩ := hT' _ q hq'
      exact hq ⟨q, h.apart (hh y q hy) hx e ▸ hy⟩
  · intro x hx
    rw [a2 x fun q hq => hx (h.born x (hh x q hq))]
    exact h.unseen x hx

/-- What is remembered when a card goes somewhere. -/
theorem goes_trail {d : Duel} {c : BasicContext} (h : Tracks ρ d c) {m : MoveMsg} {C1 C2 : Container} {i j : Nat} (hs : At m.src.place C1 i)
    (hd : At m.dst.place C2 j) {lf : Place → Option Place} (h1 : ¬ (LeavesMats (boardOf c) C1 ∧ ∃ p, C2 = .pile p) → lf = c.left)
    (h2 : LeavesMats (boardOf c) C1 → (∃ p, C2 = .pile p) → ∀ q, lf q = if q = m.dst.place then some m.src.place else c.left q) :
    ∀ q k, d.trails [m.msg] q k → InPile q.loc ∧ ∃ p, lf q = some p ∧ Names p k := by
  have hn : ∀ k, Names m.src.place k ↔ C1 = .slot k ∨ C1 = .mats k := by
    intro k
    constructor
    · intro hn
      have hz : ¬ InPile m.src.place.loc := names_zone hn
      have e : At m.src.place (.slot k) 0 ∨ At m.src.place (.mats k) m.src.place.oseq.toNat := by
        obtain ⟨e1, e2, e3⟩ := hn
        generalize m.src.place = p at *
        obtain ⟨a, b, s, o⟩ := p
        simp only at e1 e2 e3
        subst e1 e2 e3
        by_cases ho : o < 0
        · exact .inl (.slot k o ho)
        · obtain ⟨n, rfl⟩ := Int.eq_ofNat_of_zero_le (show 0 ≤ o by omega)
          exact .inr (.mats k n)
      rcases e with e | e
      · exact .inl (At.unique hs e).1
      · exact .inr (At.unique hs e).1
    · rintro (rfl | rfl)
      · generalize m.src.place = p at *
        cases hs; exact ⟨rfl, rfl, rfl⟩
      · generalize m.src.place = p at *
        cases hs; exact ⟨rfl, rfl, rfl⟩
  have hp : InPile m.dst.place.loc ↔ ∃ p, C2 = .pile p := by rw [← pileLoc_iff]; exact at_isPile hd
  have hlm : ∀ k, (C1 = .slot k ∨ C1 = .mats k) → d.cards (.mats k) ≠ [] → LeavesMats (boardOf c) C1 := by
    intro k hC hm
    exact ⟨k, hC, by rw [h.cards, ne_eq, rename_nil]; exact hm⟩
  intro q k hq
  rcases hq with ⟨rfl, a1, a2, a3⟩ | ⟨a1, a2⟩
  · exact ⟨a1, m.src.place, by rw [h2 (hlm k ((hn k).mp a2) a3) (hp.mp a1), if_pos rfl], a2⟩
  · obtain ⟨b1, p, b2, b3⟩ := h.trail q k a1
    refine ⟨b1, p, ?_, b3⟩
    by_cases hx : LeavesMats (boardOf c) C1 ∧ ∃ p, C2 = .pile p
    · rw [h2 hx.1 hx.2, if_neg, b2]
      intro e
      obtain ⟨k', hC, hm⟩ := hx.1
      exact a2 ⟨e, k', (hn k').mpr hC, by rw [h.cards, ne_eq, rename_nil] at hm; exact hm⟩
    · rw [h1 hx, b2]

/-- Whatever happens in a duel, what is tracked goes along. -/
theorem happens_tracked {d : Duel} {c : BasicContext} {ms : List CoreMsg} {B : Board} {st : CardId → Card Plain} (h : Tracks ρ d c)
    (hh : Happens d ms B st) (hf : ∀ m ∈ ms, m.Fits) :
    ∃ c' σ, trackAll c ms = .ok c' ∧ Tracks σ (d.next ms B st) c' ∧ ∀ x, d.born x → σ x = ρ x := by
  have hl : ∀ C, (boardOf c C).length = (d.cards C).length := fun C => by rw [h.cards, length_rename]
  cases hh with
  | start rule lp0 lp1 m0 e0 m1 e1 _ hn ho hs =>
    obtain ⟨f, ht, _, hnew, hz⟩ := C64_start c h.reach rule lp0 lp1 m0 e0 m1 e1 []
    exact h.renew hf (trackAll_one (track_nil ht)) h.deferred rfl (hs.trans hz.symm)
      (fun C i x hi hb => absurd hb (hn x ⟨C, List.mem_of_getElem? hi⟩)) (fun C i x y _ _ hy => hnew C y (List.mem_of_getElem? hy)) ho
      (h.kept id (hf _ (by simp)) (track_nil ht))
  | reload flags s chains ho _ hn hb hs =>
    have hfit : CoreMsg.Fits (.reloadField flags (s 0) (s 1) chains) := hf _ (by simp)
    obtain ⟨f, ht, _, hnew, hz⟩ := C64_reload c h.reach flags s chains
      (fun i => match i with | 0 => hfit.1 | 1 => hfit.2.1) ho hfit.2.2 []
    exact h.renew hf (trackAll_one (track_nil ht)) h.deferred rfl (hs.trans hz.symm)
      (fun C i x hi hb => absurd hb (hn x ⟨C, List.mem_of_getElem? hi⟩)) (fun C i x y _ _ hy => hnew C y (List.mem_of_getElem? hy)) hb
      (h.kept id (hf _ (by simp)) (track_nil ht))
  | tagSwap p main extraP top extra hand _ hb hm he hh hr =>
    obtain ⟨f, ht, _, hm', he', hh', hr'⟩ := C64_tag_swap c h.reach p main extraP top extra hand
      (show CoreMsg.Fits (.tagSwap (playerByte p) main extraP top extra hand) from hf _ (by simp)) []
    have one : ∀ C (i : Nat) x y, (B C)[i]? = some x → (view f.layout C)[i]? = some y →
        (d.born x → d.cards.Has x ∧ y = ρ x) ∧ (d.Unseen x → NotMade c y) := by
      have same : ∀ C, B C = d.cards C → view f.layout C = boardOf c C → ∀ (i : Nat) x y, (B C)[i]? = some x →
          (view f.layout C)[i]? = some y → (d.born x → d.cards.Has x ∧ y = ρ x) ∧ (d.Unseen x → NotMade c y) := by
        intro C e1 e2 i x y hx hy
        rw [e1] at hx
        rw [e2, h.cards, getElem?_rename hx] at hy
        have hx : d.cards.Has x := ⟨C, List.mem_of_getElem? hx⟩
        exact ⟨fun _ => ⟨hx, (Option.some.inj hy).symm⟩, fun hu => absurd (h.born x hx) hu⟩
      have size : ∀ C n, Resized d.Unseen (d.cards C) n (B C) → Resized (NotMade c) (boardOf c C) n (view f.layout C) →
          ∀ (i : Nat) x y, (B C)[i]? = some x → (view f.layout C)[i]? = some y →
            (d.born x → d.cards.Has x ∧ y = ρ x) ∧ (d.Unseen x → NotMade c y) := by
        rintro C n ⟨o1, e1, _, u1⟩ ⟨o2, e2, _, u2⟩ i x y hx hy
        rw [e1] at hx
        rw [e2, h.cards] at hy
        have hlen : ((d.cards.rename ρ C).take n).length = ((d.cards C).take n).length := by simp [Board.rename]
        by_cases hi : i < ((d.cards C).take n).length
        · rw [List.getElem?_append_left hi] at hx
          rw [List.getElem?_append_left (by omega)] at hy
          rw [Board.rename, ← List.map_take, List.getElem?_map, hx] at hy
          have hx : d.cards.Has x := ⟨C, List.mem_of_mem_take (List.mem_of_getElem? hx)⟩
          exact ⟨fun _ => ⟨hx, (Option.some.inj hy).symm⟩, fun hu => absurd (h.born x hx) hu⟩
        · rw [List.getElem?_append_right (by omega)] at hx
          rw [List.getElem?_append_right (by omega)] at hy
          exact ⟨fun hb => absurd hb (u1 x (List.mem_of_getElem? hx)), fun _ => u2 y (List.mem_of_getElem? hy)⟩
      intro C
      by_cases c1 : C = .pile ⟨p, .mainDeck⟩
      · subst c1; exact size _ _ hm hm'
      by_cases c2 : C = .pile ⟨p, .extraDeck⟩
      · subst c2; exact size _ _ he he'
      by_cases c3 : C = .pile ⟨p, .hand⟩
      · subst c3; exact size _ _ hh hh'
      exact same C (hr C c1 c2 c3) (hr' C c1 c2 c3)
    have sizes : B.sizes = (view f.layout).sizes := by
      have size : ∀ C n, Resized d.Unseen (d.cards C) n (B C) → Resized (NotMade c) (boardOf c C) n (view f.layout C) →
          (B C).length = (view f.layout C).length := by
        rintro C n ⟨o1, e1, l1, _⟩ ⟨o2, e2, l2, _⟩
        rw [e1, e2, List.length_append, List.length_append, List.length_take, List.length_take, l1, l2, hl]
      funext C
      show (B C).length = (view f.layout C).length
      by_cases c1 : C = .pile ⟨p, .mainDeck⟩
      · subst c1; exact size _ _ hm hm'
      by_cases c2 : C = .pile ⟨p, .extraDeck⟩
      · subst c2; exact size _ _ he he'
      by_cases c3 : C = .pile ⟨p, .hand⟩
      · subst c3; exact size _ _ hh hh'
      rw [hr C c1 c2 c3, hr' C c1 c2 c3, hl]
    refine h.renew hf (trackAll_one (track_nil ht)) h.deferred rfl sizes ?_ (fun C i x y hx hu hy => (one C i x y hx hy).2 hu) hb
      (h.kept id (hf _ (by simp)) (track_nil ht))
    intro C i x hx hbx
    have hi : i < (view f.layout C).length := by
      rw [← show (B C).length = (view f.layout C).length from congrFun sizes C]
      exact (List.getElem?_eq_some_iff.mp hx).1
    have hy := List.getElem?_eq_getElem hi
    obtain ⟨h1, h2⟩ := (one C i x _ hx hy).1 hbx
    exact ⟨h1, by rw [← h2]; exact hy⟩
  | draw p cs hn hd hh =>
    have ht := track_nil (C41_draw c p cs [] (by rw [pileOf_board, hl]; exact hn) (by rw [pileOf_board, hl]; exact hd)
      (by rw [pileOf_board, hl]; exact hh))
    refine h.same hf (trackAll_one ht) h.deferred rfl ?_ ?_ (h.kept id (hf _ (by simp)) ht)
    · simp only [rename_setPile, board_setPiles_set, board_setPiles_same, pileOf_board, List.map_append, List.map_take, List.map_reverse,
        map_rename, ← h.cards, hl]
    · intro x hx
      rcases has_upd hx with hx | hx
      · rcases List.mem_append.mp hx with hx | hx
        · exact ⟨_, hx⟩
        · exact ⟨_, List.mem_reverse.mp (List.mem_of_mem_take hx)⟩
      · rcases has_upd hx with hx | hx
        · exact ⟨_, List.mem_of_mem_take hx⟩
        · exact hx
  | swapGraveDeck p pos mask hm hp hd hg =>
    have ht := track_nil (C42_swap_grave_deck c p pos mask [] (by rw [pileOf_board, hl]; exact hm)
      (show CoreMsg.Fits (.swapGraveDeck (playerByte p) pos mask) from hf _ (by simp))
      (by rw [pileOf_board, hl]; exact hp) (by rw [pileOf_board, hl]; exact hd) (by rw [pileOf_board, hl]; exact hg))
    refine h.same hf (trackAll_one ht) h.deferred rfl ?_ ?_ (h.kept id (hf _ (by simp)) ht)
    · simp only [rename_setPile, board_setPiles_set, board_setPiles_same, pileOf_board, List.map_append, List.map_take, List.map_drop,
        ← marked_map, map_rename, ← h.cards, hl]
    · intro x hx
      rcases has_upd hx with hx | hx
      · simp only [List.mem_append] at hx
        rcases hx with (hx | hx) | hx
        · exact ⟨_, List.mem_of_mem_take hx⟩
        · exact ⟨_, mem_marked hx⟩
        · exact ⟨_, List.mem_of_mem_drop hx⟩
      · rcases has_upd hx with hx | hx
        · exact ⟨_, mem_marked hx⟩
        · rcases has_upd hx with hx | hx
          · exact ⟨_, hx⟩
          · exact hx
  | reverseDecks h0 h1 =>
    have ht := track_nil (C43_reverse_decks c [] (by rw [pileOf_board, hl]; exact h0) (by rw [pileOf_board, hl]; exact h1))
    refine h.same hf (trackAll_one ht) h.deferred rfl ?_ ?_ (h.kept id (hf _ (by simp)) ht)
    · simp only [rename_setPile, board_setPiles_set, board_setPiles_same, pileOf_board, List.map_reverse, map_rename, ← h.cards]
    · intro x hx
      rcases has_upd hx with hx | hx
      · exact ⟨_, List.mem_reverse.mp hx⟩
      · rcases has_upd hx with hx | hx
        · exact ⟨_, List.mem_reverse.mp hx⟩
        · exact hx
  | appears m C i x hx hs hd hfit =>
    obtain ⟨l, ht, hv⟩ := C71_appears c m C i hs hd (by
      refine ⟨by rw [hl]; exact hfit.1, fun k hk => ?_⟩
      rw [h.cards]; exact rename_nil.mpr (hfit.2 k hk))
    have hold : ∀ y, d.born y → (if y = x then c.board.frame.next else ρ y) = ρ y := by
      intro y hy
      refine if_neg ?_
      rintro rfl
      exact hx hy
    refine ⟨_, fun y => if y = x then c.board.frame.next else ρ y, trackAll_one ht, h.next hf (trackAll_one ht) h.deferred ?_ ?_ h.unseen
      (fun q k hq => h.trail q k (trails_plain (.inr (.inl hs)) hq)), hold⟩
    · rw [rename_put, rename_congr (ρ := ρ) fun y hy => hold y (h.born y hy), ← h.cards, if_pos rfl]
      exact hv
    · intro y hy
      show c.store _ = _
      rcases has_put hy with rfl | hy
      · rw [if_pos rfl, h.unseen _ hx]
        exact h.blank _ (Nat.le_refl _)
      · rw [hold y (h.born y hy)]
        exact h.known y hy
  | vanishes m C i x hs hd hx =>
    obtain ⟨l, lf, ht, hv, hl1, hl2⟩ := C71_disappears c h.reach m C i (ρ x) hs hd (by rw [h.cards]; exact getElem?_rename hx)
    exact h.same hf (trackAll_one ht) h.deferred rfl (by rw [rename_take, ← h.cards]; exact hv) (fun _ => has_take) fun q k hq => by
      obtain ⟨hp, p, e1, e2⟩ := h.trail q k (trails_plain (.inr (.inr (by rw [hd]; exact fun h => inPile_ne_zero h rfl))) hq)
      refine ⟨hp, p, ?_, e2⟩
      show lf q = _
      by_cases hlm : LeavesMats (boardOf c) C
      · rw [hl2 hlm, if_neg, e1]
        rintro rfl
        obtain ⟨k', hC, _⟩ := hlm
        obtain ⟨k'', hk''⟩ := (at_isPile hs).mp ((pileLoc_iff _).mpr hp)
        rcases hC with rfl | rfl <;> cases hk''
      · rw [hl1 hlm, e1]
  | goes m C1 C2 i j x hs hd ps pd hg =>
    obtain ⟨l, lf, ht, hv, hl1, hl2⟩ := C71_moves c m C1 C2 i j (ρ x) (fun _ => h.deferred) hs hd ps pd (by rw [h.cards]; exact canGo_rename hg)
    exact h.same hf (trackAll_one ht) h.deferred rfl (by rw [rename_gone, ← h.cards]; exact hv) (fun _ => has_gone hg.there)
      (goes_trail h hs hd hl1 hl2)
  | swap ca cb a b C1 C2 i j x y ha hb pa pb hok hs hx hy =>
    obtain ⟨l, ht, hv⟩ := C71_swap c ca cb a b C1 C2 i j (ρ x) (ρ y) ha hb pa pb hok (by rw [h.cards]; exact swapOk_rename hs)
      (by rw [h.cards]; exact getElem?_rename hx) (by rw [h.cards]; exact getElem?_rename hy)
    exact h.same hf (trackAll_one ht) h.deferred rfl (by rw [rename_swapMats, rename_exchange, ← h.cards]; exact hv)
      (fun _ hz => has_exchange hx hy (has_swapMats hz)) (h.kept id (hf _ (by simp)) ht)
  | shuffle loc cs con row hne hn olds news hfrom hto hp hd hcards _ h1 h2 h3 =>
    have hlen : news.length = cs.length := by have := congrArg List.length hto; simpa using this.symm
    obtain ⟨l, ht, hpile, T, U, hUT, hTU, hT, hto', hrest⟩ := C71_shuffle c loc cs con row hne hn olds (news.map some) (by simpa using hlen) hfrom
      (by
        intro i x t hx ht
        rw [List.getElem?_map, Option.map_eq_some_iff] at ht
        obtain ⟨k, hk, rfl⟩ := ht
        have e := congrArg (·[i]?) hto
        simp only [List.getElem?_map, hx, hk, Option.map_some, Option.some.injEq] at e
        exact e)
      (by
        intro k hk
        obtain ⟨a, b, e⟩ := hcards k hk
        exact ⟨a, b, by rw [h.cards, ne_eq, rename_nil]; exact e⟩)
      (by
        intro k hk
        obtain ⟨k', hk', e⟩ := List.mem_map.mp hk
        cases e
        obtain ⟨a, b, _⟩ := hcards k (hp.mem_iff.mp hk')
        exact ⟨a, b⟩)
      hd
      (by
        intro i j k hi hj
        rw [List.getElem?_map, Option.map_eq_some_iff] at hi hj
        obtain ⟨_, hi, e⟩ := hi; cases e
        obtain ⟨_, hj, e⟩ := hj; cases e
        have hnd : news.Nodup := hp.nodup_iff.mpr hd
        exact (List.getElem?_inj (List.getElem?_eq_some_iff.mp hi).1 hnd).mp (hi.trans hj.symm))
    have key : ∀ k, ∃ k', T k' = k ∧ B (.slot k) = d.cards (.slot k') ∧ B (.mats k) = d.cards (.mats k') := by
      intro k
      by_cases hk : k ∈ news
      · obtain ⟨i, hi⟩ := List.mem_iff_getElem?.mp hk
        have hil : i < olds.length := by rw [← hp.length_eq]; exact (List.getElem?_eq_some_iff.mp hi).1
        have ha := List.getElem?_eq_getElem hil
        exact ⟨olds[i], hto' i _ k ha (by rw [List.getElem?_map, hi]; rfl), h3 i _ k ha hi⟩
      · have hk' : k ∉ olds := fun h => hk (hp.mem_iff.mpr h)
        refine ⟨k, hrest k hk' ?_, h2 k hk'⟩
        intro hm
        obtain ⟨_, hm, e⟩ := List.mem_map.mp hm
        cases e
        exact hk hm
    refine h.same hf (trackAll_one ht) h.deferred rfl ?_ ?_ (h.kept id (hf _ (by simp)) ht)
    · funext C
      rw [view_layout]
      cases C with
      | pile p => rw [hpile, h.cards]; simp only [Board.rename, h1]
      | slot k =>
        obtain ⟨k', e, e1, _⟩ := key k
        rw [← e, (hT k').1, h.cards, e]
        simp only [Board.rename, e1]
      | mats k =>
        obtain ⟨k', e, _, e2⟩ := key k
        rw [← e, (hT k').2, h.cards, e]
        simp only [Board.rename, e2]
    · rintro x ⟨C, hx⟩
      cases C with
      | pile p => rw [h1] at hx; exact ⟨_, hx⟩
      | slot k => obtain ⟨k', _, e1, _⟩ := key k; rw [e1] at hx; exact ⟨_, hx⟩
      | mats k => obtain ⟨k', _, _, e2⟩ := key k; rw [e2] at hx; exact ⟨_, hx⟩
  | overlay k ms xs B ho m C e x hs ps hd hC hCk hx hk =>
    obtain ⟨c', ht, hv, h1, h2, h3⟩ := C85_overlay_partial c h.deferred k ms (xs.map ρ) (B.rename ρ) (by rw [h.cards]; exact gathered_rename ho)
      (fun m hm => hf m (by simp [hm])) m C e (ρ x) hs ps hd hC hCk (getElem?_rename hx) (rename_nil.mpr hk)
    refine h.same hf ht h3 h1 (by rw [rename_summoned]; exact hv) (fun z hz => ?_) (fun q k hq => ?_)
    · rcases has_summoned hx hz with hz | hz
      · exact (gathered_has ho).1 z hz
      · exact (gathered_has ho).2 z hz
    · rw [h2]
      refine h.trail q k ?_
      cases ms with
      | nil => exact trails_plain (m := m) (.inr (.inr (by rw [hd]; exact not_inPile_code _))) hq
      | cons m1 ms => cases ms <;> cases m1 <;> exact hq
  | drops m q k i C j x hq hqo hs hd pd hC hg =>
    obtain ⟨hqp, p, hp, hpk⟩ := h.trail q k hq
    have hg' : CanGo (boardOf c) (.mats k) i C j (ρ x) := by rw [h.cards]; exact canGo_rename hg
    obtain ⟨l, ht, hv⟩ := C63_material_anywhere c m k q p hp hpk hqo hqp i (ρ x) hs C j hd pd hC hg'.there hg'.room
    exact h.same hf (trackAll_one ht) h.deferred rfl (by rw [rename_gone, ← h.cards]; exact hv) (fun _ => has_gone hg.there)
      fun q' k' hq' => h.trail q' k' (trails_plain (.inl (by rw [hs]; exact hqp)) hq')
  | updateData r slots hp _ h1 h2 =>
    obtain ⟨st', ht, b1, b2⟩ := C67_update_data c h.reach r slots (hf _ (by simp))
      (fun i is hi => by rw [h.cards]; exact rowOnBoard_rename (hp i is hi)) []
    exact h.learn id (hf _ (by simp)) (track_nil ht) (fun B x q => ∃ (i : Nat) (is : _), slots[i]? = some (some is) ∧ Told B r i is x q)
      (fun x q ⟨i, is, hi, h⟩ => ⟨i, is, hi, told_rename h⟩)
      (fun y q ⟨i, is, hi, h⟩ => by obtain ⟨x, e, h⟩ := of_told_rename h; exact ⟨x, e, i, is, hi, h⟩)
      (fun x q ⟨i, is, hi, h⟩ => told_has h) (fun x q ⟨i, is, hi, h⟩ => h1 i is x q hi h)
      (fun x hx => h2 x fun i is q hi ht => hx q ⟨i, is, hi, ht⟩) (fun x q ⟨i, is, hi, h⟩ => b1 i is x q hi h)
      (fun x hx => b2 x fun i is q hi ht => hx q ⟨i, is, hi, ht⟩)
  | updateCard r seq is hp _ h1 h2 =>
    obtain ⟨st', ht, b1, b2⟩ := C67_update_card c h.reach r seq is
      (show CoreMsg.Fits (.updateCard ⟨r.con, r.loc, seq⟩ is) from hf _ (by simp)) (by rw [h.cards]; exact rowOnBoard_rename hp) []
    exact h.learn id (hf _ (by simp)) (track_nil ht) (fun B x q => Told B r seq.toNat is x q) (fun x q h => told_rename h)
      (fun y q h => of_told_rename h) (fun x q h => told_has h) h1 h2 b1 b2
  | calm m hm ht ha =>
    have hfm := hf m (by simp)
    obtain ⟨c', h1⟩ := calm_returns h m hfm hm ht ha
    have h1' : track c (m.bytes ++ []) = .ok c' := by rwa [List.append_nil]
    refine h.same hf (trackAll_one h1) ?_ (C70_data c m hfm ht [] c' h1') ?_ (fun _ h => h)
      (h.kept (fun hi => by cases m <;> first | exact hi.elim | exact hm trivial) hfm h1)
    · rw [(track_ctx hfm h1).2]
      cases m <;> first | exact absurd trivial hm | exact h.deferred
    · rw [← h.cards]
      show view _ = view _
      rw [C70_positions c m hfm hm [] c' h1']

/-! ## C73 -/

theorem plays_tracked {d d' : Duel} {ms : List CoreMsg} (hp : Plays d ms d') {ρ : CardId → CardId} {c : BasicContext} (h : Tracks ρ d c) :
    ∃ c' σ, trackAll c ms = .ok c' ∧ Tracks σ d' c' ∧ ∀ x, d.born x → σ x = ρ x := by
  induction hp generalizing ρ c with
  | stop d => exact ⟨c, ρ, rfl, h, fun _ _ => rfl⟩
  | step hh hf _ ih =>
    obtain ⟨c1, ρ1, h1, h2, h3⟩ := happens_tracked h hh hf
    obtain ⟨c2, ρ2, h4, h5, h6⟩ := ih h2
    exact ⟨c2, ρ2, by rw [trackAll_append, h1, bind_ok, h4], h5, fun x hx => (h6 x (.inl hx)).trans (h3 x hx)⟩

theorem plays_fits {d d' : Duel} {ms : List CoreMsg} (hp : Plays d ms d') : ∀ m ∈ ms, m.Fits := by
  induction hp with
  | stop d => simp
  | step _ hf _ ih =>
    intro m hm
    rcases List.mem_append.mp hm with h | h
    · exact hf m h
    · exact ih m h

theorem tracks_empty : Tracks id Duel.empty BasicContext.init where
  cards := by funext C; cases C <;> rfl
  known := by rintro x ⟨C, hx⟩; cases hx
  score := rfl
  reach := ⟨[], rfl⟩
  blank _ _ := rfl
  deferred := rfl
  born := by rintro x ⟨C, hx⟩; cases hx
  unseen _ _ := rfl
  announced h := by cases h
  trail _ _ h := h.elim

/-- **C73.** Whatever duel the core plays, the server gets through all its messages, shows the duel in the end, and so does every client that
follows the server's messages: each pile, zone and material list has the duel's cards in the duel's order, everything the core said about a
card is recorded for that very card, and turn, phase, life points and chain are those of the duel. -/
theorem C73_duel_shown (ms : List CoreMsg) (d : Duel) (h : Plays Duel.empty ms d) :
    ∃ rs c ρ, feed BasicContext.init (ms.map (·.bytes)) = .ok (rs, c) ∧ Shown ρ d c.board c.store ∧
      ∀ cache, ∃ s, Client.follow cache Client.init (messages rs) = .ok s ∧ Shown ρ d s.board s.store := by
  obtain ⟨c, ρ, h1, h2, _⟩ := plays_tracked h tracks_empty
  obtain ⟨rs, h3⟩ := trackAll_feed h1
  exact ⟨rs, c, ρ, h3, h2.shown, fun cache => ⟨_, C66_clients_in_step _ rs c h3 cache, h2.shown⟩⟩

/-- **C73.** While a duel goes on, cards keep the names they are shown under, wherever they go. -/
theorem C73_names_kept (ms ns : List CoreMsg) (d d' : Duel) (h : Plays Duel.empty ms d) (h' : Plays d ns d') :
    ∃ c c' ρ σ, trackAll BasicContext.init ms = .ok c ∧ trackAll c ns = .ok c' ∧ Shown ρ d c.board c.store ∧ Shown σ d' c'.board c'.store ∧
      ∀ x, d.born x → σ x = ρ x := by
  obtain ⟨c, ρ, h1, h2, _⟩ := plays_tracked h tracks_empty
  obtain ⟨c', σ, h3, h4, h5⟩ := plays_tracked h' h2
  exact ⟨c, c', ρ, σ, h1, h3, h2.shown, h4.shown, h5⟩

/-- What a server does with each result. -/
def applied (c : BasicContext) (r : Encoded) : Res BasicContext :=
  match r.msg with
  | some m => c.parse m
  | none => .ok c

theorem feed_each {ms : List CoreMsg} {c c' : BasicContext} {rs : List Encoded} (h : feed c (ms.map (·.bytes)) = .ok (rs, c')) :
    eachMessage applied c ms = .ok (rs, c') := by
  induction ms generalizing c rs with
  | nil => cases h; rfl
  | cons m ms ih =>
    obtain ⟨r, c1, c2, rs', h1, _, h2, h3, rfl⟩ := feed_cons h
    rw [eachMessage, h1, bind_ok]
    show (do let c ← applied c1 r; let (rs, c) ← eachMessage applied c ms; return (r :: rs, c)) = _
    rw [show applied c1 r = .ok c2 from h2, bind_ok, ih h3]
    rfl

/-- **C73.** The same if the core's messages come in one buffer. -/
theorem C73_one_buffer (ms : List CoreMsg) (d : Duel) (h : Plays Duel.empty ms d) (fuel : Nat) (hn : ms.length < fuel) :
    ∃ rs c ρ, wholeBuffer applied fuel BasicContext.init (ms.flatMap (·.bytes)) = .ok (rs, c) ∧ Shown ρ d c.board c.store := by
  obtain ⟨rs, c, ρ, h1, h2, _⟩ := C73_duel_shown ms d h
  exact ⟨rs, c, ρ, C34_stream applied ms (plays_fits h) _ _ (feed_each h1) fuel hn, h2⟩

/-! ## A duel -/

/-- The core's cards: two and one in the first player's decks, one in the other's. -/
def someCards : Board
  | .pile ⟨0, .mainDeck⟩ => [10, 20]
  | .pile ⟨0, .extraDeck⟩ => [30]
  | .pile ⟨1, .mainDeck⟩ => [40]
  | _ => []

theorem some_once : someCards.Once Duel.empty.Unseen := by
  have key : ∀ C (i : Nat) x, (someCards C)[i]? = some x →
      (C, i, x) ∈ [(Container.pile ⟨0, .mainDeck⟩, 0, 10), (.pile ⟨0, .mainDeck⟩, 1, 20), (.pile ⟨0, .extraDeck⟩, 0, 30), (.pile ⟨1, .mainDeck⟩, 0, 40)] := by
    intro C i x h
    match C with
    | .pile ⟨0, .mainDeck⟩ => match i with
      | 0 | 1 => cases h; simp
      | i + 2 => cases h
    | .pile ⟨0, .extraDeck⟩ => match i with
      | 0 => cases h; simp
      | i + 1 => cases h
    | .pile ⟨1, .mainDeck⟩ => match i with
      | 0 => cases h; simp
      | i + 1 => cases h
    | .pile ⟨0, .hand⟩ | .pile ⟨0, .graveyard⟩ | .pile ⟨0, .banished⟩ | .pile ⟨1, .hand⟩ | .pile ⟨1, .graveyard⟩ | .pile ⟨1, .banished⟩
    | .pile ⟨1, .extraDeck⟩ | .slot k | .mats k => cases h
  intro C D i j x _ h1 h2
  have h1 := key C i x h1
  have h2 := key D j x h2
  simp only [List.mem_cons, List.not_mem_nil, or_false, Prod.mk.injEq] at h1 h2
  rcases h1 with ⟨rfl, rfl, rfl⟩ | ⟨rfl, rfl, rfl⟩ | ⟨rfl, rfl, rfl⟩ | ⟨rfl, rfl, rfl⟩ <;> simp_all

/-- The duel has started and it is the first player's turn. -/
def duel1 : Duel := (Duel.empty.next [.start 0 8000 8000 2 1 1 0] someCards Duel.empty.known).next [.newTurn 0] someCards Duel.empty.known

/-- A card is drawn. -/
def duel2 : Duel := duel1.next [.draw (playerByte 0) [(7, 1)]]
  ((duel1.cards.setPile ⟨0, .mainDeck⟩ ((duel1.cards (.pile ⟨0, .mainDeck⟩)).take ((duel1.cards (.pile ⟨0, .mainDeck⟩)).length - 1))).setPile
    ⟨0, .hand⟩ (duel1.cards (.pile ⟨0, .hand⟩) ++ (duel1.cards (.pile ⟨0, .mainDeck⟩)).reverse.take 1)) duel1.known

/-- It is summoned. -/
def aSummon : MoveMsg := ⟨7, ⟨0, 2, 0, 1⟩, ⟨0, 4, 2, 1⟩, 0⟩

/-- The zone it goes to. -/
def aZone : ZoneKey := ⟨0, .monster, 2, by decide⟩

def duel3 : Duel := duel2.next [aSummon.msg] (gone duel2.cards (.pile ⟨0, .hand⟩) 0 (.slot aZone) 0 20) duel2.known

/-- It turns out to be card 1234. -/
def duel4 : Duel := duel3.next [.updateCard ⟨(Row.monsters 0).con, (Row.monsters 0).loc, 2⟩ [.code 1234]] duel3.cards
  fun x => if x = 20 then BasicContext.newCard.setSingle .code ⟨(1234 : Nat)⟩ else BasicContext.newCard

/-- The other player loses life points. -/
def duel5 : Duel := duel4.next [.damage 1 500] duel4.cards duel4.known

theorem told_only {x : CardId} {q : QueryData} (h : Told duel3.cards (.monsters 0) 2 [.code 1234] x q) : x = 20 ∧ q = QueryItem.data [.code 1234] := by
  cases h with
  | card C j x hc hx =>
    simp only [Row.card, Row.zone, show (2 : Nat) < 7 by decide, dif_pos, Option.map_some, Option.some.injEq, Prod.mk.injEq] at hc
    obtain ⟨rfl, rfl⟩ := hc
    cases hx
    exact ⟨rfl, rfl⟩
  | material z n code x hz hc hx => cases hc

/-- A duel with all this is played. -/
theorem some_duel : Plays Duel.empty ([.start 0 8000 8000 2 1 1 0] ++ ([.newTurn 0] ++ ([.draw (playerByte 0) [(7, 1)]] ++ ([aSummon.msg] ++
    ([.updateCard ⟨(Row.monsters 0).con, (Row.monsters 0).loc, 2⟩ [.code 1234]] ++ ([.damage 1 500] ++ [])))))) duel5 := by
  refine .step (.start 0 8000 8000 2 1 1 0 someCards (fun _ _ h => h) some_once ?_) (by simp [CoreMsg.Fits])
    (.step (.calm (.newTurn 0) id id trivial) (by simp [CoreMsg.Fits])
    (.step (d := duel1) (.draw 0 [(7, 1)] (by decide) (by decide) (by decide)) (by simp [CoreMsg.Fits])
    (.step (d := duel2) (.goes aSummon (.pile ⟨0, .hand⟩) (.slot aZone) 0 0 20 (.pile ⟨0, .hand⟩ 0 (-1)) (.slot aZone (-1) (by decide))
      (fun _ _ => by decide) (fun _ _ => by decide) ⟨rfl, fun _ _ => rfl, by decide, trivial⟩) (by simp [CoreMsg.Fits, MoveMsg.msg])
    (.step (d := duel3) (.updateCard (.monsters 0) 2 [.code 1234] ⟨⟨_, _, rfl, by decide⟩, .inl rfl⟩ _ ?_ ?_) ?_
    (.step (d := duel4) (.calm (.damage 1 500) id id (show (1 : Nat) < 2 by decide)) (by simp [CoreMsg.Fits]) (.stop duel5))))))
  · funext C
    match C with
    | .pile ⟨0, l⟩ => cases l <;> rfl
    | .pile ⟨1, l⟩ => cases l <;> rfl
    | .slot k | .mats k => rfl
  · intro x q h
    obtain ⟨rfl, rfl⟩ := told_only h
    refine ⟨?_, ?_, ?_, fun _ => rfl, ?_, fun _ => rfl⟩
    · intro f v hv
      cases f <;> cases hv
      rfl
    · intro f hf
      cases f <;> first | (cases hf; done) | rfl
    · intro v hv; cases hv
    · intro v hv; cases hv
  · intro x h
    have : x ≠ 20 := by
      rintro rfl
      exact h _ (.card _ _ 20 rfl rfl)
    rw [if_neg this]
    rfl
  · intro m hm
    rw [List.mem_singleton.mp hm]
    intro i hi
    rw [List.mem_singleton.mp hi]
    exact ⟨by decide, trivial⟩

example : duel5.cards (.slot aZone) = [20] ∧ (duel5.known 20).single .code = ⟨(1234 : Nat)⟩ ∧ duel5.score.lp 1 = 7500 := ⟨rfl, rfl, rfl⟩

/-! ## It goes on -/

/-- The monster is taken as material of one from the extra deck; the player chooses a position; the new monster comes. -/
def anOverlay : MoveMsg := ⟨7, ⟨0, 4, 2, 1⟩, ⟨0, 0xC0, 0, 0⟩, 0⟩
def anXyz : MoveMsg := ⟨8, ⟨0, 0x40, 0, 1⟩, ⟨0, 4, 2, 1⟩, 0⟩

def duel6 : Duel := duel5.next ([anOverlay.msg, .selectPosition 0 8 5] ++ [anXyz.msg])
  (summoned (duel5.cards.take (.slot aZone) 0) [20] (.pile ⟨0, .extraDeck⟩) 0 30 aZone) duel5.known

/-- It is destroyed. -/
def aFall : MoveMsg := ⟨8, ⟨0, 4, 2, 1⟩, ⟨0, 0x10, 0, 1⟩, 0⟩

def duel7 : Duel := duel6.next [aFall.msg] (gone duel6.cards (.slot aZone) 0 (.pile ⟨0, .graveyard⟩) 0 30) duel6.known

/-- The other player loses life points before the material follows. -/
def duel8 : Duel := duel7.next [.damage 1 500] duel7.cards duel7.known

def aDrop : MoveMsg := ⟨7, ⟨0, 0x90, 0, 0⟩, ⟨0, 0x10, 1, 1⟩, 0⟩

def duel9 : Duel := duel8.next [aDrop.msg] (gone duel8.cards (.mats aZone) 0 (.pile ⟨0, .graveyard⟩) 1 20) duel8.known

theorem trail7 : duel7.trail (pilePlace ⟨0, .graveyard⟩ 0) aZone :=
  .inl ⟨by decide, inPile_code .graveyard, ⟨by decide, by decide, by decide⟩, by decide⟩

/-- All this can be played. -/
theorem longer_duel : Plays duel5 (([anOverlay.msg, .selectPosition 0 8 5] ++ [anXyz.msg]) ++ ([aFall.msg] ++ ([.damage 1 500] ++ ([aDrop.msg] ++ []))))
    duel9 := by
  have p1 : anOverlay.src.place = zonePlace aZone := by decide
  have p2 : anXyz.src.place = pilePlace ⟨0, .extraDeck⟩ 0 := by decide
  have p3 : aFall.src.place = zonePlace aZone := by decide
  have p4 : aFall.dst.place = pilePlace ⟨0, .graveyard⟩ 0 := by decide
  have p5 : aDrop.dst.place = pilePlace ⟨0, .graveyard⟩ 1 := by decide
  refine .step (.overlay aZone _ _ _ (.card anOverlay (.slot aZone) 0 20 (by rw [p1]; exact .slot aZone (-1) (by decide)) (by intro _ h; cases h)
      (by unfold InPile; decide) rfl (by intro h; cases h) (.aside (.selectPosition 0 8 5) ⟨id, id, trivial⟩ (.done _ _)))
      anXyz (.pile ⟨0, .extraDeck⟩) 0 30 (by rw [p2]; exact .pile ⟨0, .extraDeck⟩ 0 (-1)) (by intro _ _; decide) (by decide) (by intro _ h; cases h)
      (by intro h; cases h) rfl rfl) (by simp [CoreMsg.Fits, MoveMsg.msg])
    (.step (d := duel6) (.goes aFall (.slot aZone) (.pile ⟨0, .graveyard⟩) 0 0 30 (by rw [p3]; exact .slot aZone (-1) (by decide))
      (by rw [p4]; exact .pile ⟨0, .graveyard⟩ 0 (-1)) (by intro _ h; cases h) (by intro _ _; decide) ⟨rfl, (by intro _ h; cases h), by decide, trivial⟩)
      (by simp [CoreMsg.Fits, MoveMsg.msg])
    (.step (d := duel7) (.calm (.damage 1 500) id id (show (1 : Nat) < 2 by decide)) (by simp [CoreMsg.Fits])
    (.step (d := duel8) (.drops aDrop (pilePlace ⟨0, .graveyard⟩ 0) aZone 0 (.pile ⟨0, .graveyard⟩) 1 20 trail7 rfl (by decide)
      (by rw [p5]; exact .pile ⟨0, .graveyard⟩ 1 (-1)) (by intro _ _; decide) (by intro _ h; cases h) ⟨rfl, (by intro _ h; cases h), by decide, trivial⟩)
      (by simp [CoreMsg.Fits, MoveMsg.msg]) (.stop duel9))))

example : duel6.cards (.slot aZone) = [30] ∧ duel6.cards (.mats aZone) = [20] ∧ duel9.cards (.pile ⟨0, .graveyard⟩) = [30, 20] ∧
    duel9.cards (.mats aZone) = [] := ⟨rfl, rfl, rfl, rfl⟩

end Ygo.Props
