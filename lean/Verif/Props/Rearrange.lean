import Verif.Spec.Rearrange
import Verif.Spec.Trackable
import Verif.Lemmas.Rearrange
import Verif.Props.Single
import Verif.Props.System

/-!
# Any rearrangement can be told by moves (C118)
-/

namespace Ygo.Props
open Ygo Spec P

/-- A place that names a position. -/
private def placeAt : Container → Nat → Place
  | .pile k, i => ⟨k.con.val, k.loc.code, i, -1⟩
  | .slot k, _ => ⟨k.con.val, k.loc.code, k.seq, -1⟩
  | .mats k, i => ⟨k.con.val, k.loc.code, k.seq, i⟩

private theorem placeAt_at (C : Container) (i : Nat) (h : ∀ k, C = .slot k → i = 0) : At (placeAt C i) C i ∧ PlainPile (placeAt C i) C := by
  cases C with
  | pile k => exact ⟨.pile k i (-1), fun _ _ => by show (-1 : Int) < 0; decide⟩
  | slot k => rw [h k rfl]; exact ⟨.slot k (-1) (by decide), fun _ h => by cases h⟩
  | mats k => exact ⟨.mats k i, fun _ h => by cases h⟩

/-- Zones have one position only. -/
private theorem CanGo.src_zone {l : Layout} {C1 C2 : Container} {i j : Nat} {x : CardId} (h : CanGo (view l) C1 i C2 j x) : ∀ k, C1 = .slot k → i = 0 := by
  rintro k rfl
  have h1 := slot_length l k
  have h2 := (List.getElem?_eq_some_iff.mp h.there).1
  omega

private theorem CanGo.dst_zone {l : Layout} {C1 C2 : Container} {i j : Nat} {x : CardId} (h : CanGo (view l) C1 i C2 j x) : ∀ k, C2 = .slot k → j = 0 := by
  rintro k rfl
  have h1 := h.room
  have h2 := h.free k rfl
  have h3 : (view l).take C1 i (.slot k) = [] := by
    simp only [Board.take, upd_apply]
    split
    · rename_i e; subst e; rw [h2]; rfl
    · exact h2
  rw [h3] at h1
  exact Nat.le_zero.mp h1

private theorem run_moves {S : Container → Prop} {n : Nat} {A B : Board} (h : Moves S n A B) : ∀ f : Frame, view f.layout = A →
    ∃ ms : List PlacePair, ms.length = n ∧ ∃ l, runOps f (DuelBoard.cardOps (.move ms)) = .ok { f with layout := l } ∧ view l = B := by
  induction h with
  | nil B => exact fun f hf => ⟨[], rfl, f.layout, rfl, hf⟩
  | cons C1 i C2 j x hg _ _ _ ih =>
    intro f hf
    subst hf
    obtain ⟨a1, p1⟩ := placeAt_at C1 i (CanGo.src_zone hg)
    obtain ⟨a2, p2⟩ := placeAt_at C2 j (CanGo.dst_zone hg)
    obtain ⟨l, r, v⟩ := cardMove_does f a1 a2 p1 p2 hg.there hg.free hg.room hg.carry
    obtain ⟨ms, hn, l', r', v'⟩ := ih { f with layout := l } v
    refine ⟨⟨placeAt C1 i, placeAt C2 j⟩ :: ms, by simp [hn], l', ?_, v'⟩
    rw [runOps_move, r]
    exact r'

private theorem moves_keep : ∀ (ms : List PlacePair) (f f' : Frame), runOps f (DuelBoard.cardOps (.move ms)) = .ok f' →
    ∀ x, (placed (view f'.layout)).count x = (placed (view f.layout)).count x := by
  intro ms
  induction ms with
  | nil => intro f f' h x; cases h; rfl
  | cons m ms ih =>
    intro f f' h x
    rw [runOps_move] at h
    cases hm : f.cardMove m.fst m.snd with
    | error e => rw [hm] at h; cases h
    | ok r =>
      obtain ⟨g, c⟩ := r
      rw [hm] at h
      rw [ih g f' h x]
      simp only [Frame.cardMove, bind_eq_ok, pure_eq_ok, Except.ok.injEq, Prod.mk.injEq] at hm
      obtain ⟨⟨l, d⟩, hm, rfl, rfl⟩ := hm
      exact count_move hm x

/-- What the core calls a position. -/
private def infoAt : Container → Nat → LocInfo
  | .pile k, i => ⟨UInt8.ofNat k.con, UInt8.ofNat k.loc.code, UInt32.ofNat i, 0⟩
  | .slot k, _ => zoneInfo k 0 0
  | .mats k, i => zoneInfo k 128 (UInt32.ofNat i)
where
  /-- With the overlay bit or without. -/
  zoneInfo (k : ZoneKey) (overlay : Nat) (pos : UInt32) : LocInfo :=
    match k.loc with
    | .monster => ⟨UInt8.ofNat k.con, UInt8.ofNat (4 + overlay), UInt32.ofNat k.seq, pos⟩
    | .spell => ⟨UInt8.ofNat k.con, UInt8.ofNat (8 + overlay), UInt32.ofNat k.seq, pos⟩
    | .field => ⟨UInt8.ofNat k.con, UInt8.ofNat (8 + overlay), 5, pos⟩
    | _ => ⟨UInt8.ofNat k.con, UInt8.ofNat (8 + overlay), UInt32.ofNat (k.seq + 6), pos⟩

private theorem infoAt_place (C : Container) (i : Nat) (hs : ¬ InSkillZone C) (hi : i < 2 ^ 31) : (infoAt C i).place = placeAt C i := by
  have u : (UInt32.ofNat i).toNat = i := by rw [UInt32.toNat_ofNat']; exact Nat.mod_eq_of_lt (by omega)
  have sg : signed32 (UInt32.ofNat i) = i := by
    unfold signed32
    rw [u, Int.bmod_def]
    split <;> omega
  cases C with
  | pile k =>
    have : ∀ k ∈ allPiles, (UInt8.ofNat k.con).toNat = k.con.val ∧ (⟨UInt8.ofNat k.con, UInt8.ofNat k.loc.code, 0, 0⟩ : LocInfo).base = k.loc.code ∧
        k.loc.code.testBit 3 = false ∧ (UInt8.ofNat k.loc.code).toNat.testBit 7 = false := by decide
    obtain ⟨h1, h2, h3, h4⟩ := this k (mem_allPiles k)
    have h2' : (⟨UInt8.ofNat k.con, UInt8.ofNat k.loc.code, UInt32.ofNat i, 0⟩ : LocInfo).base = k.loc.code := h2
    simp only [infoAt, LocInfo.place, placeAt, h1, h2', slot, h3, h4, u, Bool.false_eq_true, if_false]
  | slot k =>
    have : ∀ k ∈ allZones, k.loc ≠ .skill → (infoAt (.slot k) 0).place = placeAt (.slot k) 0 := by decide
    exact this k (mem_allZones k) hs
  | mats k =>
    have : ∀ k ∈ allZones, k.loc ≠ .skill → (infoAt (.mats k) 0).place = placeAt (.mats k) 0 ∧ (infoAt (.mats k) 0).loc.toNat.testBit 7 = true := by decide
    obtain ⟨h1, h2⟩ := this k (mem_allZones k) hs
    have e : infoAt (.mats k) i = { infoAt (.mats k) 0 with pos := UInt32.ofNat i } := by
      simp only [infoAt, infoAt.zoneInfo]
      split <;> rfl
    rw [e]
    simp only [LocInfo.place, LocInfo.base, h2, if_true, placeAt, Place.mk.injEq, sg] at h1 ⊢
    exact ⟨h1.1, h1.2.1, h1.2.2.1, trivial⟩

private theorem track_moves {n : Nat} {A B : Board} (h : Moves InSkillZone n A B) (hn : (placed A).length < 2 ^ 31) : ∀ c : BasicContext, c.deferred = [] →
    Spec.boardOf c = A → ∃ (ms : List MoveMsg) (l : Layout) (lf : Place → Option Place), ms.length = n ∧
      trackAll c (ms.map (·.msg)) = .ok { setLayout c l with left := lf } ∧ view l = B := by
  induction h with
  | nil B => exact fun c _ hB => ⟨[], c.board.frame.layout, c.left, rfl, rfl, hB⟩
  | cons C1 i C2 j x hg s1 s2 _ ih =>
    intro c hd hB
    subst hB
    have hi : i < 2 ^ 31 := by
      have := (List.getElem?_eq_some_iff.mp hg.there).1
      have := length_le_placed (Spec.boardOf c) C1
      omega
    have hj : j < 2 ^ 31 := by
      have := hg.room
      have h2 : ((Spec.boardOf c).take C1 i C2).length ≤ (Spec.boardOf c C2).length := by
        simp only [Board.take, upd_apply]
        split
        · rename_i e; subst e; exact List.length_eraseIdx_le ..
        · exact Nat.le_refl _
      have := length_le_placed (Spec.boardOf c) C2
      omega
    obtain ⟨a1, p1⟩ := placeAt_at C1 i (CanGo.src_zone hg)
    obtain ⟨a2, p2⟩ := placeAt_at C2 j (CanGo.dst_zone hg)
    rw [← infoAt_place C1 i s1 hi] at a1 p1
    rw [← infoAt_place C2 j s2 hj] at a2 p2
    obtain ⟨l, lf, r, v, _⟩ := C71_moves c ⟨0, infoAt C1 i, infoAt C2 j, 0⟩ C1 C2 i j x (fun _ => hd) a1 a2 p1 p2 hg
    obtain ⟨ms, l', lf', hm, r', v'⟩ := ih (by rw [length_gone hg]; exact hn) { setLayout c l with left := lf } hd v
    refine ⟨⟨0, infoAt C1 i, infoAt C2 j, 0⟩ :: ms, l', lf', by simp [hm], ?_, v'⟩
    simp only [List.map_cons, trackAll, r, bind_ok]
    exact r'

/-- **C118.** Moves of single cards lead to every table with the same cards, and to no other. -/
theorem C118_moves (f : Frame) (B : Board) :
    (∃ ms f', runOps f (DuelBoard.cardOps (.move ms)) = .ok f' ∧ view f'.layout = B) ↔ Arranges (view f.layout) B := by
  constructor
  · rintro ⟨ms, f', h, rfl⟩
    exact ⟨moves_keep ms f f' h, slot_length _⟩
  · intro h
    obtain ⟨n, _, hM⟩ := moves_between (fun _ => False) ⟨0, .mainDeck⟩ id (view f.layout) B (fun _ h => h.elim) (fun _ h => h.elim) h.zones
      fun x => (h.cards x).symm
    obtain ⟨ms, _, l, r, v⟩ := run_moves hM f rfl
    exact ⟨ms, _, r, v⟩

/-- **C118.** No card has to be moved more than twice on average; the cards stay the same objects. -/
theorem C118_few (f : Frame) (B : Board) (h : Arranges (view f.layout) B) :
    ∃ ms l, runOps f (DuelBoard.cardOps (.move ms)) = .ok { f with layout := l } ∧ view l = B ∧ ms.length ≤ 2 * (placed B).length := by
  obtain ⟨n, hn, hM⟩ := moves_between (fun _ => False) ⟨0, .mainDeck⟩ id (view f.layout) B (fun _ h => h.elim) (fun _ h => h.elim) h.zones
    fun x => (h.cards x).symm
  obtain ⟨ms, hm, l, r, v⟩ := run_moves hM f rfl
  refine ⟨ms, l, r, v, ?_⟩
  rw [hm, (List.perm_iff_count.mpr h.cards).length_eq]
  exact hn

/-- **C118.** A client can be told so in one message; it keeps everything else, and what it knows about each card. -/
theorem C118_client (cache : Bool) (s : Client) (reason : Nat) (B : Board) (h : Arranges (view s.board.frame.layout) B) :
    ∃ ms l, Client.follow cache s [⟨.event (.card reason (.move ms)), []⟩] =
      .ok { s with board := { s.board with frame := { s.board.frame with layout := l } } } ∧ view l = B := by
  obtain ⟨ms, l, r, v, _⟩ := C118_few s.board.frame B h
  refine ⟨ms, l, ?_, v⟩
  have : s.board.parseEvent (.card reason (.move ms)) = .ok { s.board with frame := { s.board.frame with layout := l } } := by
    show (do let f ← runOps s.board.frame (DuelBoard.cardOps (.move ms)); _) = _
    rw [r]
    rfl
  simp only [Client.follow, Msg.event?, this, bind_ok]
  rfl

/-- **C118.** And a server by `MSG_MOVE`s, as long as it puts no materials off, has fewer than 2³¹ cards and none of them is in a skill zone, nor is to
go there: again everything else it tracks stays. -/
theorem C118_server (c : BasicContext) (hd : c.deferred = []) (B : Board) (h : Arranges (Spec.boardOf c) B) (hn : (placed B).length < 2 ^ 31)
    (hc : ∀ C, InSkillZone C → Spec.boardOf c C = []) (hB : ∀ C, InSkillZone C → B C = []) :
    ∃ (ms : List MoveMsg) (l : Layout) (lf : Place → Option Place), trackAll c (ms.map (·.msg)) = .ok { setLayout c l with left := lf } ∧ view l = B ∧
      ms.length ≤ 2 * (placed B).length := by
  have e := (List.perm_iff_count.mpr h.cards).length_eq
  obtain ⟨n, hm, hM⟩ := moves_between InSkillZone ⟨0, .mainDeck⟩ id (Spec.boardOf c) B hc hB h.zones fun x => (h.cards x).symm
  obtain ⟨ms, l, lf, hl, r, v⟩ := track_moves hM (e ▸ hn) c hd rfl
  exact ⟨ms, l, lf, r, v, by rw [hl, e]; exact hm⟩

/-- **C118.** So exchanges and shuffles of cards and moves and exchanges of whole piles only say in short what moves of single cards can say too. -/
theorem C118_instead (f f' : Frame) (op : FrameOp) (hk : OnlyRearranges op)
    (h : f.step op = .ok f') : ∃ ms, runOps f (DuelBoard.cardOps (.move ms)) = .ok f' := by
  have hc : f'.owned = f.owned ∧ f'.next = f.next ∧ ∀ x, (placed (view f'.layout)).count x = (placed (view f.layout)).count x := by
    cases op with
    | add | remove | resize | clear => exact hk.elim
    | move a b =>
      simp only [Frame.step, Frame.cardMove, bind_eq_ok, pure_eq_ok, Except.ok.injEq] at h
      obtain ⟨_, ⟨⟨l, d⟩, h, rfl⟩, rfl⟩ := h
      exact ⟨rfl, rfl, count_move h⟩
    | shuffle p c n =>
      simp only [Frame.step, Frame.cardShuffle, bind_eq_ok, pure_eq_ok, Except.ok.injEq] at h
      obtain ⟨l, h, rfl⟩ := h
      exact ⟨rfl, rfl, count_shuffle h⟩
    | swap a b =>
      simp only [Frame.step, Frame.cardSwap, bind_eq_ok, pure_eq_ok, Except.ok.injEq] at h
      obtain ⟨l, h, rfl⟩ := h
      exact ⟨rfl, rfl, count_swap h⟩
    | splice a n b r =>
      simp only [Frame.step, Frame.pileSplice, bind_eq_ok, pure_eq_ok, Except.ok.injEq] at h
      obtain ⟨l, h, rfl⟩ := h
      exact ⟨rfl, rfl, count_pileSplice h⟩
    | pswap a b =>
      simp only [Frame.step, Frame.pileSwap, bind_eq_ok, pure_eq_ok, Except.ok.injEq] at h
      obtain ⟨l, h, rfl⟩ := h
      exact ⟨rfl, rfl, count_pileSwap h⟩
  obtain ⟨ms, l, r, v, _⟩ := C118_few f (view f'.layout) ⟨hc.2.2, slot_length _⟩
  refine ⟨ms, ?_⟩
  rw [r, view_inj v, ← hc.1, ← hc.2.1]

/-- A table with two cards in a deck and a monster with two materials, and another one with the same cards: the monster in the hand, one of its materials on
top of the deck that is turned over, the other one in a zone of the opponent. -/
example : ∃ f B, Frame.run Frame.init [.add ⟨0, Loc.mainDeck, 0, -1⟩, .add ⟨0, Loc.mainDeck, 1, -1⟩, .add ⟨0, Loc.monsterZone, 2, -1⟩,
      .add ⟨0, Loc.monsterZone, 2, 0⟩, .add ⟨0, Loc.monsterZone, 2, 1⟩] = .ok f ∧ Arranges (view f.layout) B ∧
    B (.pile ⟨0, .hand⟩) = [2] ∧ B (.pile ⟨0, .mainDeck⟩) = [1, 0, 3] ∧ B (.slot ⟨1, .spell, 0, by decide⟩) = [4] := by
  refine ⟨_, fun C => if C = .pile ⟨0, .hand⟩ then [2] else if C = .pile ⟨0, .mainDeck⟩ then [1, 0, 3] else
    if C = .slot ⟨1, .spell, 0, by decide⟩ then [4] else [], rfl, ⟨fun x => List.Perm.count_eq ?_ x, fun k => ?_⟩, by decide, by decide, by decide⟩
  · decide
  · simp only [reduceCtorEq, if_false]
    split <;> simp

end Ygo.Props
