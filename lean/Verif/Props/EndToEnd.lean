import Verif.Spec.Setup
import Verif.Props.Move
import Verif.Props.Frame
import Verif.Props.Event

/-!
# From message to board

What messages that move whole blocks of cards do to the tracked board once they are translated and applied (C41 - C45),
and what becomes of disabled zones (C61).
-/

namespace Ygo.Props
open Ygo.Spec Ygo.P

set_option linter.unusedSimpArgs false

/-! ## Splices -/

theorem playerByte_toNat (p : Fin 2) : (playerByte p).toNat = p.val := by
  revert p; decide

/-- A place in a pile. -/
def inPile (k : PileKey) (i : Nat) : Place := ⟨k.con.val, k.loc.code, i, -1⟩

theorem pileKey_of (k : PileKey) : pileKey k.con.val k.loc.code = .ok k := by
  obtain ⟨c, l⟩ := k
  revert c
  cases l <;> decide

theorem pileSize_of (c : BasicContext) (k : PileKey) : EncodeContext.pileSize c k.con.val k.loc.code = .ok (pileOf c k).length := by
  show (do let k ← pileKey k.con.val k.loc.code; return (c.board.frame.layout.pile k).length) = _
  rw [pileKey_of]
  rfl

theorem pileSplice_at (f : Frame) (k1 k2 : PileKey) (i n j : Nat) (rev : Bool) (hi : i + n ≤ (f.layout.pile k1).length)
    (hj : j ≤ (Piles.set f.layout.pile k1 ((f.layout.pile k1).take i ++ (f.layout.pile k1).drop (i + n)) k2).length) :
    f.pileSplice (inPile k1 i) n (inPile k2 j) rev = .ok (withPiles f
      (Piles.set (Piles.set f.layout.pile k1 ((f.layout.pile k1).take i ++ (f.layout.pile k1).drop (i + n))) k2
        (let q := Piles.set f.layout.pile k1 ((f.layout.pile k1).take i ++ (f.layout.pile k1).drop (i + n)) k2
         let b := ((f.layout.pile k1).drop i).take n
         q.take j ++ (if rev then b.reverse else b) ++ q.drop j))) := by
  have a1 : At (inPile k1 i) (.pile k1) i := .pile k1 i (-1)
  have a2 : At (inPile k2 j) (.pile k2) j := .pile k2 j (-1)
  have h : f.layout.pileSplice (inPile k1 i) n (inPile k2 j) rev = .ok (withPiles f
      (Piles.set (Piles.set f.layout.pile k1 ((f.layout.pile k1).take i ++ (f.layout.pile k1).drop (i + n))) k2
        (let q := Piles.set f.layout.pile k1 ((f.layout.pile k1).take i ++ (f.layout.pile k1).drop (i + n)) k2
         let b := ((f.layout.pile k1).drop i).take n
         q.take j ++ (if rev then b.reverse else b) ++ q.drop j))).layout := by
    simp only [Layout.pileSplice, bind_eq_ok, massert_eq_ok, guardUb_eq_ok, pure_eq_ok, Except.ok.injEq]
    exact ⟨(), a1.isPile, (), a2.isPile, k1, a1.pileKey, (), by rw [a1.seq]; omega, k2, a2.pileKey, (), hj, rfl⟩
  unfold Frame.pileSplice
  rw [h]
  rfl

/-- Cards taken from one pile and put on another. -/
theorem pileSplice_ne (f : Frame) (k1 k2 : PileKey) (hk : k1 ≠ k2) (rev : Bool) (A B C X Y : List CardId)
    (h1 : f.layout.pile k1 = A ++ B ++ C) (h2 : f.layout.pile k2 = X ++ Y) (i n j : Nat) (hi : i = A.length) (hn : n = B.length)
    (hj : j = X.length) :
    f.pileSplice (inPile k1 i) n (inPile k2 j) rev = .ok (withPiles f
      (Piles.set (Piles.set f.layout.pile k1 (A ++ C)) k2 (X ++ (if rev then B.reverse else B) ++ Y))) := by
  subst hi hn hj
  have e1 : (f.layout.pile k1).take A.length ++ (f.layout.pile k1).drop (A.length + B.length) = A ++ C := by
    rw [h1, List.append_assoc, List.take_left, ← List.append_assoc, ← List.length_append, List.drop_left]
  have e2 : ((f.layout.pile k1).drop A.length).take B.length = B := by
    rw [h1, List.append_assoc, List.drop_left, List.take_left]
  rw [pileSplice_at, e1, e2]
  · have e3 : Piles.set f.layout.pile k1 (A ++ C) k2 = X ++ Y := by
      simp only [Piles.set, if_neg (Ne.symm hk), h2]
    rw [e3]
    simp
  · rw [h1]; simp
  · simp only [Piles.set, if_neg (Ne.symm hk), h2]; simp

theorem set_set (g : PileKey → List CardId) (k : PileKey) (v w : List CardId) : Piles.set (Piles.set g k v) k w = Piles.set g k w := by
  funext k'; simp only [Piles.set]; split <;> rfl

theorem set_comm (g : PileKey → List CardId) (k k' : PileKey) (hk : k ≠ k') (v w : List CardId) :
    Piles.set (Piles.set g k v) k' w = Piles.set (Piles.set g k' w) k v := by
  funext x; simp only [Piles.set]
  by_cases h1 : x = k
  · rw [if_pos h1, if_pos h1, if_neg fun h => hk (h1.symm.trans h)]
  · rw [if_neg h1, if_neg h1]

theorem set_eq (g : PileKey → List CardId) (k : PileKey) : Piles.set g k (g k) = g := by
  funext x; simp only [Piles.set]; split <;> simp_all

/-- The whole pile is reversed. -/
theorem pileSplice_reverse (f : Frame) (k : PileKey) :
    f.pileSplice (inPile k 0) (f.layout.pile k).length (inPile k 0) true =
      .ok (withPiles f (Piles.set f.layout.pile k (f.layout.pile k).reverse)) := by
  rw [pileSplice_at, set_set]
  · simp [Piles.set]
  · simp
  · simp

/-- What is tracked after a message that is translated to splices. -/
theorem track_splices (c : BasicContext) (data : List UInt8) (st : EncodeState) (n reason : Nat) (ops : List SpliceOp)
    (h : encodeOne c data = .ok (⟨st, n, some ⟨.event (.pile reason (.splice ops)), []⟩⟩, c)) (f : Frame)
    (hr : runOps c.board.frame (DuelBoard.pileOps (.splice ops)) = .ok f) :
    track c data = .ok { c with board := { c.board with frame := f } } := by
  unfold track
  rw [h]
  show BasicContext.parse c ⟨.event (.pile reason (.splice ops)), []⟩ = _
  unfold BasicContext.parse
  simp only [DuelBoard.parseEvent, DuelBoard.onFrame, hr]
  rfl

theorem encodeOne_of_body {c c' : BasicContext} {data rest : List UInt8} {o : Outcome} (h : encodeBody c data = .ok ((o, c'), rest)) :
    encodeOne c data = .ok (⟨o.state, data.length - rest.length, o.msg⟩, c') := by
  unfold encodeOne
  rw [h]

theorem in32_of_lt {n : Nat} (h : n < 2 ^ 32) (z : Int) (hz : z = n) : in32 z = n := by
  subst hz; show ((n : Int) % 2 ^ 32).toNat = n; omega

/-! ## C41 -/

/-- **C41.** Drawing `n` cards moves the top `n` cards of the deck, the top one first, to the end of the hand, and changes nothing else. -/
theorem C41_draw (c : BasicContext) (p : Fin 2) (cards : List (UInt32 × UInt32)) (more : List UInt8)
    (hn : cards.length ≤ (pileOf c ⟨p, .mainDeck⟩).length) (hd : (pileOf c ⟨p, .mainDeck⟩).length < 2 ^ 32)
    (hh : (pileOf c ⟨p, .hand⟩).length < 2 ^ 32) :
    track c ((CoreMsg.draw (playerByte p) cards).bytes ++ more) = .ok (setPiles c
      (Piles.set (Piles.set (pileOf c) ⟨p, .mainDeck⟩ ((pileOf c ⟨p, .mainDeck⟩).take ((pileOf c ⟨p, .mainDeck⟩).length - cards.length)))
        ⟨p, .hand⟩ (pileOf c ⟨p, .hand⟩ ++ (pileOf c ⟨p, .mainDeck⟩).reverse.take cards.length))) := by
  have he := C34_translation_in_context c (.draw (playerByte p) cards) (by show cards.length < 2 ^ 32; omega) _ rfl more
  have hp : ((playerByte p).toNat : Int) = (p.val : Int) := by rw [playerByte_toNat]
  simp only [hp] at he
  rw [show EncodeContext.pileSize c (p.val : Int) 1 = .ok _ from pileSize_of c ⟨p, .mainDeck⟩,
    show EncodeContext.pileSize c (p.val : Int) 2 = .ok _ from pileSize_of c ⟨p, .hand⟩] at he
  refine track_splices c _ _ _ _ _ he _ ?_
  have e1 : in32 ((pileOf c ⟨p, .mainDeck⟩).length - cards.length : Int) = (pileOf c ⟨p, .mainDeck⟩).length - cards.length :=
    in32_of_lt (by omega) _ (by omega)
  have e2 : in32 ((pileOf c ⟨p, .hand⟩).length : Int) = (pileOf c ⟨p, .hand⟩).length := in32_of_lt hh _ rfl
  rw [e1, e2]
  show (do
    let f ← c.board.frame.pileSplice (inPile ⟨p, .mainDeck⟩ ((pileOf c ⟨p, .mainDeck⟩).length - cards.length)) cards.length
      (inPile ⟨p, .hand⟩ (pileOf c ⟨p, .hand⟩).length) true
    runOps f []) = _
  rw [pileSplice_ne _ _ _ (by simp) true ((pileOf c ⟨p, .mainDeck⟩).take ((pileOf c ⟨p, .mainDeck⟩).length - cards.length))
    ((pileOf c ⟨p, .mainDeck⟩).drop ((pileOf c ⟨p, .mainDeck⟩).length - cards.length)) [] (pileOf c ⟨p, .hand⟩) []
    (by simp [pileOf]) (by simp [pileOf]) _ _ _ (by simp) (by simp; omega) rfl]
  simp only [List.append_nil, if_true, List.reverse_drop]
  rw [show (pileOf c ⟨p, .mainDeck⟩).length - ((pileOf c ⟨p, .mainDeck⟩).length - cards.length) = cards.length by omega]
  rfl

/-! ## C43 -/

/-- **C43.** Both main decks are reversed; nothing else changes. -/
theorem C43_reverse_decks (c : BasicContext) (more : List UInt8) (h0 : (pileOf c ⟨0, .mainDeck⟩).length < 2 ^ 32)
    (h1 : (pileOf c ⟨1, .mainDeck⟩).length < 2 ^ 32) :
    track c (CoreMsg.reverseDeck.bytes ++ more) = .ok (setPiles c
      (Piles.set (Piles.set (pileOf c) ⟨0, .mainDeck⟩ (pileOf c ⟨0, .mainDeck⟩).reverse)
        ⟨1, .mainDeck⟩ (pileOf c ⟨1, .mainDeck⟩).reverse)) := by
  have he := C34_translation_in_context c .reverseDeck trivial _ rfl more
  rw [show EncodeContext.pileSize c 0 1 = .ok _ from pileSize_of c ⟨0, .mainDeck⟩,
    show EncodeContext.pileSize c 1 1 = .ok _ from pileSize_of c ⟨1, .mainDeck⟩] at he
  refine track_splices c _ _ _ _ _ he _ ?_
  rw [in32_of_lt h0 _ rfl, in32_of_lt h1 _ rfl]
  show (do
    let f ← c.board.frame.pileSplice (inPile ⟨0, .mainDeck⟩ 0) (pileOf c ⟨0, .mainDeck⟩).length (inPile ⟨0, .mainDeck⟩ 0) true
    let f ← f.pileSplice (inPile ⟨1, .mainDeck⟩ 0) (pileOf c ⟨1, .mainDeck⟩).length (inPile ⟨1, .mainDeck⟩ 0) true
    runOps f []) = _
  rw [show c.board.frame.pileSplice (inPile ⟨0, .mainDeck⟩ 0) (pileOf c ⟨0, .mainDeck⟩).length (inPile ⟨0, .mainDeck⟩ 0) true = _ from
    pileSplice_reverse _ _]
  have h := pileSplice_reverse (withPiles c.board.frame
    (Piles.set c.board.frame.layout.pile ⟨0, .mainDeck⟩ (c.board.frame.layout.pile ⟨0, .mainDeck⟩).reverse)) ⟨1, .mainDeck⟩
  simp only [show (withPiles c.board.frame
    (Piles.set c.board.frame.layout.pile ⟨0, .mainDeck⟩ (c.board.frame.layout.pile ⟨0, .mainDeck⟩).reverse)).layout.pile ⟨1, .mainDeck⟩ =
      pileOf c ⟨1, .mainDeck⟩ from rfl] at h
  show (do
    let f ← (withPiles c.board.frame
      (Piles.set c.board.frame.layout.pile ⟨0, .mainDeck⟩ (c.board.frame.layout.pile ⟨0, .mainDeck⟩).reverse)).pileSplice
        (inPile ⟨1, .mainDeck⟩ 0) (pileOf c ⟨1, .mainDeck⟩).length (inPile ⟨1, .mainDeck⟩ 0) true
    runOps f []) = _
  rw [h]
  rfl

/-! ## C42 -/

/-- The cards whose bit in the mask is `v`, the first card having bit `i`. -/
def markedFrom (mask : List UInt8) (v : Bool) (i : Nat) (cs : List CardId) : List CardId :=
  ((cs.zipIdx i).filter fun x => maskBit mask x.2 == v).map (·.1)

theorem markedFrom_cons (mask : List UInt8) (v : Bool) (i : Nat) (x : CardId) (cs : List CardId) :
    markedFrom mask v i (x :: cs) = (if maskBit mask i = v then [x] else []) ++ markedFrom mask v (i + 1) cs := by
  simp only [markedFrom, List.zipIdx_cons, List.filter_cons]
  by_cases h : maskBit mask i = v <;> simp [h]

theorem byteAt_mask (mask s : List UInt8) (i : Nat) (h : i < 8 * mask.length) :
    byteAt (i / 8) (mask ++ s) = .ok ((mask.getD (i / 8) 0).toNat, mask ++ s) := by
  have h1 : i / 8 < mask.length := by omega
  unfold byteAt
  rw [List.getElem?_append_left h1, List.getElem?_eq_getElem h1]
  simp [List.getD_eq_getElem?_getD, h1]

theorem wrap32_of_lt {n : Nat} (h : n < 2 ^ 32) (z : Int) (hz : z = n) : wrap32 z = n := by
  subst hz; unfold wrap32; omega

theorem runOps_cons (f : Frame) (op : SpliceOp) (ops : List SpliceOp) :
    runOps f (DuelBoard.pileOps (.splice (op :: ops))) =
      (do let f ← f.pileSplice op.src op.count op.dst op.reverse; runOps f (DuelBoard.pileOps (.splice ops))) := rfl

theorem runOps_append (f : Frame) (ops ops' : List SpliceOp) :
    runOps f (DuelBoard.pileOps (.splice (ops ++ ops'))) =
      (do let f ← runOps f (DuelBoard.pileOps (.splice ops)); runOps f (DuelBoard.pileOps (.splice ops'))) := by
  induction ops generalizing f with
  | nil => rfl
  | cons op ops ih =>
    rw [List.cons_append, runOps_cons, runOps_cons]
    cases f.pileSplice op.src op.count op.dst op.reverse with
    | error e => rfl
    | ok f => exact ih f

/-- The loop over the bits: the deck is `A ++ R ++ Y`, where `A` stays, the run `R` is going to be sent and `Y` is still to be looked at;
the extra deck is `X1 ++ X2`, where the sent cards so far end `X1`. -/
theorem grave_run (p : Fin 2) (pos : Nat) (mask s : List UInt8) (Y : List CardId) :
    ∀ (i seq size sent : Nat) (A R X1 X2 : List CardId) (f : Frame),
    f.layout.pile ⟨p, .mainDeck⟩ = A ++ R ++ Y → f.layout.pile ⟨p, .extraDeck⟩ = X1 ++ X2 →
    R.length = size → A.length + sent + size = i → (0 < size → seq = A.length + sent) → X1.length = pos + sent →
    pos + i + Y.length < 2 ^ 32 → i + Y.length ≤ 8 * mask.length →
    ∃ ops, graveLoop p.val pos Y.length i seq size sent (mask ++ s) = .ok (ops, mask ++ s) ∧
      runOps f (DuelBoard.pileOps (.splice ops)) = .ok (withPiles f
        (Piles.set (Piles.set f.layout.pile ⟨p, .mainDeck⟩ (A ++ markedFrom mask false i Y)) ⟨p, .extraDeck⟩
          (X1 ++ R ++ markedFrom mask true i Y ++ X2))) := by
  have hne : (⟨p, .mainDeck⟩ : PileKey) ≠ ⟨p, .extraDeck⟩ := by simp
  -- what the operation for a run does
  have one : ∀ (seq size sent : Nat) (A R Y X1 X2 : List CardId) (f : Frame), f.layout.pile ⟨p, .mainDeck⟩ = A ++ R ++ Y →
      f.layout.pile ⟨p, .extraDeck⟩ = X1 ++ X2 → R.length = size → seq = A.length + sent → X1.length = pos + sent →
      pos + seq + size < 2 ^ 32 → (graveLoop.op (p.val : Int) pos seq size sent).reverse = false ∧
      f.pileSplice (graveLoop.op (p.val : Int) pos seq size sent).src (graveLoop.op (p.val : Int) pos seq size sent).count
        (graveLoop.op (p.val : Int) pos seq size sent).dst false = .ok (withPiles f
          (Piles.set (Piles.set f.layout.pile ⟨p, .mainDeck⟩ (A ++ Y)) ⟨p, .extraDeck⟩ (X1 ++ R ++ X2))) := by
    intro seq size sent A R Y X1 X2 f hD hE hR hq hX hb
    refine ⟨rfl, ?_⟩
    have e1 : wrap32 ((seq : Int) - sent) = A.length := wrap32_of_lt (by omega) _ (by omega)
    have e2 : wrap32 ((pos : Int) + sent) = X1.length := wrap32_of_lt (by omega) _ (by omega)
    show f.pileSplice (inPile ⟨p, .mainDeck⟩ (wrap32 ((seq : Int) - sent))) size
      (inPile ⟨p, .extraDeck⟩ (wrap32 ((pos : Int) + sent))) false = _
    rw [e1, e2, pileSplice_ne f _ _ hne false A R Y X1 X2 hD hE _ _ _ rfl hR.symm rfl]
    rfl
  induction Y with
  | nil =>
    intro i seq size sent A R X1 X2 f hD hE hR hi hq hX hb hm
    simp only [List.length_nil, Nat.add_zero] at hb hm
    simp only [graveLoop, pure_run, List.length_nil, Except.ok.injEq, Prod.mk.injEq, and_true]
    refine ⟨_, rfl, ?_⟩
    by_cases hs : size > 0
    · obtain ⟨h1, h2⟩ := one seq size sent A R [] X1 X2 f hD hE hR (hq hs) hX (by have := hq hs; omega)
      rw [if_pos hs, runOps_cons, h1, h2]
      simp [markedFrom]
      rfl
    · have : R = [] := List.eq_nil_of_length_eq_zero (by omega)
      subst this
      rw [if_neg hs]
      simp only [markedFrom, List.append_nil, List.zipIdx_nil, List.filter_nil, List.map_nil] at hD ⊢
      rw [← hD, ← hE, set_eq, set_eq]
      rfl
  | cons y Y ih =>
    intro i seq size sent A R X1 X2 f hD hE hR hi hq hX hb hm
    simp only [List.length_cons] at hb hm
    have hbyte := byteAt_mask mask s i (by omega)
    simp only [List.length_cons, graveLoop]
    rw [bind_run_ok hbyte]
    rw [markedFrom_cons, markedFrom_cons]
    by_cases hbit : maskBit mask i = true
    · have hbit' : ((mask.getD (i / 8) 0).toNat).testBit (i % 8) = true := hbit
      simp only [hbit', if_true, hbit, Bool.true_eq_false, if_false, List.nil_append]
      obtain ⟨ops, h1, h2⟩ := ih (i + 1) (if size = 0 then i else seq) (size + 1) sent A (R ++ [y]) X1 X2 f
        (by rw [hD]; simp) hE (by simp [hR]) (by omega)
        (by intro _; by_cases h0 : size = 0
            · rw [if_pos h0]; omega
            · rw [if_neg h0]; exact hq (by omega)) hX (by omega) (by omega)
      refine ⟨ops, h1, ?_⟩
      rw [h2]
      simp
    · have hbit' : ¬ ((mask.getD (i / 8) 0).toNat).testBit (i % 8) = true := hbit
      have hbf : maskBit mask i = false := by simpa using hbit
      rw [if_neg hbit']
      simp only [hbf, Bool.false_eq_true, if_false, if_true, List.nil_append]
      by_cases hs : size > 0
      · rw [if_pos hs]
        obtain ⟨o1, o2⟩ := one seq size sent A R (y :: Y) X1 X2 f hD hE hR (hq hs) hX (by have := hq hs; omega)
        obtain ⟨ops, h1, h2⟩ := ih (i + 1) seq 0 (sent + size) (A ++ [y]) [] (X1 ++ R) X2
          (withPiles f (Piles.set (Piles.set f.layout.pile ⟨p, .mainDeck⟩ (A ++ y :: Y)) ⟨p, .extraDeck⟩ (X1 ++ R ++ X2)))
          (by show Piles.set (Piles.set f.layout.pile ⟨p, .mainDeck⟩ (A ++ y :: Y)) ⟨p, .extraDeck⟩ (X1 ++ R ++ X2) ⟨p, .mainDeck⟩ = _
              simp [Piles.set])
          (by show Piles.set (Piles.set f.layout.pile ⟨p, .mainDeck⟩ (A ++ y :: Y)) ⟨p, .extraDeck⟩ (X1 ++ R ++ X2) ⟨p, .extraDeck⟩ = _
              simp [Piles.set])
          rfl (by simp; omega) (by omega) (by simp; omega) (by omega) (by omega)
        rw [bind_run_ok h1]
        refine ⟨_, rfl, ?_⟩
        rw [runOps_cons, o1, o2]
        show runOps (withPiles f (Piles.set (Piles.set f.layout.pile ⟨p, .mainDeck⟩ (A ++ y :: Y)) ⟨p, .extraDeck⟩ (X1 ++ R ++ X2))) _ = _
        rw [h2]
        show Except.ok (withPiles f (Piles.set (Piles.set (Piles.set (Piles.set f.layout.pile ⟨p, .mainDeck⟩ (A ++ y :: Y)) ⟨p, .extraDeck⟩
          (X1 ++ R ++ X2)) ⟨p, .mainDeck⟩ (A ++ [y] ++ markedFrom mask false (i + 1) Y)) ⟨p, .extraDeck⟩
            (X1 ++ R ++ [] ++ markedFrom mask true (i + 1) Y ++ X2))) = _
        rw [set_comm _ _ _ hne.symm, set_set, set_set]
        simp
      · have : R = [] := List.eq_nil_of_length_eq_zero (by omega)
        subst this
        rw [if_neg hs]
        obtain ⟨ops, h1, h2⟩ := ih (i + 1) seq 0 sent (A ++ [y]) [] X1 X2 f (by rw [hD]; simp) hE rfl (by simp; omega) (by omega) hX
          (by omega) (by omega)
        refine ⟨ops, h1, ?_⟩
        rw [h2]
        simp

/-- **C42.** The old deck becomes the graveyard; of the old graveyard, the cards without their bit become the deck and the others are
put into the extra deck at the given position, all in order; nothing else changes. -/
theorem C42_swap_grave_deck (c : BasicContext) (p : Fin 2) (pos : UInt32) (mask more : List UInt8)
    (hm : (pileOf c ⟨p, .graveyard⟩).length ≤ 8 * mask.length) (hl : mask.length < 2 ^ 32)
    (hp : pos.toNat ≤ (pileOf c ⟨p, .extraDeck⟩).length) (hd : (pileOf c ⟨p, .mainDeck⟩).length < 2 ^ 32)
    (hg : pos.toNat + (pileOf c ⟨p, .graveyard⟩).length < 2 ^ 32) :
    track c ((CoreMsg.swapGraveDeck (playerByte p) pos mask).bytes ++ more) = .ok (setPiles c
      (Piles.set (Piles.set (Piles.set (pileOf c) ⟨p, .graveyard⟩ (pileOf c ⟨p, .mainDeck⟩))
        ⟨p, .mainDeck⟩ (marked mask false (pileOf c ⟨p, .graveyard⟩)))
        ⟨p, .extraDeck⟩ ((pileOf c ⟨p, .extraDeck⟩).take pos.toNat ++ marked mask true (pileOf c ⟨p, .graveyard⟩) ++
          (pileOf c ⟨p, .extraDeck⟩).drop pos.toNat))) := by
  generalize hG : pileOf c ⟨p, .graveyard⟩ = G at *
  generalize hD : pileOf c ⟨p, .mainDeck⟩ = D at *
  generalize hE : pileOf c ⟨p, .extraDeck⟩ = E at *
  have hpb : ((playerByte p).toNat : Int) = (p.val : Int) := by rw [playerByte_toNat]
  -- the first two splices
  obtain ⟨f2, hf2, hf2'⟩ : ∃ f2, f2 = withPiles c.board.frame (Piles.set (Piles.set (pileOf c) ⟨p, .graveyard⟩ D) ⟨p, .mainDeck⟩ G) ∧
      runOps c.board.frame (DuelBoard.pileOps (.splice (
        (if G.length > 0 then [⟨⟨p.val, 0x10, 0, -1⟩, wrap32 G.length, ⟨p.val, 1, 0, -1⟩, false⟩] else []) ++
        (if D.length > 0 then [⟨⟨p.val, 1, wrap32 G.length, -1⟩, wrap32 D.length, ⟨p.val, 0x10, 0, -1⟩, false⟩] else [])))) = .ok f2 := by
    refine ⟨_, rfl, ?_⟩
    rw [wrap32_of_lt (by omega : G.length < 2 ^ 32) _ rfl, wrap32_of_lt hd _ rfl]
    have hG' : c.board.frame.layout.pile ⟨p, .graveyard⟩ = G := hG
    have hD' : c.board.frame.layout.pile ⟨p, .mainDeck⟩ = D := hD
    have s1 : runOps c.board.frame (DuelBoard.pileOps (.splice
        (if G.length > 0 then [⟨⟨p.val, 0x10, 0, -1⟩, G.length, ⟨p.val, 1, 0, -1⟩, false⟩] else []))) =
        .ok (withPiles c.board.frame (Piles.set (Piles.set (pileOf c) ⟨p, .graveyard⟩ []) ⟨p, .mainDeck⟩ (G ++ D))) := by
      by_cases h : G.length > 0
      · rw [if_pos h, runOps_cons]
        show (do let f ← c.board.frame.pileSplice (inPile ⟨p, .graveyard⟩ 0) G.length (inPile ⟨p, .mainDeck⟩ 0) false
                 runOps f []) = _
        rw [pileSplice_ne _ _ _ (by simp) false [] G [] [] D (by simp [hG']) (by simp [hD']) 0 G.length 0 rfl rfl rfl]
        rfl
      · have : G = [] := List.eq_nil_of_length_eq_zero (by omega)
        subst this
        rw [if_neg h, List.nil_append]
        have e : Piles.set (pileOf c) ⟨p, .graveyard⟩ [] = pileOf c := by
          have := set_eq (pileOf c) ⟨p, .graveyard⟩
          rwa [hG] at this
        rw [e, ← hD, set_eq]
        rfl
    rw [runOps_append, s1]
    show runOps (withPiles c.board.frame (Piles.set (Piles.set (pileOf c) ⟨p, .graveyard⟩ []) ⟨p, .mainDeck⟩ (G ++ D))) _ = _
    by_cases h : D.length > 0
    · rw [if_pos h, runOps_cons]
      show (do let f ← (withPiles c.board.frame (Piles.set (Piles.set (pileOf c) ⟨p, .graveyard⟩ []) ⟨p, .mainDeck⟩ (G ++ D))).pileSplice
                 (inPile ⟨p, .mainDeck⟩ G.length) D.length (inPile ⟨p, .graveyard⟩ 0) false
               runOps f []) = _
      rw [pileSplice_ne _ ⟨p, .mainDeck⟩ ⟨p, .graveyard⟩ (by simp) false G D [] [] []
        (by show Piles.set (Piles.set (pileOf c) ⟨p, .graveyard⟩ []) ⟨p, .mainDeck⟩ (G ++ D) ⟨p, .mainDeck⟩ = _; simp [Piles.set])
        (by show Piles.set (Piles.set (pileOf c) ⟨p, .graveyard⟩ []) ⟨p, .mainDeck⟩ (G ++ D) ⟨p, .graveyard⟩ = _; simp [Piles.set])
        G.length D.length 0 rfl rfl rfl]
      show Except.ok (withPiles c.board.frame (Piles.set (Piles.set (Piles.set (Piles.set (pileOf c) ⟨p, .graveyard⟩ []) ⟨p, .mainDeck⟩ (G ++ D))
        ⟨p, .mainDeck⟩ (G ++ [])) ⟨p, .graveyard⟩ ([] ++ D ++ []))) = _
      rw [set_set, set_comm _ _ _ (by simp), set_set]
      simp
    · have : D = [] := List.eq_nil_of_length_eq_zero (by omega)
      subst this
      rw [if_neg h, List.append_nil]
      rfl
  have hE2 : f2.layout.pile ⟨p, .extraDeck⟩ = E.take pos.toNat ++ E.drop pos.toNat := by
    rw [hf2, List.take_append_drop]
    show Piles.set (Piles.set (pileOf c) ⟨p, .graveyard⟩ D) ⟨p, .mainDeck⟩ G ⟨p, .extraDeck⟩ = _
    simp [Piles.set, hE]
  have hD2 : f2.layout.pile ⟨p, .mainDeck⟩ = [] ++ [] ++ G := by
    rw [hf2]
    show Piles.set (Piles.set (pileOf c) ⟨p, .graveyard⟩ D) ⟨p, .mainDeck⟩ G ⟨p, .mainDeck⟩ = _
    simp [Piles.set]
  obtain ⟨ops, hops, hrun⟩ := grave_run p pos.toNat mask more G 0 0 0 0 [] [] (E.take pos.toNat) (E.drop pos.toNat) f2 hD2 hE2 rfl rfl
    (by omega) (by simp; omega) (by omega) (by omega)
  have hb := body_swapGraveDeck c (playerByte p) pos mask hl more G.length D.length ops
    (by rw [hpb, ← hG]; exact pileSize_of c ⟨p, .graveyard⟩) (by rw [hpb, ← hD]; exact pileSize_of c ⟨p, .mainDeck⟩) (by omega)
    (by rw [hpb]; exact hops)
  have he := encodeOne_of_body hb
  refine (track_splices c _ _ _ _ _ he ?_ ?_).trans ?_
  · exact withPiles f2 (Piles.set (Piles.set f2.layout.pile ⟨p, .mainDeck⟩ ([] ++ markedFrom mask false 0 G)) ⟨p, .extraDeck⟩
      (E.take pos.toNat ++ [] ++ markedFrom mask true 0 G ++ E.drop pos.toNat))
  · rw [runOps_append, hpb, hf2']
    exact hrun
  · rw [hf2]
    show Except.ok (setPiles c (Piles.set (Piles.set (Piles.set (Piles.set (pileOf c) ⟨p, .graveyard⟩ D) ⟨p, .mainDeck⟩ G) ⟨p, .mainDeck⟩
      ([] ++ markedFrom mask false 0 G)) ⟨p, .extraDeck⟩ (E.take pos.toNat ++ [] ++ markedFrom mask true 0 G ++ E.drop pos.toNat))) = _
    rw [set_set, List.nil_append, List.append_nil]
    rfl


/-! ## C44 -/

/-- **C44.** The place reported for the `n`-th card from the top of a deck (the top one is number 0) is where that card is. -/
theorem C44_deck_top (c : BasicContext) (p : Fin 2) (n code pos : UInt32) (more : List UInt8)
    (hn : n.toNat < (pileOf c ⟨p, .mainDeck⟩).length) (hd : (pileOf c ⟨p, .mainDeck⟩).length < 2 ^ 32) :
    ∃ q : Place, encodeOne c ((CoreMsg.deckTop (playerByte p) n code pos).bytes ++ more) =
        .ok (⟨.ok, 14, some ⟨.event (.metaInfo (.update 0 [q])), []⟩⟩, c) ∧
      ∃ x, (pileOf c ⟨p, .mainDeck⟩).reverse[n.toNat]? = some x ∧ c.board.frame.layout.card q = .ok x := by
  have he := C34_translation_in_context c (.deckTop (playerByte p) n code pos) trivial _ rfl more
  have hp : ((playerByte p).toNat : Int) = (p.val : Int) := by rw [playerByte_toNat]
  simp only [hp] at he
  rw [show EncodeContext.pileSize c (p.val : Int) 1 = .ok _ from pileSize_of c ⟨p, .mainDeck⟩] at he
  refine ⟨_, he, ?_⟩
  rw [List.getElem?_reverse hn, in32_of_lt (n := (pileOf c ⟨p, .mainDeck⟩).length - 1 - n.toNat) (by omega) _ (by omega)]
  have hlt : (pileOf c ⟨p, .mainDeck⟩).length - 1 - n.toNat < (pileOf c ⟨p, .mainDeck⟩).length := by omega
  refine ⟨_, List.getElem?_eq_getElem hlt, ?_⟩
  exact Layout.card_eq_ok.mpr ⟨.pile ⟨p, .mainDeck⟩, _, .pile ⟨p, .mainDeck⟩ _ (-1), List.getElem?_eq_getElem hlt⟩

/-- **C44.** A message that confirms cards on top of a deck is passed on with the places it lists, so a card the core lists by its
position is the one found there: with `i` cards above it, it is number `i` from the top. -/
theorem C44_confirm (c : BasicContext) (w : UInt8) (cards : List (UInt32 × CardLoc)) (hf : cards.length < 2 ^ 32) (more : List UInt8) :
    ∃ n, encodeOne c ((CoreMsg.confirmDecktop w cards).bytes ++ more) =
      .ok (⟨.ok, n, some ⟨.event (.metaInfo (.confirm 0 (cards.map (·.2.place)))), []⟩⟩, c) ∧
    ∀ (p : Fin 2) (l : CardLoc) (i : Nat), i < (pileOf c ⟨p, .mainDeck⟩).length →
      l.place = ⟨p.val, 1, (pileOf c ⟨p, .mainDeck⟩).length - 1 - i, -1⟩ →
      ∃ x, (pileOf c ⟨p, .mainDeck⟩).reverse[i]? = some x ∧ c.board.frame.layout.card l.place = .ok x := by
  refine ⟨_, C34_translation c (.confirmDecktop w cards) hf _ rfl more, ?_⟩
  intro p l i hi hl
  rw [hl, List.getElem?_reverse hi]
  have hlt : (pileOf c ⟨p, .mainDeck⟩).length - 1 - i < (pileOf c ⟨p, .mainDeck⟩).length := by omega
  exact ⟨_, List.getElem?_eq_getElem hlt,
    Layout.card_eq_ok.mpr ⟨.pile ⟨p, .mainDeck⟩, _, .pile ⟨p, .mainDeck⟩ _ (-1), List.getElem?_eq_getElem hlt⟩⟩

/-! ## C45 -/

/-- The places a field reload puts cards at, and the piles it sizes. -/
def reloadPlaces (s0 s1 : FieldSide) : List Place :=
  s0.places 0 ++ s1.places 1 ++ (s0.piles 0 ++ s1.piles 1).map (·.place)

theorem mem_places (con : Int) (s : FieldSide) (p : Place) : p ∈ s.places con ↔
    (∃ (i : Nat) (z : FieldCell), s.monsters[i]? = some z ∧ p ∈ z.places con 4 i) ∨ (∃ (i : Nat) (z : FieldCell), s.spells[i]? = some z ∧ p ∈ z.places con 8 i) := by
  have key : ∀ (l : List FieldCell) (f : Nat → FieldCell → List Place), p ∈ (l.mapIdx f).flatten ↔
      ∃ i z, l[i]? = some z ∧ p ∈ f i z := by
    intro l f
    simp only [List.mem_flatten, List.mem_mapIdx]
    constructor
    · rintro ⟨_, ⟨i, hi, rfl⟩, hp⟩
      exact ⟨i, l[i], List.getElem?_eq_getElem hi, hp⟩
    · rintro ⟨i, z, hz, hp⟩
      obtain ⟨hi, rfl⟩ := List.getElem?_eq_some_iff.mp hz
      exact ⟨_, ⟨i, hi, rfl⟩, hp⟩
  unfold FieldSide.places
  rw [List.mem_append, key, key]

theorem wf_monster (con : Int) (hc : con = 0 ∨ con = 1) (i : Nat) (hi : i < 7) (z : FieldCell) (p : Place) (h : p ∈ z.places con 4 i) :
    WellFormed p := by
  cases z with
  | empty => cases h
  | card mark pos mats =>
    simp only [FieldCell.places, List.mem_cons, List.mem_map] at h
    rcases h with rfl | ⟨o, _, rfl⟩
    · exact .zone _ 4 7 _ _ hc (by decide) hi
    · exact .zone _ 4 7 _ _ hc (by decide) hi

theorem wf_slot (con : Int) (hc : con = 0 ∨ con = 1) (i : Nat) (hi : i < 8) (o : Int) : WellFormed ⟨con, (slot 8 i).1, (slot 8 i).2, o⟩ := by
  have : ∀ i : Fin 8, ∃ n, ((slot 8 i).1, n) ∈ zoneLocs ∧ (slot 8 i).2 < n := by
    intro i
    match i with
    | 0 | 1 | 2 | 3 | 4 => exact ⟨5, by decide, by decide⟩
    | 5 => exact ⟨1, by decide, by decide⟩
    | 6 | 7 => exact ⟨2, by decide, by decide⟩
  obtain ⟨n, h1, h2⟩ := this ⟨i, hi⟩
  exact .zone _ _ n _ _ hc h1 h2

theorem not_wf_spell (con : Int) (i : Nat) (hi : 5 ≤ i) (o : Int) : ¬ WellFormed ⟨con, 8, i, o⟩ := by
  intro h
  cases h with
  | pile c l s o hc hl => revert hl; decide
  | zone c l n s o hc hl hs =>
    have : n = 5 := by
      simp only [zoneLocs, List.mem_cons, Prod.mk.injEq, List.not_mem_nil, or_false] at hl
      omega
    omega

theorem wf_side (con : Int) (hc : con = 0 ∨ con = 1) (s : FieldSide) (hf : s.Fits) :
    (∀ p ∈ s.places con, WellFormed p) ↔ NoOddMaterials s := by
  constructor
  · intro h i mark pos mats hi hz
    by_contra hne
    refine not_wf_spell con i hi 0 (h _ ((mem_places con s _).mpr (.inr ⟨i, _, hz, ?_⟩)))
    have : 0 < mats.toNat := by
      rcases Nat.eq_zero_or_pos mats.toNat with h0 | h0
      · exact absurd (UInt32.toNat.inj (h0.trans (by rfl))) hne
      · exact h0
    simp only [FieldCell.places, List.mem_cons, List.mem_map, List.mem_range]
    exact .inr ⟨0, this, rfl⟩
  · intro h p hp
    rcases (mem_places con s p).mp hp with ⟨i, z, hz, hp⟩ | ⟨i, z, hz, hp⟩
    · have hi := (List.getElem?_eq_some_iff.mp hz).1
      exact wf_monster con hc i (by rw [hf.1] at hi; exact hi) z p hp
    · have hi := (List.getElem?_eq_some_iff.mp hz).1
      rw [hf.2.1] at hi
      cases z with
      | empty => cases hp
      | card mark pos mats =>
        simp only [FieldCell.places, List.mem_cons, List.mem_map, List.mem_range] at hp
        rcases hp with rfl | ⟨o, ho, rfl⟩
        · exact wf_slot con hc i hi _
        · by_cases h5 : 5 ≤ i
          · rw [h i mark pos mats h5 hz] at ho
            exact absurd ho (by simp)
          · exact .zone _ 8 5 _ _ hc (by decide) (by omega)

/-- **C45** (partial). The places a field reload names are valid exactly when no card in a field or pendulum zone has materials. -/
theorem C45_reload_places_partial (c : BasicContext) (flags : UInt32) (s0 s1 : FieldSide) (chains : List Link)
    (h0 : s0.Fits) (h1 : s1.Fits) (hc : chains.length < 2 ^ 32) (more : List UInt8) :
    ∃ n st, encodeOne c ((CoreMsg.reloadField flags s0 s1 chains).bytes ++ more) = .ok (⟨.ok, n, some ⟨.event (.board (.state st)), []⟩⟩, c) ∧
      st.add ++ st.resize.map (·.place) = reloadPlaces s0 s1 ∧
      ((∀ p ∈ st.add ++ st.resize.map (·.place), WellFormed p) ↔ NoOddMaterials s0 ∧ NoOddMaterials s1) := by
  refine ⟨_, _, C34_translation c (.reloadField flags s0 s1 chains) ⟨h0, h1, hc⟩ _ rfl more, rfl, ?_⟩
  rw [← wf_side 0 (.inl rfl) s0 h0, ← wf_side 1 (.inr rfl) s1 h1]
  simp only [List.mem_append]
  constructor
  · intro h
    exact ⟨fun p hp => h p (.inl (.inl hp)), fun p hp => h p (.inl (.inr hp))⟩
  · rintro ⟨h, h'⟩ p ((hp | hp) | hp)
    · exact h p hp
    · exact h' p hp
    · simp only [FieldSide.piles, List.map_append, List.map_cons, List.map_nil, List.mem_append, List.mem_cons, List.not_mem_nil, or_false] at hp
      rcases hp with (rfl | rfl | rfl | rfl | rfl) | (rfl | rfl | rfl | rfl | rfl)
      all_goals exact .pile _ _ _ _ (by decide) (by decide)

/-- A side with nothing but the given spell zones. -/
def sideWith (spells : List FieldCell) : FieldSide := ⟨8000, List.replicate 7 .empty, spells, 0, 0, 0, 0, 0, 0⟩

/-- A field spell with one material. -/
def oddField : CoreMsg := .reloadField 0 (sideWith (List.replicate 5 .empty ++ [.card 1 1 1, .empty, .empty])) (sideWith (List.replicate 8 .empty)) []

/-- **C45, negation.** A field spell with a material: the material is put at a place that does not exist, and applying the event to
the tracked board aborts. -/
theorem C45_invalid_place : oddField.Fits ∧
    (∃ r c', encodeOne BasicContext.init oddField.bytes = .ok (r, c') ∧
      ∃ st, r.msg = some ⟨.event (.board (.state st)), []⟩ ∧ (⟨0, 8, 5, 0⟩ : Place) ∈ st.add ∧ ¬ WellFormed ⟨0, 8, 5, 0⟩) ∧
    track BasicContext.init oddField.bytes = .error .assert := by
  refine ⟨?_, ?_, by rfl⟩
  · refine ⟨⟨rfl, rfl, ?_, ?_⟩, ⟨rfl, rfl, ?_, ?_⟩, by decide⟩ <;> intro z hz
    · simp [sideWith] at hz; subst hz; trivial
    · simp [sideWith] at hz; rcases hz with rfl | rfl | rfl <;> trivial
    · simp [sideWith] at hz; subst hz; trivial
    · simp [sideWith] at hz; subst hz; trivial
  · exact ⟨_, _, rfl, _, rfl, by decide, not_wf_spell _ _ (by omega) _⟩

/-- A field spell without materials and a pendulum card meet the condition. -/
example : NoOddMaterials (sideWith (List.replicate 4 .empty ++ [.card 1 1 2, .card 1 1 0, .empty, .card 1 4 0])) := by
  intro i mark pos mats hi h
  match i, hi with
  | 5, _ | 6, _ | 7, _ => simp [sideWith] at h <;> exact h.2.2.symm
  | i + 8, _ => simp [sideWith] at h

/-! ## C61 -/

/-- The zones the core has disabled: those whose bit is set, player 0 in the low half. -/
def Disabled (mask : UInt32) (p : Place) : Prop :=
  ∃ i, zoneBit p.loc p.seq = some i ∧ (p.con = 0 ∧ mask.toNat.testBit i = true ∨ p.con = 1 ∧ mask.toNat.testBit (16 + i) = true)

/-- **C61** (partial). The zones tracked as blocked are replaced by zones of the board, none twice, and they are exactly the zones that
are *not* disabled. -/
theorem C61_blocked_partial (c : BasicContext) (mask : UInt32) (more : List UInt8) :
    ∃ v, track c ((CoreMsg.fieldDisabled mask).bytes ++ more) = .ok { c with board := { c.board with blockedZones := ⟨v⟩ } } ∧
      v.Nodup ∧ (∀ p ∈ v, WellFormed p) ∧
      ∀ con loc seq i, (con = 0 ∨ con = 1) → zoneBit loc seq = some i →
        ((⟨con, loc, seq, -1⟩ : Place) ∈ v ↔ ¬ Disabled mask ⟨con, loc, seq, -1⟩) := by
  refine ⟨clearBits mask 0, ?_, ?_⟩
  · unfold track
    rw [C34_translation c (.fieldDisabled mask) trivial _ rfl more]
    rfl
  have e : clearBits mask 0 = unpackZones mask.toNat 0 := (unpackZones_eq mask 0).symm
  rw [e]
  refine ⟨C37_nodup mask 0 (by omega), fun p hp => C37_valid mask 0 (by omega) p hp, ?_⟩
  intro con loc seq i hc hz
  rw [C37_clear_bits mask 0 (by omega)]
  simp only [Disabled, hz, Option.some.injEq, true_and, exists_eq_left', Nat.cast_zero, Int.sub_zero]
  rcases hc with rfl | rfl <;> simp

/-- **C61, negation.** The core has disabled nothing, and all thirty zones are tracked as blocked. -/
theorem C61_all_blocked : (∀ p, ¬ Disabled 0 p) ∧
    ∃ v, track BasicContext.init (CoreMsg.fieldDisabled 0).bytes =
      .ok { BasicContext.init with board := { BasicContext.init.board with blockedZones := ⟨v⟩ } } ∧ v.length = 30 := by
  constructor
  · rintro p ⟨i, _, ⟨_, h⟩ | ⟨_, h⟩⟩ <;> simp at h
  · exact ⟨_, rfl, by decide⟩

/-! ## Concrete boards -/

/-- Decks 1 2 3 4 and 20 21, a hand, a graveyard and an extra deck. -/
def someBoard : BasicContext := setPiles BasicContext.init fun k => match k with
  | ⟨0, .mainDeck⟩ => [1, 2, 3, 4]
  | ⟨0, .hand⟩ => [5]
  | ⟨0, .graveyard⟩ => [6, 7, 8, 9, 10]
  | ⟨0, .extraDeck⟩ => [11, 12]
  | ⟨1, .mainDeck⟩ => [20, 21]
  | _ => []

def pilesAfter (m : CoreMsg) : Option (List (List CardId)) :=
  match track someBoard m.bytes with
  | .ok c => some [pileOf c ⟨0, .mainDeck⟩, pileOf c ⟨0, .hand⟩, pileOf c ⟨0, .graveyard⟩, pileOf c ⟨0, .extraDeck⟩, pileOf c ⟨1, .mainDeck⟩]
  | .error _ => none

example : pilesAfter (.draw 0 [(100, 0), (101, 0)]) = some [[1, 2], [5, 4, 3], [6, 7, 8, 9, 10], [11, 12], [20, 21]] := by decide +kernel
example : pilesAfter .reverseDeck = some [[4, 3, 2, 1], [5], [6, 7, 8, 9, 10], [11, 12], [21, 20]] := by decide +kernel
/-- Cards 7, 8 and 10 of the graveyard are extra deck cards, put at position 1. -/
example : pilesAfter (.swapGraveDeck 0 1 [0b10110]) = some [[6, 9], [5], [1, 2, 3, 4], [11, 7, 8, 10, 12], [20, 21]] := by decide +kernel
example : (encodeOne someBoard (CoreMsg.deckTop 0 1 0 0).bytes).toOption.map (·.1.msg) =
    some (some ⟨.event (.metaInfo (.update 0 [⟨0, 1, 2, -1⟩])), []⟩) := rfl

end Ygo.Props
