import Verif.Spec.Exact
import Verif.Props.Move
import Verif.Props.Accepted
import Verif.Lemmas.Ext
import Verif.Lemmas.Frame
import Verif.Lemmas.Context

/-!
# C80, C81: which answers and messages are taken
-/

namespace Ygo.Props
open Ygo Ygo.Spec Ygo.P

/-! ## C80 -/

theorem phase_bit7 (p : Nat) : (p &&& Phase.battle) ≠ 0 ↔ p.testBit 7 = true := by
  exact land_pow_ne p 7
theorem phase_bit8 (p : Nat) : (p &&& Phase.main2) ≠ 0 ↔ p.testBit 8 = true := by
  exact land_pow_ne p 8
theorem phase_bit9 (p : Nat) : (p &&& Phase.end_) ≠ 0 ↔ p.testBit 9 = true := by
  exact land_pow_ne p 9

theorem asksAction_iff (q : Request) : AsksAction q ↔ q.isSelectIdle = true := by cases q <;> simp [AsksAction, Request.isSelectIdle]
theorem inBattle_iff (q : Request) : InBattle q ↔ q.isBattleCmd = true := by cases q <;> simp [InBattle, Request.isBattleCmd]

/-- **C80.** Exactly the misplaced answers abort. -/
theorem C80_aborts_iff (q : Request) (a : Answer) (out : List UInt8) : decodeOneAnswer q a out = .error .assert ↔ Misplaced q a := by
  cases a with
  | selectCard a =>
    cases a with
    | indexes is =>
      cases is with
      | nil => simp [decodeOneAnswer, Misplaced, massert]
      | cons i is =>
        cases q with
        | selectCard k => cases k <;> simp [decodeOneAnswer, Misplaced, massert, AsksCards]
        | _ => simp [decodeOneAnswer, Misplaced, massert, AsksCards]
    | _ => simp [decodeOneAnswer, Misplaced]
  | selectIdle a =>
    simp only [Misplaced, asksAction_iff]
    by_cases hq : q.isSelectIdle = true
    · cases a with
      | cardAction act i => cases act <;> simp [decodeOneAnswer, massert, hq]
      | phase p =>
        simp only [decodeOneAnswer, massert, hq, if_true, bind_ok]
        split
        · simp
        · split
          · simp
          · split <;> simp
      | _ => simp [decodeOneAnswer, massert, hq]
    · simp [decodeOneAnswer, massert, hq]
  | selectToChain a => cases a <;> simp [decodeOneAnswer, Misplaced]
  | sort a => cases a <;> simp [decodeOneAnswer, Misplaced]
  | _ => simp [decodeOneAnswer, Misplaced]

theorem decode_error {q : Request} {a : Answer} {out : List UInt8} {e : Err} (h : decodeOneAnswer q a out = .error e) : e = .assert := by
  cases a with
  | selectCard a =>
    cases a with
    | indexes is =>
      cases is with
      | nil => simp [decodeOneAnswer, massert] at h; exact h.symm
      | cons i is =>
        cases q with
        | selectCard k => cases k <;> simp [decodeOneAnswer, massert] at h
        | _ => simp [decodeOneAnswer, massert] at h; exact h.symm
    | _ => simp [decodeOneAnswer] at h
  | selectIdle a =>
    by_cases hq : q.isSelectIdle = true
    · cases a with
      | cardAction act i => cases act <;> simp [decodeOneAnswer, massert, hq] at h <;> exact h.symm
      | phase p =>
        simp only [decodeOneAnswer, massert, hq, if_true, bind_ok] at h
        split at h
        · simp at h
        · split at h
          · simp at h
          · split at h <;> simp at h
      | _ => simp [decodeOneAnswer, massert, hq] at h
    · simp [decodeOneAnswer, massert, hq] at h; exact h.symm
  | selectToChain a => cases a <;> simp [decodeOneAnswer] at h
  | sort a => cases a <;> simp [decodeOneAnswer] at h
  | _ => simp [decodeOneAnswer] at h

/-- **C80.** All other answers are taken: nothing is undefined, nothing runs on. -/
theorem C80_taken (q : Request) (a : Answer) (out : List UInt8) (h : ¬ Misplaced q a) : ∃ r, decodeOneAnswer q a out = .ok r := by
  cases hd : decodeOneAnswer q a out with
  | ok r => exact ⟨r, rfl⟩
  | error e =>
    cases decode_error hd
    exact absurd ((C80_aborts_iff q a out).mp hd) h

/-- **C80.** An answer that says nothing leaves the old response in the buffer, which is then sent. -/
theorem C80_stale (q : Request) (a : Answer) (out : List UInt8) (h : ¬ Misplaced q a) (hs : SaysNothing q a) :
    decodeOneAnswer q a out = .ok out := by
  cases a with
  | unset => rfl
  | selectCounter v => rfl
  | selectCard a => cases a <;> simp only [SaysNothing] at hs; rfl
  | selectToChain a => cases a <;> simp only [SaysNothing] at hs; rfl
  | selectIdle a =>
    simp only [Misplaced, asksAction_iff, not_or, Classical.not_not] at h
    cases a with
    | unset => simp [decodeOneAnswer, massert, h.1]
    | phase p =>
      simp only [SaysNothing, inBattle_iff] at hs
      obtain ⟨h9, h8, h7⟩ := hs
      have n9 : ¬ (p &&& Phase.end_) ≠ 0 := by rw [phase_bit9, h9]; simp
      by_cases hb : q.isBattleCmd = true
      · have n8 : ¬ (p &&& Phase.main2) ≠ 0 := by rw [phase_bit8, h8 hb]; simp
        simp [decodeOneAnswer, massert, h.1, hb, n8, n9]
      · have n7 : ¬ (p &&& Phase.battle) ≠ 0 := by rw [phase_bit7, h7 hb]; simp
        simp [decodeOneAnswer, massert, h.1, hb, n7, n9]
    | _ => simp only [SaysNothing] at hs
  | _ => simp only [SaysNothing] at hs

/-- **C80.** Every other answer determines the response, whatever was in the buffer. -/
theorem C80_fresh (q : Request) (a : Answer) (out out' : List UInt8) (hs : ¬ SaysNothing q a) :
    decodeOneAnswer q a out = decodeOneAnswer q a out' := by
  cases a with
  | unset => simp [SaysNothing] at hs
  | selectCounter v => simp [SaysNothing] at hs
  | selectCard a => cases a <;> first | rfl | simp [SaysNothing] at hs
  | selectToChain a => cases a <;> first | rfl | simp [SaysNothing] at hs
  | selectIdle a =>
    cases a with
    | unset => simp [SaysNothing] at hs
    | phase p =>
      simp only [SaysNothing, inBattle_iff] at hs
      by_cases h9 : (p &&& Phase.end_) ≠ 0
      · simp only [decodeOneAnswer, if_pos h9]
      · have e9 : p.testBit 9 = false := by simpa [phase_bit9] using h9
        by_cases hb : q.isBattleCmd = true
        · have h8 : (p &&& Phase.main2) ≠ 0 := by
            rw [phase_bit8]
            cases e8 : p.testBit 8 with
            | true => rfl
            | false => exact absurd ⟨e9, fun _ => e8, fun n => absurd hb n⟩ hs
          simp only [decodeOneAnswer, if_pos hb, if_pos h8]
        · have h7 : (p &&& Phase.battle) ≠ 0 := by
            rw [phase_bit7]
            cases e7 : p.testBit 7 with
            | true => rfl
            | false => exact absurd ⟨e9, fun n => absurd n hb, fun _ => e7⟩ hs
          simp only [decodeOneAnswer, if_neg hb, if_pos h7]
    | _ => rfl
  | sort a => cases a <;> rfl
  | _ => rfl

/-- Choosing no card, an action in answer to another question, a phase in answer to what to do in the battle phase. -/
example : Misplaced (.selectYesNo {} 0 ⟨0, 0⟩) (.selectIdle (.shuffle true)) := by simp [Misplaced, AsksAction]

example : SaysNothing (.selectIdle { isBattleCmd := true }) (.selectIdle (.phase 0x80)) ∧
    ¬ Misplaced (.selectIdle { isBattleCmd := true }) (.selectIdle (.phase 0x80)) ∧
    decodeOneAnswer (.selectIdle { isBattleCmd := true }) (.selectIdle (.phase 0x80)) [1, 2, 3, 4] = .ok [1, 2, 3, 4] := by
  refine ⟨⟨by decide, fun _ => by decide, fun h => absurd rfl h⟩, ?_, rfl⟩
  simp [Misplaced, AsksAction]

/-! ## C81 -/

theorem zoneKey_names {p : Place} : (∃ k, p.zoneKey = .ok k) ↔ NamesZone p := by
  simp only [NamesZone, Place.zoneKey, zoneKey_eq_ok]

theorem hasXyzMat_returns (c : BasicContext) (p : Place) : (∃ b, EncodeContext.hasXyzMat c p = .ok b) ↔ NamesZone p := by
  rw [← zoneKey_names]
  show (∃ b, (do let k ← p.zoneKey; return !(c.board.frame.layout.zone k).materials.isEmpty) = Except.ok b) ↔ _
  cases p.zoneKey with
  | error e => simp
  | ok k => exact ⟨fun _ => ⟨k, rfl⟩, fun _ => ⟨_, rfl⟩⟩

theorem pileSize_returns (c : BasicContext) (p : UInt8) (l : PileLoc) : EncodeContext.pileSize c (p.toNat : Int) l.code =
    if h : p.toNat < 2 then .ok (pileOf c ⟨⟨p.toNat, h⟩, l⟩).length else .error .assert := by
  show (do let k ← pileKey (p.toNat : Int) l.code; return (c.board.frame.layout.pile k).length) = _
  by_cases h : p.toNat < 2
  · rw [show pileKey (p.toNat : Int) l.code = .ok ⟨⟨p.toNat, h⟩, l⟩ from pileKey_eq_ok.mpr ⟨rfl, rfl⟩, dif_pos h]
    rfl
  · have : ¬ ((p.toNat : Int) ≤ 1) := by omega
    rw [dif_neg h, pileKey, massert, if_neg this]
    rfl

theorem graveLoop_returns (con : Int) (pos n i seq size sent : Nat) (s : List UInt8) :
    (∃ r, graveLoop con pos n i seq size sent s = .ok r) ↔ (n = 0 ∨ i + n ≤ 8 * s.length) := by
  induction n generalizing i seq size sent with
  | zero => simp [graveLoop, pure_run]
  | succ n ih =>
    simp only [graveLoop, Nat.add_one_ne_zero, false_or]
    by_cases hi : i / 8 < s.length
    · have hb : byteAt (i / 8) s = .ok ((s[i / 8]).toNat, s) := by simp [byteAt, List.getElem?_eq_getElem hi]
      rw [bind_run_ok hb]
      have hnext : (n = 0 ∨ i + 1 + n ≤ 8 * s.length) ↔ i + (n + 1) ≤ 8 * s.length := by omega
      split
      · rw [ih, hnext]
      · split
        · rw [← hnext, ← ih (i + 1) seq 0 (sent + size)]
          constructor
          · rintro ⟨r, hr⟩
            obtain ⟨a, t, h1, _⟩ := bind_eq_ok_iff.mp hr
            exact ⟨_, h1⟩
          · rintro ⟨⟨a, t⟩, hr⟩
            exact ⟨_, bind_run_ok hr⟩
        · rw [ih, hnext]
    · have hb : byteAt (i / 8) s = .error .ub := by simp [byteAt, List.getElem?_eq_none (Nat.le_of_not_lt hi)]
      constructor
      · rintro ⟨r, hr⟩
        obtain ⟨a, t, h1, _⟩ := bind_eq_ok_iff.mp hr
        rw [hb] at h1; cases h1
      · intro h; omega

theorem encodeOne_returns (c : BasicContext) (m : CoreMsg) :
    (∃ r, encodeOne c m.bytes = .ok r) ↔ ∃ r, encodeBody c (m.bytes ++ []) = .ok r := by
  rw [List.append_nil, encodeOne]
  cases encodeBody c m.bytes with
  | error e => simp
  | ok r => exact ⟨fun _ => ⟨_, rfl⟩, fun _ => ⟨_, rfl⟩⟩

theorem known_meaning {c : BasicContext} {m : CoreMsg} {x : CoreMsg.Meaning} (h : m.meaning = some x) : Known c m := by
  cases m <;> trivial

/-- **C81.** The server can tell what a message of the core means exactly if it knows what it has to. -/
theorem C81_encodes_iff (c : BasicContext) (m : CoreMsg) (hf : m.Fits) : (∃ r, encodeOne c m.bytes = .ok r) ↔ Known c m := by
  rw [encodeOne_returns]
  cases hm : m.meaning with
  | some x =>
    rw [body_meaning c m hf hm]
    exact ⟨fun _ => known_meaning hm, fun _ => ⟨_, rfl⟩⟩
  | none =>
    cases m <;> try cases hm
    case none.win.refl w r =>
      rw [body_inContext c _ hf rfl, told]
      have e : EncodeContext.getMatchWinReason c = orUb c.matchWinReason := rfl
      simp only [e, Known]
      cases c.matchWinReason <;> simp [orUb]
    case none.matchKill.refl r =>
      rw [body_inContext c _ hf rfl]
      exact ⟨fun _ => trivial, fun _ => ⟨_, rfl⟩⟩
    case none.deckTop.refl p seq code pos =>
      rw [body_inContext c _ hf rfl, told]
      have e : EncodeContext.pileSize c (p.toNat : Int) 1 = _ := pileSize_returns c p .mainDeck
      simp only [e, Known]
      by_cases h : p.toNat < 2 <;> simp [h]
    case none.draw.refl p cs =>
      rw [body_inContext c _ hf rfl, told]
      have e1 : EncodeContext.pileSize c (p.toNat : Int) 1 = _ := pileSize_returns c p .mainDeck
      have e2 : EncodeContext.pileSize c (p.toNat : Int) 2 = _ := pileSize_returns c p .hand
      simp only [e1, e2, Known]
      by_cases h : p.toNat < 2 <;> simp [h]
    case none.reverseDeck.refl =>
      rw [body_inContext c _ hf rfl]
      exact ⟨fun _ => trivial, fun _ => ⟨_, rfl⟩⟩
    case none.swapGraveDeck.refl p pos mask =>
      have e1 : EncodeContext.pileSize c (p.toNat : Int) 0x10 = _ := pileSize_returns c p .graveyard
      have e2 : EncodeContext.pileSize c (p.toNat : Int) 1 = _ := pileSize_returns c p .mainDeck
      constructor
      · rintro ⟨r, h⟩
        simp only [CoreMsg.bytes, List.append_assoc, List.cons_append, List.nil_append] at h
        rw [body_context' c rfl rfl rfl rfl rfl rfl] at h
        have e : list32 b8 mask ++ [] = le 4 mask.length ++ (mask ++ []) := by
          simp [list32, flatMap_b8]
        obtain ⟨o, t, h1, h2⟩ := bind_eq_ok_iff.mp h
        unfold swapGraveDeckEvent at h1
        rw [e, bind_run_ok (readCon_b8 _ _), bind_run_ok (read_b32 _ _), bind_run_ok (read_cnt4 (mask ++ []) hf)] at h1
        obtain ⟨gy, t1, h3, h4⟩ := bind_eq_ok_iff.mp h1
        obtain ⟨hgy, rfl⟩ := lift_eq_ok.mp h3
        rw [show Loc.graveyard = 0x10 from rfl, e1] at hgy
        split at hgy
        · rename_i hp
          cases hgy
          obtain ⟨deck, t2, h5, h6⟩ := bind_eq_ok_iff.mp h4
          obtain ⟨hdeck, rfl⟩ := lift_eq_ok.mp h5
          obtain ⟨ops, t3, h7, h8⟩ := bind_eq_ok_iff.mp h6
          have hl := (graveLoop_returns _ _ _ _ _ _ _ _).mp ⟨_, h7⟩
          dsimp only at h8
          split at h8
          · obtain ⟨_, _, h9, _⟩ := bind_eq_ok_iff.mp h8
            cases h9
          · rename_i hn
            refine ⟨⟨p.toNat, hp⟩, rfl, ?_, by omega⟩
            rw [List.append_nil] at hl
            omega
        · cases hgy
      · rintro ⟨i, hi, hm, hg⟩
        have hp : p.toNat < 2 := by omega
        rw [dif_pos hp] at e1 e2
        have hi' : (⟨p.toNat, hp⟩ : Fin 2) = i := Fin.ext hi
        rw [hi'] at e1 e2
        obtain ⟨⟨ops, t⟩, hl⟩ := (graveLoop_returns p.toNat pos.toNat (pileOf c ⟨i, .graveyard⟩).length 0 0 0 0 (mask ++ [])).mpr (by
          rw [List.append_nil]; omega)
        obtain rfl := graveLoop_rest _ _ _ _ _ _ _ _ _ _ hl
        exact ⟨_, body_swapGraveDeck c p pos mask hf [] _ _ ops e1 e2 hg hl⟩
    case none.move.refl code a b r =>
      rw [← encodeOne_returns, ← List.append_nil (CoreMsg.bytes _)]
      simp only [Known]
      cases hk : moveKind a.place b.place with
      | nothing => rw [C39_nothing (h := hk)]; simp
      | added => rw [C39_added (h := hk)]; simp
      | removed =>
        rw [C39_removed (h := hk)]
        simp only [← pileLoc_iff, ← hasXyzMat_returns c]
        cases hp : a.place.isPile with
        | true => simp
        | false => cases EncodeContext.hasXyzMat c a.place <;> simp
      | deferred => rw [C39_deferred (h := hk)]; simp
      | arrival => rw [C39_arrival (h := hk)]; simp
      | leftBehind =>
        rw [C39_left_behind (h := hk)]
        have e : EncodeContext.getXyzLeft c { a.place with oseq := -1 } = orUb (c.left { a.place with oseq := -1 }) := rfl
        rw [e]
        cases c.left { a.place with oseq := -1 } <;> simp [orUb]
      | plain =>
        rw [C39_plain (h := hk)]
        simp only [← pileLoc_iff, ← hasXyzMat_returns c]
        cases hp : a.place.isPile with
        | true => simp
        | false =>
          cases hq : b.place.isPile with
          | false => simp
          | true => cases EncodeContext.hasXyzMat c a.place <;> simp

/-! Winning is understood once the reason was announced, drawing for a third player never, a material left by a monster that never was
there neither. -/

example : ¬ Known BasicContext.init (.win 0 1) ∧ Known { BasicContext.init with matchWinReason := some 7 } (.win 0 1) := ⟨fun h => h rfl, by simp [Known]⟩

example : ¬ Known BasicContext.init (.draw 2 []) ∧ Known BasicContext.init (.draw 1 []) := by simp [Known]

example : ¬ Known BasicContext.init (.move 5 ⟨0, 0x90, 0, 0⟩ ⟨0, 0x10, 0, 0⟩ 0) := by
  rw [← C81_encodes_iff _ _ (by simp [CoreMsg.Fits])]
  rintro ⟨r, h⟩
  have h0 : (encodeOne BasicContext.init (CoreMsg.move 5 ⟨0, 0x90, 0, 0⟩ ⟨0, 0x10, 0, 0⟩ 0).bytes).toOption.isSome = false := by decide +kernel
  rw [h] at h0
  cases h0

example : Known BasicContext.init (.move 5 ⟨0, 0x04, 2, 0⟩ ⟨0, 0x10, 0, 0⟩ 0) := by
  rw [← C81_encodes_iff _ _ (by simp [CoreMsg.Fits])]
  have h0 : (encodeOne BasicContext.init (CoreMsg.move 5 ⟨0, 0x04, 2, 0⟩ ⟨0, 0x10, 0, 0⟩ 0).bytes).toOption.isSome = true := by decide +kernel
  cases h : encodeOne BasicContext.init (CoreMsg.move 5 ⟨0, 0x04, 2, 0⟩ ⟨0, 0x10, 0, 0⟩ 0).bytes with
  | ok r => exact ⟨r, rfl⟩
  | error e => rw [h] at h0; cases h0

/-! ## C33 -/

theorem grave_known {c : BasicContext} {data : List UInt8} {r : Encoded} {c' : BasicContext} (h : encodeOne c data = .ok (r, c')) (h35 : data.head? = some 35) :
    r.state ≠ .unknown := by
  obtain ⟨o, rest, hb, rfl⟩ := encodeOne_eq h
  obtain ⟨b, s, rfl, e⟩ := Tight.body_split c _ _ _ hb
  cases h35
  rw [e, show Kind.ofByte (35 : UInt8).toNat = some .swapGraveDeck from rfl] at hb
  change (do return (← swapGraveDeckEvent c, c) : P (Outcome × BasicContext)) s = _ at hb
  obtain ⟨x, s1, h1, h2⟩ := bind_eq_ok_iff.mp hb
  simp only [swapGraveDeckEvent, bind_eq_ok_iff] at h1
  obtain ⟨_, _, -, _, _, -, _, _, -, _, _, -, _, _, -, _, _, -, h1⟩ := h1
  have hx : x.state = .ok := by
    split at h1
    · obtain ⟨_, _, h1, -⟩ := bind_eq_ok_iff.mp h1
      cases h1
    · obtain ⟨_, _, -, h1⟩ := bind_eq_ok_iff.mp h1
      cases h1
      rfl
  cases h2
  simp only
  rw [hx]
  decide

/-- **C33 (exactly when).** What the server makes of a buffer depends on nothing but the bytes it reports as read exactly if these bytes
do not make up a message that it cannot translate alone. -/
theorem C33_only_bytes_read_matter_exactly (c : BasicContext) (data : List UInt8) (r : Encoded) (c' : BasicContext) (h : encodeOne c data = .ok (r, c')) :
    (∀ more, encodeOne c (data.take r.bytesRead ++ more) = .ok (r, c')) ↔ ∀ m : CoreMsg, m.Fits → data.take r.bytesRead = m.bytes → Known c m := by
  constructor
  · intro hall m hf e
    have := hall []
    rw [List.append_nil, e] at this
    exact (C81_encodes_iff c m hf).mp ⟨_, this⟩
  · intro hk more
    by_cases hm : ∃ m : CoreMsg, m.Fits ∧ data.take r.bytesRead = m.bytes
    · obtain ⟨m, hf, e⟩ := hm
      obtain ⟨⟨r1, c1⟩, h1⟩ := (C81_encodes_iff c m hf).mpr (hk m hf e)
      have h2 := C33_appended_bytes c _ (data.drop r.bytesRead) _ _ h1
      rw [← e, List.take_append_drop, h] at h2
      cases h2
      rw [e]
      exact C33_appended_bytes c _ more _ _ h1
    · refine C33_only_bytes_read_matter_partial c data more r c' h (.inl fun h35 => hm ?_)
      refine C75_message c data r c' h ?_ ?_
      · exact grave_known h h35
      · rw [h35]
        intro b hb
        cases hb
        decide

/-- The message of `C33_short_mask_reads_next_message` is not known. -/
example : ¬ Known oneInGrave (.swapGraveDeck 0 0 []) := by
  rintro ⟨i, hi, h, -⟩
  have : i = 0 := Fin.ext hi.symm
  subst this
  exact absurd h (by decide)

end Ygo.Props
