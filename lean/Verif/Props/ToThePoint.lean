import Verif.Spec.ToThePoint
import Verif.Props.Dialog

/-!
# The core takes no decision that the client did not make (C100)
-/

set_option linter.unusedSimpArgs false

namespace Ygo.Props
open Ygo Ygo.Spec Ygo.Spec.CoreMsg

private theorem point_bits (o v : Nat) (f : Nat → Decision) (hv : v < 2 ^ 32) :
    readBits o f (responseI v) = if Offered o v then some (f v) else none := by
  obtain ⟨h1, h2⟩ := num_response v hv
  simp only [readBits, h2, h1, true_and]

private theorem point_cards {α : Type} (c : UInt8) (xs : List α) (f : List α → Decision) (s : SelectCard) (hr : AtOnce (.selectCard s))
    (m : CoreMsg) (hm : ∀ bs, coreReads m bs = readCards (c ≠ 0) xs f bs) (a : AnswerCard) (hp : ToThePoint (.selectCard s) (.selectCard a))
    (hc : ∀ b, cardMeans s (.cancel b) = if c ≠ 0 then some .decline else none)
    (hi : ∀ is, is ≠ [] → cardMeans s (.indexes is) = (pick xs is).map f) (out : List UInt8) :
    ∃ bs, decodeOneAnswer (.selectCard s) (.selectCard a) out = .ok bs ∧ coreReads m bs = cardMeans s a := by
  cases a
  case unset => cases s <;> exact hp.elim
  case finish b => cases s <;> first | exact hr.elim | exact hp.elim
  case cancel b =>
    refine ⟨_, rfl, ?_⟩
    rw [hm, readCards, if_pos declined_response, hc]
    simp
  case indexes is =>
    have hw : is ≠ [] ∧ is.length < 2 ^ 32 ∧ ∀ i ∈ is, i < 2 ^ 16 := by
      cases s <;> first | exact hr.elim | exact hp
    obtain ⟨bs, h2, h3⟩ := cards_back (c ≠ 0) xs f (.selectCard s) hr is hw.1 hw.2.1 hw.2.2 out
    refine ⟨bs, h2, ?_⟩
    rw [hm, h3, hi is hw.1]

private theorem plain_place {p : Place} (h : PlainZone p) : CoreZone.place ⟨(p.con % 256).toNat, p.loc % 256, p.seq % 256⟩ = p := by
  obtain ⟨c, l, s, o⟩ := p
  obtain ⟨h0, h1, h2, h3, h4, h5⟩ := h
  simp only at *
  subst h4
  have hc : (((c % 256).toNat : Nat) : Int) = c := by omega
  have hs : s % 256 = s := Nat.mod_eq_of_lt (by omega)
  have hl' : l % 256 = l := Nat.mod_eq_of_lt (by omega)
  unfold CoreZone.place
  simp only [hc, hs, hl']
  rw [if_neg (by omega), if_neg (by omega)]

private theorem point_zones (mask : UInt32) (con : UInt8) (ps : List Place) (hp : ∀ p ∈ ps, PlainZone p) (r : Request) (out : List UInt8) :
    ∃ bs, decodeOneAnswer r (.selectZone ps) out = .ok bs ∧
      readZones mask con bs = if ∀ q ∈ ps, q ∈ clearBits mask con then some (.zones ps) else none := by
  obtain ⟨bs, h1, h2⟩ := C49_bytes r ps out
  refine ⟨bs, h1, ?_⟩
  have e : (ps.map fun p => (⟨(p.con % 256).toNat, p.loc % 256, p.seq % 256⟩ : CoreZone)).map CoreZone.place = ps := by
    rw [List.map_map]
    exact (List.map_congr_left fun p h => plain_place (hp p h)).trans (List.map_id ps)
  rw [readZones, h2]
  simp only [e]
  have : (∀ z ∈ ps.map fun p => (⟨(p.con % 256).toNat, p.loc % 256, p.seq % 256⟩ : CoreZone), z.place ∈ clearBits mask con) ↔
      ∀ q ∈ ps, q ∈ clearBits mask con := by
    simp only [List.mem_map, forall_exists_index, and_imp, forall_apply_eq_imp_iff₂]
    exact ⟨fun h q hq => by rw [← plain_place (hp q hq)]; exact h q hq, fun h q hq => by rw [plain_place (hp q hq)]; exact h q hq⟩
  simp only [this]

theorem phase_is (s : SelectIdle) (p : Nat) (h : p = 0x80 ∨ p = 0x100 ∨ p = 0x200) :
    idleMeans s (.phase p) = if Offered s.availablePhase p then some (.phase p) else none := by
  simp only [idleMeans, h, true_and]

private theorem point_idle (s : SelectIdle) (hs : s.isBattleCmd = false) (m : CoreMsg) (a : AnswerIdle)
    (hp : ToThePoint (.selectIdle s) (.selectIdle a)) (out : List UInt8)
    (hr : ∀ (ch : IdleChoice) (b : AnswerIdle) (bs : List UInt8), ch.answer = .selectIdle b → readIdle bs = some ch → coreReads m bs = idleMeans s b) :
    ∃ bs, decodeOneAnswer (.selectIdle s) (.selectIdle a) out = .ok bs ∧ coreReads m bs = idleMeans s a := by
  have go : ∀ ch : IdleChoice, ch.answer = .selectIdle a → ch.IndexBelow (2 ^ 16) →
      ∃ bs, decodeOneAnswer (.selectIdle s) (.selectIdle a) out = .ok bs ∧ coreReads m bs = idleMeans s a := by
    intro ch he hi
    obtain ⟨bs, h1, h2⟩ := C48_idle s hs ch hi out
    rw [he] at h1
    exact ⟨bs, h1, hr ch a bs he h2⟩
  cases a with
  | unset => exact hp.elim
  | shuffle b => exact ⟨responseI 8, rfl, hr .shuffle (.shuffle true) _ rfl (by decide)⟩
  | phase p =>
    simp only [ToThePoint, hs] at hp
    rcases hp with rfl | rfl
    · exact go .toEnd rfl trivial
    · exact go .toBattle rfl trivial
  | cardAction act i =>
    simp only [ToThePoint, hs] at hp
    obtain ⟨hi, rfl | rfl | rfl | rfl | rfl | rfl⟩ := hp
    · exact go (.activate i) rfl hi
    · exact go (.summon i) rfl hi
    · exact go (.spsummon i) rfl hi
    · exact go (.reposition i) rfl hi
    · exact go (.mset i) rfl hi
    · exact go (.sset i) rfl hi

private theorem point_battle (s : SelectIdle) (hs : s.isBattleCmd = true) (hc : s.canShuffle = false) (m : CoreMsg) (a : AnswerIdle)
    (hp : ToThePoint (.selectIdle s) (.selectIdle a)) (out : List UInt8) (h8 : coreReads m (responseI 8) = none)
    (hr : ∀ (ch : BattleChoice) (b : AnswerIdle) (bs : List UInt8), ch.answer = .selectIdle b → readBattle bs = some ch →
      coreReads m bs = idleMeans s b) :
    ∃ bs, decodeOneAnswer (.selectIdle s) (.selectIdle a) out = .ok bs ∧ coreReads m bs = idleMeans s a := by
  have go : ∀ ch : BattleChoice, ch.answer = .selectIdle a → ch.IndexBelow (2 ^ 16) →
      ∃ bs, decodeOneAnswer (.selectIdle s) (.selectIdle a) out = .ok bs ∧ coreReads m bs = idleMeans s a := by
    intro ch he hi
    obtain ⟨bs, h1, h2⟩ := C48_battle s hs ch hi out
    rw [he] at h1
    exact ⟨bs, h1, hr ch a bs he h2⟩
  cases a with
  | unset => exact hp.elim
  | shuffle b => exact ⟨responseI 8, rfl, by rw [h8]; simp [idleMeans, hc]⟩
  | phase p =>
    simp only [ToThePoint, hs] at hp
    rcases hp with rfl | rfl
    · exact go .toEnd rfl trivial
    · exact go .toMain2 rfl trivial
  | cardAction act i =>
    simp only [ToThePoint, hs] at hp
    obtain ⟨hi, rfl | rfl⟩ := hp
    · exact go (.activate i) rfl hi
    · exact go (.attack i) rfl hi

/-- **C100** (partial: answers to the point). The core takes from the response the very decision that the client made, and none if the client
made none. -/
theorem C100_as_meant_partial (m : CoreMsg) (who : Int) (r : Request) (hm : m.meaning = some (.request who r)) (a : Answer)
    (hp : ToThePoint r a) (out : List UInt8) : ∃ bs, decodeOneAnswer r a out = .ok bs ∧ coreReads m bs = clientMeans r a := by
  cases m <;> simp only [meaning, Option.some.injEq, reduceCtorEq, Meaning.request.injEq] at hm
  all_goals (obtain ⟨rfl, rfl⟩ := hm)
  case selectBattlecmd p acts atks m e =>
    cases a <;> try exact hp.elim
    case selectIdle a =>
    refine point_battle _ rfl rfl _ a hp out rfl fun ch b bs he hr => ?_
    simp only [coreReads, hr]
    cases ch with
    | activate i => cases he; simp only [idleMeans, List.getElem?_map, Option.map_map]; rfl
    | attack i => cases he; simp only [idleMeans, List.getElem?_map, Option.map_map]; rfl
    | toMain2 =>
      cases he
      rw [phase_is _ _ (by simp)]
      simp only [offered_phases _ _ _ (.inr rfl)]
      simp only [yes_iff]
    | toEnd =>
      cases he
      rw [phase_is _ _ (by simp)]
      simp only [offered_end _ _ _ (.inr rfl)]
      simp only [yes_iff]
  case selectIdlecmd p s sp r ms ss acts b e sh =>
    cases a <;> try exact hp.elim
    case selectIdle a =>
    refine point_idle _ rfl _ a hp out fun ch b bs he hr => ?_
    simp only [coreReads, hr]
    cases ch with
    | toBattle =>
      cases he
      rw [phase_is _ _ (by simp)]
      simp only [offered_phases _ _ _ (.inl rfl)]
      simp only [yes_iff]
    | toEnd =>
      cases he
      rw [phase_is _ _ (by simp)]
      simp only [offered_end _ _ _ (.inl rfl)]
      simp only [yes_iff]
    | shuffle => cases he; simp only [idleMeans, yes_iff]
    | _ => cases he; simp only [idleMeans, List.getElem?_map, Option.map_map]; rfl
  case selectEffectyn => cases a <;> first | exact hp.elim | exact ⟨_, rfl, yes_back _⟩
  case selectYesno => cases a <;> first | exact hp.elim | exact ⟨_, rfl, yes_back _⟩
  case selectOption p os =>
    cases a <;> try exact hp.elim
    case selectEffect i =>
    refine ⟨_, rfl, ?_⟩
    rw [coreReads, indexed_response _ _ hp]
    simp only [clientMeans, List.getElem?_map, Option.map_map]
    rfl
  case announceNumber p ns =>
    cases a <;> try exact hp.elim
    case selectNumber i =>
    refine ⟨_, rfl, ?_⟩
    rw [coreReads, indexed_response _ _ hp]
    simp only [clientMeans, List.getElem?_map, Option.map_map]
    rfl
  case selectCard p c mn mx cs =>
    split at hp
    · next hl =>
      rw [if_pos hl]
      cases a <;> try exact hp.elim
      case selectCard a =>
      refine point_cards c cs (fun xs => .codes (xs.map (·.1.toNat))) _ (by exact trivial) _ ?_ a hp ?_ ?_ out
      · intro bs; rw [coreReads, if_pos hl]
      · intro b; simp only [cardMeans, yes_iff]
      · intro is h
        simp only [cardMeans, h, if_false, pick_map, Option.map_map]
        rfl
    · next hl =>
      rw [if_neg hl]
      cases a <;> try exact hp.elim
      case selectCard a =>
      refine point_cards c cs (fun xs => .cards (xs.map fun x => (x.2.place, x.1.toNat))) _ (by exact trivial) _ ?_ a hp ?_ ?_ out
      · intro bs; rw [coreReads, if_neg hl]
      · intro b; simp only [cardMeans, yes_iff]
      · intro is h
        simp only [cardMeans, h, if_false, pick_map, Option.map_map, Function.comp_def, List.map_map]
  case selectTribute p c mn mx cs =>
    cases a <;> try exact hp.elim
    case selectCard a =>
    refine point_cards c cs (fun xs => .cards (xs.map fun x => (x.2.1.place, x.1.toNat))) _ (by exact trivial) _ (fun _ => rfl) a hp ?_ ?_ out
    · intro b; simp only [cardMeans, yes_iff]
    · intro is h
      simp only [cardMeans, h, if_false, pick_map, Option.map_map, Function.comp_def, List.map_map]
  case selectUnselectCard p f c mn mx ss us =>
    cases a <;> try exact hp.elim
    case selectCard a =>
    have dec : (yes c = true → yes f = true) → coreReads (.selectUnselectCard p f c mn mx ss us) (responseI (-1)) =
        if yes f = true then some Decision.decline else none := by
      intro h
      rw [coreReads, if_pos declined_response]
      simp only [yes_iff] at h ⊢
      by_cases h0 : f ≠ 0
      · rw [if_pos (.inl h0), if_pos h0]
      · rw [if_neg (by rintro (h1 | h1) <;> simp_all), if_neg h0]
    cases a with
    | unset => exact hp.elim
    | cancel b => exact ⟨_, rfl, dec hp⟩
    | finish b => exact ⟨_, rfl, dec hp⟩
    | indexes is =>
      obtain ⟨i, rfl, hi⟩ := hp
      obtain ⟨bs, h1, h2⟩ := C47_stepped (.selectCard (.recursive (yes f) (yes c) mn.toNat mx.toNat
        (ss.map fun x => ⟨x.2.place, x.1.toNat⟩) (us.map fun x => ⟨x.2.place, x.1.toNat⟩))) trivial i hi [] out
      refine ⟨bs, h1, ?_⟩
      rw [coreReads, if_neg (stepped_length h2), h2]
      simp only [clientMeans, cardMeans]
      rw [← List.map_append, List.getElem?_map, Option.map_map]
      rfl
  case selectChain p s f t acts =>
    cases a <;> try exact hp.elim
    case selectToChain a =>
    cases a with
    | unset => exact hp.elim
    | noOp b =>
      refine ⟨_, rfl, ?_⟩
      rw [coreReads, if_pos declined_response]
      simp only [clientMeans, yes_iff]
    | index i =>
      have hi : i < 2 ^ 32 - 1 := hp
      refine ⟨_, rfl, ?_⟩
      rw [coreReads, if_neg, indexed_response _ _ (by omega)]
      · simp only [clientMeans, List.getElem?_map, Option.map_map]
        rfl
      · rw [oneNumber_responseI, Option.some.injEq, Int.bmod_def]
        split <;> omega
  case selectPlace p n m =>
    cases a <;> try exact hp.elim
    case selectZone ps =>
    obtain ⟨bs, h1, h2⟩ := point_zones m p ps hp (.selectZone false n.toNat (clearBits m p)) out
    exact ⟨bs, h1, by simp only [coreReads, h2, clientMeans]⟩
  case selectDisfield p n m =>
    cases a <;> try exact hp.elim
    case selectZone ps =>
    obtain ⟨bs, h1, h2⟩ := point_zones m p ps hp (.selectZone true n.toNat (clearBits m p)) out
    exact ⟨bs, h1, by simp only [coreReads, h2, clientMeans]⟩
  case selectPosition p c m => cases a <;> first | exact hp.elim | exact ⟨_, rfl, point_bits _ _ _ hp⟩
  case announceRace p n m => cases a <;> first | exact hp.elim | exact ⟨_, rfl, point_bits _ _ _ hp⟩
  case announceAttrib p n m => cases a <;> first | exact hp.elim | exact ⟨_, rfl, point_bits _ _ _ hp⟩
  case rockPaperScissors p =>
    cases a <;> try exact hp.elim
    case selectRockPaperScissors v =>
    obtain ⟨h1, h2⟩ : -2 ^ 31 ≤ v ∧ v < 2 ^ 31 := hp
    refine ⟨_, rfl, ?_⟩
    have : v.bmod (2 ^ 32) = v := by rw [Int.bmod_def]; split <;> omega
    simp only [coreReads, oneNumber_responseI, this, clientMeans]
  case sortChain p cs =>
    cases a <;> try exact hp.elim
    case sort a =>
    cases a with
    | unset => exact hp.elim
    | skip b => exact ⟨_, rfl, by rw [coreReads, readOrder, if_pos declined_response]; rfl⟩
    | indexes is =>
      obtain ⟨bs, h1, h2⟩ := order_back cs (.sort (cs.map (·.2.place))) is hp.1 hp.2 out
      refine ⟨bs, h1, ?_⟩
      simp only [coreReads, h2, clientMeans, pick_map, Option.map_map]
      rfl
  case sortCard p cs =>
    cases a <;> try exact hp.elim
    case sort a =>
    cases a with
    | unset => exact hp.elim
    | skip b => exact ⟨_, rfl, by rw [coreReads, readOrder, if_pos declined_response]; rfl⟩
    | indexes is =>
      obtain ⟨bs, h1, h2⟩ := order_back cs (.sort (cs.map (·.2.place))) is hp.1 hp.2 out
      refine ⟨bs, h1, ?_⟩
      simp only [coreReads, h2, clientMeans, pick_map, Option.map_map]
      rfl

/-! ## Answers that are not to the point -/

/-- **C100.** When idle there is nothing to attack with, but the core takes the answer for a special summon. -/
theorem C100_attack_idle (p : UInt8) (s sp : List (UInt32 × CardLoc)) (rs : List (UInt32 × CardLocS)) (ms ss : List (UInt32 × CardLoc))
    (acts : List (Activable CardLoc)) (b e sh : UInt8) (who : Int) (r : Request)
    (hm : (CoreMsg.selectIdlecmd p s sp rs ms ss acts b e sh).meaning = some (.request who r)) (i : Nat) (hi : i < 2 ^ 16) (out : List UInt8) :
    clientMeans r (.selectIdle (.cardAction .attack i)) = none ∧
    ∃ bs, decodeOneAnswer r (.selectIdle (.cardAction .attack i)) out = .ok bs ∧
      coreReads (.selectIdlecmd p s sp rs ms ss acts b e sh) bs = clientMeans r (.selectIdle (.cardAction .spsummon i)) := by
  cases hm
  exact ⟨rfl, C100_as_meant_partial (.selectIdlecmd p s sp rs ms ss acts b e sh) _ _ rfl (.selectIdle (.cardAction .spsummon i))
    ⟨hi, .inr (.inr (.inl rfl))⟩ out⟩

/-- **C100.** In the battle phase nothing can be summoned, but the core takes a summon for an activation and a special summon for an attack. -/
theorem C100_summon_in_battle (p : UInt8) (acts : List (Activable CardLoc)) (atks : List (UInt32 × CardLocS × UInt8)) (m e : UInt8)
    (who : Int) (r : Request) (hm : (CoreMsg.selectBattlecmd p acts atks m e).meaning = some (.request who r)) (i : Nat) (hi : i < 2 ^ 16)
    (out : List UInt8) :
    (clientMeans r (.selectIdle (.cardAction .summon i)) = none ∧
      ∃ bs, decodeOneAnswer r (.selectIdle (.cardAction .summon i)) out = .ok bs ∧
        coreReads (.selectBattlecmd p acts atks m e) bs = clientMeans r (.selectIdle (.cardAction .activate i))) ∧
    clientMeans r (.selectIdle (.cardAction .spsummon i)) = none ∧
      ∃ bs, decodeOneAnswer r (.selectIdle (.cardAction .spsummon i)) out = .ok bs ∧
        coreReads (.selectBattlecmd p acts atks m e) bs = clientMeans r (.selectIdle (.cardAction .attack i)) := by
  cases hm
  exact ⟨⟨rfl, C100_as_meant_partial (.selectBattlecmd p acts atks m e) _ _ rfl (.selectIdle (.cardAction .activate i)) ⟨hi, .inl rfl⟩ out⟩,
    rfl, C100_as_meant_partial (.selectBattlecmd p acts atks m e) _ _ rfl (.selectIdle (.cardAction .attack i)) ⟨hi, .inr rfl⟩ out⟩

/-- **C100.** Selecting one by one, all cards but the first are forgotten. -/
theorem C100_first_only (p f c : UInt8) (mn mx : UInt32) (ss us : List (UInt32 × LocInfo)) (who : Int) (r : Request)
    (hm : (CoreMsg.selectUnselectCard p f c mn mx ss us).meaning = some (.request who r)) (i j : Nat) (is : List Nat) (hi : i < 2 ^ 32)
    (out : List UInt8) : clientMeans r (.selectCard (.indexes (i :: j :: is))) = none ∧
    ∃ bs, decodeOneAnswer r (.selectCard (.indexes (i :: j :: is))) out = .ok bs ∧
      coreReads (.selectUnselectCard p f c mn mx ss us) bs = clientMeans r (.selectCard (.indexes [i])) := by
  cases hm
  exact ⟨rfl, C100_as_meant_partial (.selectUnselectCard p f c mn mx ss us) _ _ rfl (.selectCard (.indexes [i])) ⟨i, rfl, hi⟩ out⟩

/-- **C100.** Selecting at once, indexes are cut to 16 bits: cards that were not offered are taken for others. -/
theorem C100_cut (p c : UInt8) (mn mx : UInt32) (cs : List (UInt32 × LocInfo)) (hl : cs.length ≤ 2 ^ 16) (who : Int) (r : Request)
    (hm : (CoreMsg.selectCard p c mn mx cs).meaning = some (.request who r)) (i : Nat) (hi : i < 2 ^ 16) (out : List UInt8) :
    clientMeans r (.selectCard (.indexes [i + 2 ^ 16])) = none ∧
    ∃ bs, decodeOneAnswer r (.selectCard (.indexes [i + 2 ^ 16])) out = .ok bs ∧
      coreReads (.selectCard p c mn mx cs) bs = clientMeans r (.selectCard (.indexes [i])) := by
  have e : writeLE 2 ((i + 2 ^ 16 : Nat) : Int) = writeLE 2 (i : Int) := by
    simp only [writeLE]
    rw [show ((i + 2 ^ 16 : Nat) : Int) % 256 = (i : Int) % 256 by omega,
      show ((i + 2 ^ 16 : Nat) : Int) / 256 % 256 = (i : Int) / 256 % 256 by omega]
  have h : decodeOneAnswer r (.selectCard (.indexes [i])) out = decodeOneAnswer r (.selectCard (.indexes [i + 2 ^ 16])) out := by
    cases hm
    split <;> simp only [decodeOneAnswer, List.flatMap_cons, List.flatMap_nil, e, List.length_cons, List.length_nil, massert] <;> rfl
  refine ⟨?_, h ▸ C100_as_meant_partial (.selectCard p c mn mx cs) who r hm (.selectCard (.indexes [i])) ?_ out⟩
  · cases hm
    have h0 : cs[i + 2 ^ 16]? = none := List.getElem?_eq_none (by omega)
    split <;> simp only [clientMeans, cardMeans, pick, List.getElem?_map, h0, Option.map_none] <;> rfl
  · cases hm
    split <;> exact ⟨by simp, by simp, by simpa using hi⟩

/-- **C100.** Finishing a selection at once, which cannot be, is taken for refusing it. -/
theorem C100_finish (p c : UInt8) (mn mx : UInt32) (cs : List (UInt32 × LocInfo)) (who : Int) (r : Request)
    (hm : (CoreMsg.selectCard p c mn mx cs).meaning = some (.request who r)) (b : Bool) (out : List UInt8) :
    clientMeans r (.selectCard (.finish b)) = none ∧
    ∃ bs, decodeOneAnswer r (.selectCard (.finish b)) out = .ok bs ∧
      coreReads (.selectCard p c mn mx cs) bs = if c ≠ 0 then some .decline else none := by
  obtain ⟨bs, h1, h2⟩ := C100_as_meant_partial (.selectCard p c mn mx cs) who r hm (.selectCard (.cancel b)) (by cases hm; split <;> trivial) out
  refine ⟨by cases hm; split <;> rfl, bs, h1, h2.trans ?_⟩
  cases hm
  split <;> simp only [clientMeans, cardMeans, yes_iff]

/-- **C100.** The highest index of a chain link is taken for not chaining. -/
theorem C100_highest_link (p s : UInt8) (t : UInt64) (acts : List (Activable LocInfo)) (hl : acts.length < 2 ^ 32) (who : Int) (r : Request)
    (hm : (CoreMsg.selectChain p s 0 t acts).meaning = some (.request who r)) (out : List UInt8) :
    clientMeans r (.selectToChain (.index (2 ^ 32 - 1))) = none ∧
    ∃ bs, decodeOneAnswer r (.selectToChain (.index (2 ^ 32 - 1))) out = .ok bs ∧
      coreReads (.selectChain p s 0 t acts) bs = some .decline := by
  cases hm
  refine ⟨?_, _, rfl, rfl⟩
  simp only [clientMeans, List.getElem?_map, List.getElem?_eq_none (show acts.length ≤ 2 ^ 32 - 1 by omega), Option.map_none]

/-- **C100.** An order that is not set is taken for the order of no cards. -/
theorem C100_no_order (p : UInt8) (cs : List (UInt32 × CardLocL)) (who : Int) (r : Request)
    (hm : (CoreMsg.sortCard p cs).meaning = some (.request who r)) (out : List UInt8) : clientMeans r (.sort .unset) = none ∧
    ∃ bs, decodeOneAnswer r (.sort .unset) out = .ok bs ∧ coreReads (.sortCard p cs) bs = some (.order []) := by
  cases hm
  exact ⟨rfl, _, rfl, rfl⟩

/-- **C100.** Answers to another question are taken for answers to this one: yes for the second effect. -/
theorem C100_other_question (p : UInt8) (os : List UInt64) (who : Int) (r : Request)
    (hm : (CoreMsg.selectOption p os).meaning = some (.request who r)) (out : List UInt8) : clientMeans r (.selectYesNo true) = none ∧
    ∃ bs, decodeOneAnswer r (.selectYesNo true) out = .ok bs ∧ coreReads (.selectOption p os) bs = clientMeans r (.selectEffect 1) := by
  cases hm
  exact ⟨rfl, C100_as_meant_partial (.selectOption p os) _ _ rfl (.selectEffect 1) (show 1 < 2 ^ 32 by decide) out⟩

/-- **C100.** Several phases at once are taken for one of them. -/
theorem C100_two_phases (p : UInt8) (s sp : List (UInt32 × CardLoc)) (rs : List (UInt32 × CardLocS)) (ms ss : List (UInt32 × CardLoc))
    (acts : List (Activable CardLoc)) (b e sh : UInt8) (who : Int) (r : Request)
    (hm : (CoreMsg.selectIdlecmd p s sp rs ms ss acts b e sh).meaning = some (.request who r)) (out : List UInt8) :
    clientMeans r (.selectIdle (.phase 0x280)) = none ∧
    ∃ bs, decodeOneAnswer r (.selectIdle (.phase 0x280)) out = .ok bs ∧
      coreReads (.selectIdlecmd p s sp rs ms ss acts b e sh) bs = clientMeans r (.selectIdle (.phase 0x80)) := by
  cases hm
  exact ⟨rfl, C100_as_meant_partial (.selectIdlecmd p s sp rs ms ss acts b e sh) _ _ rfl (.selectIdle (.phase 0x80)) (.inr rfl) out⟩

/-- **C100.** So the core takes decisions that the client did not make. -/
theorem C100_misunderstood : ¬ ∀ (m : CoreMsg) (who : Int) (r : Request) (a : Answer) (out bs : List UInt8) (d : Decision), m.Fits →
    m.meaning = some (.request who r) → decodeOneAnswer r a out = .ok bs → coreReads m bs = some d → clientMeans r a = some d := by
  intro h
  have := h (.sortCard 0 []) _ _ (.sort .unset) [] _ _ (by simp [CoreMsg.Fits]) rfl rfl rfl
  cases this

/-! Non-vacuity: an answer to the point that was offered, and one that was not, which the core does not take either. -/

example : ToThePoint (.selectCard (.uniqueRange false 1 2 [⟨⟨0, 4, 1, -1⟩, 7⟩, ⟨⟨0, 4, 2, -1⟩, 8⟩])) (.selectCard (.indexes [1, 0])) ∧
    clientMeans (.selectCard (.uniqueRange false 1 2 [⟨⟨0, 4, 1, -1⟩, 7⟩, ⟨⟨0, 4, 2, -1⟩, 8⟩])) (.selectCard (.indexes [1, 0])) =
      some (.cards [(⟨0, 4, 2, -1⟩, 8), (⟨0, 4, 1, -1⟩, 7)]) := ⟨⟨by decide, by decide, by decide⟩, by decide⟩

example : ToThePoint (.selectCard (.uniqueRange false 1 2 [⟨⟨0, 4, 1, -1⟩, 7⟩, ⟨⟨0, 4, 2, -1⟩, 8⟩])) (.selectCard (.indexes [1, 5])) ∧
    coreReads (.selectCard 0 0 1 2 [(7, ⟨0, 4, 1, 1⟩), (8, ⟨0, 4, 2, 1⟩)]) [1, 0, 0, 0, 2, 0, 0, 0, 1, 0, 5, 0] = none :=
  ⟨⟨by decide, by decide, by decide⟩, by decide⟩

example : ToThePoint (.selectIdle { isBattleCmd := true }) (.selectIdle (.cardAction .attack 3)) ∧
    ¬ ToThePoint (.selectIdle {}) (.selectIdle (.cardAction .attack 3)) := by
  simp [ToThePoint, BattleAct, IdleAct]

end Ygo.Props
