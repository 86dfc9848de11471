import Verif.Spec.Taken
import Verif.Props.ToThePoint
import Verif.Props.Exact

/-!
# What answers are taken for (C100)
-/

set_option linter.unusedSimpArgs false
set_option linter.unnecessarySeqFocus false

namespace Ygo.Props
open Ygo Ygo.Spec Ygo.Spec.CoreMsg

theorem response_num (v : Int) : (responseI v).length = 4 ∧ num (responseI v) = (v % 2 ^ 32).toNat := by
  refine ⟨writeLE_length 4 v, ?_⟩
  have h := num_writeLE 4 v
  rw [show responseI v = writeLE 4 v from rfl]
  omega

/-- Four bytes and their number. -/
theorem four (bs : List UInt8) (h : bs.length = 4) : ∃ a b c d : UInt8, bs = [a, b, c, d] ∧
    num bs = a.toNat + 256 * (b.toNat + 256 * (c.toNat + 256 * d.toNat)) := by
  match bs, h with
  | [a, b, c, d], _ => exact ⟨a, b, c, d, rfl, by simp [num]⟩

theorem refuses (bs : List UInt8) (h : bs.length = 4) : oneNumber bs = some (-1) ↔ num bs = 2 ^ 32 - 1 := by
  have := num_lt bs
  rw [h] at this
  simp only [oneNumber, h, if_true, signed, Option.some.injEq]
  split <;> omega

private theorem taken_idle (s : SelectIdle) (bs : List UInt8) (h : bs.length = 4) :
    (s.isBattleCmd = false → ∀ (f : IdleChoice → Option Decision),
      (∀ (ch : IdleChoice) (b : AnswerIdle), ch.answer = .selectIdle b → f ch = idleMeans s b) →
      (readIdle bs).bind f = clientMeans (.selectIdle s) (numberTaken (num bs) (.selectIdle s))) ∧
    (s.isBattleCmd = true → ∀ (f : BattleChoice → Option Decision),
      (∀ (ch : BattleChoice) (b : AnswerIdle), ch.answer = .selectIdle b → f ch = idleMeans s b) →
      (readBattle bs).bind f = clientMeans (.selectIdle s) (numberTaken (num bs) (.selectIdle s))) := by
  obtain ⟨a, b, c, d, rfl, hn⟩ := four bs h
  have ha := a.toNat_lt; have hb := b.toNat_lt; have hc := c.toNat_lt; have hd := d.toNat_lt
  have e1 : num [a, b, c, d] % 65536 = num [a, b] := by rw [hn]; simp only [num]; omega
  have e2 : num [a, b, c, d] / 65536 = num [c, d] := by rw [hn]; simp only [num]; omega
  constructor
  · intro hs f hf
    simp only [readIdle, h, if_true, List.take_succ_cons, List.take_zero, List.drop_succ_cons, List.drop_zero, numberTaken, hs,
      Bool.false_eq_true, if_false, e1, e2, clientMeans]
    generalize num [a, b] = t
    match t with
    | 0 | 1 | 2 | 3 | 4 | 5 | 6 | 7 | 8 => exact hf _ _ rfl
    | _ + 9 => rfl
  · intro hs f hf
    simp only [readBattle, h, if_true, List.take_succ_cons, List.take_zero, List.drop_succ_cons, List.drop_zero, numberTaken, hs,
      e1, e2, clientMeans]
    generalize num [a, b] = t
    match t with
    | 0 | 1 | 2 | 3 => exact hf _ _ rfl
    | _ + 4 => rfl

private theorem idle_choice {p : UInt8} {s sp : List (UInt32 × CardLoc)} {rs : List (UInt32 × CardLocS)} {ms ss : List (UInt32 × CardLoc)}
    {acts : List (Activable CardLoc)} {b e sh : UInt8} {who : Int} {q : SelectIdle}
    (hm : (CoreMsg.selectIdlecmd p s sp rs ms ss acts b e sh).meaning = some (.request who (.selectIdle q))) :
    ∃ f : IdleChoice → Option Decision, (∀ bs, coreReads (.selectIdlecmd p s sp rs ms ss acts b e sh) bs = (readIdle bs).bind f) ∧
      ∀ (ch : IdleChoice) (a : AnswerIdle), ch.answer = .selectIdle a → f ch = idleMeans q a := by
  refine ⟨fun ch => match ch with
    | .summon i => s[i]?.map fun x => .act .summon x.2.place none
    | .spsummon i => sp[i]?.map fun x => .act .spsummon x.2.place none
    | .reposition i => rs[i]?.map fun x => .act .reposition x.2.place none
    | .mset i => ms[i]?.map fun x => .act .mset x.2.place none
    | .sset i => ss[i]?.map fun x => .act .sset x.2.place none
    | .activate i => acts[i]?.map fun a => .act .activate a.loc.place (some (effectOf a.effect))
    | .toBattle => if b ≠ 0 then some (.phase 0x80) else none
    | .toEnd => if e ≠ 0 then some (.phase 0x200) else none
    | .shuffle => if sh ≠ 0 then some .shuffle else none, ?_, ?_⟩
  · intro bs
    simp only [coreReads]
    cases readIdle bs with
    | none => rfl
    | some ch => cases ch <;> rfl
  · intro ch a he
    cases hm
    cases ch with
    | toBattle => cases he; rw [phase_is _ _ (by simp)]; simp only [offered_phases _ _ _ (.inl rfl)]; simp only [yes_iff]
    | toEnd => cases he; rw [phase_is _ _ (by simp)]; simp only [offered_end _ _ _ (.inl rfl)]; simp only [yes_iff]
    | shuffle => cases he; simp only [idleMeans, yes_iff]
    | _ => cases he; simp only [idleMeans, List.getElem?_map, Option.map_map]; rfl

private theorem battle_choice {p : UInt8} {acts : List (Activable CardLoc)} {atks : List (UInt32 × CardLocS × UInt8)} {m e : UInt8} {who : Int}
    {q : SelectIdle} (hm : (CoreMsg.selectBattlecmd p acts atks m e).meaning = some (.request who (.selectIdle q))) :
    ∃ f : BattleChoice → Option Decision, (∀ bs, coreReads (.selectBattlecmd p acts atks m e) bs = (readBattle bs).bind f) ∧
      ∀ (ch : BattleChoice) (a : AnswerIdle), ch.answer = .selectIdle a → f ch = idleMeans q a := by
  refine ⟨fun ch => match ch with
    | .activate i => acts[i]?.map fun a => .act .activate a.loc.place (some (effectOf a.effect))
    | .attack i => atks[i]?.map fun a => .act .attack a.2.1.place none
    | .toMain2 => if m ≠ 0 then some (.phase 0x100) else none
    | .toEnd => if e ≠ 0 then some (.phase 0x200) else none, ?_, ?_⟩
  · intro bs
    simp only [coreReads]
    cases readBattle bs with
    | none => rfl
    | some ch => cases ch <;> rfl
  · intro ch a he
    cases hm
    cases ch with
    | toMain2 => cases he; rw [phase_is _ _ (by simp)]; simp only [offered_phases _ _ _ (.inr rfl)]; simp only [yes_iff]
    | toEnd => cases he; rw [phase_is _ _ (by simp)]; simp only [offered_end _ _ _ (.inr rfl)]; simp only [yes_iff]
    | _ => cases he; simp only [idleMeans, List.getElem?_map, Option.map_map]; rfl

/-! ## Numbers -/

private theorem taken_cards {α : Type} (c : Bool) (xs : List α) (f : List α → Decision) (bs : List UInt8) (h : bs.length = 4) :
    readCards c xs f bs = if num bs = 2 ^ 32 - 1 then (if c then some .decline else none) else none := by
  simp only [readCards, refuses bs h]
  split
  · rfl
  · simp [selectedCards, h]

private theorem taken_bits (o : Nat) (f : Nat → Decision) (bs : List UInt8) (h : bs.length = 4) :
    readBits o f bs = if Offered o (num bs) then some (f (num bs)) else none := by
  simp only [readBits, h, true_and]

private theorem taken_zones (m : UInt32) (p : UInt8) (bs : List UInt8) (h : bs.length = 4) : readZones m p bs = none := by
  obtain ⟨a, b, c, d, rfl, -⟩ := four bs h
  rfl

private theorem taken_order (cs : List (UInt32 × CardLocL)) (bs : List UInt8) (h : bs.length = 4) :
    readOrder cs bs = clientMeans (.sort (cs.map (·.2.place))) (numberTaken (num bs) (.sort (cs.map (·.2.place)))) := by
  simp only [readOrder, refuses bs h, numberTaken]
  split
  · rfl
  · obtain ⟨a, b, c, d, rfl, hn⟩ := four bs h
    have ha := a.toNat_lt; have hb := b.toNat_lt; have hc := c.toNat_lt; have hd := d.toNat_lt
    have e0 : num [a, b, c, d] % 256 = a.toNat := by rw [hn]; omega
    have e1 : num [a, b, c, d] / 256 % 256 = b.toNat := by rw [hn]; omega
    have e2 : num [a, b, c, d] / 65536 % 256 = c.toNat := by rw [hn]; omega
    have e3 : num [a, b, c, d] / 16777216 = d.toNat := by rw [hn]; omega
    simp only [sortedCards, e0, e1, e2, e3]
    by_cases h3 : a.toNat = 3
    · rw [h3]
      simp only [nums, num, List.length_cons, List.length_nil, List.take_succ_cons, List.take_zero, List.drop_succ_cons, List.drop_zero,
        Nat.reduceAdd, Nat.reduceLT, if_false, if_true, Option.map_some, Nat.mul_zero, Nat.add_zero, clientMeans, pick_map, Option.map_map]
      rfl
    · have : nums 1 a.toNat [b, c, d] = none := by
        cases hx : nums 1 a.toNat [b, c, d] with
        | none => rfl
        | some is =>
          have := nums_length _ _ _ _ hx
          simp at this
          omega
      rw [this, if_neg h3]
      rfl

private theorem taken_yes (bs : List UInt8) (h : bs.length = 4) (l : Place) (c : Nat) (e : Effect) :
    readYes bs = clientMeans (.selectYesNo l c e) (numberTaken (num bs) (.selectYesNo l c e)) := by
  have hl := num_lt bs
  rw [h] at hl
  simp only [readYes, oneNumber, h, if_true, numberTaken]
  split
  · next h0 =>
    have : num bs = 0 := by simp only [signed, Option.some.injEq] at h0; split at h0 <;> omega
    simp [this, clientMeans]
  · next h0 =>
    have : num bs = 1 := by simp only [signed, Option.some.injEq] at h0; split at h0 <;> omega
    simp [this, clientMeans]
  · next h0 h1 =>
    rw [if_neg, if_neg]
    · rfl
    · intro hx; apply h1; simp [hx, signed]
    · intro hx; apply h0; simp [hx, signed]

/-- Any four bytes are taken for the answer with their number. -/
theorem taken_number (m : CoreMsg) (who : Int) (r : Request) (hm : m.meaning = some (.request who r)) (bs : List UInt8) (h : bs.length = 4) :
    coreReads m bs = decides r (numberTaken (num bs) r) := by
  have hl := num_lt bs
  rw [h] at hl
  cases m <;> simp only [meaning, Option.some.injEq, reduceCtorEq, Meaning.request.injEq] at hm
  case selectBattlecmd =>
    obtain ⟨rfl, rfl⟩ := hm
    obtain ⟨f, h1, h2⟩ := battle_choice rfl
    rw [h1]
    exact (taken_idle _ bs h).2 rfl f h2
  case selectIdlecmd =>
    obtain ⟨rfl, rfl⟩ := hm
    obtain ⟨f, h1, h2⟩ := idle_choice rfl
    rw [h1]
    exact (taken_idle _ bs h).1 rfl f h2
  case selectCard p c mn mx cs =>
    obtain ⟨-, hr⟩ := hm
    simp only [coreReads, taken_cards _ _ _ bs h, ite_self]
    by_cases h0 : cs.head?.any (fun x => x.2.loc = 0) = true
    · rw [if_pos h0] at hr
      subst hr
      by_cases h1 : num bs = 2 ^ 32 - 1
      · simp [numberTaken, decides, h1, clientMeans, cardMeans, yes]
      · simp only [numberTaken, decides, h1, if_false]; rfl
    · rw [if_neg h0] at hr
      subst hr
      by_cases h1 : num bs = 2 ^ 32 - 1
      · simp [numberTaken, decides, h1, clientMeans, cardMeans, yes]
      · simp only [numberTaken, decides, h1, if_false]; rfl
  all_goals (obtain ⟨rfl, rfl⟩ := hm)
  case selectEffectyn => exact taken_yes bs h _ _ _
  case selectYesno => exact taken_yes bs h _ _ _
  case selectOption p os =>
    simp only [coreReads, indexed, h, if_true, numberTaken, decides, clientMeans, List.getElem?_map, Option.map_map]
    rfl
  case announceNumber p ns =>
    simp only [coreReads, indexed, h, if_true, numberTaken, decides, clientMeans, List.getElem?_map, Option.map_map]
    rfl
  case selectTribute p c mn mx cs =>
    simp only [coreReads, taken_cards _ _ _ bs h, numberTaken, decides]
    by_cases h1 : num bs = 2 ^ 32 - 1
    · simp [decides, h1, clientMeans, cardMeans, yes]
    · simp only [h1, if_false]; rfl
  case selectUnselectCard p f c mn mx ss us =>
    simp only [coreReads, refuses bs h, numberTaken]
    by_cases h1 : num bs = 2 ^ 32 - 1
    · simp [decides, h1, yes]
    · simp only [h1, if_false, steppedCard, h]; rfl
  case selectChain p s f t acts =>
    simp only [coreReads, refuses bs h, numberTaken]
    by_cases h1 : num bs = 2 ^ 32 - 1
    · simp only [h1, if_true, decides, clientMeans, yes_iff]
    · simp only [h1, if_false, indexed, h, if_true, decides, clientMeans, List.getElem?_map, Option.map_map]; rfl
  case selectPlace => exact taken_zones _ _ bs h
  case selectDisfield => exact taken_zones _ _ bs h
  case selectPosition => exact taken_bits _ _ bs h
  case announceRace => exact taken_bits _ _ bs h
  case announceAttrib => exact taken_bits _ _ bs h
  case sortChain => exact taken_order _ bs h
  case sortCard => exact taken_order _ bs h
  case rockPaperScissors p =>
    simp only [coreReads, oneNumber, h, if_true, numberTaken, decides, clientMeans]
    by_cases h0 : num bs = 1 ∨ num bs = 2 ∨ num bs = 3
    · have : signed (num bs) = num bs := by simp only [signed]; split <;> omega
      rw [this]
    · rw [if_neg, if_neg]
      · omega
      · simp only [signed]; split <;> omega

/-! ## Any response -/

/-- **C100.** Whatever the response, the core takes it for an answer that a client could have given, but for a selection of no cards. -/
theorem C100_any_response (m : CoreMsg) (who : Int) (r : Request) (hm : m.meaning = some (.request who r)) (bs : List UInt8)
    (h0 : selectedCards bs ≠ some []) : coreReads m bs = decides r (responseTaken r bs) := by
  by_cases h : bs.length = 4
  · rw [taken_number m who r hm bs h]
    simp only [responseTaken, h, if_true]
  have h1 : oneNumber bs = none := by rw [oneNumber, if_neg h]
  have cards : ∀ {α : Type} (c : Bool) (xs : List α) (f : List α → Decision), readCards c xs f bs =
      match selectedCards bs with
      | some is => (pick xs is).map f
      | none => none := by
    intro α c xs f
    simp only [readCards, h1, reduceCtorEq, if_false]
    cases selectedCards bs <;> rfl
  cases m <;> simp only [meaning, Option.some.injEq, reduceCtorEq, Meaning.request.injEq] at hm
  case selectCard p c mn mx cs =>
    obtain ⟨-, hr⟩ := hm
    simp only [coreReads, cards]
    by_cases hl : cs.head?.any (fun x => x.2.loc = 0) = true
    · rw [if_pos hl] at hr
      subst hr
      simp only [hl, if_true, responseTaken, if_neg h]
      cases hx : selectedCards bs with
      | none => rfl
      | some is =>
        have : is ≠ [] := fun h => h0 (by rw [hx, h])
        simp [decides, clientMeans, cardMeans, this, pick_map, Function.comp_def]
    · rw [if_neg hl] at hr
      subst hr
      simp only [hl, if_false, responseTaken, if_neg h]
      cases hx : selectedCards bs with
      | none => rfl
      | some is =>
        have : is ≠ [] := fun h => h0 (by rw [hx, h])
        simp [decides, clientMeans, cardMeans, this, pick_map, Function.comp_def]
  all_goals (obtain ⟨rfl, rfl⟩ := hm)
  case selectTribute p c mn mx cs =>
    simp only [coreReads, cards, responseTaken, if_neg h]
    cases hx : selectedCards bs with
    | none => rfl
    | some is =>
      have : is ≠ [] := fun h => h0 (by rw [hx, h])
      simp [decides, clientMeans, cardMeans, this, pick_map, Function.comp_def]
  case selectUnselectCard p f c mn mx ss us =>
    simp only [coreReads, h1, reduceCtorEq, if_false, responseTaken, if_neg h]
    cases hx : steppedCard bs with
    | none => rfl
    | some i =>
      simp only [decides, clientMeans, cardMeans]
      rw [← List.map_append, List.getElem?_map, Option.map_map]
      rfl
  case selectPlace p n m =>
    simp only [coreReads, readZones, responseTaken, if_neg h]
    cases hx : selectedZones bs with
    | none => rfl
    | some zs => simp only [decides, clientMeans, List.mem_map, forall_exists_index, and_imp, forall_apply_eq_imp_iff₂]
  case selectDisfield p n m =>
    simp only [coreReads, readZones, responseTaken, if_neg h]
    cases hx : selectedZones bs with
    | none => rfl
    | some zs => simp only [decides, clientMeans, List.mem_map, forall_exists_index, and_imp, forall_apply_eq_imp_iff₂]
  case sortChain p cs =>
    simp only [coreReads, readOrder, h1, reduceCtorEq, if_false, responseTaken, if_neg h]
    cases hx : sortedCards bs with
    | none => rfl
    | some is => simp only [decides, clientMeans, pick_map, Option.map_map]; rfl
  case sortCard p cs =>
    simp only [coreReads, readOrder, h1, reduceCtorEq, if_false, responseTaken, if_neg h]
    cases hx : sortedCards bs with
    | none => rfl
    | some is => simp only [decides, clientMeans, pick_map, Option.map_map]; rfl
  all_goals simp only [coreReads, readBattle, readIdle, readYes, indexed, readBits, h1, h, if_false, false_and, Option.map_none,
    responseTaken, decides, clientMeans, reduceCtorEq]

/-- **C100.** A selection of no cards is taken for that, which no answer can say. -/
theorem C100_no_cards (p c : UInt8) (mn mx : UInt32) (cs : List (UInt32 × LocInfo)) (bs : List UInt8) (h : selectedCards bs = some []) :
    coreReads (.selectCard p c mn mx cs) bs = some (.codes []) ∨ coreReads (.selectCard p c mn mx cs) bs = some (.cards []) := by
  simp only [coreReads, readCards, if_neg (selected_length h), h]
  split
  · exact .inl rfl
  · exact .inr rfl

/-! ## Other answers -/

private theorem number_written (r : Request) (a : Answer) (v : Int) (h : theNumber a = some v) (out : List UInt8) :
    decodeOneAnswer r a out = .ok (responseI v) := by
  cases a with
  | selectCard a => cases a <;> simp only [theNumber, reduceCtorEq, Option.some.injEq] at h <;> subst h <;> rfl
  | selectToChain a => cases a <;> simp only [theNumber, reduceCtorEq, Option.some.injEq] at h <;> subst h <;> rfl
  | sort a => cases a <;> simp only [theNumber, reduceCtorEq, Option.some.injEq] at h <;> subst h <;> rfl
  | _ => simp only [theNumber, reduceCtorEq, Option.some.injEq] at h <;> subst h <;> rfl

private theorem packed_number (i t : Nat) (ht : t < 65536) :
    (((i &&& 0xFFFF) <<< 16 ||| (t &&& 0xFFFF) : Nat) : Int) = ((i % 65536 * 65536 + t : Nat) : Int) := by
  have e1 : i &&& 0xFFFF = i % 65536 := Nat.and_two_pow_sub_one_eq_mod i 16
  have e2 : t &&& 0xFFFF = t := (Nat.and_two_pow_sub_one_eq_mod t 16).trans (Nat.mod_eq_of_lt ht)
  rw [e1, e2, Nat.shiftLeft_eq, show (2 : Nat) ^ 16 = 65536 from rfl, Nat.mul_comm]
  exact congrArg _ (Nat.two_pow_add_eq_or_of_lt (i := 16) ht (i % 65536)).symm

private theorem idle_written (s : SelectIdle) (a : AnswerIdle) (hm : ¬ Misplaced (.selectIdle s) (.selectIdle a))
    (hs : ¬ SaysNothing (.selectIdle s) (.selectIdle a)) (out : List UInt8) :
    ∃ v : Int, decodeOneAnswer (.selectIdle s) (.selectIdle a) out = .ok (responseI v) ∧
      numberTaken (v % 2 ^ 32).toNat (.selectIdle s) = .selectIdle (idleTaken s.isBattleCmd a) := by
  cases a with
  | unset => exact absurd trivial hs
  | shuffle b =>
    refine ⟨8, rfl, ?_⟩
    cases hb : s.isBattleCmd <;> simp [numberTaken, hb, idleTaken]
  | phase p =>
    cases hb : s.isBattleCmd
    · have hb' : Request.isBattleCmd (.selectIdle s) = false := hb
      simp only [SaysNothing, inBattle_iff, hb', Bool.false_eq_true, false_implies, true_and, not_false_eq_true, true_implies, not_and] at hs
      by_cases h7 : p.testBit 7 = true
      · refine ⟨6, ?_, by simp [numberTaken, hb, idleTaken, h7]⟩
        have := (phase_bit7 p).mpr h7
        simp only [decodeOneAnswer, Request.isSelectIdle, massert, hb', if_true, Bool.false_eq_true, if_false, this, ne_eq, not_false_eq_true]
        rfl
      · have h9 : p.testBit 9 = true := by
          cases h : p.testBit 9
          · exact absurd (by simpa using h7) (hs h)
          · rfl
        refine ⟨7, ?_, by simp [numberTaken, hb, idleTaken, h7, h9]⟩
        have := (phase_bit9 p).mpr h9
        have h7' := Classical.not_not.mp (mt (phase_bit7 p).mp h7)
        simp only [decodeOneAnswer, Request.isSelectIdle, massert, hb', if_true, Bool.false_eq_true, if_false, this, h7', ne_eq, not_false_eq_true, not_true_eq_false]
        rfl
    · have hb' : Request.isBattleCmd (.selectIdle s) = true := hb
      simp only [SaysNothing, inBattle_iff, hb', not_true_eq_false, false_implies, and_true, true_implies, not_and] at hs
      by_cases h9 : p.testBit 9 = true
      · refine ⟨3, ?_, by simp [numberTaken, hb, idleTaken, h9]⟩
        have := (phase_bit9 p).mpr h9
        simp only [decodeOneAnswer, Request.isSelectIdle, massert, hb', if_true, this, ne_eq, not_false_eq_true]
        rfl
      · have h8 : p.testBit 8 = true := by
          cases h : p.testBit 8
          · exact absurd h (hs (by simpa using h9))
          · rfl
        refine ⟨2, ?_, by simp [numberTaken, hb, idleTaken, h8, h9]⟩
        have := (phase_bit8 p).mpr h8
        have h9' := Classical.not_not.mp (mt (phase_bit9 p).mp h9)
        simp only [decodeOneAnswer, Request.isSelectIdle, massert, hb', if_true, this, h9', if_false, ne_eq, not_false_eq_true, not_true_eq_false]
        rfl
  | cardAction act i =>
    have h1 : act ≠ .shuffle := fun h => hm (.inr ⟨i, .inl (by rw [h])⟩)
    have h2 : act ≠ .phase := fun h => hm (.inr ⟨i, .inr (by rw [h])⟩)
    have hl : actionCode s.isBattleCmd act < 65536 := by cases s.isBattleCmd <;> cases act <;> simp [actionCode]
    have key : decodeOneAnswer (.selectIdle s) (.selectIdle (.cardAction act i)) out =
        .ok (responseI ((i % 65536 * 65536 + actionCode s.isBattleCmd act : Nat) : Int)) := by
      rw [← packed_number i _ hl]
      simp only [decodeOneAnswer, Request.isSelectIdle, massert, h1, h2, if_true, ne_eq, not_false_eq_true]
      rfl
    have low : (((i % 65536 * 65536 + actionCode s.isBattleCmd act : Nat) : Int) % 2 ^ 32).toNat % 65536 = actionCode s.isBattleCmd act := by
      omega
    have high : (((i % 65536 * 65536 + actionCode s.isBattleCmd act : Nat) : Int) % 2 ^ 32).toNat / 65536 = i % 65536 := by omega
    refine ⟨_, key, ?_⟩
    simp only [numberTaken, low, high]
    cases s.isBattleCmd <;> cases act <;> first | rfl | exact absurd rfl h1 | exact absurd rfl h2

private theorem cards_written (is : List Nat) :
    selectedCards (writeLE 4 1 ++ writeLE 4 is.length ++ is.flatMap fun (i : Nat) => writeLE 2 i) =
      if is.length < 2 ^ 32 then some (is.map (· % 2 ^ 16)) else none := by
  split
  · next h => exact selectedCards_bytes is h
  · next h =>
    cases hx : selectedCards (writeLE 4 1 ++ writeLE 4 is.length ++ is.flatMap fun (i : Nat) => writeLE 2 i) with
    | none => rfl
    | some js =>
      have hl := writeLE_length 4 1
      have hl' := writeLE_length 4 is.length
      have hf : (is.flatMap fun (i : Nat) => writeLE 2 i).length = 2 * is.length := by
        clear hx h hl'
        induction is with
        | nil => rfl
        | cons i is ih => rw [List.flatMap_cons, List.length_append, ih, writeLE_length, List.length_cons]; omega
      unfold selectedCards at hx
      split at hx
      · have h1 := nums_length _ _ _ _ hx
        have h2 := num_lt (((writeLE 4 1 ++ writeLE 4 (is.length : Int) ++ is.flatMap fun (i : Nat) => writeLE 2 i).drop 4).take 4)
        have h3 : ((((writeLE 4 1 ++ writeLE 4 (is.length : Int) ++ is.flatMap fun (i : Nat) => writeLE 2 i).drop 4).take 4)).length ≤ 4 :=
          List.length_take_le _ _
        have h4 := Nat.pow_le_pow_right (n := 256) (by decide) h3
        rw [List.length_drop, List.length_append, List.length_append, hl, hl', hf] at h1
        omega
      · cases hx

private theorem order_written (is : List Nat) :
    sortedCards (writeLE 1 is.length ++ is.flatMap fun (i : Nat) => writeLE 1 i) =
      if is.length < 2 ^ 8 then some (is.map (· % 2 ^ 8)) else none := by
  split
  · next h =>
    obtain ⟨bs, h1, h2⟩ := C47_sorted_mod (.sort []) is h []
    cases h1
    exact h2
  · next h =>
    cases hx : sortedCards (writeLE 1 is.length ++ is.flatMap fun (i : Nat) => writeLE 1 i) with
    | none => rfl
    | some js =>
      have hf : (is.flatMap fun (i : Nat) => writeLE 1 i).length = is.length := by
        clear hx h
        induction is with
        | nil => rfl
        | cons i is ih => rw [List.flatMap_cons, List.length_append, ih, writeLE_length, List.length_cons]; omega
      simp only [writeLE, List.cons_append, List.nil_append, sortedCards] at hx
      have h1 := nums_length _ _ _ _ hx
      have h2 := (UInt8.ofNat ((is.length : Int) % 256).toNat).toNat_lt
      simp only [writeLE] at hf
      omega

private theorem order_not_refused (is : List Nat) (h : ¬ is.length < 2 ^ 8) :
    oneNumber (writeLE 1 is.length ++ is.flatMap fun (i : Nat) => writeLE 1 i) ≠ some (-1) := by
  apply oneNumber_none
  have hf : (is.flatMap fun (i : Nat) => writeLE 1 i).length = is.length := by
    clear h
    induction is with
    | nil => rfl
    | cons i is ih => rw [List.flatMap_cons, List.length_append, ih, writeLE_length, List.length_cons]; omega
  rw [List.length_append, writeLE_length, hf]
  omega

private theorem order_taken (cs : List (UInt32 × CardLocL)) (is : List Nat) :
    readOrder cs (writeLE 1 is.length ++ is.flatMap fun (i : Nat) => writeLE 1 i) =
      clientMeans (.sort (cs.map (·.2.place))) (if is.length < 2 ^ 8 then .sort (.indexes (is.map (· % 2 ^ 8))) else .unset) := by
  by_cases h : is.length < 2 ^ 8
  · have hs := order_written is
    rw [if_pos h] at hs
    rw [readOrder, if_neg (sorted_length hs), hs, if_pos h]
    simp only [clientMeans, pick_map, Option.map_map]
    rfl
  · have hs := order_written is
    rw [if_neg h] at hs
    rw [readOrder, if_neg (order_not_refused is h), hs, if_neg h]
    rfl

private theorem cards_taken {α : Type} (c : Bool) (xs : List α) (f : List α → Decision) (is : List Nat) :
    readCards c xs f (writeLE 4 1 ++ writeLE 4 is.length ++ is.flatMap fun (i : Nat) => writeLE 2 i) =
      if is.length < 2 ^ 32 then (pick xs (is.map (· % 2 ^ 16))).map f else none := by
  rw [readCards, if_neg, cards_written]
  · by_cases h : is.length < 2 ^ 32
    · simp only [if_pos h]
    · simp only [if_neg h]
  · apply oneNumber_none
    rw [List.length_append, List.length_append, writeLE_length, writeLE_length]
    omega

private theorem zones_taken (mask : UInt32) (con : UInt8) (ps : List Place) (r : Request) (out : List UInt8) :
    ∃ bs, decodeOneAnswer r (.selectZone ps) out = .ok bs ∧
      readZones mask con bs = if ∀ q ∈ ps.map zoneTaken, q ∈ clearBits mask con then some (.zones (ps.map zoneTaken)) else none := by
  obtain ⟨bs, h1, h2⟩ := C49_bytes r ps out
  refine ⟨bs, h1, ?_⟩
  rw [readZones, h2]
  simp only [List.map_map, List.mem_map, forall_exists_index, and_imp, forall_apply_eq_imp_iff₂]
  rfl

private theorem zoneBytes_is (ps : List Place) :
    zoneBytes ps = ps.flatMap fun p => writeLE 1 p.con ++ writeLE 1 p.loc ++ writeLE 1 p.seq := rfl

private theorem orderBytes_is (is : List Nat) : orderBytes is = writeLE 1 is.length ++ is.flatMap fun (i : Nat) => writeLE 1 i := by
  simp only [orderBytes, writeLE, byte, List.cons_append, List.nil_append, List.flatMap_singleton']
  congr 1
  induction is with
  | nil => rfl
  | cons i is ih => rw [List.map_cons, List.flatMap_cons, ih]; rfl

private theorem zoneBytes_length (ps : List Place) : (zoneBytes ps).length = 3 * ps.length := by
  induction ps with
  | nil => rfl
  | cons p ps ih =>
    rw [zoneBytes, List.flatMap_cons, List.length_append] at *
    rw [ih]
    simp
    omega

private theorem no_cards {bs : List UInt8} (h : selectedCards bs = some []) : bs.length = 8 ∧ num (bs.take 4) = 1 := by
  unfold selectedCards at h
  split at h
  · next h1 =>
    have h2 := nums_lt _ _ _ _ h
    have h3 := nums_length _ _ _ _ h
    rw [← h2.1, List.length_drop] at h3
    simp at h3
    exact ⟨by omega, h1.2⟩
  · cases h

private theorem zones_some (ps : List Place) : selectedCards (zoneBytes ps) ≠ some [] := by
  intro h
  have := (no_cards h).1
  rw [zoneBytes_length] at this
  omega

private theorem order_some (is : List Nat) : selectedCards (orderBytes is) ≠ some [] := by
  intro h
  obtain ⟨h1, h2⟩ := no_cards h
  have hl : is.length = 7 := by simpa [orderBytes] using h1
  simp only [orderBytes, List.take_succ_cons, num, hl] at h2
  have : (byte ((7 : Nat) : Int)).toNat = 7 := by decide
  omega

private theorem zones_crossed (m : CoreMsg) (who : Int) (r : Request) (hm : m.meaning = some (.request who r)) (ps : List Place)
    (h : takenFor r (.selectZone ps) = responseTaken r (zoneBytes ps)) (out : List UInt8) :
    ∃ bs, decodeOneAnswer r (.selectZone ps) out = .ok bs ∧ coreReads m bs = takes r (.selectZone ps) :=
  ⟨_, rfl, by rw [takes, h, ← zoneBytes_is]; exact C100_any_response m who r hm _ (zones_some ps)⟩

private theorem order_crossed (m : CoreMsg) (who : Int) (r : Request) (hm : m.meaning = some (.request who r)) (a : AnswerSort) (is : List Nat)
    (ha : a = .indexes is ∨ a = .unset ∧ is = []) (h : takenFor r (.sort a) = responseTaken r (orderBytes is)) (out : List UInt8) :
    ∃ bs, decodeOneAnswer r (.sort a) out = .ok bs ∧ coreReads m bs = takes r (.sort a) := by
  refine ⟨orderBytes is, ?_, by rw [takes, h]; exact C100_any_response m who r hm _ (order_some is)⟩
  rcases ha with rfl | ⟨rfl, rfl⟩
  · rw [orderBytes_is]; rfl
  · rfl

/-- **C100.** What the core takes any answer for, whatever was asked: but for answers that abort or say nothing (C80). -/
theorem C100_taken (m : CoreMsg) (who : Int) (r : Request) (hm : m.meaning = some (.request who r)) (a : Answer) (ha : ¬ Misplaced r a)
    (hs : ¬ SaysNothing r a) (out : List UInt8) : ∃ bs, decodeOneAnswer r a out = .ok bs ∧ coreReads m bs = takes r a := by
  cases hn : theNumber a with
  | some v =>
    refine ⟨_, number_written r a v hn out, ?_⟩
    obtain ⟨h1, h2⟩ := response_num v
    rw [taken_number m who r hm _ h1, h2]
    simp only [takes, takenFor, hn]
  | none =>
    cases a with
    | selectIdle a =>
      cases r <;> try (exfalso; apply ha; left; simp [AsksAction]; done)
      case selectIdle s =>
      obtain ⟨v, h1, h2⟩ := idle_written s a ha hs out
      obtain ⟨h3, h4⟩ := response_num v
      refine ⟨_, h1, ?_⟩
      rw [taken_number m who _ hm _ h3, h4, h2]
      rfl
    | selectZone ps =>
      by_cases hz : ∃ b n qs, r = .selectZone b n qs
      · cases m <;> simp only [meaning, Option.some.injEq, reduceCtorEq, Meaning.request.injEq] at hm
        all_goals (obtain ⟨rfl, rfl⟩ := hm)
        all_goals try (simp at hz; done)
        case selectPlace p n m =>
          obtain ⟨bs, h1, h2⟩ := zones_taken m p ps (.selectZone false n.toNat (clearBits m p)) out
          exact ⟨bs, h1, h2⟩
        case selectDisfield p n m =>
          obtain ⟨bs, h1, h2⟩ := zones_taken m p ps (.selectZone true n.toNat (clearBits m p)) out
          exact ⟨bs, h1, h2⟩
      · refine zones_crossed m who r hm ps ?_ out
        cases r <;> first | rfl | (simp at hz; done) | skip
        case selectCard s => cases s <;> rfl
    | sort a =>
      by_cases hz : ∃ ps, r = .sort ps
      · cases a with
        | skip b => cases hn
        | unset =>
          cases m <;> simp only [meaning, Option.some.injEq, reduceCtorEq, Meaning.request.injEq] at hm
          all_goals (obtain ⟨rfl, rfl⟩ := hm)
          all_goals try (simp at hz; done)
          all_goals exact ⟨_, rfl, rfl⟩
        | indexes is =>
          cases m <;> simp only [meaning, Option.some.injEq, reduceCtorEq, Meaning.request.injEq] at hm
          all_goals (obtain ⟨rfl, rfl⟩ := hm)
          all_goals try (simp at hz; done)
          all_goals exact ⟨_, rfl, order_taken _ is⟩
      · cases a with
        | skip b => cases hn
        | unset =>
          refine order_crossed m who r hm .unset [] (.inr ⟨rfl, rfl⟩) ?_ out
          cases r <;> first | rfl | (simp at hz; done) | skip
          case selectCard s => cases s <;> rfl
        | indexes is =>
          refine order_crossed m who r hm (.indexes is) is (.inl rfl) ?_ out
          cases r <;> first | rfl | (simp at hz; done) | skip
          case selectCard s => cases s <;> rfl
    | selectCard a =>
      cases a with
      | unset => exact absurd trivial hs
      | cancel b => cases hn
      | finish b => cases hn
      | indexes is =>
        have h0 : is ≠ [] := fun h => ha (.inl h)
        have h0' : 0 < is.length := List.length_pos_iff.mpr h0
        cases m <;> simp only [meaning, Option.some.injEq, reduceCtorEq, Meaning.request.injEq] at hm
        case selectCard p c mn mx cs =>
          obtain ⟨-, hr⟩ := hm
          by_cases hl : cs.head?.any (fun x => x.2.loc = 0) = true
          · rw [if_pos hl] at hr
            subst hr
            refine ⟨_, decode_at_once _ (by exact trivial) is h0 out, ?_⟩
            simp only [coreReads, if_pos hl, cards_taken, takes, decides, takenFor, theNumber]
            split
            · simp [clientMeans, cardMeans, h0, pick_map, Function.comp_def]
            · rfl
          · rw [if_neg hl] at hr
            subst hr
            refine ⟨_, decode_at_once _ (by exact trivial) is h0 out, ?_⟩
            simp only [coreReads, if_neg hl, cards_taken, takes, decides, takenFor, theNumber]
            split
            · simp [clientMeans, cardMeans, h0, pick_map, Function.comp_def]
            · rfl
        all_goals (obtain ⟨rfl, rfl⟩ := hm)
        all_goals try (exfalso; apply ha; right; simp [AsksCards]; done)
        case selectTribute p c mn mx cs =>
          refine ⟨_, decode_at_once _ (by exact trivial) is h0 out, ?_⟩
          simp only [coreReads, cards_taken, takes, decides, takenFor, theNumber]
          split
          · simp [clientMeans, cardMeans, h0, pick_map, Function.comp_def]
          · rfl
        case selectUnselectCard p f c mn mx ss us =>
          cases is with
          | nil => exact absurd rfl h0
          | cons i is =>
            have hd : decodeOneAnswer (.selectCard (.recursive (yes f) (yes c) mn.toNat mx.toNat
                (ss.map fun x => ⟨x.2.place, x.1.toNat⟩) (us.map fun x => ⟨x.2.place, x.1.toNat⟩))) (.selectCard (.indexes (i :: is))) out =
                .ok (writeLE 4 1 ++ writeLE 4 i) := by
              simp only [decodeOneAnswer, massert, List.length_cons, Nat.zero_lt_succ, if_true]; rfl
            refine ⟨_, hd, ?_⟩
            have hw : steppedCard (writeLE 4 1 ++ writeLE 4 i) = some (i % 2 ^ 32) := by
              have h1 : (writeLE 4 1 ++ writeLE 4 (i : Int)).drop 4 = writeLE 4 i := rfl
              have h2 : (writeLE 4 1 ++ writeLE 4 (i : Int)).take 4 = writeLE 4 1 := rfl
              rw [steppedCard, if_pos ⟨by rw [List.length_append, writeLE_length, writeLE_length], by rw [h2]; decide⟩, h1, num_writeLE_nat]
              rfl
            rw [coreReads, if_neg (stepped_length hw), hw]
            simp only [takes, decides, takenFor, theNumber, clientMeans, cardMeans]
            rw [← List.map_append, List.getElem?_map, Option.map_map]
            rfl
    | selectToChain a =>
      cases a with
      | unset => exact absurd trivial hs
      | _ => cases hn
    | unset => exact absurd trivial hs
    | selectCounter v => exact absurd trivial hs
    | _ => cases hn

/-- **C100.** So these are exactly the answers on which the core decides as the client did. -/
theorem C100_exactly (m : CoreMsg) (who : Int) (r : Request) (hm : m.meaning = some (.request who r)) (a : Answer) (ha : ¬ Misplaced r a)
    (hs : ¬ SaysNothing r a) (out : List UInt8) :
    (∃ bs, decodeOneAnswer r a out = .ok bs ∧ coreReads m bs = clientMeans r a) ↔ takes r a = clientMeans r a := by
  obtain ⟨bs, h1, h2⟩ := C100_taken m who r hm a ha hs out
  constructor
  · rintro ⟨bs', h3, h4⟩
    rw [h1, Except.ok.injEq] at h3
    rw [← h2, h3, h4]
  · exact fun h => ⟨bs, h1, h2.trans h⟩

/-- **C100.** In the battle phase, changing the position of a monster goes to the second main phase, and setting one ends the turn. -/
theorem C100_leaves_battle (p : UInt8) (acts : List (Activable CardLoc)) (atks : List (UInt32 × CardLocS × UInt8)) (m e : UInt8)
    (who : Int) (r : Request) (hm : (CoreMsg.selectBattlecmd p acts atks m e).meaning = some (.request who r)) (i : Nat) (out : List UInt8) :
    (clientMeans r (.selectIdle (.cardAction .reposition i)) = none ∧
      ∃ bs, decodeOneAnswer r (.selectIdle (.cardAction .reposition i)) out = .ok bs ∧
        coreReads (.selectBattlecmd p acts atks m e) bs = if m ≠ 0 then some (.phase 0x100) else none) ∧
    clientMeans r (.selectIdle (.cardAction .mset i)) = none ∧
      ∃ bs, decodeOneAnswer r (.selectIdle (.cardAction .mset i)) out = .ok bs ∧
        coreReads (.selectBattlecmd p acts atks m e) bs = if e ≠ 0 then some (.phase 0x200) else none := by
  have go : ∀ act q, act ≠ .shuffle → act ≠ .phase → takes r (.selectIdle (.cardAction act i)) = q →
      ∃ bs, decodeOneAnswer r (.selectIdle (.cardAction act i)) out = .ok bs ∧ coreReads (.selectBattlecmd p acts atks m e) bs = q := by
    intro act q h1 h2 hq
    subst hq
    refine C100_taken _ who r hm _ ?_ ?_ out
    · cases hm; simp [Misplaced, AsksAction, h1, h2]
    · simp [SaysNothing]
  refine ⟨⟨by cases hm; rfl, go _ _ (by simp) (by simp) ?_⟩, by cases hm; rfl, go _ _ (by simp) (by simp) ?_⟩
  · cases hm
    show idleMeans _ (.phase 0x100) = _
    rw [phase_is _ _ (by simp)]; simp only [offered_phases _ _ _ (.inr rfl)]; simp only [yes_iff]
  · cases hm
    show idleMeans _ (.phase 0x200) = _
    rw [phase_is _ _ (by simp)]; simp only [offered_end _ _ _ (.inr rfl)]; simp only [yes_iff]

/-! Non-vacuity: a number given to an order of three cards, a yes given to a list of chain links, and an effect given when idle. -/

example : takes (.sort [⟨0, 2, 0, -1⟩, ⟨0, 2, 1, -1⟩, ⟨0, 2, 2, -1⟩]) (.selectNumber (3 + 256 * 2 + 16777216)) =
    some (.order [⟨0, 2, 2, -1⟩, ⟨0, 2, 0, -1⟩, ⟨0, 2, 1, -1⟩]) := by decide

example : takes (.selectIdle { summonable := [⟨0, 2, 0, -1⟩, ⟨0, 2, 4, -1⟩] }) (.selectEffect 65536) =
    some (.act .summon ⟨0, 2, 4, -1⟩ none) := by decide

example : takes (.selectCard (.recursive false true 1 1 [] [])) (.selectYesNo true) = none ∧
    takes (.selectCard (.recursive false true 1 1 [] [])) (.selectRockPaperScissors (-1)) = some .decline := by decide

example : takes (.selectZone false 1 [⟨0, 0x100, 0, -1⟩]) (.selectZone [⟨256, 8, 5, 3⟩]) = some (.zones [⟨0, 0x100, 0, -1⟩]) := by decide

example : ¬ Misplaced (.selectIdle {}) (.selectEffect 65536) ∧ ¬ SaysNothing (.selectIdle {}) (.selectEffect 65536) := by
  simp [Misplaced, SaysNothing]

/-! Four zones that are taken for two cards. -/

example : takes (.selectCard (.limbo false 1 2 [70, 71, 72, 73])) (.selectZone [⟨1, 0, 0, -1⟩, ⟨0, 2, 0, -1⟩, ⟨0, 0, 3, -1⟩, ⟨0, 1, 0, -1⟩]) =
    some (.codes [73, 71]) := by decide

/-! An order of three that is taken for a summon of the third monster. -/

example : takes (.selectIdle { msetable := [⟨0, 2, 0, -1⟩, ⟨0, 2, 1, -1⟩, ⟨0, 2, 2, -1⟩] }) (.sort (.indexes [0, 2, 0])) =
    some (.act .mset ⟨0, 2, 2, -1⟩ none) := by decide

end Ygo.Props
