import Verif.Props.Decode
import Verif.Props.Encode
import Verif.Spec.Dialog

/-!
# Questions and answers, from the core to a client and back (C72)
-/

set_option linter.unusedSimpArgs false

namespace Ygo.Props
open Ygo Ygo.Spec Ygo.Spec.CoreMsg

/-! ## Lists -/

theorem pick_map {α β : Type} (f : α → β) (xs : List α) (is : List Nat) : pick (xs.map f) is = (pick xs is).map (·.map f) := by
  induction is with
  | nil => rfl
  | cons i is ih =>
    simp only [pick, ih, List.getElem?_map]
    cases xs[i]? <;> cases pick xs is <;> rfl

theorem pick_nil {α : Type} {xs : List α} {is : List Nat} (h : pick xs is = some []) : is = [] := by
  cases is with
  | nil => rfl
  | cons i is =>
    simp only [pick] at h
    split at h <;> simp at h

theorem num_lt (bs : List UInt8) : num bs < 256 ^ bs.length := by
  induction bs with
  | nil => simp [num]
  | cons b bs ih =>
    have := b.toNat_lt
    simp only [num, List.length_cons, Nat.pow_succ]
    omega

theorem nums_lt (k n : Nat) (bs : List UInt8) (is : List Nat) (h : nums k n bs = some is) :
    is.length = n ∧ ∀ i ∈ is, i < 256 ^ k := by
  induction n generalizing bs is with
  | zero =>
    simp only [nums] at h
    split at h
    · cases h; simp
    · cases h
  | succ n ih =>
    simp only [nums] at h
    split at h
    · cases h
    · next hk =>
      rw [Option.map_eq_some_iff] at h
      obtain ⟨js, hj, rfl⟩ := h
      obtain ⟨h1, h2⟩ := ih _ _ hj
      refine ⟨by simp [h1], ?_⟩
      intro i hi
      rcases List.mem_cons.mp hi with rfl | hi
      · have := num_lt (bs.take k)
        rwa [List.length_take, Nat.min_eq_left (by omega)] at this
      · exact h2 i hi

theorem num_response (v : Nat) (h : v < 2 ^ 32) : (responseI v).length = 4 ∧ num (responseI v) = v := by
  refine ⟨writeLE_length 4 v, ?_⟩
  rw [show responseI v = writeLE 4 v from rfl, num_writeLE_nat, Nat.mod_eq_of_lt (by omega)]

theorem indexed_response {α : Type} (xs : List α) (i : Nat) (h : i < 2 ^ 32) : indexed xs (responseI i) = xs[i]? := by
  obtain ⟨h1, h2⟩ := num_response i h
  rw [indexed, if_pos h1, h2]

/-! ## Zones -/

theorem clearBits_shape {mask : UInt32} {con : UInt8} {p : Place} (h : p ∈ clearBits mask con) : 0 ≤ p.con ∧ p.con < 256 ∧ p.oseq = -1 ∧
    (p.loc = 4 ∧ p.seq < 7 ∨ p.loc = 8 ∧ p.seq < 5 ∨ p.loc = 0x100 ∧ p.seq = 0 ∨ p.loc = 0x200 ∧ p.seq < 2) := by
  have one : ∀ (c : UInt8) (bit : Nat → Bool), p ∈ clearZones c.toNat bit → 0 ≤ p.con ∧ p.con < 256 ∧ p.oseq = -1 ∧
      (p.loc = 4 ∧ p.seq < 7 ∨ p.loc = 8 ∧ p.seq < 5 ∨ p.loc = 0x100 ∧ p.seq = 0 ∨ p.loc = 0x200 ∧ p.seq < 2) := by
    intro c bit hp
    have hc := c.toNat_lt
    unfold clearZones at hp
    rw [List.mem_filterMap] at hp
    obtain ⟨⟨i, loc, seq⟩, hm, hp⟩ := hp
    simp only at hp
    split at hp
    · cases hp
    · cases Option.some.inj hp
      simp only [List.mem_cons, Prod.mk.injEq, List.not_mem_nil, or_false] at hm
      refine ⟨by simp, by simp only; omega, rfl, ?_⟩
      simp only
      omega
  unfold clearBits at h
  rcases List.mem_append.mp h with h | h <;> exact one _ _ h

theorem zone_place {mask : UInt32} {con : UInt8} {p : Place} (h : p ∈ clearBits mask con) (hl : p.loc = 4 ∨ p.loc = 8) :
    CoreZone.place ⟨(p.con % 256).toNat, p.loc % 256, p.seq % 256⟩ = p := by
  obtain ⟨h0, h1, h2, h3⟩ := clearBits_shape h
  obtain ⟨c, l, s, o⟩ := p
  simp only at *
  subst h2
  have hc : (((c % 256).toNat : Nat) : Int) = c := by omega
  have hs : s % 256 = s := Nat.mod_eq_of_lt (by omega)
  have hl' : l % 256 = l := Nat.mod_eq_of_lt (by omega)
  unfold CoreZone.place
  simp only [hc, hs, hl']
  rw [if_neg (by omega), if_neg (by omega)]

theorem zones_back (mask : UInt32) (con : UInt8) (ps : List Place) (hm : ∀ p ∈ ps, p ∈ clearBits mask con)
    (hw : ∀ p ∈ ps, p.loc = 4 ∨ p.loc = 8) (r : Request) (out : List UInt8) :
    ∃ bs, decodeOneAnswer r (.selectZone ps) out = .ok bs ∧ readZones mask con bs = some (.zones ps) := by
  obtain ⟨bs, h1, h2⟩ := C49_bytes r ps out
  refine ⟨bs, h1, ?_⟩
  have e : (ps.map fun p => (⟨(p.con % 256).toNat, p.loc % 256, p.seq % 256⟩ : CoreZone)).map CoreZone.place = ps := by
    rw [List.map_map]
    refine (List.map_congr_left fun p hp => ?_).trans (List.map_id ps)
    exact zone_place (hm p hp) (hw p hp)
  rw [readZones, h2]
  simp only [e]
  rw [if_pos]
  intro z hz
  obtain ⟨p, hp, rfl⟩ := List.mem_map.mp hz
  rw [zone_place (hm p hp) (hw p hp)]
  exact hm p hp

/-! ## Bits -/

theorem offered_lt {o v n : Nat} (h : Offered o v) (ho : o < n) : v < n := by
  have : v &&& o ≤ o := Nat.and_le_right
  rw [h.2] at this
  omega

theorem bits_back (o v : Nat) (f : Nat → Decision) (h : Offered o v) (hv : v < 2 ^ 32) : readBits o f (responseI v) = some (f v) := by
  obtain ⟨h1, h2⟩ := num_response v hv
  rw [readBits, h2, if_pos ⟨h1, h⟩]

/-! ## Selections -/

theorem declined_response : oneNumber (responseI (-1)) = some (-1) := by decide

theorem oneNumber_none {bs : List UInt8} (h : bs.length ≠ 4) : oneNumber bs ≠ some (-1) := by
  rw [oneNumber, if_neg h]; simp

theorem selected_length {bs : List UInt8} {is : List Nat} (h : selectedCards bs = some is) : oneNumber bs ≠ some (-1) := by
  apply oneNumber_none
  unfold selectedCards at h
  split at h
  · omega
  · cases h

theorem stepped_length {bs : List UInt8} {i : Nat} (h : steppedCard bs = some i) : oneNumber bs ≠ some (-1) := by
  apply oneNumber_none
  unfold steppedCard at h
  split at h
  · omega
  · cases h

theorem nums_length (k n : Nat) (bs : List UInt8) (is : List Nat) (h : nums k n bs = some is) : bs.length = k * n := by
  induction n generalizing bs is with
  | zero =>
    simp only [nums] at h
    split at h
    · next h0 => simp [h0]
    · cases h
  | succ n ih =>
    simp only [nums] at h
    split at h
    · cases h
    · next hk =>
      rw [Option.map_eq_some_iff] at h
      obtain ⟨js, hj, rfl⟩ := h
      have := ih _ _ hj
      rw [List.length_drop] at this
      rw [Nat.mul_succ]
      omega

theorem sorted_length {bs : List UInt8} {is : List Nat} (h : sortedCards bs = some is) : oneNumber bs ≠ some (-1) := by
  intro h1
  unfold oneNumber at h1
  split at h1
  · next hl =>
    match bs, hl with
    | [a, b, c, d], _ =>
      have h2 := nums_length 1 _ _ _ h
      have key : ∀ n : Nat, signed n = -1 → n % 256 = 255 := by
        intro n h
        unfold signed at h
        split at h <;> omega
      have h3 := key _ (Option.some.inj h1)
      have ha := a.toNat_lt
      simp only [List.length_cons, List.length_nil] at h2
      simp only [num] at h3
      omega
  · cases h1

theorem cards_back {α : Type} (c : Bool) (xs : List α) (f : List α → Decision) (r : Request) (hr : AtOnce r) (is : List Nat) (h0 : is ≠ [])
    (hn : is.length < 2 ^ 32) (hi : ∀ i ∈ is, i < 2 ^ 16) (out : List UInt8) :
    ∃ bs, decodeOneAnswer r (.selectCard (.indexes is)) out = .ok bs ∧ readCards c xs f bs = (pick xs is).map f := by
  obtain ⟨bs, h1, h2⟩ := C47_selected r hr is h0 hn hi out
  refine ⟨bs, h1, ?_⟩
  rw [readCards, if_neg (selected_length h2), h2]

theorem order_back (cs : List (UInt32 × CardLocL)) (r : Request) (is : List Nat)
    (hn : is.length < 2 ^ 8) (hi : ∀ i ∈ is, i < 2 ^ 8) (out : List UInt8) :
    ∃ bs, decodeOneAnswer r (.sort (.indexes is)) out = .ok bs ∧
      readOrder cs bs = (pick cs is).map fun xs => .order (xs.map (·.2.place)) := by
  obtain ⟨bs, h1, h2⟩ := C47_sorted r is hn hi out
  refine ⟨bs, h1, ?_⟩
  rw [readOrder, if_neg (sorted_length h2), h2]

/-! ## Every answer is understood -/

theorem understood_idle (s : SelectIdle) (hs : s.isBattleCmd = false) (hc : s.canAttack = []) (h2 : ¬ Offered s.availablePhase 0x100)
    (m : CoreMsg) (a : AnswerIdle) (hw : Writable (.selectIdle s) (.selectIdle a)) (d : Decision) (hd : idleMeans s a = some d)
    (out : List UInt8)
    (hr : ∀ (ch : IdleChoice) (b : AnswerIdle) (bs : List UInt8), ch.answer = .selectIdle b → readIdle bs = some ch → idleMeans s b = some d →
      coreReads m bs = some d) :
    ∃ bs, decodeOneAnswer (.selectIdle s) (.selectIdle a) out = .ok bs ∧ coreReads m bs = some d := by
  have go : ∀ ch : IdleChoice, ch.answer = .selectIdle a → ch.IndexBelow (2 ^ 16) →
      ∃ bs, decodeOneAnswer (.selectIdle s) (.selectIdle a) out = .ok bs ∧ coreReads m bs = some d := by
    intro ch he hi
    obtain ⟨bs, h1, h2⟩ := C48_idle s hs ch hi out
    rw [he] at h1
    exact ⟨bs, h1, hr ch a bs he h2 hd⟩
  cases a
  case unset => cases hd
  case shuffle b =>
    -- the flag itself is not looked at
    refine ⟨responseI 8, rfl, hr .shuffle (.shuffle true) _ rfl (by decide) hd⟩
  case phase p =>
    simp only [idleMeans] at hd
    split at hd
    · next h =>
      rcases h with ⟨rfl | rfl | rfl, ho⟩
      · exact go .toBattle rfl trivial
      · exact absurd ho h2
      · exact go .toEnd rfl trivial
    · cases hd
  case cardAction act i =>
    have hw : i < 2 ^ 16 := hw
    cases act
    case activate => exact go (.activate i) rfl hw
    case summon => exact go (.summon i) rfl hw
    case spsummon => exact go (.spsummon i) rfl hw
    case reposition => exact go (.reposition i) rfl hw
    case mset => exact go (.mset i) rfl hw
    case sset => exact go (.sset i) rfl hw
    case attack => simp [idleMeans, hc] at hd
    all_goals cases hd

theorem understood_battle (s : SelectIdle) (hs : s.isBattleCmd = true) (hsh : s.canShuffle = false) (h1 : s.summonable = [])
    (h2 : s.spsummonable = []) (h3 : s.repositionable = []) (h4 : s.msetable = []) (h5 : s.ssetable = [])
    (h6 : ¬ Offered s.availablePhase 0x80)
    (m : CoreMsg) (a : AnswerIdle) (hw : Writable (.selectIdle s) (.selectIdle a)) (d : Decision) (hd : idleMeans s a = some d)
    (out : List UInt8)
    (hr : ∀ (ch : BattleChoice) (b : AnswerIdle) (bs : List UInt8), ch.answer = .selectIdle b → readBattle bs = some ch →
      idleMeans s b = some d → coreReads m bs = some d) :
    ∃ bs, decodeOneAnswer (.selectIdle s) (.selectIdle a) out = .ok bs ∧ coreReads m bs = some d := by
  have go : ∀ ch : BattleChoice, ch.answer = .selectIdle a → ch.IndexBelow (2 ^ 16) →
      ∃ bs, decodeOneAnswer (.selectIdle s) (.selectIdle a) out = .ok bs ∧ coreReads m bs = some d := by
    intro ch he hi
    obtain ⟨bs, h1, h2⟩ := C48_battle s hs ch hi out
    rw [he] at h1
    exact ⟨bs, h1, hr ch a bs he h2 hd⟩
  cases a
  case unset => cases hd
  case shuffle b => simp [idleMeans, hsh] at hd
  case phase p =>
    simp only [idleMeans] at hd
    split at hd
    · next h =>
      rcases h with ⟨rfl | rfl | rfl, ho⟩
      · exact absurd ho h6
      · exact go .toMain2 rfl trivial
      · exact go .toEnd rfl trivial
    · cases hd
  case cardAction act i =>
    have hw : i < 2 ^ 16 := hw
    cases act
    case activate => exact go (.activate i) rfl hw
    case attack => exact go (.attack i) rfl hw
    case summon => simp [idleMeans, h1] at hd
    case spsummon => simp [idleMeans, h2] at hd
    case reposition => simp [idleMeans, h3] at hd
    case mset => simp [idleMeans, h4] at hd
    case sset => simp [idleMeans, h5] at hd
    all_goals cases hd

theorem offered_phases (b e : Bool) (x : Nat) (hx : x = 0x80 ∨ x = 0x100) : Offered ((if b then x else 0) + (if e then 0x200 else 0)) x ↔ b = true := by
  rcases hx with rfl | rfl <;> cases b <;> cases e <;> decide

theorem offered_end (b e : Bool) (x : Nat) (hx : x = 0x80 ∨ x = 0x100) : Offered ((if b then x else 0) + (if e then 0x200 else 0)) 0x200 ↔ e = true := by
  rcases hx with rfl | rfl <;> cases b <;> cases e <;> decide

theorem offered_other (b e : Bool) (x y : Nat) (hx : x = 0x80 ∧ y = 0x100 ∨ x = 0x100 ∧ y = 0x80) :
    ¬ Offered ((if b then x else 0) + (if e then 0x200 else 0)) y := by
  rcases hx with ⟨rfl, rfl⟩ | ⟨rfl, rfl⟩ <;> cases b <;> cases e <;> decide

theorem phase_means {s : SelectIdle} {p : Nat} {d : Decision} (h : idleMeans s (.phase p) = some d) :
    Offered s.availablePhase p ∧ d = .phase p := by
  simp only [idleMeans] at h
  split at h
  · next h1 => exact ⟨h1.2, (Option.some.inj h).symm⟩
  · cases h

theorem yes_iff (b : UInt8) : yes b = true ↔ b ≠ 0 := by simp [yes]

theorem yes_back (b : Bool) : readYes (responseI (if b then 1 else 0)) = some (.yes b) := by cases b <;> decide

theorem understood_cards {α : Type} (c : UInt8) (xs : List α) (f : List α → Decision) (s : SelectCard) (hr : AtOnce (.selectCard s))
    (m : CoreMsg) (hm : ∀ bs, coreReads m bs = readCards (c ≠ 0) xs f bs) (a : AnswerCard) (hw : Writable (.selectCard s) (.selectCard a))
    (d : Decision) (hc : ∀ b, cardMeans s (.cancel b) = some d → c ≠ 0 ∧ d = .decline) (hn : ∀ b, cardMeans s (.finish b) ≠ some d)
    (hu : cardMeans s .unset ≠ some d) (hi : ∀ is, cardMeans s (.indexes is) = some d → is ≠ [] ∧ (pick xs is).map f = some d)
    (hd : cardMeans s a = some d) (out : List UInt8) :
    ∃ bs, decodeOneAnswer (.selectCard s) (.selectCard a) out = .ok bs ∧ coreReads m bs = some d := by
  cases a
  case unset => exact absurd hd hu
  case finish b => exact absurd hd (hn b)
  case cancel b =>
    obtain ⟨h1, rfl⟩ := hc b hd
    refine ⟨_, rfl, ?_⟩
    rw [hm, readCards, if_pos declined_response]
    simp [h1]
  case indexes is =>
    obtain ⟨h0, h1⟩ := hi is hd
    have hw : is.length < 2 ^ 32 ∧ ∀ i ∈ is, i < 2 ^ 16 := by
      cases s <;> first | exact hr.elim | exact hw
    obtain ⟨bs, h2, h3⟩ := cards_back (c ≠ 0) xs f (.selectCard s) hr is h0 hw.1 hw.2 out
    refine ⟨bs, h2, ?_⟩
    rw [hm, h3, h1]

theorem understood (m : CoreMsg) (hf : m.Fits) (who : Int) (r : Request) (hm : m.meaning = some (.request who r)) (a : Answer)
    (hw : Writable r a) (d : Decision) (hd : clientMeans r a = some d) (out : List UInt8) :
    ∃ bs, decodeOneAnswer r a out = .ok bs ∧ coreReads m bs = some d := by
  cases m <;> simp only [meaning, Option.some.injEq, reduceCtorEq, Meaning.request.injEq] at hm
  all_goals (obtain ⟨rfl, rfl⟩ := hm)
  all_goals (cases a <;> simp only [clientMeans, reduceCtorEq] at hd)
  case selectBattlecmd.selectIdle p acts atks m e a =>
    refine understood_battle _ rfl rfl rfl rfl rfl rfl rfl ?_ _ a hw d hd out ?_
    · exact offered_other _ _ _ _ (.inr ⟨rfl, rfl⟩)
    · intro ch b bs he hr hd
      simp only [coreReads, hr]
      cases ch with
      | activate i => cases he; simp only [idleMeans] at hd; rw [List.getElem?_map, Option.map_map] at hd; exact hd
      | attack i => cases he; simp only [idleMeans] at hd; rw [List.getElem?_map, Option.map_map] at hd; exact hd
      | toMain2 =>
        cases he
        obtain ⟨h, rfl⟩ := phase_means hd
        simp only
        rw [if_pos ((yes_iff _).mp ((offered_phases _ _ _ (.inr rfl)).mp h))]
      | toEnd =>
        cases he
        obtain ⟨h, rfl⟩ := phase_means hd
        simp only
        rw [if_pos ((yes_iff _).mp ((offered_end _ _ _ (.inr rfl)).mp h))]
  case selectIdlecmd.selectIdle p s sp r ms ss acts b e sh a =>
    refine understood_idle _ rfl rfl ?_ _ a hw d hd out ?_
    · exact offered_other _ _ _ _ (.inl ⟨rfl, rfl⟩)
    · intro ch b bs he hr hd
      simp only [coreReads, hr]
      cases ch with
      | toBattle =>
        cases he
        obtain ⟨h, rfl⟩ := phase_means hd
        simp only
        rw [if_pos ((yes_iff _).mp ((offered_phases _ _ _ (.inl rfl)).mp h))]
      | toEnd =>
        cases he
        obtain ⟨h, rfl⟩ := phase_means hd
        simp only
        rw [if_pos ((yes_iff _).mp ((offered_end _ _ _ (.inl rfl)).mp h))]
      | shuffle =>
        cases he
        simp only [idleMeans, yes_iff] at hd
        exact hd
      | _ => cases he; simp only [idleMeans] at hd; rw [List.getElem?_map, Option.map_map] at hd; exact hd
  case selectEffectyn.selectYesNo b => exact ⟨_, rfl, by cases Option.some.inj hd; exact yes_back b⟩
  case selectYesno.selectYesNo b => exact ⟨_, rfl, by cases Option.some.inj hd; exact yes_back b⟩
  case selectOption.selectEffect p os i =>
    have hf : os.length < 2 ^ 8 := hf
    rw [List.getElem?_map, Option.map_map] at hd
    have hi : i < os.length := by
      rw [Option.map_eq_some_iff] at hd
      obtain ⟨x, hx, _⟩ := hd
      exact (List.getElem?_eq_some_iff.mp hx).1
    refine ⟨_, rfl, ?_⟩
    rw [coreReads, indexed_response _ _ (by omega)]
    exact hd
  case announceNumber.selectNumber p ns i =>
    have hf : ns.length < 2 ^ 8 := hf
    rw [List.getElem?_map, Option.map_map] at hd
    have hi : i < ns.length := by
      rw [Option.map_eq_some_iff] at hd
      obtain ⟨x, hx, _⟩ := hd
      exact (List.getElem?_eq_some_iff.mp hx).1
    refine ⟨_, rfl, ?_⟩
    rw [coreReads, indexed_response _ _ (by omega)]
    exact hd
  case selectCard.selectCard p c mn mx cs a =>
    split at hd
    · next hl =>
      rw [if_pos hl] at hw ⊢
      refine understood_cards c cs (fun xs => .codes (xs.map (·.1.toNat))) _ (by exact trivial) _ ?_ a hw d ?_ ?_ ?_ ?_ hd out
      · intro bs; rw [coreReads, if_pos hl]
      · intro b h
        simp only [cardMeans, yes_iff] at h
        split at h
        · next hc => exact ⟨hc, (Option.some.inj h).symm⟩
        · cases h
      · intro b h; cases h
      · intro h; cases h
      · intro is h
        simp only [cardMeans] at h
        split at h
        · cases h
        · next h0 =>
          rw [pick_map, Option.map_map] at h
          exact ⟨h0, h⟩
    · next hl =>
      rw [if_neg hl] at hw ⊢
      refine understood_cards c cs (fun xs => .cards (xs.map fun x => (x.2.place, x.1.toNat))) _ (by exact trivial) _ ?_ a hw d ?_ ?_ ?_ ?_ hd out
      · intro bs; rw [coreReads, if_neg hl]
      · intro b h
        simp only [cardMeans, yes_iff] at h
        split at h
        · next hc => exact ⟨hc, (Option.some.inj h).symm⟩
        · cases h
      · intro b h; cases h
      · intro h; cases h
      · intro is h
        simp only [cardMeans] at h
        split at h
        · cases h
        · next h0 =>
          rw [pick_map, Option.map_map] at h
          refine ⟨h0, ?_⟩
          simpa [Function.comp_def] using h
  case selectTribute.selectCard p c mn mx cs a =>
    refine understood_cards c cs (fun xs => .cards (xs.map fun x => (x.2.1.place, x.1.toNat))) _ (by exact trivial) _ (fun _ => rfl) a hw d ?_ ?_ ?_ ?_ hd out
    · intro b h
      simp only [cardMeans, yes_iff] at h
      split at h
      · next hc => exact ⟨hc, (Option.some.inj h).symm⟩
      · cases h
    · intro b h; cases h
    · intro h; cases h
    · intro is h
      simp only [cardMeans] at h
      split at h
      · cases h
      · next h0 =>
        rw [pick_map, Option.map_map] at h
        refine ⟨h0, ?_⟩
        simpa [Function.comp_def] using h
  case selectUnselectCard.selectCard p f c mn mx ss us a =>
    have dec : (if yes f = true then some Decision.decline else none) = some d →
        coreReads (.selectUnselectCard p f c mn mx ss us) (responseI (-1)) = some d := by
      intro h
      rw [coreReads, if_pos declined_response]
      split at h
      · next h0 => rw [if_pos (.inl ((yes_iff f).mp h0))]; exact h
      · cases h
    cases a with
    | unset => cases hd
    | cancel b => exact ⟨_, rfl, dec hd⟩
    | finish b => exact ⟨_, rfl, dec hd⟩
    | indexes is =>
      match is with
      | [] => cases hd
      | [i] =>
        have hi : i < 2 ^ 32 := hw i (by simp)
        obtain ⟨bs, h1, h2⟩ := C47_stepped (.selectCard (.recursive (yes f) (yes c) mn.toNat mx.toNat
          (ss.map fun x => ⟨x.2.place, x.1.toNat⟩) (us.map fun x => ⟨x.2.place, x.1.toNat⟩))) trivial i hi [] out
        refine ⟨bs, h1, ?_⟩
        rw [coreReads, if_neg (stepped_length h2), h2]
        simp only [cardMeans] at hd
        rw [← List.map_append, List.getElem?_map, Option.map_map] at hd
        exact hd
      | _ :: _ :: _ => cases hd
  case selectChain.selectToChain p s f t acts a =>
    have hf : acts.length < 2 ^ 32 := hf
    cases a with
    | unset => cases hd
    | noOp b =>
      refine ⟨_, rfl, ?_⟩
      rw [coreReads, if_pos declined_response]
      simp only [yes_iff] at hd
      exact hd
    | index i =>
      simp only at hd
      rw [List.getElem?_map, Option.map_map] at hd
      have hi : i < acts.length := by
        rw [Option.map_eq_some_iff] at hd
        obtain ⟨x, hx, _⟩ := hd
        exact (List.getElem?_eq_some_iff.mp hx).1
      refine ⟨_, rfl, ?_⟩
      rw [coreReads, if_neg, indexed_response _ _ (by omega)]
      · exact hd
      · rw [oneNumber_responseI, Option.some.injEq, Int.bmod_def]
        split <;> omega
  case selectPlace.selectZone p n m qs =>
    split at hd
    · next h => cases hd; exact zones_back m p qs h hw _ out
    · cases hd
  case selectDisfield.selectZone p n m qs =>
    split at hd
    · next h => cases hd; exact zones_back m p qs h hw _ out
    · cases hd
  case selectPosition.selectPosition p c m v =>
    split at hd
    · next h =>
      cases hd
      exact ⟨_, rfl, bits_back _ _ _ h (offered_lt h (by have := m.toNat_lt; omega))⟩
    · cases hd
  case announceRace.selectRace p n r v =>
    split at hd
    · next h =>
      cases hd
      exact ⟨_, rfl, bits_back _ _ _ h hw⟩
    · cases hd
  case announceAttrib.selectAttribute p n r v =>
    split at hd
    · next h =>
      cases hd
      exact ⟨_, rfl, bits_back _ _ _ h (offered_lt h r.toNat_lt)⟩
    · cases hd
  case rockPaperScissors.selectRockPaperScissors p v =>
    split at hd
    · next h =>
      cases hd
      refine ⟨_, rfl, ?_⟩
      rcases h with rfl | rfl | rfl <;> rfl
    · cases hd
  case sortChain.sort p cs a =>
    cases a with
    | unset => cases hd
    | skip b => cases hd; exact ⟨_, rfl, by rw [coreReads, readOrder, if_pos declined_response]⟩
    | indexes is =>
      simp only at hd
      rw [pick_map, Option.map_map] at hd
      obtain ⟨bs, h1, h2⟩ := order_back cs (.sort (cs.map (·.2.place))) is hw.1 hw.2 out
      exact ⟨bs, h1, h2.trans hd⟩
  case sortCard.sort p cs a =>
    cases a with
    | unset => cases hd
    | skip b => cases hd; exact ⟨_, rfl, by rw [coreReads, readOrder, if_pos declined_response]⟩
    | indexes is =>
      simp only at hd
      rw [pick_map, Option.map_map] at hd
      obtain ⟨bs, h1, h2⟩ := order_back cs (.sort (cs.map (·.2.place))) is hw.1 hw.2 out
      exact ⟨bs, h1, h2.trans hd⟩

/-! ## Every decision can be said -/

theorem readIdle_below {bs : List UInt8} {ch : IdleChoice} (h : readIdle bs = some ch) : ch.IndexBelow (2 ^ 16) := by
  unfold readIdle at h
  split at h
  · next hl =>
    have hn := num_lt (bs.drop 2)
    rw [List.length_drop, hl] at hn
    simp only at h
    split at h <;> cases h <;> trivial
  · cases h

theorem readBattle_below {bs : List UInt8} {ch : BattleChoice} (h : readBattle bs = some ch) : ch.IndexBelow (2 ^ 16) := by
  unfold readBattle at h
  split at h
  · next hl =>
    have hn := num_lt (bs.drop 2)
    rw [List.length_drop, hl] at hn
    simp only at h
    split at h <;> cases h <;> trivial
  · cases h

theorem selected_small {bs : List UInt8} {is : List Nat} (h : selectedCards bs = some is) : is.length < 2 ^ 32 ∧ ∀ i ∈ is, i < 2 ^ 16 := by
  unfold selectedCards at h
  split at h
  · next hl =>
    obtain ⟨h1, h2⟩ := nums_lt _ _ _ _ h
    have := num_lt ((bs.drop 4).take 4)
    rw [List.length_take, List.length_drop, Nat.min_eq_left (by omega)] at this
    exact ⟨by omega, fun i hi => h2 i hi⟩
  · cases h

theorem sorted_small {bs : List UInt8} {is : List Nat} (h : sortedCards bs = some is) : is.length < 2 ^ 8 ∧ ∀ i ∈ is, i < 2 ^ 8 := by
  unfold sortedCards at h
  split at h
  · cases h
  · next b bs =>
    obtain ⟨h1, h2⟩ := nums_lt _ _ _ _ h
    have := b.toNat_lt
    exact ⟨by omega, fun i hi => h2 i hi⟩

theorem stepped_small {bs : List UInt8} {i : Nat} (h : steppedCard bs = some i) : i < 2 ^ 32 := by
  unfold steppedCard at h
  split at h
  · next hl =>
    cases h
    have := num_lt (bs.drop 4)
    rwa [List.length_drop, hl.1] at this
  · cases h

theorem sayable_cards {α : Type} (c : UInt8) (xs : List α) (f : List α → Decision) (s : SelectCard) (hs : AtOnce (.selectCard s)) (d : Decision)
    (h0 : d ≠ f []) (bs : List UInt8) (hr : readCards (c ≠ 0) xs f bs = some d)
    (hc : c ≠ 0 → cardMeans s (.cancel true) = some .decline)
    (hi : ∀ is, is ≠ [] → cardMeans s (.indexes is) = (pick xs is).map f) :
    ∃ a, clientMeans (.selectCard s) a = some d ∧ Writable (.selectCard s) a := by
  unfold readCards at hr
  split at hr
  · split at hr
    · next h =>
      cases hr
      refine ⟨.selectCard (.cancel true), hc (by simpa using h), ?_⟩
      cases s <;> trivial
    · cases hr
  · split at hr
    · next is h =>
      have hne : is ≠ [] := by
        rintro rfl
        exact h0 (Option.some.inj hr).symm
      refine ⟨.selectCard (.indexes is), (hi is hne).trans hr, ?_⟩
      cases s <;> first | exact hs.elim | exact selected_small h
    · cases hr

theorem sayable_bits (o : Nat) (f : Nat → Decision) (d : Decision) (bs : List UInt8) (h : readBits o f bs = some d) :
    ∃ v, Offered o v ∧ v < 2 ^ 32 ∧ f v = d := by
  unfold readBits at h
  split at h
  · next h1 =>
    have := num_lt bs
    rw [h1.1] at this
    exact ⟨num bs, h1.2, this, Option.some.inj h⟩
  · cases h

theorem sayable_zones (m : UInt32) (p : UInt8) (d : Decision) (bs : List UInt8) (h : readZones m p bs = some d) :
    ∃ ps, (∀ q ∈ ps, q ∈ clearBits m p) ∧ d = .zones ps := by
  unfold readZones at h
  split at h
  · next zs _ =>
    split at h
    · next hz =>
      refine ⟨zs.map CoreZone.place, ?_, (Option.some.inj h).symm⟩
      intro q hq
      obtain ⟨z, hz', rfl⟩ := List.mem_map.mp hq
      exact hz z hz'
    · cases h
  · cases h

theorem sayable_order (cs : List (UInt32 × CardLocL)) (d : Decision) (bs : List UInt8) (h : readOrder cs bs = some d) :
    ∃ a, clientMeans (.sort (cs.map (·.2.place))) a = some d ∧ Writable (.sort (cs.map (·.2.place))) a := by
  unfold readOrder at h
  split at h
  · exact ⟨.sort (.skip true), h, trivial⟩
  · split at h
    · next is hs =>
      refine ⟨.sort (.indexes is), ?_, sorted_small hs⟩
      simp only [clientMeans]
      rw [pick_map, Option.map_map]
      exact h
    · cases h

theorem sayable_yes (d : Decision) (bs : List UInt8) (h : readYes bs = some d) : ∃ b, d = .yes b := by
  unfold readYes at h
  split at h <;> cases h <;> exact ⟨_, rfl⟩

theorem sayable (m : CoreMsg) (who : Int) (r : Request) (hm : m.meaning = some (.request who r)) (bs : List UInt8) (d : Decision)
    (hr : coreReads m bs = some d) (hs : Sayable m d) : ∃ a, clientMeans r a = some d ∧ Writable r a := by
  cases m <;> simp only [meaning, Option.some.injEq, reduceCtorEq, Meaning.request.injEq] at hm
  all_goals (obtain ⟨rfl, rfl⟩ := hm; simp only [coreReads] at hr)
  case selectBattlecmd p acts atks m e =>
    split at hr
    · next i h =>
      refine ⟨.selectIdle (.cardAction .activate i), ?_, readBattle_below h⟩
      simp only [clientMeans, idleMeans]
      rw [List.getElem?_map, Option.map_map]
      exact hr
    · next i h =>
      refine ⟨.selectIdle (.cardAction .attack i), ?_, readBattle_below h⟩
      simp only [clientMeans, idleMeans]
      rw [List.getElem?_map, Option.map_map]
      exact hr
    · split at hr
      · next h =>
        refine ⟨.selectIdle (.phase 0x100), ?_, trivial⟩
        rw [clientMeans, idleMeans, if_pos ⟨by decide, (offered_phases _ _ _ (.inr rfl)).mpr ((yes_iff m).mpr h)⟩]
        exact hr
      · cases hr
    · split at hr
      · next h =>
        refine ⟨.selectIdle (.phase 0x200), ?_, trivial⟩
        rw [clientMeans, idleMeans, if_pos ⟨by decide, (offered_end _ _ _ (.inr rfl)).mpr ((yes_iff e).mpr h)⟩]
        exact hr
      · cases hr
    · cases hr
  case selectIdlecmd p s sp r ms ss acts b e sh =>
    have go : ∀ (act : IdleAction) (i : Nat), i < 2 ^ 16 → idleMeans
        { isBattleCmd := false, summonable := s.map (·.2.place), spsummonable := sp.map (·.2.place),
          repositionable := r.map (·.2.place), msetable := ms.map (·.2.place), ssetable := ss.map (·.2.place),
          activable := acts.map (Activable.card CardLoc.place),
          availablePhase := (if yes b then 0x80 else 0) + (if yes e then 0x200 else 0), canShuffle := yes sh } (.cardAction act i) = some d →
        ∃ a, clientMeans (.selectIdle
          { isBattleCmd := false, summonable := s.map (·.2.place), spsummonable := sp.map (·.2.place),
            repositionable := r.map (·.2.place), msetable := ms.map (·.2.place), ssetable := ss.map (·.2.place),
            activable := acts.map (Activable.card CardLoc.place),
            availablePhase := (if yes b then 0x80 else 0) + (if yes e then 0x200 else 0), canShuffle := yes sh }) a = some d ∧ Writable (.selectIdle
          { isBattleCmd := false, summonable := s.map (·.2.place), spsummonable := sp.map (·.2.place),
            repositionable := r.map (·.2.place), msetable := ms.map (·.2.place), ssetable := ss.map (·.2.place),
            activable := acts.map (Activable.card CardLoc.place),
            availablePhase := (if yes b then 0x80 else 0) + (if yes e then 0x200 else 0), canShuffle := yes sh }) a :=
      fun act i hi h => ⟨.selectIdle (.cardAction act i), h, hi⟩
    split at hr
    · next i h => exact go .summon i (readIdle_below h) (by simp only [idleMeans]; rw [List.getElem?_map, Option.map_map]; exact hr)
    · next i h => exact go .spsummon i (readIdle_below h) (by simp only [idleMeans]; rw [List.getElem?_map, Option.map_map]; exact hr)
    · next i h => exact go .reposition i (readIdle_below h) (by simp only [idleMeans]; rw [List.getElem?_map, Option.map_map]; exact hr)
    · next i h => exact go .mset i (readIdle_below h) (by simp only [idleMeans]; rw [List.getElem?_map, Option.map_map]; exact hr)
    · next i h => exact go .sset i (readIdle_below h) (by simp only [idleMeans]; rw [List.getElem?_map, Option.map_map]; exact hr)
    · next i h => exact go .activate i (readIdle_below h) (by simp only [idleMeans]; rw [List.getElem?_map, Option.map_map]; exact hr)
    · split at hr
      · next h =>
        refine ⟨.selectIdle (.phase 0x80), ?_, trivial⟩
        rw [clientMeans, idleMeans, if_pos ⟨by decide, (offered_phases _ _ _ (.inl rfl)).mpr ((yes_iff b).mpr h)⟩]
        exact hr
      · cases hr
    · split at hr
      · next h =>
        refine ⟨.selectIdle (.phase 0x200), ?_, trivial⟩
        rw [clientMeans, idleMeans, if_pos ⟨by decide, (offered_end _ _ _ (.inl rfl)).mpr ((yes_iff e).mpr h)⟩]
        exact hr
      · cases hr
    · split at hr
      · next h =>
        refine ⟨.selectIdle (.shuffle true), ?_, trivial⟩
        rw [clientMeans, idleMeans, if_pos ((yes_iff sh).mpr h)]
        exact hr
      · cases hr
    · cases hr
  case selectEffectyn =>
    obtain ⟨b, rfl⟩ := sayable_yes _ _ hr
    exact ⟨.selectYesNo b, rfl, trivial⟩
  case selectYesno =>
    obtain ⟨b, rfl⟩ := sayable_yes _ _ hr
    exact ⟨.selectYesNo b, rfl, trivial⟩
  case selectOption p os =>
    unfold indexed at hr
    split at hr
    · refine ⟨.selectEffect (num bs), ?_, trivial⟩
      rw [clientMeans, List.getElem?_map, Option.map_map]
      exact hr
    · cases hr
  case announceNumber p ns =>
    unfold indexed at hr
    split at hr
    · refine ⟨.selectNumber (num bs), ?_, trivial⟩
      rw [clientMeans, List.getElem?_map, Option.map_map]
      exact hr
    · cases hr
  case selectCard p c mn mx cs =>
    split at hr
    · next hl =>
      rw [if_pos hl]
      refine sayable_cards c cs _ _ (by exact trivial) d ?_ bs hr ?_ ?_
      · rintro rfl; exact hs
      · intro h; rw [cardMeans, if_pos ((yes_iff c).mpr h)]
      · intro is h
        rw [cardMeans, if_neg h, pick_map, Option.map_map]
        rfl
    · next hl =>
      rw [if_neg hl]
      refine sayable_cards c cs _ _ (by exact trivial) d ?_ bs hr ?_ ?_
      · rintro rfl; exact hs
      · intro h; rw [cardMeans, if_pos ((yes_iff c).mpr h)]
      · intro is h
        rw [cardMeans, if_neg h, pick_map, Option.map_map]
        simp [Function.comp_def]
  case selectTribute p c mn mx cs =>
    refine sayable_cards c cs _ _ (by exact trivial) d ?_ bs hr ?_ ?_
    · rintro rfl; exact hs
    · intro h; rw [cardMeans, if_pos ((yes_iff c).mpr h)]
    · intro is h
      rw [cardMeans, if_neg h, pick_map, Option.map_map]
      simp [Function.comp_def]
  case selectUnselectCard p f c mn mx ss us =>
    split at hr
    · split at hr
      · cases hr
        have hs : f ≠ 0 := hs
        exact ⟨.selectCard (.finish true), by rw [clientMeans, cardMeans, if_pos ((yes_iff f).mpr hs)], trivial⟩
      · cases hr
    · split at hr
      · next i h =>
        refine ⟨.selectCard (.indexes [i]), ?_, ?_⟩
        · rw [clientMeans, cardMeans, ← List.map_append, List.getElem?_map, Option.map_map]
          exact hr
        · intro j hj
          cases List.mem_singleton.mp hj
          exact stepped_small h
      · cases hr
  case selectChain p s f t acts =>
    split at hr
    · split at hr
      · cases hr
      · next h => exact ⟨.selectToChain (.noOp true), by rw [clientMeans, if_neg (by rw [yes_iff]; exact h)]; exact hr, trivial⟩
    · unfold indexed at hr
      split at hr
      · refine ⟨.selectToChain (.index (num bs)), ?_, trivial⟩
        rw [clientMeans, List.getElem?_map, Option.map_map]
        exact hr
      · cases hr
  case selectPlace p n m =>
    obtain ⟨ps, h1, rfl⟩ := sayable_zones _ _ _ _ hr
    exact ⟨.selectZone ps, by rw [clientMeans, if_pos h1], hs⟩
  case selectDisfield p n m =>
    obtain ⟨ps, h1, rfl⟩ := sayable_zones _ _ _ _ hr
    exact ⟨.selectZone ps, by rw [clientMeans, if_pos h1], hs⟩
  case selectPosition p c m =>
    obtain ⟨v, h1, h2, rfl⟩ := sayable_bits _ _ _ _ hr
    exact ⟨.selectPosition v, by rw [clientMeans, if_pos h1], trivial⟩
  case announceRace p n r =>
    obtain ⟨v, h1, h2, rfl⟩ := sayable_bits _ _ _ _ hr
    exact ⟨.selectRace v, by rw [clientMeans, if_pos h1], h2⟩
  case announceAttrib p n a =>
    obtain ⟨v, h1, h2, rfl⟩ := sayable_bits _ _ _ _ hr
    exact ⟨.selectAttribute v, by rw [clientMeans, if_pos h1], trivial⟩
  case rockPaperScissors p =>
    split at hr
    · next v _ =>
      exact ⟨.selectRockPaperScissors v, hr, trivial⟩
    · cases hr
  case sortChain p cs => exact sayable_order cs d bs hr
  case sortCard p cs => exact sayable_order cs d bs hr

/-! ## C72 -/

variable {C : Type} [EncodeContext C]

/-- **C72.** A client that answers a question of the core decides what the core understands: the question is passed on, and the answer is
turned into a response that the core, looking into its own lists, reads as the same decision. -/
theorem C72_understood (c : C) (m : CoreMsg) (hf : m.Fits) (who : Int) (r : Request) (hm : m.meaning = some (.request who r)) (more : List UInt8)
    (a : Answer) (d : Decision) (hd : clientMeans r a = some d) (hw : Writable r a) (out : List UInt8) :
    encodeOne c (m.bytes ++ more) = .ok (⟨.ok, m.bytes.length, some ⟨.request who r, []⟩⟩, c) ∧
    ∃ bs, decodeOneAnswer r a out = .ok bs ∧ coreReads m bs = some d :=
  ⟨C34_translation c m hf _ hm more, understood m hf who r hm a hw d hd out⟩

/-- **C72.** Every decision the core would take from some response can be made by a client, except those that are not `Sayable`. -/
theorem C72_expressible_partial (m : CoreMsg) (hf : m.Fits) (who : Int) (r : Request) (hm : m.meaning = some (.request who r)) (d : Decision)
    (resp : List UInt8) (hr : coreReads m resp = some d) (hs : Sayable m d) (out : List UInt8) :
    ∃ a bs, clientMeans r a = some d ∧ decodeOneAnswer r a out = .ok bs ∧ coreReads m bs = some d := by
  obtain ⟨a, h1, h2⟩ := sayable m who r hm resp d hr hs
  obtain ⟨bs, h3, h4⟩ := understood m hf who r hm a h2 d h1 out
  exact ⟨a, bs, h1, h3, h4⟩

theorem pick_ne_nil {α : Type} {xs : List α} {is : List Nat} (h : is ≠ []) : pick xs is ≠ some [] := by
  cases is with
  | nil => exact absurd rfl h
  | cons i is => rw [pick]; split <;> simp

theorem means_some_card (r : Request) (a : Answer) : clientMeans r a ≠ some (.cards []) ∧ clientMeans r a ≠ some (.codes []) := by
  unfold clientMeans
  split
  · next s a =>
    unfold idleMeans
    constructor <;> (split <;> (try split) <;> simp)
  · next s a =>
    unfold cardMeans
    split <;> (try split) <;> (try split) <;> first | (simp; done) | skip
    all_goals (next h => constructor <;> (rw [ne_eq, Option.map_eq_some_iff]; rintro ⟨xs, h1, h2⟩; simp at h2; try (subst h2; exact pick_ne_nil h h1)))
  all_goals first | (simp; done) | (split <;> simp)

theorem means_zones {r : Request} {a : Answer} {ps : List Place} (h : clientMeans r a = some (.zones ps)) : ∃ e n qs, r = .selectZone e n qs := by
  unfold clientMeans at h
  split at h
  · next s a =>
    unfold idleMeans at h
    split at h <;> (try split at h) <;> simp at h
  · next s a =>
    unfold cardMeans at h
    split at h <;> (try split at h) <;> (try split at h) <;> simp at h
  all_goals first | exact ⟨_, _, _, rfl⟩ | (exfalso; first | simp at h | (split at h <;> simp at h))

/-- **C72 (exactly when).** Of the decisions the core would take from some response, clients can make exactly the sayable ones. -/
theorem C72_expressible_exactly (m : CoreMsg) (hf : m.Fits) (who : Int) (r : Request) (hm : m.meaning = some (.request who r)) (d : Decision)
    (resp : List UInt8) (hr : coreReads m resp = some d) (out : List UInt8) :
    (∃ a bs, clientMeans r a = some d ∧ decodeOneAnswer r a out = .ok bs ∧ coreReads m bs = some d) ↔ Sayable m d := by
  refine ⟨?_, fun hs => C72_expressible_partial m hf who r hm d resp hr hs out⟩
  rintro ⟨a, bs, h1, h2, h3⟩
  cases d
  case cards xs =>
    cases xs with
    | nil => exact absurd h1 (means_some_card r a).1
    | cons x xs => cases m <;> trivial
  case codes xs =>
    cases xs with
    | nil => exact absurd h1 (means_some_card r a).2
    | cons x xs => cases m <;> trivial
  case decline =>
    cases m
    case selectUnselectCard p f c mn mx ss us =>
      simp only [CoreMsg.meaning, Option.some.injEq, Meaning.request.injEq] at hm
      obtain ⟨rfl, rfl⟩ := hm
      show f ≠ 0
      cases a <;> simp only [clientMeans, reduceCtorEq] at h1
      case selectCard a =>
        intro h0
        have hy : yes f = false := by rw [h0]; rfl
        rw [hy] at h1
        cases a <;> simp only [cardMeans, Bool.false_eq_true, if_false, reduceCtorEq] at h1
        next is =>
          cases is with
          | nil => cases h1
          | cons i is =>
            cases is with
            | nil => simp at h1
            | cons j is => cases h1
    all_goals trivial
  case zones ps =>
    have key : ∀ (mask : UInt32) (p : UInt8) (e : Bool) (n : Nat), r = .selectZone e n (clearBits mask p) → readZones mask p bs = some (.zones ps) →
        ∀ q ∈ ps, q.loc = 4 ∨ q.loc = 8 := by
      rintro mask p e n rfl h3 q hq
      cases a <;> simp only [clientMeans, reduceCtorEq] at h1
      next qs =>
      split at h1
      · next hin =>
        cases h1
        obtain ⟨bs', e1, e2⟩ := C49_bytes (.selectZone e n (clearBits mask p)) ps out
        rw [h2] at e1
        cases e1
        rw [readZones, e2] at h3
        simp only at h3
        split at h3
        · have e3 := Decision.zones.inj (Option.some.inj h3)
          rw [List.map_map] at e3
          have e4 := (List.map_eq_map_iff (f := _) (g := id)).mp (e3.trans (List.map_id ps).symm) q hq
          obtain ⟨-, -, -, g⟩ := clearBits_shape (hin q hq)
          have e5 : (CoreZone.place ⟨(q.con % 256).toNat, q.loc % 256, q.seq % 256⟩).loc = q.loc := congrArg Place.loc e4
          rcases g with g | g | g | g
          · exact .inl g.1
          · exact .inr g.1
          · simp [CoreZone.place, g.1] at e5
          · simp [CoreZone.place, g.1] at e5
        · cases h3
      · cases h1
    cases m
    case selectPlace p n mask =>
      simp only [CoreMsg.meaning, Option.some.injEq, Meaning.request.injEq] at hm
      exact key mask p false n.toNat hm.2.symm h3
    case selectDisfield p n mask =>
      simp only [CoreMsg.meaning, Option.some.injEq, Meaning.request.injEq] at hm
      exact key mask p true n.toNat hm.2.symm h3
    all_goals
      exfalso
      obtain ⟨e, n, qs, rfl⟩ := means_zones h1
      simp [CoreMsg.meaning] at hm
  all_goals (cases m <;> trivial)

/-- **C72.** Answers that mean different decisions give different responses. -/
theorem C72_distinct (m : CoreMsg) (hf : m.Fits) (who : Int) (r : Request) (hm : m.meaning = some (.request who r)) (a a' : Answer)
    (d d' : Decision) (hd : clientMeans r a = some d) (hd' : clientMeans r a' = some d') (hw : Writable r a) (hw' : Writable r a')
    (hne : d ≠ d') (out out' : List UInt8) : decodeOneAnswer r a out ≠ decodeOneAnswer r a' out' := by
  obtain ⟨bs, h1, h2⟩ := understood m hf who r hm a hw d hd out
  obtain ⟨bs', h3, h4⟩ := understood m hf who r hm a' hw' d' hd' out'
  rw [h1, h3]
  intro h
  cases h
  rw [h2] at h4
  exact hne (Option.some.inj h4)

/-- **C72.** The exceptions are real. When a selection made card by card can be cancelled but not finished, the core takes -1 for a refusal,
but the request offers clients no way to refuse. -/
theorem C72_cannot_cancel (p : UInt8) (mn mx : UInt32) (ss us : List (UInt32 × LocInfo)) (who : Int) (r : Request)
    (hm : (CoreMsg.selectUnselectCard p 0 1 mn mx ss us).meaning = some (.request who r)) :
    coreReads (.selectUnselectCard p 0 1 mn mx ss us) (responseI (-1)) = some .decline ∧ ∀ a, clientMeans r a ≠ some .decline := by
  simp only [meaning, Option.some.injEq, Meaning.request.injEq] at hm
  obtain ⟨rfl, rfl⟩ := hm
  refine ⟨rfl, ?_⟩
  intro a h
  cases a <;> simp only [clientMeans, reduceCtorEq] at h
  case selectCard a =>
    cases a with
    | indexes is =>
      match is with
      | [] => cases h
      | [i] =>
        simp only [cardMeans, Option.map_eq_some_iff, reduceCtorEq, and_false, exists_false] at h
      | _ :: _ :: _ => cases h
    | _ => cases h

/-- **C72.** Nor can clients select no card at all, which the core takes as a selection. -/
theorem C72_cannot_select_none (p c : UInt8) (mn mx : UInt32) (cs : List (UInt32 × LocInfo)) (hl : ¬ cs.head?.any (fun x => x.2.loc = 0))
    (who : Int) (r : Request) (hm : (CoreMsg.selectCard p c mn mx cs).meaning = some (.request who r)) :
    coreReads (.selectCard p c mn mx cs) [1, 0, 0, 0, 0, 0, 0, 0] = some (.cards []) ∧ ∀ a, clientMeans r a ≠ some (.cards []) := by
  simp only [meaning, Option.some.injEq, Meaning.request.injEq] at hm
  obtain ⟨rfl, rfl⟩ := hm
  refine ⟨by rw [coreReads, if_neg hl]; rfl, ?_⟩
  intro a h
  cases a <;> simp only [clientMeans, reduceCtorEq] at h
  case selectCard a =>
    rw [if_neg hl] at h
    cases a with
    | indexes is =>
      simp only [cardMeans] at h
      split at h
      · cases h
      · next h0 =>
        rw [Option.map_eq_some_iff] at h
        obtain ⟨xs, h1, h2⟩ := h
        simp only [Decision.cards.injEq, List.map_eq_nil_iff] at h2
        subst h2
        exact h0 (pick_nil h1)
    | cancel b =>
      simp only [cardMeans] at h
      split at h <;> cases h
    | _ => cases h

/-- **C72.** And a field zone that is offered is not understood. -/
theorem C72_field_zone : clientMeans (.selectZone false 1 (clearBits 0 0)) (.selectZone [⟨0, 0x100, 0, -1⟩]) = some (.zones [⟨0, 0x100, 0, -1⟩]) ∧
    coreReads (.selectPlace 0 1 0) [0, 8, 5] = some (.zones [⟨0, 0x100, 0, -1⟩]) ∧
    ∀ r out, decodeOneAnswer r (.selectZone [⟨0, 0x100, 0, -1⟩]) out = .ok [0, 0, 0] ∧ coreReads (.selectPlace 0 1 0) [0, 0, 0] = none :=
  ⟨by decide, by decide, fun _ _ => ⟨rfl, by decide⟩⟩

/-! Concrete dialogs: the second of two attackers attacks; of three cards, counting on, the one already selected is taken back; two cards
are selected in a given order; a chain is declined; the turn player goes to the battle phase. -/

example : ∃ bs, decodeOneAnswer (.selectIdle { isBattleCmd := true, canAttack := [⟨⟨0, 4, 1, -1⟩, true⟩, ⟨⟨0, 4, 3, -1⟩, false⟩] })
    (.selectIdle (.cardAction .attack 1)) [] = .ok bs ∧
    coreReads (.selectBattlecmd 0 [] [(7, ⟨0, 4, 1⟩, 1), (9, ⟨0, 4, 3⟩, 0)] 0 0) bs = some (.act .attack ⟨0, 4, 3, -1⟩ none) :=
  ⟨_, rfl, by decide⟩
example : clientMeans (.selectCard (.recursive true false 1 3 [⟨⟨0, 4, 1, -1⟩, 7⟩, ⟨⟨0, 4, 2, -1⟩, 8⟩] [⟨⟨0, 4, 3, -1⟩, 9⟩]))
    (.selectCard (.indexes [2])) = some (.cards [(⟨0, 4, 3, -1⟩, 9)]) := by decide
example : coreReads (.selectUnselectCard 0 1 0 1 3 [(7, ⟨0, 4, 1, 1⟩), (8, ⟨0, 4, 2, 1⟩)] [(9, ⟨0, 4, 3, 1⟩)]) [1, 0, 0, 0, 2, 0, 0, 0] =
    some (.cards [(⟨0, 4, 3, -1⟩, 9)]) := by decide
example : coreReads (.selectCard 0 0 1 2 [(7, ⟨0, 4, 1, 1⟩), (8, ⟨0, 4, 2, 1⟩), (9, ⟨0, 4, 3, 1⟩)]) [1, 0, 0, 0, 2, 0, 0, 0, 2, 0, 0, 0] =
    some (.cards [(⟨0, 4, 3, -1⟩, 9), (⟨0, 4, 1, -1⟩, 7)]) := by decide
example : coreReads (.selectChain 0 0 0 0 []) [255, 255, 255, 255] = some .decline := by decide
example : clientMeans (.selectIdle { availablePhase := 0x280 }) (.selectIdle (.phase 0x80)) = some (.phase 0x80) := by decide
example : coreReads (.selectIdlecmd 0 [] [] [] [] [] [] 1 1 0) [6, 0, 0, 0] = some (.phase 0x80) := by decide

end Ygo.Props
