import Verif.Lemmas.QueryBlob

/-!
# `encode_one` on the core's messages
-/

set_option linter.unusedSimpArgs false

namespace Ygo
open P Spec

/-! ## Updates of a whole location -/

theorem withOverlays_eq (place : Place) (is : List QueryItem) (h : (QueryItem.materials is).length < 2 ^ 31) :
    withOverlays place ⟨QueryItem.data is, QueryItem.materials is⟩ = QueryItem.queries place is := by
  unfold withOverlays QueryItem.queries
  congr 1
  apply List.ext_getElem
  · simp
  · intro i h1 h2
    simp only [List.getElem_mapIdx]
    rw [List.length_mapIdx] at h1
    rw [toInt32_small (Nat.lt_trans h1 h)]
    rfl

/-- Materials come from one item, whose size is written in two bytes. -/
theorem materials_length (is : List QueryItem) (h : ∀ i ∈ is, i.Fits) : (QueryItem.materials is).length < 2 ^ 31 := by
  unfold QueryItem.materials
  cases hl : QueryItem.last QueryItem.overlays is with
  | none => simp
  | some cs =>
    obtain ⟨i, hi, hc⟩ := List.exists_of_findSome?_eq_some hl
    rw [List.mem_reverse] at hi
    have hf := (h i hi).1
    cases i <;> simp only [QueryItem.overlays, reduceCtorEq] at hc
    next xs =>
      simp only [Option.some.injEq] at hc
      subst hc
      simp only [QueryItem.payload, list32, List.length_append, length_le] at hf
      have h2 : xs.length ≤ (xs.flatMap b32).length := by
        clear hl hi hf
        induction xs with
        | nil => simp
        | cons x xs ih => simp only [List.length_cons, List.flatMap_cons, List.length_append, length_b32]; omega
      simp only [Option.getD_some, List.length_map]
      omega

theorem peek_ok {α : Type} {p : P α} {s r : List UInt8} {a : α} (h : p s = .ok (a, r)) : peek p s = .ok (a, s) := by
  simp [peek, h]

theorem counted_ok {α : Type} {p : P α} {bs s : List UInt8} {a : α} (h : p (bs ++ s) = .ok (a, s)) :
    counted p (bs ++ s) = .ok ((a, bs.length), s) := by
  simp [counted, h]

/-- Size field at the start of a blob. -/
theorem blob_size (is : List QueryItem) (h : ∀ i ∈ is, i.Fits) : ∃ n r, n ≠ 0 ∧ n < 2 ^ 16 ∧ QueryItem.blob is = le 2 n ++ r := by
  cases is with
  | nil => exact ⟨4, le 4 0x80000000, by decide, by decide, rfl⟩
  | cons i is =>
    exact ⟨4 + i.payload.length, b32 i.flag ++ (i.payload ++ QueryItem.blob is), by omega, (h i (by simp)).1,
      by simp [QueryItem.blob, QueryItem.bytes]⟩

/-- Meaning of the slots of a location from slot `k` on. -/
def slotQueries (con loc : Nat) (k : Nat) (ss : List (Option (List QueryItem))) : List Query :=
  (ss.mapIdx fun i o => match o with
    | none => []
    | some is => QueryItem.queries ⟨con, (slot loc (k + i)).1, (slot loc (k + i)).2, -1⟩ is).flatten

theorem slotQueries_cons (con loc k : Nat) (o : Option (List QueryItem)) (ss : List (Option (List QueryItem))) :
    slotQueries con loc k (o :: ss) = (match o with
      | none => []
      | some is => QueryItem.queries ⟨con, (slot loc k).1, (slot loc k).2, -1⟩ is) ++ slotQueries con loc (k + 1) ss := by
  simp only [slotQueries, List.mapIdx_cons, List.flatten_cons, Nat.add_zero, Nat.add_assoc, Nat.add_comm 1]

theorem slotBytes_length (o : Option (List QueryItem)) : 2 ≤ (QueryItem.slotBytes o).length := by
  cases o with
  | none => simp [QueryItem.slotBytes]
  | some is => simp [QueryItem.slotBytes, QueryItem.blob]

theorem updateLoop_slots (con : Nat) (loc total : Nat) (ht : total < 2 ^ 32) (ss : List (Option (List QueryItem)))
    (h : ∀ is, some is ∈ ss → ∀ i ∈ is, i.Fits) (k readSize fuel : Nat) (hf : ss.length < fuel)
    (hr : readSize + (ss.flatMap QueryItem.slotBytes).length = total) (hk : 2 * k ≤ readSize) (s : List UInt8) :
    updateLoop con loc total fuel k readSize (ss.flatMap QueryItem.slotBytes ++ s) = .ok (slotQueries con loc k ss, s) := by
  induction ss generalizing k readSize fuel with
  | nil =>
    obtain ⟨n, rfl⟩ : ∃ n, fuel = n + 1 := ⟨fuel - 1, by simp at hf; omega⟩
    simp only [List.flatMap_nil, List.length_nil, Nat.add_zero] at hr
    simp only [updateLoop, if_neg (show ¬ readSize < total by omega), List.flatMap_nil, List.nil_append, pure_run]
    rfl
  | cons o ss ih =>
    obtain ⟨n, rfl⟩ : ∃ n, fuel = n + 1 := ⟨fuel - 1, by simp at hf; omega⟩
    simp only [List.flatMap_cons, List.length_append] at hr
    simp only [List.length_cons] at hf
    have h2 := slotBytes_length o
    rw [slotQueries_cons]
    simp only [updateLoop, if_pos (show readSize < total by omega), List.flatMap_cons, List.append_assoc]
    have hk1 : (k + 1) % 2 ^ 32 = k + 1 := Nat.mod_eq_of_lt (by omega)
    cases o with
    | none =>
      have hl : (QueryItem.slotBytes none).length = 2 := by simp [QueryItem.slotBytes]
      have hp : peek (read 2) (QueryItem.slotBytes none ++ (ss.flatMap QueryItem.slotBytes ++ s)) =
          .ok (0, QueryItem.slotBytes none ++ (ss.flatMap QueryItem.slotBytes ++ s)) := peek_ok (read_cnt2 (n := 0) _ (by omega))
      rw [bind_run_ok hp, if_pos rfl, bind_run_ok (skip_append hl), hk1,
        Nat.mod_eq_of_lt (show readSize + 2 < 2 ^ 32 by omega)]
      rw [ih (fun is hi => h is (by simp [hi])) (k + 1) (readSize + 2) n (by omega) (by omega) (by omega)]
      rfl
    | some is =>
      have hi := h is (by simp)
      obtain ⟨m, r, hm0, hm, hb⟩ := blob_size is hi
      have hpk : peek (read 2) (QueryItem.slotBytes (some is) ++ (ss.flatMap QueryItem.slotBytes ++ s)) =
          .ok (m, QueryItem.slotBytes (some is) ++ (ss.flatMap QueryItem.slotBytes ++ s)) := by
        apply peek_ok (r := r ++ (ss.flatMap QueryItem.slotBytes ++ s))
        show read 2 (QueryItem.blob is ++ _) = _
        rw [hb, List.append_assoc, read_cnt2 _ hm]
      rw [bind_run_ok hpk, if_neg hm0]
      have hc := counted_ok (p := encodeOneQuery) (bs := QueryItem.slotBytes (some is)) (encodeOneQuery_blob is hi (ss.flatMap QueryItem.slotBytes ++ s))
      rw [bind_run_ok hc]
      simp only
      rw [hk1, Nat.mod_eq_of_lt (show readSize + (QueryItem.slotBytes (some is)).length < 2 ^ 32 by omega)]
      rw [bind_run_ok (ih (fun is hi => h is (by simp [hi])) (k + 1) _ n (by omega) (by omega) (by omega))]
      rw [pure_run, withOverlays_eq _ _ (materials_length is hi), fixSpell_eq]

/-! ## Which case a message number selects -/

section
variable {C : Type} [EncodeContext C]

theorem body_case (c : C) {b : UInt8} {k : Kind} {s r : List UInt8} {x : Outcome × C} (hk : Kind.ofByte b.toNat = some k)
    (hp : encodeCase c k s = .ok (x, r)) : encodeBody c (b :: s) = .ok (x, r) := by
  have : read 1 (b :: s) = .ok (b.toNat, s) := read_b8 b s
  unfold encodeBody
  rw [bind_run_ok this, hk]
  exact hp

theorem body_event (c : C) {b : UInt8} {k : Kind} {p : P Outcome} {s r : List UInt8} {o : Outcome} (hk : Kind.ofByte b.toNat = some k)
    (he : eventCase k = some p) (hp : p s = .ok (o, r)) : encodeBody c (b :: s) = .ok ((o, c), r) := by
  apply body_case c hk
  have e : encodeCase c k = (p >>= fun o => pure (o, c)) := by unfold encodeCase; rw [he]
  rw [e, bind_run_ok hp]
  rfl

theorem body_query (c : C) {b : UInt8} {k : Kind} {p : P Outcome} {s r : List UInt8} {o : Outcome} (hk : Kind.ofByte b.toNat = some k)
    (he : eventCase k = none) (hq : queryCase k = some p) (hp : p s = .ok (o, r)) : encodeBody c (b :: s) = .ok ((o, c), r) := by
  apply body_case c hk
  have e : encodeCase c k = (p >>= fun o => pure (o, c)) := by unfold encodeCase; rw [he, hq]
  rw [e, bind_run_ok hp]
  rfl

theorem body_request (c : C) {b p : UInt8} {k : Kind} {f : Int → P Request} {s r : List UInt8} {q : Request} (hk : Kind.ofByte b.toNat = some k)
    (he : eventCase k = none) (hq : queryCase k = none) (hf : requestCase k = some f) (hp : f p.toNat s = .ok (q, r)) :
    encodeBody c (b :: (b8 p ++ s)) = .ok ((.request p.toNat q, c), r) := by
  apply body_case c hk
  have e : encodeCase c k = (readCon >>= fun x => f x >>= fun q => pure (.request x q, c)) := by unfold encodeCase; rw [he, hq, hf]
  rw [e, bind_run_ok (readCon_b8 p s), bind_run_ok hp]
  rfl

theorem body_swallowed (c : C) {b : UInt8} {k : Kind} {p : P Unit} {s r : List UInt8} (hk : Kind.ofByte b.toNat = some k)
    (he : eventCase k = none) (hq : queryCase k = none) (hf : requestCase k = none) (hs : swallowedCase k = some p)
    (hp : p s = .ok ((), r)) : encodeBody c (b :: s) = .ok ((.swallowed, c), r) := by
  apply body_case c hk
  have e : encodeCase c k = (p >>= fun _ => pure (.swallowed, c)) := by unfold encodeCase; rw [he, hq, hf, hs]
  rw [e, bind_run_ok hp]
  rfl

theorem body_context (c : C) {b : UInt8} {k : Kind} {p : P (Outcome × C)} {s r : List UInt8} {x : Outcome × C}
    (hk : Kind.ofByte b.toNat = some k)
    (he : eventCase k = none) (hq : queryCase k = none) (hf : requestCase k = none) (hs : swallowedCase k = none)
    (hc : contextCase c k = some p) (hp : p s = .ok (x, r)) : encodeBody c (b :: s) = .ok (x, r) := by
  apply body_case c hk
  have e : encodeCase c k = p := by unfold encodeCase; rw [he, hq, hf, hs, hc]
  rw [e]
  exact hp

/-! ## Every message -/

macro "mm" "[" ts:Lean.Parser.Tactic.simpLemma,* "]" : tactic => `(tactic|
  simp [bind_run, CoreMsg.Meaning.state, CoreMsg.Meaning.msg, Outcome.event, Outcome.queries, CoreMsg.yes, pileOp, CoreMsg.pileSize,
    Place.zero, $ts,*])
macro "ev" "[" ts:Lean.Parser.Tactic.simpLemma,* "]" : tactic => `(tactic| (refine body_event _ rfl rfl ?_; mm [$ts,*]))
macro "rq" "[" ts:Lean.Parser.Tactic.simpLemma,* "]" : tactic => `(tactic| (refine body_request _ rfl rfl rfl rfl ?_; mm [$ts,*]))
macro "sw" "[" ts:Lean.Parser.Tactic.simpLemma,* "]" : tactic => `(tactic| (refine body_swallowed _ rfl rfl rfl rfl rfl ?_; mm [$ts,*]))

theorem body_meaning (c : C) (m : CoreMsg) (hf : m.Fits) {x : CoreMsg.Meaning} (hm : m.meaning = some x) (s : List UInt8) :
    encodeBody c (m.bytes ++ s) = .ok ((⟨x.state, x.msg⟩, c), s) := by
  cases m <;> simp only [CoreMsg.meaning, Option.some.injEq, reduceCtorEq] at hm <;> subst hm <;>
    simp only [CoreMsg.bytes, List.append_assoc, List.cons_append, List.nil_append]
  case retry => sw []
  case hint => sw []
  case start => ev [startEvent]
  case updateData con loc ss =>
    refine body_query _ rfl rfl rfl ?_
    rw [bind_run_ok (readCon_b8 con _), bind_run_ok (read_b8 loc _), bind_run_ok (read_cnt4 _ hf.1)]
    have hl : ss.length ≤ (ss.flatMap QueryItem.slotBytes).length := by
      clear hf
      induction ss with
      | nil => simp
      | cons o ss ih =>
        have := slotBytes_length o
        simp only [List.length_cons, List.flatMap_cons, List.length_append]; omega
    have h1 := updateLoop_slots con.toNat loc.toNat _ hf.1 ss hf.2 0 0 ((ss.flatMap QueryItem.slotBytes ++ s).length + 1)
      (by simp only [List.length_append]; omega) (by omega) (by omega) s
    have h2 : updateAll con.toNat loc.toNat (ss.flatMap QueryItem.slotBytes).length (ss.flatMap QueryItem.slotBytes ++ s) = _ := h1
    rw [bind_run_ok h2]
    simp only [slotQueries, Nat.zero_add]
    rfl
  case updateCard loc is =>
    refine body_query _ rfl rfl rfl ?_
    rw [bind_run_ok (readLocSSeq_bytes loc _), bind_run_ok (encodeOneQuery_blob is hf s),
      withOverlays_eq _ _ (materials_length is hf)]
    rfl
  case selectBattlecmd p acts atks m e =>
    have h1 := fun s => listOf_map (g := Activable.card CardLoc.place) hf.1 s fun x _ s => readActCard_bytes readLocSeq_bytes x s
    have h2 := fun s => listOf_map (p := (do
      skip 4
      let place ← readLocSSeq
      return (⟨place, ← readBool⟩ : AtkCard))) (f := fun a => b32 a.1 ++ (a.2.1.bytes ++ b8 a.2.2)) (g := fun a => ⟨a.2.1.place, CoreMsg.yes a.2.2⟩) hf.2 s (fun x _ s => by mm [])
    rq [battleRequest, h1, h2]
    split <;> split <;> rfl
  case selectIdlecmd p sm sp r ms ss acts b e sh =>
    obtain ⟨g1, g2, g3, g4, g5, g6⟩ := hf
    have h1 := fun s => listOf_map g1 s fun x _ s => coded_locSeq x s
    have h2 := fun s => listOf_map g2 s fun x _ s => coded_locSeq x s
    have h3 := fun s => listOf_map g3 s fun x _ s => coded_locSSeq x s
    have h4 := fun s => listOf_map g4 s fun x _ s => coded_locSeq x s
    have h5 := fun s => listOf_map g5 s fun x _ s => coded_locSeq x s
    have h6 := fun s => listOf_map (g := Activable.card CardLoc.place) g6 s fun x _ s => readActCard_bytes readLocSeq_bytes x s
    rq [idleRequest, h1, h2, h3, h4, h5, h6]
    split <;> split <;> rfl
  case selectEffectyn => rq []
  case selectYesno => rq []
  case selectOption p os =>
    have h1 := fun s => slistOf_map hf s fun x _ s => readEffect_b64 x s
    rq [h1]
  case selectCard p cn mn mx cs =>
    obtain ⟨h0, hl⟩ := hf
    obtain ⟨x, xs, rfl⟩ : ∃ x xs, cs = x :: xs := by cases cs with
      | nil => simp at h0
      | cons x xs => exact ⟨x, xs, rfl⟩
    refine body_request _ rfl rfl rfl rfl ?_
    have h1 : ∀ s, peek (do skip 5; return (← read 1) != 0 : P Bool) ((x :: xs).flatMap (CoreMsg.withCode LocInfo.bytes) ++ s) =
        .ok (x.2.loc != 0, (x :: xs).flatMap (CoreMsg.withCode LocInfo.bytes) ++ s) := by
      intro s
      apply peek_ok (r := b32 x.2.seq ++ (b32 x.2.pos ++ (xs.flatMap (CoreMsg.withCode LocInfo.bytes) ++ s)))
      have e : (x :: xs).flatMap (CoreMsg.withCode LocInfo.bytes) ++ s =
          (b32 x.1 ++ b8 x.2.con) ++ (b8 x.2.loc ++ (b32 x.2.seq ++ (b32 x.2.pos ++ (xs.flatMap (CoreMsg.withCode LocInfo.bytes) ++ s)))) := by
        simp [CoreMsg.withCode, LocInfo.bytes]
      rw [e, bind_run_ok (skip_append (by simp)), bind_run_ok (read_b8 _ _), pure_run]
      congr 2
      rw [Bool.eq_iff_iff]
      simp [← UInt8.toNat_inj]
    have h2 := fun s => many_map (x :: xs) s fun x _ s => readSelectable_bytes x s
    have h3 := fun s => many_map (p := (do let c ← read 4; skip 10; return c : P Nat)) (f := CoreMsg.withCode LocInfo.bytes)
      (g := fun x => x.1.toNat) (x :: xs) s (fun x _ s => by simp [CoreMsg.withCode, bind_run])
    have h4 := fun s => read_cnt4 s hl
    have h5 : selectCardRequest (b8 cn ++ (b32 mn ++ (b32 mx ++ (list32 (CoreMsg.withCode LocInfo.bytes) (x :: xs) ++ s)))) =
        .ok (if x.2.loc = 0 then .limbo (CoreMsg.yes cn) mn.toNat mx.toNat ((x :: xs).map (·.1.toNat))
          else .uniqueRange (CoreMsg.yes cn) mn.toNat mx.toNat ((x :: xs).map fun x => ⟨x.2.place, x.1.toNat⟩), s) := by
      unfold selectCardRequest
      rw [bind_run_ok (readBool_b8 _ _), bind_run_ok (read_b32 _ _), bind_run_ok (read_b32 _ _), list32, List.append_assoc,
        bind_run_ok (h4 _), massert, if_pos h0, bind_run_ok (lift_ok _ _), bind_run_ok (h1 _)]
      by_cases hz : x.2.loc = 0
      · rw [if_neg (by simp [hz]), bind_run_ok (h3 _), if_pos hz]; rfl
      · rw [if_pos (by simpa using hz), bind_run_ok (h2 _), if_neg hz]; rfl
    rw [bind_run_ok h5]
    simp only [List.head?_cons, Option.any_some, decide_eq_true_eq]
    rfl
  case selectChain p sc f t acts =>
    have h1 := fun s => listOf_map (g := Activable.card LocInfo.place) hf s fun x _ s => readActCard_bytes readLocInfo_bytes x s
    rq [h1]
    rw [show (127 : Nat) = 2 ^ 7 - 1 from rfl, Nat.and_two_pow_sub_one_eq_mod, Bool.eq_iff_iff]
    simp only [decide_eq_true_eq, Bool.not_eq_true', decide_eq_false_iff_not]
    omega
  case selectPlace => rq [unpackZones_eq]
  case selectPosition => rq []
  case selectTribute p cn mn mx cs =>
    have h1 := fun s => listOf_map (p := (do
      let code ← read 4
      let place ← readLocSeq
      return (⟨place, code, ← read 1⟩ : TributeCard))) (f := fun a => b32 a.1 ++ (a.2.1.bytes ++ b8 a.2.2)) (g := fun x => ⟨x.2.1.place, x.1.toNat, x.2.2.toNat⟩) hf s (fun x _ s => by mm [])
    rq [h1]
  case sortChain p cs =>
    have h1 := fun s => listOf_map hf s fun x _ s => coded_locL x s
    rq [h1]
  case selectDisfield => rq [unpackZones_eq]
  case sortCard p cs =>
    have h1 := fun s => listOf_map hf s fun x _ s => coded_locL x s
    rq [h1]
  case selectUnselectCard p f cn mn mx ss us =>
    have h1 := fun s => listOf_map hf.1 s fun x _ s => readSelectable_bytes x s
    have h2 := fun s => listOf_map hf.2 s fun x _ s => readSelectable_bytes x s
    rq [h1, h2]
  case confirmDecktop p cs =>
    have h1 := fun s => listOf_map hf s fun x _ s => coded_locSeq x s
    ev [h1]
  case confirmCards p cs =>
    have h1 := fun s => listOf_map hf s fun x _ s => coded_locSeq x s
    ev [h1]
  case shuffleDeck => ev []
  case shuffleHand p cs =>
    have h1 := fun s => skipMany_map cs s fun x _ s => skip_b32 x s
    have h2 := fun s => read_cnt4 s hf
    ev [list32, h1, h2]
  case shuffleSetCard l cs =>
    have h0 := fun s => read_cnt1 s hf
    have h1 := fun s => many_map cs s fun x _ s => readLocInfo_bytes x.1 s
    have h2 := fun s => many_map cs s fun x _ s => readLocInfo_bytes x.2 s
    ev [h0, h1, h2]
  case shuffleExtra p cs =>
    have h1 := fun s => skipMany_map cs s fun x _ s => skip_b32 x s
    have h2 := fun s => read_cnt4 s hf
    ev [list32, h1, h2]
  case newTurn => ev []
  case newPhase => ev []
  case confirmExtratop p cs =>
    have h1 := fun s => listOf_map hf s fun x _ s => coded_locSeq x s
    ev [h1]
  case posChange => ev []
  case set => ev []
  case swap => ev []
  case fieldDisabled m => 
    have h := unpackZones_eq m 0
    rw [show (0 : UInt8).toNat = 0 from rfl] at h
    ev [h]
  case summoning => ev [summoningEvent]
  case summoned => sw []
  case spsummoning => ev [summoningEvent]
  case spsummoned => sw []
  case flipsummoning => ev [summoningEvent]
  case flipsummoned => sw []
  case chaining => ev []
  case chained => ev []
  case chainSolving => ev []
  case chainSolved => ev []
  case chainEnd => sw []
  case chainNegated => ev []
  case chainDisabled => ev []
  case cardSelected cs =>
    have h1 := fun s => listOf_map hf s fun x _ s => readLocInfo_bytes x s
    ev [h1, selectedEvent]
  case randomSelected p cs =>
    have h1 := fun s => listOf_map hf s fun x _ s => readLocInfo_bytes x s
    ev [h1, selectedEvent]
  case becomeTarget cs =>
    have h1 := fun s => listOf_map hf s fun x _ s => readLocInfo_bytes x s
    ev [h1, selectedEvent]
  case damage => ev [lpEvent]
  case recover => ev [lpEvent]
  case equip => sw []
  case lpupdate => ev [lpEvent]
  case cardTarget => ev []
  case cancelTarget => ev []
  case payLpcost => ev [lpEvent]
  case addCounter => ev []
  case removeCounter => ev []
  case attack a b =>
    have h : (slot b.base b.seq.toNat).1 = 0 ↔ b.base = 0 := by
      unfold slot
      by_cases h3 : b.base.testBit 3 = true
      · have : b.base ≠ 0 := by intro e; rw [e] at h3; simp at h3
        simp only [h3, if_true, this, iff_false]
        split <;> (try split) <;> simp [this]
      · simp [h3]
    ev [LocInfo.place, h]
  case battle a x y d b u v e =>
    refine body_swallowed _ rfl rfl rfl rfl rfl ?_
    have h9 : ∀ (x y : UInt32) (d : UInt8) (s : List UInt8), skip 9 (b32 x ++ (b32 y ++ (b8 d ++ s))) = .ok ((), s) := by
      intro x y d s
      rw [← List.append_assoc, ← List.append_assoc, skip_append (by simp)]
    rw [bind_run_ok (skip_locInfo _ _), bind_run_ok (h9 ..), bind_run_ok (skip_locInfo _ _), h9]
  case attackDisabled => sw []
  case damageStepStart => sw []
  case damageStepEnd => sw []
  case missedEffect => sw []
  case tossCoin p rs =>
    have h1 := fun s => slistOf_map hf s fun x _ s => readBool_b8 x s
    ev [h1]
  case tossDice p rs =>
    have h1 := fun s => slistOf_map hf s fun x _ s => read_b8 x s
    ev [h1]
  case rockPaperScissors => rq []
  case handRes h =>
    have h3 : ∀ n : Nat, n &&& 3 = n % 4 := fun n => Nat.and_two_pow_sub_one_eq_mod n 2
    ev [h3, Nat.shiftRight_eq_div_pow]
  case announceRace => rq []
  case announceAttrib => rq []
  case announceNumber p ns =>
    have h1 := fun s => slistOf_map hf s fun x _ s => read_b64 x s
    rq [h1]
  case cardHint => sw []
  case tagSwap p m ep dt ex ha =>
    have hx : ex.length + ha.length < 2 ^ 32 := hf
    refine body_event _ rfl rfl ?_
    unfold tagSwapEvent
    rw [bind_run_ok (readCon_b8 _ _), bind_run_ok (read_b32 _ _), bind_run_ok (read_cnt4 _ (by omega)), bind_run_ok (skip_b32 _ _),
      bind_run_ok (read_cnt4 _ (by omega)), bind_run_ok (skip_b32 _ _), Nat.mod_eq_of_lt hx]
    have h1 := skipMany_map (p := (do skip 4; skip 4)) (ex ++ ha) s fun x _ s => skip_pair x s
    rw [List.length_append, List.flatMap_append, List.append_assoc] at h1
    rw [bind_run_ok h1]
    rfl
  case reloadField f s0 s1 cs =>
    have h1 := fun s => listOf_map hf.2.2 s fun x _ s => readChain_bytes x s
    ev [reloadEvent, h1, hf.1, hf.2.1]
    have hb : ∀ i, (f.toNat &&& 2 ^ i != 0) = f.toNat.testBit i := by
      intro i
      rw [Bool.eq_iff_iff]
      have := land_pow_ne f.toNat i
      simpa using this
    exact ⟨hb 22, hb 11, hb 12, hb 13⟩
  case aiName n =>
    refine body_swallowed _ rfl rfl rfl rfl rfl ?_
    have hl : n.length < 2 ^ 16 := hf
    rw [bind_run_ok (read_cnt2 _ hl), ← List.singleton_append, ← List.append_assoc, skip_append (by simp)]
  case playerHint p t e =>
    have h : t.toNat = 1 ↔ t = 1 := by rw [← UInt8.toNat_inj]; rfl
    ev [h]

end

end Ygo
