import Verif.Lemmas.Mirror
import Verif.Props.Blind

/-!
# The core's messages with the players exchanged
-/

namespace Ygo.Props
open Ygo Ygo.Spec P EncodeContext

set_option linter.unusedSimpArgs false

theorem filterMap_congr' {α β : Type} {f g : α → Option β} {xs : List α} (h : ∀ x ∈ xs, f x = g x) : xs.filterMap f = xs.filterMap g := by
  induction xs with
  | nil => rfl
  | cons x xs ih =>
    rw [List.filterMap_cons, List.filterMap_cons, h x (by simp), ih fun y hy => h y (by simp [hy])]

/-! ## Locations -/

theorem slot_zero (loc seq : Nat) : (slot loc seq).1 = 0 ↔ loc = 0 := by
  unfold slot
  by_cases h : loc.testBit 3 = true
  · have : loc ≠ 0 := by rintro rfl; simp at h
    simp only [h, if_true]
    split
    · rfl
    · split <;> simp [this]
  · simp [h]

theorem mk_mirrored (b : UInt8) (loc seq : Nat) (o : Int) :
    Place.mirrored ⟨b.toNat, loc, seq, o⟩ = ⟨((if loc = 0 then b else otherByte b).toNat : Nat), loc, seq, o⟩ := by
  unfold Place.mirrored
  by_cases h : loc = 0 <;> simp [h]

theorem loc_mirrored (i : LocInfo) : i.mirrored.place = i.place.mirrored := by
  unfold LocInfo.place
  rw [mk_mirrored]
  simp only [slot_zero, LocInfo.mirrored]
  by_cases h : i.base = 0
  · simp only [h, if_true]
  · simp only [h, if_false]; rfl

theorem cardLoc_mirrored (i : CardLoc) : i.mirrored.place = i.place.mirrored := by
  unfold CardLoc.place
  rw [mk_mirrored]
  simp only [slot_zero, CardLoc.mirrored]
  by_cases h : i.loc.toNat % 128 = 0 <;> simp [h]

theorem cardLocS_mirrored (i : CardLocS) : i.mirrored.place = i.place.mirrored := by
  unfold CardLocS.place
  rw [mk_mirrored]
  simp only [slot_zero, CardLocS.mirrored]
  by_cases h : i.loc.toNat % 128 = 0 <;> simp [h]

theorem cardLocL_mirrored (i : CardLocL) : i.mirrored.place = i.place.mirrored := by
  unfold CardLocL.place
  rw [mk_mirrored]
  simp only [slot_zero, CardLocL.mirrored]
  by_cases h : i.base = 0
  · simp only [h, if_true]
  · simp only [h, if_false]; rfl

@[simp] theorem locInfo_bytes_length (i : LocInfo) : i.bytes.length = 10 := by simp [LocInfo.bytes, b8, b32, le]

theorem loc_mirrored_loc (i : LocInfo) : i.mirrored.loc = i.loc := by unfold LocInfo.mirrored; split <;> rfl
theorem loc_mirrored_base (i : LocInfo) : i.mirrored.base = i.base := by simp [LocInfo.base, loc_mirrored_loc]

theorem nowhere_mirrored : Place.mirrored {} = {} := rfl
theorem zero_mirrored : Place.zero.mirrored = Place.zero := rfl

theorem other_sub (p : UInt8) : otherByte (1 - p) = 1 - otherByte p := by
  have : ∀ p : Fin 256, otherByte (1 - UInt8.ofNat p.val) = 1 - otherByte (UInt8.ofNat p.val) := by decide +kernel
  have := this ⟨p.toNat, p.toNat_lt⟩
  simpa using this

theorem clearZones_mirrored (p : UInt8) (bit : Nat → Bool) :
    clearZones (otherByte p).toNat bit = (clearZones p.toNat bit).map Place.mirrored := by
  unfold clearZones
  rw [List.map_filterMap]
  apply filterMap_congr'
  intro x hx
  obtain ⟨i, loc, seq⟩ := x
  have hl : loc ≠ 0 := by
    rintro rfl
    simp at hx
  simp only
  split
  · rfl
  · simp [Place.mirrored, hl]

theorem clearBits_mirrored (m : UInt32) (p : UInt8) : clearBits m (otherByte p) = (clearBits m p).map Place.mirrored := by
  unfold clearBits
  rw [List.map_append, clearZones_mirrored, ← other_sub, clearZones_mirrored]

/-! ## Queries -/

theorem item_length (i : QueryItem) : i.mirrored.bytes.length = i.bytes.length := by
  cases i <;> simp only [QueryItem.mirrored]
  case equipCard l => simp [QueryItem.bytes, QueryItem.payload]
  case targetCard ls => 
    have : ∀ xs : List LocInfo, (xs.flatMap LocInfo.bytes).length = 10 * xs.length := by
      intro xs
      induction xs with
      | nil => rfl
      | cons x xs ih => simp only [List.flatMap_cons, List.length_append, locInfo_bytes_length, ih, List.length_cons]; omega
    simp [QueryItem.bytes, QueryItem.payload, list32, this]
  case owner v => simp [QueryItem.bytes, QueryItem.payload, b8]

theorem item_fits (i : QueryItem) (h : i.Fits) : i.mirrored.Fits := by
  have hl := item_length i
  have hp : i.mirrored.payload.length = i.payload.length := by
    simp only [QueryItem.bytes, List.length_append] at hl
    simp [b32, le] at hl
    omega
  unfold QueryItem.Fits at h ⊢
  rw [hp]
  cases i <;> exact h

theorem items_length (is : List QueryItem) : ((is.map QueryItem.mirrored).flatMap (·.bytes)).length = (is.flatMap (·.bytes)).length := by
  induction is with
  | nil => rfl
  | cons i is ih => simp only [List.map_cons, List.flatMap_cons, List.length_append, ih, item_length]

theorem blob_length (is : List QueryItem) : (QueryItem.blob (is.map QueryItem.mirrored)).length = (QueryItem.blob is).length := by
  simp only [QueryItem.blob, List.length_append, items_length]

theorem slots_length (ss : List (Option (List QueryItem))) :
    ((ss.map (Option.map (List.map QueryItem.mirrored))).flatMap QueryItem.slotBytes).length = (ss.flatMap QueryItem.slotBytes).length := by
  induction ss with
  | nil => rfl
  | cons s ss ih =>
    simp only [List.map_cons, List.flatMap_cons, List.length_append, ih]
    cases s with
    | none => rfl
    | some is => simp only [Option.map_some, QueryItem.slotBytes, blob_length]

theorem value_mirrored (f : QField) (i : QueryItem) : i.mirrored.value f = (i.value f).map (mirroredVal f) := by
  cases i <;> cases f <;> first | rfl | skip
  case equipCard.equippedTo l => simp [QueryItem.mirrored, QueryItem.value, mirroredVal, loc_mirrored]
  case owner.owner v => simp [QueryItem.mirrored, QueryItem.value, mirroredVal]

theorem last_map {α β γ : Type} (f : α → Option β) (f' : α → Option γ) (g : α → α) (h : β → γ) (hf : ∀ x, f' (g x) = (f x).map h) (xs : List α) :
    QueryItem.last f' (xs.map g) = (QueryItem.last f xs).map h := by
  unfold QueryItem.last
  rw [← List.map_reverse]
  induction xs.reverse with
  | nil => rfl
  | cons x xs ih =>
    simp only [List.map_cons, List.findSome?_cons, hf, ih]
    cases f x <;> rfl

theorem allOf_map {α β γ : Type} (f : α → Option (List β)) (f' : α → Option (List γ)) (g : α → α) (h : β → γ) (hf : ∀ x, f' (g x) = (f x).map (List.map h))
    (xs : List α) : QueryItem.allOf f' (xs.map g) = (QueryItem.allOf f xs).map (List.map h) := by
  unfold QueryItem.allOf
  have e : (xs.map g).any (fun x => (f' x).isSome) = xs.any fun x => (f x).isSome := by
    rw [List.any_map]
    congr 1
    funext x
    simp [hf]
  have e2 : (xs.map g).filterMap f' = (xs.filterMap f).map (List.map h) := by
    rw [List.filterMap_map, List.map_filterMap]
    apply filterMap_congr'
    intro x _
    exact hf x
  rw [e, e2, ← List.map_flatten]
  split <;> rfl

theorem data_mirrored (is : List QueryItem) : QueryItem.data (is.map QueryItem.mirrored) = (QueryItem.data is).mirrored := by
  unfold QueryItem.data QueryData.mirrored
  congr 1
  · funext f
    exact last_map _ _ _ _ (value_mirrored f) is
  · apply allOf_map
    intro i
    cases i <;> simp [QueryItem.mirrored, QueryItem.targets, Function.comp_def, loc_mirrored]
  · have := allOf_map QueryItem.counterList QueryItem.counterList QueryItem.mirrored id (fun i => by cases i <;> simp [QueryItem.mirrored, QueryItem.counterList]) is
    rw [this]; simp

theorem overlays_mirrored (is : List QueryItem) : QueryItem.last QueryItem.overlays (is.map QueryItem.mirrored) = QueryItem.last QueryItem.overlays is := by
  have := last_map QueryItem.overlays QueryItem.overlays QueryItem.mirrored id (fun i => by cases i <;> simp [QueryItem.mirrored, QueryItem.overlays]) is
  rw [this]; simp

theorem queries_mirrored (p : Place) (is : List QueryItem) :
    QueryItem.queries p.mirrored (is.map QueryItem.mirrored) = (QueryItem.queries p is).map Query.mirrored := by
  unfold QueryItem.queries QueryItem.materials
  rw [data_mirrored, overlays_mirrored, List.map_cons]
  congr 1
  apply List.ext_getElem
  · simp
  intro i h h'
  simp only [List.getElem_map, List.getElem_mapIdx]
  simp only [Query.mirrored, Query.mk.injEq]
  refine ⟨?_, ?_⟩
  · unfold Place.mirrored
    by_cases h : p.loc = 0 <;> simp [h]
  · simp only [QueryData.mirrored, QueryData.setSingle, QueryData.mk.injEq, Option.map_none, and_self, and_true]
    funext f
    by_cases h : f = .code
    · subst h; rfl
    · simp [h]

/-! ## Meanings -/

def mirroredMeaning : CoreMsg.Meaning → CoreMsg.Meaning
  | .event e => .event e.mirrored
  | .request p r => .request (other p) r.mirrored
  | .queries qs => .queries (qs.map Query.mirrored)
  | .nothing => .nothing

theorem mirroredMeaning_msg (x : CoreMsg.Meaning) : (mirroredMeaning x).msg = x.msg.map Msg.mirrored := by
  cases x <;> rfl

theorem mirroredMeaning_state (x : CoreMsg.Meaning) : (mirroredMeaning x).state = x.state := by
  cases x <;> rfl

theorem side_fits {m : CoreMsg} (h : m.Fits) : m.mirrored.Fits := by
  cases m <;> simp only [CoreMsg.mirrored, CoreMsg.Fits, List.length_map] at h ⊢ <;> try exact h
  case updateData c l ss =>
    refine ⟨by rw [slots_length]; exact h.1, fun is hi i hm => ?_⟩
    obtain ⟨s, hs, he⟩ := List.mem_map.mp hi
    cases s with
    | none => simp at he
    | some js =>
      simp only [Option.map_some, Option.some.injEq] at he
      subst he
      obtain ⟨j, hj, rfl⟩ := List.mem_map.mp hm
      exact item_fits j (h.2 js hs j hj)
  case updateCard l is =>
    intro i hm
    obtain ⟨j, hj, rfl⟩ := List.mem_map.mp hm
    exact item_fits j (h j hj)
  case reloadField => exact ⟨h.2.1, h.1, h.2.2⟩

theorem hands_turned (h : UInt8) : (handsTurned h).toNat % 4 = h.toNat / 4 % 4 ∧ (handsTurned h).toNat / 4 % 4 = h.toNat % 4 := by
  have : ∀ h : Fin 256, (handsTurned (UInt8.ofNat h.val)).toNat % 4 = (UInt8.ofNat h.val).toNat / 4 % 4 ∧
      (handsTurned (UInt8.ofNat h.val)).toNat / 4 % 4 = (UInt8.ofNat h.val).toNat % 4 := by decide +kernel
  simpa using this ⟨h.toNat, h.toNat_lt⟩

theorem meaning_mirrored (m : CoreMsg) (hb : ¬ m.BothSides) : m.mirrored.meaning = m.meaning.map mirroredMeaning := by
  cases m <;> simp only [CoreMsg.BothSides, not_true_eq_false] at hb <;>
    simp [CoreMsg.mirrored, CoreMsg.meaning, mirroredMeaning, Event.mirrored, Request.mirrored, MetaEvent.mirrored, CardEvent.mirrored, PileEvent.mirrored,
      SelectCard.mirrored, SelectIdle.mirrored, BoardExchange.mirrored, ResizeOp.mirrored, PlacePair.mirrored, Function.comp_def, loc_mirrored,
      cardLoc_mirrored, cardLocS_mirrored, cardLocL_mirrored, nowhere_mirrored, Activable.mirrored, Activable.card, ActCard.mirrored,
      SelectableCard.mirrored, Link.mirrored, Link.chain, Chain.mirrored, clearBits_mirrored, CoreMsg.pileSize, turned]
  case updateData c l ss =>
    congr 1
    apply List.ext_getElem
    · simp
    · intro i h h'
      simp only [List.getElem_map, List.getElem_mapIdx]
      cases ss[i]'(by simpa using h) with
      | none => rfl
      | some is =>
        simp only [Option.map_some]
        rw [← queries_mirrored, mk_mirrored]
        have : (slot l.toNat i).1 = 0 ↔ l = 0 := by
          rw [slot_zero, ← UInt8.toNat_inj]; rfl
        simp only [this]
  case updateCard l is => exact queries_mirrored _ is
  case selectCard p c mn mx cs =>
    have : Option.any (fun x : UInt32 × LocInfo => decide (x.2.loc = 0)) (Option.map (fun x => (x.1, x.2.mirrored)) cs.head?) =
        Option.any (fun x => decide (x.2.loc = 0)) cs.head? := by
      cases cs.head? <;> simp [loc_mirrored_loc]
    rw [this]
    split <;> simp [SelectableCard.mirrored, Function.comp_def]
  case attack a b =>
    rw [loc_mirrored_base]
    split <;> simp [nowhere_mirrored]
  case handRes h => have := hands_turned h; omega
  all_goals simp [Place.mirrored]

/-! ## What depends on what is tracked -/

theorem pileSize_mirrored (c : BasicContext) (con : Int) (loc : Nat) : pileSize c.mirrored (other con) loc = pileSize c con loc := by
  show (pileKey (other con) loc >>= fun k => Except.ok (c.board.frame.layout.mirrored.pile k).length) = pileKey con loc >>= fun k => Except.ok (c.board.frame.layout.pile k).length
  rw [pileKey_other, map_bind']
  refine bind_congr' fun k => ?_
  simp [Layout.mirrored]

theorem hasXyzMat_mirrored (c : BasicContext) (p : Place) : hasXyzMat c.mirrored p.mirrored = hasXyzMat c p := by
  show (p.mirrored.zoneKey >>= fun k => Except.ok (!(c.board.frame.layout.mirrored.zone k).materials.isEmpty))
    = p.zoneKey >>= fun k => Except.ok (!(c.board.frame.layout.zone k).materials.isEmpty)
  rw [Place.mirrored_zoneKey, map_bind']
  refine bind_congr' fun k => ?_
  simp [Layout.mirrored]

theorem getXyzLeft_mirrored (c : BasicContext) (p : Place) : getXyzLeft c.mirrored p.mirrored = (getXyzLeft c p).map Place.mirrored := by
  show orUb (c.mirrored.left p.mirrored) = (orUb (c.left p)).map Place.mirrored
  simp only [BasicContext.mirrored, Place.mirrored_mirrored]
  cases c.left p <;> rfl

theorem xyzLeft_mirrored (c : BasicContext) (p q : Place) : xyzLeft c.mirrored p.mirrored q.mirrored = (xyzLeft c p q).mirrored := by
  simp only [xyzLeft, BasicContext.mirrored, BasicContext.mk.injEq, true_and, and_true]
  funext x
  by_cases h : x = p.mirrored
  · subst h; simp
  · have : x.mirrored ≠ p := fun e => h (by rw [← e]; simp)
    simp [h, this]

theorem oseq_mirrored (p : Place) (o : Int) : ({ p.mirrored with oseq := o } : Place) = Place.mirrored { p with oseq := o } := by
  unfold Place.mirrored
  by_cases h : p.loc = 0 <;> simp [h]

def mirroredOutcome (o : Outcome) : Outcome := { o with msg := o.msg.map Msg.mirrored }

theorem same_place {d curr : Place} {i : Int} (hl : curr.loc ≠ 0) :
    (d.mirrored.con = curr.mirrored.con ∧ d.mirrored.loc = curr.mirrored.loc ∧ d.mirrored.seq = curr.mirrored.seq ∧ d.mirrored.oseq = i) ↔
      (d.con = curr.con ∧ d.loc = curr.loc ∧ d.seq = curr.seq ∧ d.oseq = i) := by
  simp only [Place.mirrored_loc, Place.mirrored_seq, Place.mirrored_oseq]
  by_cases h : d.loc = curr.loc
  · have hd : d.loc ≠ 0 := by rw [h]; exact hl
    have : d.mirrored.con = curr.mirrored.con ↔ d.con = curr.con := by
      simp only [Place.mirrored, hd, hl, if_false]
      exact ⟨other_inj, fun h => by rw [h]⟩
    rw [this]
  · simp [h]

theorem deferredOps_mirrored {curr : Place} (hl : curr.loc ≠ 0) (i : Nat) (ds : List Place) :
    deferredOps curr.mirrored i (ds.map Place.mirrored) = (deferredOps curr i ds).map PlacePair.mirrored := by
  induction ds generalizing i with
  | nil => rfl
  | cons d ds ih =>
    simp only [List.map_cons, deferredOps, same_place hl]
    split
    · exact ih _
    · rw [List.map_cons, ih, oseq_mirrored]; rfl

theorem move_mirrored (c : BasicContext) (a b : Place) (r : Nat) :
    moveOutcome c.mirrored a.mirrored b.mirrored r = (moveOutcome c a b r).map fun x => (mirroredOutcome x.1, x.2.mirrored) := by
  unfold moveOutcome
  simp only [Place.mirrored_loc, Place.mirrored_isPile, Place.mirrored_oseq]
  split
  · rfl
  split
  · rfl
  split
  · rw [hasXyzMat_mirrored]
    split
    · rfl
    · cases hasXyzMat c a with
      | error e => rfl
      | ok h =>
        cases h
        · rfl
        · show Except.ok (_, xyzLeft c.mirrored a.mirrored Place.zero) = Except.ok (_, (xyzLeft c a Place.zero).mirrored)
          rw [← xyzLeft_mirrored]; rfl
  split
  · simp only [map_ok', Except.ok.injEq, Prod.mk.injEq]
    refine ⟨rfl, ?_⟩
    simp [xyzMatDefer, BasicContext.mirrored]
  split
  · rename_i h1 h2 h3 h4 h5
    simp only [map_ok', Except.ok.injEq, Prod.mk.injEq]
    refine ⟨?_, rfl⟩
    simp only [takeDeferredXyzMat, show c.mirrored.deferred = c.deferred.map Place.mirrored from rfl, deferredOps_mirrored h3]
    simp [mirroredOutcome, Outcome.event, Msg.mirrored, Event.mirrored, CardEvent.mirrored, PlacePair.mirrored]
  split
  · have e : (⟨a.mirrored.con, a.loc, a.mirrored.seq, OSEQ_INVALID⟩ : Place) = Place.mirrored { a with oseq := OSEQ_INVALID } :=
      (by rw [Place.mirrored_loc] : (⟨a.mirrored.con, a.loc, a.mirrored.seq, OSEQ_INVALID⟩ : Place) = ⟨a.mirrored.con, a.mirrored.loc, a.mirrored.seq, OSEQ_INVALID⟩).trans
        (oseq_mirrored a OSEQ_INVALID)
    rw [e, getXyzLeft_mirrored, map_bind', bind_map']
    refine bind_congr' fun src => ?_
    simp only [pure_eq_ok, map_ok', Except.ok.injEq, Prod.mk.injEq, and_true]
    rw [oseq_mirrored]
    rfl
  · split
    · rw [hasXyzMat_mirrored]
      cases hasXyzMat c a with
      | error e => rfl
      | ok h =>
        cases h
        · rfl
        · show Except.ok (_, xyzLeft c.mirrored b.mirrored a.mirrored) = Except.ok (_, (xyzLeft c b a).mirrored)
          rw [← xyzLeft_mirrored]; rfl
    · rfl

theorem mk_other (p : UInt8) {loc : Nat} (h : loc ≠ 0) (seq : Nat) (o : Int) : (⟨other p.toNat, loc, seq, o⟩ : Place) = Place.mirrored ⟨p.toNat, loc, seq, o⟩ := by
  simp [Place.mirrored, h]

theorem inContext_mirrored (c : BasicContext) (m : CoreMsg) (hb : ¬ m.BothSides) :
    m.mirrored.inContext c.mirrored = (m.inContext c).map fun x => x.map fun y => (mirroredMeaning y.1, y.2.mirrored) := by
  cases m <;> simp only [CoreMsg.BothSides, not_true_eq_false] at hb <;> simp only [CoreMsg.mirrored, CoreMsg.inContext, Option.map_none, Option.map_some, Option.some.injEq]
  case win w r =>
    rw [show getMatchWinReason c.mirrored = getMatchWinReason c from rfl]
    cases getMatchWinReason c with
    | error e => rfl
    | ok n =>
      show Except.ok _ = Except.ok _
      have : otherByte w = 2 ↔ w = 2 := ⟨fun h => by rw [← otherByte_otherByte w, h]; rfl, fun h => by rw [h]; rfl⟩
      simp only [this, Except.ok.injEq, Prod.mk.injEq, and_true]
      by_cases h : w = 2
      · simp [h, mirroredMeaning, Event.mirrored]
      · simp [h, mirroredMeaning, Event.mirrored]
  case matchKill r => rfl
  case deckTop p s code pos =>
    rw [otherByte_toNat, pileSize_mirrored]
    cases pileSize c p.toNat 1 with
    | error e => rfl
    | ok n => 
      show Except.ok _ = Except.ok _
      simp [mirroredMeaning, Event.mirrored, MetaEvent.mirrored, ← mk_other]
  case draw p cs =>
    rw [otherByte_toNat, pileSize_mirrored, pileSize_mirrored]
    cases pileSize c p.toNat 1 with
    | error e => rfl
    | ok n =>
      cases pileSize c p.toNat 2 with
      | error e => rfl
      | ok k =>
        show Except.ok _ = Except.ok _
        simp [mirroredMeaning, Event.mirrored, PileEvent.mirrored, SpliceOp.mirrored, ← mk_other]

theorem graveOp_mirrored (p : UInt8) (pos seq size sent : Nat) :
    graveLoop.op (other p.toNat) pos seq size sent = (graveLoop.op p.toNat pos seq size sent).mirrored := by
  simp only [graveLoop.op, SpliceOp.mirrored]
  rw [mk_other, mk_other] <;> decide

theorem graveLoop_mirrored (p : UInt8) (pos n i seq size sent : Nat) (s : List UInt8) :
    graveLoop (other p.toNat) pos n i seq size sent s = (graveLoop p.toNat pos n i seq size sent s).map fun x => (x.1.map SpliceOp.mirrored, x.2) := by
  induction n generalizing i seq size sent s with
  | zero =>
    simp only [graveLoop, graveOp_mirrored]
    split <;> rfl
  | succ n ih =>
    simp only [graveLoop, bind_run]
    cases byteAt (i / 8) s with
    | error e => rfl
    | ok x =>
      obtain ⟨b, s⟩ := x
      simp only
      split
      · exact ih _ _ _ _ _
      · split
        · simp only [bind_run, ih, graveOp_mirrored]
          cases graveLoop (p.toNat) pos n (i + 1) seq 0 (sent + size) s <;> rfl
        · exact ih _ _ _ _ _

theorem swapGraveDeck_mirrored (c : BasicContext) (p : UInt8) (s : List UInt8) :
    swapGraveDeckEvent c.mirrored (otherByte p :: s) = (swapGraveDeckEvent c (p :: s)).map fun x => (mirroredOutcome x.1, x.2) := by
  have hr : ∀ q : UInt8, readCon (q :: s) = .ok ((q.toNat : Int), s) := fun q => by
    have : read 1 (q :: s) = .ok (q.toNat, s) := read_b8 q s
    simp only [readCon, bind_run, this]; rfl
  unfold swapGraveDeckEvent
  simp only [bind_run, hr]
  cases read 4 s with
  | error e => rfl
  | ok x =>
    obtain ⟨pos, s⟩ := x
    simp only
    cases read 4 s with
    | error e => rfl
    | ok x =>
      obtain ⟨bs, s⟩ := x
      simp only [otherByte_toNat, pileSize_mirrored, P.lift]
      cases pileSize c p.toNat Loc.graveyard with
      | error e => rfl
      | ok gy =>
        simp only
        cases pileSize c p.toNat Loc.mainDeck with
        | error e => rfl
        | ok deck =>
          simp only [graveLoop_mirrored]
          cases graveLoop p.toNat pos gy 0 0 0 0 s with
          | error e => rfl
          | ok x =>
            obtain ⟨ops, s⟩ := x
            simp only [map_ok']
            by_cases hg : gy ≥ 2 ^ 32
            · simp only [if_pos hg]; rfl
            · simp only [if_neg hg, pure_run, bind_run]
              cases skip bs s with
              | error e => rfl
              | ok x =>
                simp only [map_ok', mirroredOutcome, Outcome.event, Msg.mirrored, Event.mirrored, PileEvent.mirrored, Option.map_some, List.map_append,
                  List.map_nil, Except.ok.injEq, Prod.mk.injEq, Outcome.mk.injEq, Option.some.injEq, Msg.mk.injEq, and_true, true_and]
                congr 4
                by_cases h1 : gy > 0 <;> by_cases h2 : deck > 0 <;> simp [h1, h2, SpliceOp.mirrored, ← mk_other]


theorem mirrored_length (m : CoreMsg) : m.mirrored.bytes.length = m.bytes.length := by
  have len1 : ∀ {α : Type} (g : α → α) (f : α → List UInt8), (∀ x, (f (g x)).length = (f x).length) →
      ∀ xs : List α, ((xs.map g).flatMap f).length = (xs.flatMap f).length := by
    intro α g f h xs
    induction xs with
    | nil => rfl
    | cons x xs ih => simp only [List.map_cons, List.flatMap_cons, List.length_append, ih, h]
  have ll : ∀ {α : Type} (g : α → α) (f : α → List UInt8), (∀ x, (f (g x)).length = (f x).length) →
      ∀ xs : List α, (list32 f (xs.map g)).length = (list32 f xs).length := by
    intro α g f h xs
    simp only [list32, List.length_append, List.length_map, len1 g f h]
  have l1 : ∀ x : LocInfo, x.bytes.length = 10 := locInfo_bytes_length
  have l2 : ∀ x : CardLoc, x.bytes.length = 6 := fun x => by simp [CardLoc.bytes, b8, b32, le]
  have l3 : ∀ x : CardLocS, x.bytes.length = 3 := fun x => by simp [CardLocS.bytes, b8, b32, le]
  have l4 : ∀ x : CardLocL, x.bytes.length = 9 := fun x => by simp [CardLocL.bytes, b8, b32, le]
  have le8 : ∀ x, (b8 x).length = 1 := fun _ => rfl
  have le16 : ∀ x, (b16 x).length = 2 := fun x => by simp [b16, le]
  have le32 : ∀ x, (b32 x).length = 4 := fun x => by simp [b32, le]
  have le64 : ∀ x, (b64 x).length = 8 := fun x => by simp [b64, le]
  cases m <;> simp only [CoreMsg.mirrored] <;> simp only [CoreMsg.bytes, List.length_append, l1, l2, l3, l4, le8, le16, le32, le64, Link.bytes]
  all_goals try rfl
  case updateData c l ss => rw [slots_length]
  case updateCard l is => rw [blob_length]
  case reloadField f s0 s1 cs =>
    rw [ll Link.mirrored Link.bytes (fun x => by simp [Link.bytes, Link.mirrored, l1, l2])]
    omega
  case shuffleSetCard l cs =>
    rw [len1 (fun x : LocInfo × LocInfo => (x.1.mirrored, x.2.mirrored)) (fun c => c.1.bytes) (fun x => by simp [l1]),
      len1 (fun x : LocInfo × LocInfo => (x.1.mirrored, x.2.mirrored)) (fun c => c.2.bytes) (fun x => by simp [l1]), List.length_map]
  all_goals
    repeat rw [ll _ _ (fun x => by
      first
      | (simp only [l1, l2, l3, l4]; done)
      | (simp only [Activable.bytes, Activable.mirrored, CoreMsg.withCode, List.length_append, l1, l2, l3, l4, le8, le32, le64]; done))]

theorem encode_swapGraveDeck {C : Type} [EncodeContext C] (c : C) (p : UInt8) (n : UInt32) (mask more : List UInt8) :
    encodeOne c ((CoreMsg.swapGraveDeck p n mask).bytes ++ more) = (swapGraveDeckEvent c (p :: (b32 n ++ list32 b8 mask ++ more))).map
      fun x => (⟨x.1.state, ((CoreMsg.swapGraveDeck p n mask).bytes ++ more).length - x.2.length, x.1.msg⟩, c) := by
  have e : (CoreMsg.swapGraveDeck p n mask).bytes ++ more = 35 :: p :: (b32 n ++ list32 b8 mask ++ more) := by simp [CoreMsg.bytes, b8]
  unfold encodeOne encodeBody
  rw [bind_run, e, show read 1 (35 :: p :: (b32 n ++ list32 b8 mask ++ more)) = .ok (35, p :: (b32 n ++ list32 b8 mask ++ more)) from read_b8 35 _]
  simp only
  show (match (swapGraveDeckEvent c >>= fun o => (pure (o, c) : P (Outcome × C))) (p :: (b32 n ++ list32 b8 mask ++ more)) with
    | .ok ((o, c), rest) => Except.ok (_, c)
    | .error e => .error e) = _
  rw [bind_run]
  cases swapGraveDeckEvent c (p :: (b32 n ++ list32 b8 mask ++ more)) <;> rfl

theorem encode_mirrored (c : BasicContext) (m : CoreMsg) (hf : m.Fits) (hb : ¬ m.BothSides) (more : List UInt8) :
    encodeOne c.mirrored (m.mirrored.bytes ++ more) = (encodeOne c (m.bytes ++ more)).map fun x => (x.1.mirrored, x.2.mirrored) := by
  have hf' := side_fits hf
  have hmm := meaning_mirrored m hb
  have hcc := inContext_mirrored c m hb
  cases hm : m.meaning with
  | some x =>
    rw [hm, Option.map_some] at hmm
    rw [C34_translation c m hf x hm, C34_translation c.mirrored m.mirrored hf' _ hmm, mirrored_length, mirroredMeaning_msg, mirroredMeaning_state]
    rfl
  | none =>
    cases hx : m.inContext c with
    | some x =>
      rw [hx, Option.map_some] at hcc
      rw [C34_translation_in_context c m hf x hx, C34_translation_in_context c.mirrored m.mirrored hf' _ hcc]
      cases x with
      | error e => rfl
      | ok x =>
        show Except.ok _ = Except.ok _
        rw [mirrored_length, mirroredMeaning_msg, mirroredMeaning_state]
        rfl
    | none =>
      cases m <;> simp [CoreMsg.meaning] at hm <;> simp [CoreMsg.inContext] at hx
      case swapGraveDeck p n mask =>
        rw [encode_swapGraveDeck]
        show encodeOne c.mirrored ((CoreMsg.swapGraveDeck (otherByte p) n mask).bytes ++ more) = _
        rw [encode_swapGraveDeck, swapGraveDeck_mirrored, map_map', map_map']
        have : (CoreMsg.swapGraveDeck (otherByte p) n mask).bytes.length = (CoreMsg.swapGraveDeck p n mask).bytes.length := mirrored_length (.swapGraveDeck p n mask)
        simp only [List.length_append, this]
        rfl
      case move code a b r =>
        rw [encode_move]
        show encodeOne c.mirrored ((CoreMsg.move code a.mirrored b.mirrored r).bytes ++ more) = _
        rw [encode_move, loc_mirrored, loc_mirrored, move_mirrored, map_map', map_map']
        have : (CoreMsg.move code a.mirrored b.mirrored r).bytes.length = (CoreMsg.move code a b r).bytes.length := mirrored_length (.move code a b r)
        simp only [this]
        rfl

end Ygo.Props
