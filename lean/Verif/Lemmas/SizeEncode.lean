import Verif.Lemmas.Size
import Verif.Lemmas.Range

/-!
# How much readers make of the bytes they read
-/

set_option linter.unusedSimpArgs false

namespace Ygo
open P Pb

/-- Every byte read pays for 1100 bytes of the message: what there is to spend before, the bytes and what is left afterwards. -/
def Costs {α : Type} (p : P α) (pre : Nat) (post : α → Nat) : Prop :=
  ∀ s a r, p s = .ok (a, r) → post a + 1100 * r.length ≤ pre + 1100 * s.length

namespace Costs
variable {α β : Type}

theorem pure' {a : α} {pre : Nat} {post : α → Nat} (h : post a ≤ pre) : Costs (pure a) pre post := by
  intro s b r hb
  have : (Except.ok (a, s) : Res _) = .ok (b, r) := hb
  simp only [Except.ok.injEq, Prod.mk.injEq] at this
  obtain ⟨rfl, rfl⟩ := this
  omega

theorem bind' {p : P α} {f : α → P β} {pre : Nat} {mid : α → Nat} {post : β → Nat} (hp : Costs p pre mid)
    (hf : ∀ a, Costs (f a) (mid a) post) : Costs (p >>= f) pre post := by
  intro s b r hb
  have hb : (match p s with | .ok (a, r) => f a r | .error e => .error e) = .ok (b, r) := hb
  cases h : p s with
  | error e => rw [h] at hb; simp at hb
  | ok x =>
    obtain ⟨a, r'⟩ := x
    rw [h] at hb
    have h1 := hp _ _ _ h
    have h2 := hf a _ _ _ hb
    omega

theorem weaken {p : P α} {pre pre' : Nat} {post post' : α → Nat} (hp : Costs p pre post) (h : pre ≤ pre') (h' : ∀ a, post' a ≤ post a) :
    Costs p pre' post' := fun s a r e => by
  have := hp s a r e
  have := h' a
  omega

/-- What is there besides stays. -/
theorem keep {p : P α} {pre : Nat} {post : α → Nat} (hp : Costs p pre post) (c : Nat) : Costs p (c + pre) (fun a => c + post a) :=
  fun s a r e => by have := hp s a r e; dsimp only; omega

theorem read (n c : Nat) : Costs (P.read n) c fun _ => c + 1100 * n := by
  intro s a r h
  simp only [P.read] at h
  split at h
  · simp only [Except.ok.injEq, Prod.mk.injEq] at h
    rw [← h.2, List.length_drop]
    dsimp only
    omega
  · simp at h

theorem skip (n c : Nat) : Costs (P.skip n) c fun _ => c + 1100 * n := by
  intro s a r h
  simp only [P.skip] at h
  split at h
  · simp only [Except.ok.injEq, Prod.mk.injEq] at h
    rw [← h.2, List.length_drop]
    dsimp only
    omega
  · simp at h

theorem lift {x : Res α} (c : Nat) : Costs (P.lift x) c fun _ => c := by
  intro s a r e
  simp only [P.lift] at e
  cases x with
  | ok b => simp only [Except.ok.injEq, Prod.mk.injEq] at e; rw [e.2]
  | error e' => simp at e

theorem peek {p : P α} (c : Nat) : Costs (P.peek p) c fun _ => c := by
  intro s a r e
  simp only [P.peek] at e
  cases hp : p s with
  | ok x => rw [hp] at e; simp only [Except.ok.injEq, Prod.mk.injEq] at e; rw [e.2]
  | error e' => rw [hp] at e; simp at e

theorem counted {p : P α} {pre : Nat} {post : α → Nat} (h : Costs p pre post) : Costs (P.counted p) pre fun x => post x.1 := by
  intro s a r e
  simp only [P.counted] at e
  cases hp : p s with
  | ok x =>
    obtain ⟨x, r'⟩ := x
    rw [hp] at e
    simp only [Except.ok.injEq, Prod.mk.injEq] at e
    have := h _ _ _ hp
    rw [← e.1, ← e.2]
    exact this
  | error e' => rw [hp] at e; simp at e

theorem skipMany {p : P Unit} (h : ∀ c, Costs p c fun _ => c) (c : Nat) : ∀ n, Costs (P.skipMany p n) c fun _ => c
  | 0 => pure' (Nat.le_refl _)
  | n + 1 => bind' (h c) fun _ => skipMany h c n

theorem many {p : P α} {w : Nat} (h : Costs p 0 fun _ => w) (c : Nat) : ∀ n, Costs (P.many p n) c fun xs => c + w * xs.length
  | 0 => pure' (by simp)
  | n + 1 => bind' (h.keep c) fun a => bind' (many h (c + w) n) fun as => pure' (by simp [Nat.mul_add]; omega)

theorem listOf {p : P α} {w : Nat} (h : Costs p 0 fun _ => w) (c : Nat) : Costs (Ygo.listOf p) c fun xs => c + w * xs.length :=
  bind' (read 4 c) fun n => (many h _ n).weaken (Nat.le_refl _) fun xs => by omega

theorem slistOf {p : P α} {w : Nat} (h : Costs p 0 fun _ => w) (c : Nat) : Costs (Ygo.slistOf p) c fun xs => c + w * xs.length :=
  bind' (read 1 c) fun n => (many h _ n).weaken (Nat.le_refl _) fun xs => by omega

/-! ## The small readers -/

/-- For readers of which only what they pay matters. -/
theorem con (c : Nat) : Costs readCon c fun _ => c + 1100 := bind' (read 1 c) fun _ => pure' (by omega)
theorem boolean (c : Nat) : Costs readBool c fun _ => c + 1100 := bind' (read 1 c) fun _ => pure' (by omega)
theorem counter (c : Nat) : Costs readCounter c fun _ => c + 4400 := bind' (read 4 c) fun _ => pure' (by omega)
theorem effect (c : Nat) : Costs readEffect c fun _ => c + 8800 := bind' (read 8 c) fun _ => pure' (by omega)

theorem loc (locW seqW : Nat) (posW : Option Nat) (c : Nat) : Costs (readLoc locW seqW posW) c fun _ => c + 1100 :=
  bind' (con c) fun _ => bind' (read locW _) fun _ => bind' (read seqW _) fun _ => by
    cases posW with
    | none => exact pure' (by omega)
    | some w => exact bind' (read w _) fun _ => pure' (by omega)

theorem locInfo (c : Nat) : Costs readLocInfo c fun _ => c + 1100 := loc _ _ _ c
theorem locSeq (c : Nat) : Costs readLocSeq c fun _ => c + 1100 := loc _ _ _ c
theorem locSSeq (c : Nat) : Costs readLocSSeq c fun _ => c + 1100 := loc _ _ _ c

theorem coded {p : P α} (h : ∀ c, Costs p c fun _ => c + 1100) (c : Nat) : Costs (Ygo.coded p) c fun _ => c + 1100 :=
  bind' (skip 4 c) fun _ => (h _).weaken (Nat.le_refl _) fun _ => by omega

theorem one {p : P α} (h : ∀ c, Costs p c fun _ => c + 1100) : Costs p 0 fun _ => 1100 := (h 0).weaken (Nat.le_refl _) fun _ => by omega

theorem field (f : QField) (c : Nat) : Costs (readField f) c fun _ => c := by
  cases f <;> first
    | exact (read 4 c).weaken (Nat.le_refl _) fun _ => by omega
    | exact (read 8 c).weaken (Nat.le_refl _) fun _ => by omega
    | exact (locInfo c).weaken (Nat.le_refl _) fun _ => by omega
    | exact (con c).weaken (Nat.le_refl _) fun _ => by omega
    | exact (boolean c).weaken (Nat.le_refl _) fun _ => by omega
    | exact bind' (read 4 c) fun _ => pure' (by omega)

theorem chain (c : Nat) : Costs readChain c fun _ => c + 1100 :=
  bind' (skip 4 c) fun _ => bind' (locInfo _) fun _ => bind' (locSeq _) fun _ => bind' (effect _) fun _ => pure' (by omega)

theorem selectable (c : Nat) : Costs readSelectable c fun _ => c + 1100 :=
  bind' (read 4 c) fun _ => bind' (locInfo _) fun _ => pure' (by omega)

theorem actCard {p : P Place} (h : ∀ c, Costs p c fun _ => c + 1100) (c : Nat) : Costs (readActCard p) c fun _ => c + 1100 :=
  bind' (skip 4 c) fun _ => bind' (h _) fun _ => bind' (effect _) fun _ => bind' (skip 1 _) fun _ => pure' (by omega)

end Costs

/-! ## Queries -/

theorem weight_setSingle (d : QueryData) (f : QField) (v : f.Val) : (d.setSingle f v).weight = d.weight := rfl

/-- What is read of a query. -/
def QueryRead.weight (v : QueryRead) : Nat := v.data.weight + 2820 * v.overlays.length

theorem Costs.queryField (size flag : Nat) (v : QueryRead) (c : Nat) : Costs (queryField size flag v) (c + v.weight) fun v' => c + v'.weight := by
  unfold Ygo.queryField
  split
  · refine Costs.bind' (Costs.listOf (Costs.one Costs.locInfo) _) fun ps => Costs.pure' ?_
    simp only [QueryRead.weight, QueryData.weight, Option.getD_some, List.length_append]
    omega
  · split
    · refine Costs.bind' (Costs.listOf ((Costs.counter 0).weaken (Nat.le_refl _) (post' := fun _ => 1100) fun _ => by omega) _) fun ps => Costs.pure' ?_
      simp only [QueryRead.weight, QueryData.weight, Option.getD_some, List.length_append]
      omega
    · split
      · refine Costs.bind' (Costs.read 4 _) fun _ => Costs.bind' (Costs.read 4 _) fun _ => Costs.pure' ?_
        simp only [QueryRead.weight, weight_setSingle]
        omega
      · split
        · refine Costs.bind' (Costs.listOf (w := 4400) ((Costs.read 4 0).weaken (Nat.le_refl _) fun _ => by omega) _) fun ps => Costs.pure' ?_
          simp only [QueryRead.weight]
          omega
        · split
          · refine Costs.bind' (Costs.field _ _) fun _ => Costs.pure' ?_
            simp only [QueryRead.weight, weight_setSingle]
            omega
          · exact Costs.bind' (Costs.lift _) fun _ => Costs.bind' (Costs.skip _ _) fun _ => Costs.pure' (by omega)

theorem Costs.queryLoop : ∀ n (v : QueryRead) (c : Nat), Costs (queryLoop n v) (c + v.weight) fun v' => c + v'.weight + 6600
  | 0, _, _ => by
    intro s a r h
    simp [Ygo.queryLoop, P.lift, ub] at h
  | n + 1, v, c => by
    unfold Ygo.queryLoop
    refine Costs.bind' (Costs.read 2 _) fun size => Costs.bind' (Costs.read 4 _) fun flag => ?_
    split
    · exact Costs.pure' (by omega)
    · exact Costs.bind' ((Costs.queryField size flag v c).weaken (by omega) fun _ => Nat.le_refl _) fun w => Costs.queryLoop n w c

theorem Costs.oneQuery (c : Nat) : Costs encodeOneQuery c fun v => c + v.weight + 6600 := by
  intro s a r h
  exact (Costs.queryLoop _ { data := .empty } c).weaken (pre' := c) (by simp [QueryRead.weight, QueryData.weight, QueryData.empty]) (fun _ => Nat.le_refl _) _ _ _ h

theorem weight_withOverlays (place : Place) (v : QueryRead) : queriesWeight (withOverlays place v) = 2820 + v.weight := by
  simp only [withOverlays, queriesWeight, List.map_cons, List.sum_cons, QueryRead.weight]
  have : (v.overlays.mapIdx fun i code => (⟨{ place with oseq := toInt32 i }, QueryData.empty.setSingle .code code⟩ : Query)).map (fun q => 2820 + q.data.weight)
      = v.overlays.map fun _ => 2820 := by
    apply List.ext_getElem
    · simp
    · intro i h1 h2
      simp only [List.getElem_map, List.getElem_mapIdx]
      rfl
  rw [this]
  have : ∀ xs : List Nat, (xs.map fun _ => 2820).sum = 2820 * xs.length := by
    intro xs
    induction xs with
    | nil => rfl
    | cons x xs ih => simp only [List.map_cons, List.sum_cons, ih, List.length_cons]; omega
  rw [this]
  omega

theorem weight_append (qs rs : List Query) : queriesWeight (qs ++ rs) = queriesWeight qs + queriesWeight rs := by
  simp [queriesWeight]

theorem Costs.updateLoop (con : Int) (loc total : Nat) : ∀ n i rs c, Costs (updateLoop con loc total n i rs) c fun qs => c + queriesWeight qs
  | 0, _, _, _ => by
    intro s a r h
    simp [Ygo.updateLoop, P.lift, ub] at h
  | n + 1, i, rs, c => by
    unfold Ygo.updateLoop
    split
    · refine Costs.bind' (Costs.peek _) fun size => ?_
      split
      · exact Costs.bind' (Costs.skip _ _) fun _ => (Costs.updateLoop con loc total n _ _ c).weaken (by omega) fun _ => Nat.le_refl _
      · refine Costs.bind' (Costs.counted (Costs.oneQuery c)) fun x => ?_
        obtain ⟨v, used⟩ := x
        refine Costs.bind' (Costs.updateLoop con loc total n _ _ _) fun rest => Costs.pure' ?_
        rw [weight_append, weight_withOverlays]
        simp only
        omega
    · exact Costs.pure' (by simp [queriesWeight])

theorem Costs.updateAll (con : Int) (loc total c : Nat) : Costs (updateAll con loc total) c fun qs => c + queriesWeight qs := by
  intro s a r h
  exact Costs.updateLoop con loc total _ _ _ c _ _ _ h

/-! ## Whole messages -/

/-- What the lists of the message take, if there is one. -/
def Outcome.weight (o : Outcome) : Nat :=
  match o.msg with
  | some m => m.weight
  | none => 0

theorem unpackHalf_length (half : Nat) (con : Int) : (unpackHalf half con).length ≤ 15 := by
  have h : ∀ (n : Nat) (f : Nat → Option Place), ((List.range n).filterMap f).length ≤ n := fun n f => by
    have := List.length_filterMap_le f (List.range n)
    simpa using this
  simp only [unpackHalf, List.length_append]
  have h1 := h 7 (fun seq => if half.testBit (0 + seq) then none else some ⟨con, Loc.monsterZone, seq, OSEQ_INVALID⟩)
  have h2 := h 5 (fun seq => if half.testBit (8 + seq) then none else some ⟨con, Loc.spellZone, seq, OSEQ_INVALID⟩)
  have h3 := h 1 (fun seq => if half.testBit (13 + seq) then none else some ⟨con, Loc.fieldZone, seq, OSEQ_INVALID⟩)
  have h4 := h 2 (fun seq => if half.testBit (14 + seq) then none else some ⟨con, Loc.pendulumZone, seq, OSEQ_INVALID⟩)
  omega

theorem unpackZones_length (zones invert : Nat) : (unpackZones zones invert).length ≤ 30 := by
  have h1 := unpackHalf_length (zones % 2 ^ 16) (invert : Nat)
  have h2 := unpackHalf_length ((zones >>> 16) % 2 ^ 16) ((257 - invert) % 256 : Nat)
  simp only [unpackZones, List.length_append]
  omega

/-- Finishes with the message. -/
macro "weigh" : tactic => `(tactic| (
  refine Costs.pure' ?_
  simp only [Outcome.weight, Outcome.event, Outcome.queries, Outcome.request, Msg.weight, Event.weight, MetaEvent.weight, CardEvent.weight, PileEvent.weight,
    BoardEvent.weight, ResultEvent.weight, Request.weight, SelectCard.weight, SelectIdle.weight, List.length_cons, List.length_nil, queriesWeight, List.map_nil, List.sum_nil,
    List.length_append, pileOp]
  try omega))

theorem Costs.selected (c : Nat) : Costs selectedEvent c fun o => c + o.weight :=
  Costs.bind' (Costs.listOf (Costs.one Costs.locInfo) _) fun _ => by weigh

theorem Costs.eventCase {k : Kind} (hk : k ≠ .reloadField) {p : P Outcome} (h : eventCase k = some p) : Costs p 3000 fun o => o.weight := by
  have read4 : ∀ c, Costs (P.skip 4) c fun _ => c := fun c => (Costs.skip 4 c).weaken (Nat.le_refl _) fun _ => by omega
  cases k <;> simp only [Ygo.eventCase, Option.some.injEq, reduceCtorEq] at h <;> subst h
  case shuffleDeck => exact Costs.bind' (Costs.con _) fun _ => by weigh
  case shuffleHand | shuffleExtra =>
    exact Costs.bind' (Costs.con _) fun _ => Costs.bind' (Costs.read 4 _) fun _ => Costs.bind' (Costs.skipMany read4 _ _) fun _ => by weigh
  case shuffleSetCard =>
    exact Costs.bind' (Costs.skip 1 _) fun _ => Costs.bind' (Costs.read 1 _) fun n => Costs.bind' (Costs.many (Costs.one Costs.locInfo) _ _) fun _ =>
      Costs.bind' (Costs.many (Costs.one Costs.locInfo) _ _) fun _ => by weigh
  case newTurn => exact Costs.bind' (Costs.con _) fun _ => by weigh
  case newPhase => exact Costs.bind' (Costs.read 2 _) fun _ => by weigh
  case posChange =>
    exact Costs.bind' (Costs.skip 4 _) fun _ => Costs.bind' (Costs.locSSeq _) fun _ => Costs.bind' (Costs.skip 1 _) fun _ => Costs.bind' (Costs.skip 1 _) fun _ => by weigh
  case set => exact Costs.bind' (Costs.skip 4 _) fun _ => Costs.bind' (Costs.locSeq _) fun _ => Costs.bind' (Costs.skip 4 _) fun _ => by weigh
  case swap =>
    exact Costs.bind' (Costs.skip 4 _) fun _ => Costs.bind' (Costs.locInfo _) fun _ => Costs.bind' (Costs.skip 4 _) fun _ => Costs.bind' (Costs.locInfo _) fun _ => by weigh
  case fieldDisabled =>
    refine Costs.bind' (Costs.read 4 _) fun z => ?_
    have := unpackZones_length z 0
    weigh
  case summoning | spsummoning | flipsummoning => exact Costs.bind' (Costs.skip 4 _) fun _ => Costs.bind' (Costs.locInfo _) fun _ => by weigh
  case chaining => exact Costs.bind' (Costs.chain _) fun _ => Costs.bind' (Costs.skip 4 _) fun _ => by weigh
  case chained | chainSolving | chainNegated | chainDisabled | chainSolved => exact Costs.bind' (Costs.skip 1 _) fun _ => by weigh
  case damage | recover | lpupdate | payLpcost => exact Costs.bind' (Costs.con _) fun _ => Costs.bind' (Costs.read 4 _) fun _ => by weigh
  case randomSelected => exact Costs.bind' (Costs.skip 1 _) fun _ => (Costs.selected _).weaken (Nat.le_refl _) fun _ => by omega
  case cardSelected | becomeTarget => exact (Costs.selected _).weaken (Nat.le_refl _) fun _ => by omega
  case cardTarget | cancelTarget => exact Costs.bind' (Costs.locInfo _) fun _ => Costs.bind' (Costs.locInfo _) fun _ => by weigh
  case addCounter | removeCounter =>
    exact Costs.bind' (Costs.skip 2 _) fun _ => Costs.bind' (Costs.locSSeq _) fun _ => Costs.bind' (Costs.skip 2 _) fun _ => by weigh
  case attack => exact Costs.bind' (Costs.locInfo _) fun _ => Costs.bind' (Costs.locInfo _) fun _ => by weigh
  case tossCoin => exact Costs.bind' (Costs.con _) fun _ => Costs.bind' (Costs.slistOf (Costs.one Costs.boolean) _) fun _ => by weigh
  case tossDice =>
    exact Costs.bind' (Costs.con _) fun _ => Costs.bind' (Costs.slistOf (Costs.one (fun c => (Costs.read 1 c).weaken (Nat.le_refl _) fun _ => by omega)) _) fun _ => by weigh
  case handRes => exact Costs.bind' (Costs.read 1 _) fun _ => by weigh
  case start =>
    exact Costs.bind' (Costs.skip 1 _) fun _ => Costs.bind' (Costs.read 4 _) fun _ => Costs.bind' (Costs.read 4 _) fun _ => Costs.bind' (Costs.read 2 _) fun _ =>
      Costs.bind' (Costs.read 2 _) fun _ => Costs.bind' (Costs.read 2 _) fun _ => Costs.bind' (Costs.read 2 _) fun _ => by weigh
  case tagSwap =>
    exact Costs.bind' (Costs.con _) fun _ => Costs.bind' (Costs.read 4 _) fun _ => Costs.bind' (Costs.read 4 _) fun _ => Costs.bind' (Costs.skip 4 _) fun _ =>
      Costs.bind' (Costs.read 4 _) fun _ => Costs.bind' (Costs.skip 4 _) fun _ =>
      Costs.bind' (Costs.skipMany (fun c => Costs.bind' (read4 c) fun _ => read4 c) _ _) fun _ => by weigh
  case reloadField => exact absurd rfl hk
  case playerHint => exact Costs.bind' (Costs.con _) fun _ => Costs.bind' (Costs.read 1 _) fun _ => Costs.bind' (Costs.effect _) fun _ => by weigh
  all_goals exact Costs.bind' (Costs.skip 1 _) fun _ => Costs.bind' (Costs.listOf (Costs.one (Costs.coded Costs.locSeq)) _) fun _ => by weigh

theorem Costs.queryCase {k : Kind} {p : P Outcome} (h : queryCase k = some p) : Costs p 3000 fun o => o.weight := by
  cases k <;> simp only [Ygo.queryCase, Option.some.injEq, reduceCtorEq] at h <;> subst h
  case updateData =>
    refine Costs.bind' (Costs.con _) fun _ => Costs.bind' (Costs.read 1 _) fun _ => Costs.bind' (Costs.read 4 _) fun _ => Costs.bind' (Costs.updateAll _ _ _ _) fun _ =>
      Costs.pure' ?_
    simp only [Outcome.weight, Outcome.queries, Msg.weight]
    omega
  case updateCard =>
    refine Costs.bind' (Costs.locSSeq _) fun _ => Costs.bind' (Costs.oneQuery _) fun _ => Costs.pure' ?_
    simp only [Outcome.weight, Outcome.queries, Msg.weight, weight_withOverlays]
    omega

theorem Costs.selectCard (c : Nat) : Costs selectCardRequest c fun s => c + s.weight := by
  unfold selectCardRequest
  refine Costs.bind' (Costs.boolean _) fun _ => Costs.bind' (Costs.read 4 _) fun _ => Costs.bind' (Costs.read 4 _) fun _ => Costs.bind' (Costs.read 4 _) fun n =>
    Costs.bind' (Costs.lift _) fun _ => Costs.bind' (Costs.peek _) fun b => ?_
  split
  · exact Costs.bind' (Costs.many (Costs.one Costs.selectable) _ _) fun _ => by weigh
  · exact Costs.bind' (Costs.many (w := 4400) (Costs.bind' (Costs.read 4 0) fun _ => Costs.bind' (Costs.skip 10 _) fun _ => Costs.pure' (by omega)) _ _) fun _ => by weigh

theorem Costs.battle (c : Nat) : Costs battleRequest c fun s => c + s.weight := by
  unfold battleRequest
  exact Costs.bind' (Costs.listOf (Costs.one (Costs.actCard Costs.locSeq)) _) fun _ =>
    Costs.bind' (Costs.listOf (w := 1100) (Costs.bind' (Costs.skip 4 0) fun _ => Costs.bind' (Costs.locSSeq _) fun _ => Costs.bind' (Costs.boolean _) fun _ =>
      Costs.pure' (by omega)) _) fun _ =>
    Costs.bind' (Costs.boolean _) fun _ => Costs.bind' (Costs.boolean _) fun _ => by weigh

theorem Costs.idle (c : Nat) : Costs idleRequest c fun s => c + s.weight := by
  unfold idleRequest
  have hseq := Costs.listOf (Costs.one (Costs.coded Costs.locSeq))
  exact Costs.bind' (hseq _) fun _ => Costs.bind' (hseq _) fun _ => Costs.bind' (Costs.listOf (Costs.one (Costs.coded Costs.locSSeq)) _) fun _ =>
    Costs.bind' (hseq _) fun _ => Costs.bind' (hseq _) fun _ => Costs.bind' (Costs.listOf (Costs.one (Costs.actCard Costs.locSeq)) _) fun _ =>
    Costs.bind' (Costs.boolean _) fun _ => Costs.bind' (Costs.boolean _) fun _ => Costs.bind' (Costs.boolean _) fun _ => by weigh

theorem Costs.requestCase {k : Kind} {f : Int → P Request} (h : requestCase k = some f) (who : Int) : Costs (f who) 3000 fun r => r.weight := by
  cases k <;> simp only [Ygo.requestCase, Option.some.injEq, reduceCtorEq] at h <;> subst h
  case announceAttrib => exact Costs.bind' (Costs.read 1 _) fun _ => Costs.bind' (Costs.read 4 _) fun _ => by weigh
  case selectCard => exact Costs.bind' (Costs.selectCard _) fun _ => by weigh
  case selectUnselectCard =>
    exact Costs.bind' (Costs.boolean _) fun _ => Costs.bind' (Costs.boolean _) fun _ => Costs.bind' (Costs.read 4 _) fun _ => Costs.bind' (Costs.read 4 _) fun _ =>
      Costs.bind' (Costs.listOf (Costs.one Costs.selectable) _) fun _ => Costs.bind' (Costs.listOf (Costs.one Costs.selectable) _) fun _ => by weigh
  case selectTribute =>
    exact Costs.bind' (Costs.boolean _) fun _ => Costs.bind' (Costs.read 4 _) fun _ => Costs.bind' (Costs.read 4 _) fun _ =>
      Costs.bind' (Costs.listOf (w := 1100) (Costs.bind' (Costs.read 4 0) fun _ => Costs.bind' (Costs.locSeq _) fun _ => Costs.bind' (Costs.read 1 _) fun _ =>
        Costs.pure' (by omega)) _) fun _ => by weigh
  case selectOption =>
    exact Costs.bind' (Costs.slistOf (Costs.one (fun c => (Costs.effect c).weaken (Nat.le_refl _) fun _ => by omega)) _) fun _ => by weigh
  case selectBattlecmd => exact Costs.bind' (Costs.battle _) fun _ => Costs.pure' (by simp only [Request.weight]; omega)
  case selectIdlecmd => exact Costs.bind' (Costs.idle _) fun _ => Costs.pure' (by simp only [Request.weight]; omega)
  case announceNumber =>
    exact Costs.bind' (Costs.slistOf (Costs.one (fun c => (Costs.read 8 c).weaken (Nat.le_refl _) fun _ => by omega)) _) fun _ => by weigh
  case selectPosition => exact Costs.bind' (Costs.read 4 _) fun _ => Costs.bind' (Costs.read 1 _) fun _ => by weigh
  case announceRace => exact Costs.bind' (Costs.read 1 _) fun _ => Costs.bind' (Costs.read 8 _) fun _ => by weigh
  case rockPaperScissors => exact Costs.pure' (by simp [Request.weight])
  case selectChain =>
    exact Costs.bind' (Costs.read 1 _) fun _ => Costs.bind' (Costs.boolean _) fun _ => Costs.bind' (Costs.skip 8 _) fun _ =>
      Costs.bind' (Costs.listOf (Costs.one (Costs.actCard Costs.locInfo)) _) fun _ => by weigh
  case selectEffectyn => exact Costs.bind' (Costs.read 4 _) fun _ => Costs.bind' (Costs.locInfo _) fun _ => Costs.bind' (Costs.effect _) fun _ => by weigh
  case selectYesno => exact Costs.bind' (Costs.effect _) fun _ => by weigh
  case selectPlace | selectDisfield =>
    refine Costs.bind' (Costs.read 1 _) fun _ => Costs.bind' (Costs.read 4 _) fun z => ?_
    have := unpackZones_length z (who.toNat % 256)
    weigh
  case sortChain | sortCard => exact Costs.bind' (Costs.listOf (Costs.one (Costs.coded (Costs.loc _ _ _))) _) fun _ => by weigh

end Ygo

namespace Ygo
open P Pb

/-! ## Cases that use the context -/

theorem bind_ok' {α β : Type} {p : P α} {f : α → P β} {s : List UInt8} {x : β × List UInt8} (h : (p >>= f) s = .ok x) :
    ∃ a r, p s = .ok (a, r) ∧ f a r = .ok x := by
  have h : (match p s with | .ok (a, r) => f a r | .error e => .error e) = .ok x := h
  cases hp : p s with
  | error e => rw [hp] at h; simp at h
  | ok y => obtain ⟨a, r⟩ := y; rw [hp] at h; exact ⟨a, r, rfl, h⟩

theorem deferredOps_length (curr : Place) : ∀ (i : Nat) (ds : List Place), (deferredOps curr i ds).length ≤ ds.length
  | _, [] => by simp [deferredOps]
  | i, d :: ds => by
    have := deferredOps_length curr (i + 1) ds
    unfold deferredOps
    split <;> simp <;> omega

theorem graveLoop_length (con : Int) (pos : Nat) : ∀ (n i seq size sent : Nat) (s : List UInt8) (ops : List SpliceOp) (r : List UInt8),
    graveLoop con pos n i seq size sent s = .ok (ops, r) →
    r = s ∧ 2 * ops.length ≤ n + (if size > 0 then 2 else 1) ∧ (n = 0 ∨ (i + n - 1) / 8 < s.length)
  | 0, i, seq, size, sent, s, ops, r, h => by
    have h : (Except.ok (if size > 0 then [graveLoop.op con pos seq size sent] else [], s) : Res _) = .ok (ops, r) := h
    simp only [Except.ok.injEq, Prod.mk.injEq] at h
    obtain ⟨rfl, rfl⟩ := h
    refine ⟨rfl, ?_, .inl rfl⟩
    split <;> simp
  | n + 1, i, seq, size, sent, s, ops, r, h => by
    unfold graveLoop at h
    obtain ⟨b, r1, h1, h2⟩ := bind_ok' h
    have hb : r1 = s ∧ i / 8 < s.length := by
      simp only [P.byteAt] at h1
      split at h1
      · rename_i hs
        simp only [Except.ok.injEq, Prod.mk.injEq] at h1
        exact ⟨h1.2.symm, (List.getElem?_eq_some_iff.1 hs).1⟩
      · simp at h1
    obtain ⟨rfl, hi⟩ := hb
    have last : ∀ {n : Nat}, (n = 0 ∨ (i + 1 + n - 1) / 8 < r1.length) → (n + 1 = 0 ∨ (i + (n + 1) - 1) / 8 < r1.length) := by
      intro n hn
      rcases hn with rfl | hn
      · exact .inr (by simpa using hi)
      · exact .inr (by rw [show i + (n + 1) - 1 = i + 1 + n - 1 by omega]; exact hn)
    split at h2
    · obtain ⟨e, hl, hn⟩ := graveLoop_length con pos _ _ _ _ _ _ _ _ h2
      rw [if_pos (by omega)] at hl
      refine ⟨e, ?_, last hn⟩
      split <;> omega
    · split at h2
      · obtain ⟨rest, r2, h3, h4⟩ := bind_ok' h2
        obtain ⟨e, hl, hn⟩ := graveLoop_length con pos _ _ _ _ _ _ _ _ h3
        have h4 : (Except.ok (_, r2) : Res _) = .ok (ops, r) := h4
        simp only [Except.ok.injEq, Prod.mk.injEq] at h4
        obtain ⟨rfl, rfl⟩ := h4
        rw [if_neg (by omega)] at hl
        refine ⟨e, ?_, last hn⟩
        simp only [List.length_cons]
        split <;> omega
      · obtain ⟨e, hl, hn⟩ := graveLoop_length con pos _ _ _ _ _ _ _ _ h2
        rw [if_neg (by omega)] at hl
        refine ⟨e, ?_, last hn⟩
        split <;> omega

/-- The message made of a buffer, with what is put off for later ones, is paid by the buffer and what has been put off. -/
def Pays (c : BasicContext) (p : P (Outcome × BasicContext)) : Prop :=
  ∀ s o c' r, p s = .ok ((o, c'), r) → o.weight + 220 * c'.deferred.length ≤ 3200 + 220 * c.deferred.length + 1100 * s.length

theorem Pays.of {c : BasicContext} {p : P Outcome} (h : Costs p 3000 fun o => o.weight) : Pays c (do return (← p, c)) := by
  intro s o c' r he
  obtain ⟨a, r1, h1, h2⟩ := bind_ok' he
  have h2 : (Except.ok ((a, c), r1) : Res _) = .ok ((o, c'), r) := h2
  simp only [Except.ok.injEq, Prod.mk.injEq] at h2
  obtain ⟨⟨rfl, rfl⟩, rfl⟩ := h2
  have := h _ _ _ h1
  simp only at this
  omega

theorem Pays.const {c : BasicContext} {p : P Outcome} (h : ∀ s o r, p s = .ok (o, r) → o.weight ≤ 3200 + 1100 * s.length) : Pays c (do return (← p, c)) := by
  intro s o c' r he
  obtain ⟨a, r1, h1, h2⟩ := bind_ok' he
  have h2 : (Except.ok ((a, c), r1) : Res _) = .ok ((o, c'), r) := h2
  simp only [Except.ok.injEq, Prod.mk.injEq] at h2
  obtain ⟨⟨rfl, rfl⟩, rfl⟩ := h2
  have := h _ _ _ h1
  omega

theorem weight_event (e : Event) : (Outcome.event e).weight = e.weight := by
  simp [Outcome.weight, Outcome.event, Msg.weight, queriesWeight]

theorem weight_request (who : Int) (q : Request) : (Outcome.request who q).weight = q.weight := by
  simp [Outcome.weight, Outcome.request, Msg.weight, queriesWeight]

theorem swapGraveDeck_weight (c : BasicContext) (s : List UInt8) (o : Outcome) (r : List UInt8) (h : swapGraveDeckEvent c s = .ok (o, r)) :
    o.weight ≤ 3200 + 1100 * s.length := by
  unfold swapGraveDeckEvent at h
  obtain ⟨con, s1, h1, h⟩ := bind_ok' h
  obtain ⟨pos, s2, h2, h⟩ := bind_ok' h
  obtain ⟨bs, s3, h3, h⟩ := bind_ok' h
  obtain ⟨gy, s4, h4, h⟩ := bind_ok' h
  obtain ⟨deck, s5, h5, h⟩ := bind_ok' h
  obtain ⟨ops, s6, h6, h⟩ := bind_ok' h
  have l1 := Costs.con 0 _ _ _ h1
  have l2 := Costs.read 4 0 _ _ _ h2
  have l3 := Costs.read 4 0 _ _ _ h3
  have l4 := Costs.lift (x := EncodeContext.pileSize c con Loc.graveyard) 0 _ _ _ h4
  have l5 := Costs.lift (x := EncodeContext.pileSize c con Loc.mainDeck) 0 _ _ _ h5
  obtain ⟨-, hl, hn⟩ := graveLoop_length _ _ _ _ _ _ _ _ _ _ h6
  dsimp only at h
  split at h
  · obtain ⟨u, s7, h7, h⟩ := bind_ok' h
    simp [P.lift] at h7
  obtain ⟨u', s8, h8, h⟩ := bind_ok' h
  have h : (Except.ok (_, s8) : Res _) = .ok (o, r) := h
  simp only [Except.ok.injEq, Prod.mk.injEq] at h
  obtain ⟨rfl, rfl⟩ := h
  rw [weight_event]
  simp only [Event.weight, PileEvent.weight, List.length_append]
  have e1 : ∀ (b : Prop) [Decidable b] (x : SpliceOp), (if b then [x] else []).length ≤ 1 := by
    intro b _ x
    split <;> simp
  have e2 := e1 (gy > 0) ⟨⟨con, Loc.graveyard, 0, OSEQ_INVALID⟩, wrap32 gy, ⟨con, Loc.mainDeck, 0, OSEQ_INVALID⟩, false⟩
  have e3 := e1 (deck > 0) ⟨⟨con, Loc.mainDeck, wrap32 gy, OSEQ_INVALID⟩, wrap32 deck, ⟨con, Loc.graveyard, 0, OSEQ_INVALID⟩, false⟩
  simp only [Nat.lt_irrefl, if_false, gt_iff_lt] at hl l1 l2 l3 l4 l5 e2 e3 ⊢
  omega

theorem Pays.move (c : BasicContext) (prev curr : Place) (reason : Nat) (o : Outcome) (c' : BasicContext)
    (h : moveOutcome c prev curr reason = .ok (o, c')) : o.weight + 220 * c'.deferred.length ≤ 240 + 220 * c.deferred.length := by
  have hx : ∀ (l s : Place), (EncodeContext.xyzLeft c l s).deferred = c.deferred := fun _ _ => rfl
  unfold moveOutcome at h
  split at h
  · cases h; simp [Outcome.weight, Outcome.swallowed]
  split at h
  · cases h; simp [weight_event, Event.weight, CardEvent.weight]
  split at h
  · dsimp only at h
    split at h
    · cases h
      simp [weight_event, Event.weight, CardEvent.weight]
    · obtain ⟨b, _, h⟩ := bind_eq_ok.1 h
      cases h
      cases b <;> simp [weight_event, Event.weight, CardEvent.weight, hx]
  split at h
  · cases h
    simp [Outcome.weight, Outcome.swallowed, EncodeContext.xyzMatDefer]; omega
  split at h
  · simp only [EncodeContext.takeDeferredXyzMat] at h
    cases h
    have := deferredOps_length curr 0 c.deferred
    simp [weight_event, Event.weight, CardEvent.weight]; omega
  split at h
  · obtain ⟨src, _, h⟩ := bind_eq_ok.1 h
    cases h
    simp [weight_event, Event.weight, CardEvent.weight]
  · dsimp only at h
    split at h
    · obtain ⟨b, _, h⟩ := bind_eq_ok.1 h
      cases h
      cases b <;> simp [weight_event, Event.weight, CardEvent.weight, hx]
    · cases h
      simp [weight_event, Event.weight, CardEvent.weight]

theorem Pays.contextCase (c : BasicContext) {k : Kind} {p : P (Outcome × BasicContext)} (h : contextCase c k = some p) : Pays c p := by
  have read4 : ∀ c, Costs (P.skip 4) c fun _ => c := fun c => (Costs.skip 4 c).weaken (Nat.le_refl _) fun _ => by omega
  cases k <;> simp only [Ygo.contextCase, Option.some.injEq, reduceCtorEq] at h <;> subst h
  case win => exact Pays.of (Costs.bind' (Costs.read 1 _) fun _ => Costs.bind' (Costs.read 1 _) fun _ => Costs.bind' (Costs.lift _) fun _ => by weigh)
  case deckTop =>
    exact Pays.of (Costs.bind' (Costs.con _) fun _ => Costs.bind' (Costs.lift _) fun _ => Costs.bind' (Costs.read 4 _) fun _ => Costs.bind' (Costs.skip 4 _) fun _ =>
      Costs.bind' (Costs.skip 4 _) fun _ => by weigh)
  case draw =>
    exact Pays.of (Costs.bind' (Costs.con _) fun _ => Costs.bind' (Costs.read 4 _) fun _ =>
      Costs.bind' (Costs.skipMany (fun c => Costs.bind' (read4 c) fun _ => read4 c) _ _) fun _ => Costs.bind' (Costs.lift _) fun _ => Costs.bind' (Costs.lift _) fun _ => by weigh)
  case reverseDeck => exact Pays.of (Costs.bind' (Costs.lift _) fun _ => Costs.bind' (Costs.lift _) fun _ => by weigh)
  case swapGraveDeck => exact Pays.const fun s o r h => swapGraveDeck_weight c s o r h
  case matchKill =>
    intro s o c' r h
    obtain ⟨x, s1, h1, h⟩ := bind_ok' h
    cases h
    simp [Outcome.weight, Outcome.swallowed, EncodeContext.matchWinReason]; omega
  case move =>
    intro s o c' r h
    obtain ⟨_, s1, _, h⟩ := bind_ok' h
    obtain ⟨prev, s2, _, h⟩ := bind_ok' h
    obtain ⟨curr, s3, _, h⟩ := bind_ok' h
    obtain ⟨reason, s4, _, h⟩ := bind_ok' h
    simp only [P.lift] at h
    split at h
    · rename_i x hx
      obtain ⟨o1, c1⟩ := x
      cases h
      have := Pays.move c prev curr reason _ _ hx
      omega
    · cases h

theorem Pays.encodeCase (c : BasicContext) {k : Kind} (hk : k ≠ .reloadField) : Pays c (encodeCase c k) := by
  unfold Ygo.encodeCase
  split
  · exact Pays.of (Costs.eventCase hk (by assumption))
  · exact Pays.of (Costs.queryCase (by assumption))
  · intro s o c' r he
    obtain ⟨who, s1, h1, he⟩ := bind_ok' he
    obtain ⟨q, s2, h2, he⟩ := bind_ok' he
    cases he
    have l1 := Costs.con 0 _ _ _ h1
    have l2 := Costs.requestCase (by assumption) who _ _ _ h2
    rw [weight_request]
    simp only at l1 l2
    omega
  · intro s o c' r he
    obtain ⟨u, s1, h1, he⟩ := bind_ok' he
    cases he
    simp [Outcome.weight, Outcome.swallowed]; omega
  · exact Pays.contextCase c (by assumption)
  · intro s o c' r he
    cases he
    simp [Outcome.weight]; omega

end Ygo

namespace Ygo
open P Pb

/-! ## Reloads -/

/-- Places that the message adds in a new state of the board. -/
def Msg.added (m : Msg) : Nat :=
  match m.body with
  | .event (.board (.state s)) => s.add.length
  | _ => 0

theorem Costs.forEach {α β : Type} {f : α → P (List β)} (h : ∀ x c, Costs (f x) c fun _ => c) (c : Nat) : ∀ xs, Costs (P.forEach f xs) c fun _ => c
  | [] => Costs.pure' (Nat.le_refl _)
  | x :: xs => Costs.bind' (h x c) fun _ => Costs.bind' (Costs.forEach h c xs) fun _ => Costs.pure' (Nat.le_refl _)

theorem Costs.reloadZone (con : Int) (loc seq c : Nat) : Costs (reloadZone con loc seq) c fun _ => c := by
  unfold Ygo.reloadZone
  refine Costs.bind' (Costs.read 1 _) fun _ => ?_
  split
  · exact Costs.pure' (by omega)
  · exact Costs.bind' (Costs.skip 1 _) fun _ => Costs.bind' (Costs.read 4 _) fun _ => Costs.pure' (by omega)

theorem Costs.reloadController (con : Int) (c : Nat) : Costs (reloadController con) c fun x => c + 140 * x.2.2.length := by
  unfold Ygo.reloadController
  exact Costs.bind' (Costs.read 4 _) fun _ => Costs.bind' (Costs.forEach (fun _ _ => Costs.reloadZone _ _ _ _) _ _) fun _ =>
    Costs.bind' (Costs.forEach (fun _ _ => Costs.reloadZone _ _ _ _) _ _) fun _ => Costs.bind' (Costs.read 4 _) fun _ => Costs.bind' (Costs.read 4 _) fun _ =>
    Costs.bind' (Costs.read 4 _) fun _ => Costs.bind' (Costs.read 4 _) fun _ => Costs.bind' (Costs.read 4 _) fun _ => Costs.bind' (Costs.skip 4 _) fun _ =>
    Costs.pure' (by simp only [List.length_cons, List.length_nil]; omega)

theorem Costs.reloadEvent : Costs reloadEvent 3000 fun o => match o.msg with
    | some m => m.weight - 100 * m.added
    | none => 0 := by
  unfold Ygo.reloadEvent
  refine Costs.bind' (Costs.read 4 _) fun _ => Costs.bind' (Costs.reloadController _ _) fun x => ?_
  obtain ⟨lp0, add0, rs0⟩ := x
  refine Costs.bind' (Costs.reloadController _ _) fun y => ?_
  obtain ⟨lp1, add1, rs1⟩ := y
  refine Costs.bind' (Costs.listOf (Costs.one Costs.chain) _) fun cs => Costs.pure' ?_
  simp only [Outcome.event, Msg.weight, Msg.added, Event.weight, BoardEvent.weight, queriesWeight, List.map_nil, List.sum_nil, List.length_append, List.length_cons, List.length_nil]
  omega

/-- What is left out of this is paid by the buffer. -/
theorem Pays.reload {c c' : BasicContext} {s r : List UInt8} {o : Outcome} (h : Ygo.encodeCase c .reloadField s = .ok ((o, c'), r)) {m : Msg}
    (hm : o.msg = some m) : m.weight + 220 * c'.deferred.length ≤ 3000 + 220 * c.deferred.length + 1100 * s.length + 100 * m.added := by
  unfold Ygo.encodeCase at h
  simp only [Ygo.eventCase] at h
  obtain ⟨a, r1, h1, h⟩ := bind_ok' h
  cases h
  have := Costs.reloadEvent _ _ _ h1
  simp only [hm] at this
  omega

/-! ## Whole buffers -/

theorem encodeBody_kind {c : BasicContext} {data : List UInt8} {x : (Outcome × BasicContext) × List UInt8} (h : encodeBody c data = .ok x) :
    ∃ b rest, data = b :: rest ∧ (match Kind.ofByte b.toNat with
      | some k => Ygo.encodeCase c k rest
      | none => .ok (({}, c), rest)) = .ok x := by
  unfold encodeBody at h
  obtain ⟨n, r, h1, h⟩ := bind_ok' h
  cases data with
  | nil => simp [P.read] at h1
  | cons b rest =>
    have h1 : (Except.ok (b.toNat + 256 * 0, rest) : Res _) = .ok (n, r) := h1
    simp only [Except.ok.injEq, Prod.mk.injEq, Nat.mul_zero, Nat.add_zero] at h1
    obtain ⟨rfl, rfl⟩ := h1
    refine ⟨b, rest, rfl, ?_⟩
    cases hk : Kind.ofByte b.toNat with
    | none => rw [hk] at h; exact h
    | some k => rw [hk] at h; exact h

theorem reload_byte {b : Nat} (h : Kind.ofByte b = some .reloadField) : b = 162 := by
  simp only [Kind.ofByte, Option.map_eq_some_iff] at h
  obtain ⟨⟨n, k⟩, hf, hk⟩ := h
  have h1 := List.find?_some hf
  have h2 := List.mem_of_find?_eq_some hf
  simp only [decide_eq_true_eq] at h1 hk
  subst hk
  subst h1
  simp only [Kind.table, List.mem_cons, Prod.mk.injEq, reduceCtorEq, and_false, and_true, or_false, false_or, List.not_mem_nil] at h2
  exact h2

/-- What a message takes, and what is put off for later ones. -/
theorem encodeOne_size {c c' : BasicContext} {data : List UInt8} {r : Encoded} (h : encodeOne c data = .ok (r, c')) :
    (∀ m, r.msg = some m → (sendMsg m).length + 220 * c'.deferred.length ≤
      3600 + 220 * c.deferred.length + 1100 * data.length + (if data.head? = some 162 then 100 * m.added else 0)) ∧
    (r.msg = none → 220 * c'.deferred.length ≤ 3600 + 220 * c.deferred.length + 1100 * data.length) := by
  unfold encodeOne at h
  split at h
  case h_2 => cases h
  rename_i o _ rest he
  cases h
  obtain ⟨b, s, rfl, hb⟩ := encodeBody_kind he
  have key : (∀ m, o.msg = some m → m.weight + 220 * c'.deferred.length ≤
      3200 + 220 * c.deferred.length + 1100 * s.length + (if b = 162 then 100 * m.added else 0)) ∧
      (o.msg = none → 220 * c'.deferred.length ≤ 3200 + 220 * c.deferred.length + 1100 * s.length) := by
    split at hb
    · rename_i k hk
      by_cases hr : k = .reloadField
      · subst hr
        have e162 : b = 162 := by
          have := reload_byte hk
          exact UInt8.toNat_inj.1 this
        refine ⟨fun m hm => ?_, fun hn => ?_⟩
        · rw [if_pos e162]
          have := Pays.reload hb hm
          omega
        · unfold Ygo.encodeCase at hb
          simp only [Ygo.eventCase] at hb
          obtain ⟨a, r1, h1, h⟩ := bind_ok' hb
          cases h
          have := Costs.reloadEvent _ _ _ h1
          omega
      · have := Pays.encodeCase c hr _ _ _ _ hb
        refine ⟨fun m hm => ?_, fun hn => ?_⟩
        · simp only [Outcome.weight, hm] at this
          omega
        · simp only [Outcome.weight, hn] at this
          omega
    · cases hb
      exact ⟨by simp, fun _ => by omega⟩
  refine ⟨fun m hm => ?_, fun hn => ?_⟩
  · have h1 := key.1 m hm
    have h2 := size_msg m
    simp only [List.head?_cons, Option.some.injEq, List.length_cons]
    omega
  · have := key.2 hn
    simp only [List.length_cons]
    omega

end Ygo
