import Verif.Spec.Range
import Verif.Lemmas.Shape

/-!
# Readers and the numbers they give
-/

set_option linter.unusedSimpArgs false

namespace Ygo
open Ygo.Spec P

/-- Whatever the reader gives has the property. -/
def Post {α : Type} (p : P α) (Q : α → Prop) : Prop := ∀ s a r, p s = .ok (a, r) → Q a

namespace Post
variable {α β : Type}

theorem pure' {a : α} {Q : α → Prop} (h : Q a) : Post (pure a) Q := by
  intro s b r hb
  have : (Except.ok (a, s) : Res _) = .ok (b, r) := hb
  simp only [Except.ok.injEq, Prod.mk.injEq] at this
  exact this.1 ▸ h

theorem bind' {p : P α} {f : α → P β} {Q : α → Prop} {R : β → Prop} (hp : Post p Q) (hf : ∀ a, Q a → Post (f a) R) : Post (p >>= f) R := by
  intro s b r hb
  have hb : (match p s with | .ok (a, r) => f a r | .error e => .error e) = .ok (b, r) := hb
  cases h : p s with
  | error e => rw [h] at hb; simp at hb
  | ok x => obtain ⟨a, r'⟩ := x; rw [h] at hb; exact hf a (hp _ _ _ h) _ _ _ hb

theorem weaken {p : P α} {Q R : α → Prop} (hp : Post p Q) (h : ∀ a, Q a → R a) : Post p R := fun s a r e => h a (hp s a r e)

theorem any (p : P α) : Post p fun _ => True := fun _ _ _ _ => trivial

/-- Something of no interest comes first. -/
theorem after {p : P α} {f : α → P β} {R : β → Prop} (hf : ∀ a, Post (f a) R) : Post (p >>= f) R := bind' (any p) fun a _ => hf a

theorem read (n : Nat) : Post (P.read n) fun v => v < 256 ^ n := by
  intro s a r h
  simp only [P.read] at h
  split at h
  · simp only [Except.ok.injEq, Prod.mk.injEq] at h
    have := leVal_lt (s.take n)
    rw [List.length_take, Nat.min_eq_left (by assumption)] at this
    exact h.1 ▸ this
  · simp at h

theorem lift {x : Res α} {Q : α → Prop} (h : ∀ a, x = .ok a → Q a) : Post (P.lift x) Q := by
  intro s a r e
  simp only [P.lift] at e
  cases x with
  | ok b => simp only [Except.ok.injEq, Prod.mk.injEq] at e; exact h _ (by rw [e.1])
  | error e' => simp at e

theorem peek {p : P α} {Q : α → Prop} (h : Post p Q) : Post (P.peek p) Q := by
  intro s a r e
  simp only [P.peek] at e
  cases hp : p s with
  | ok x => rw [hp] at e; simp only [Except.ok.injEq, Prod.mk.injEq] at e; exact e.1 ▸ h _ _ _ hp
  | error e' => rw [hp] at e; simp at e

theorem counted {p : P α} {Q : α → Prop} (h : Post p Q) : Post (P.counted p) fun x => Q x.1 := by
  intro s a r e
  simp only [P.counted] at e
  cases hp : p s with
  | ok x => rw [hp] at e; simp only [Except.ok.injEq, Prod.mk.injEq] at e; exact e.1 ▸ h _ _ _ hp
  | error e' => rw [hp] at e; simp at e

theorem many {p : P α} {Q : α → Prop} (h : Post p Q) : ∀ n, Post (P.many p n) fun xs => xs.length = n ∧ All Q xs
  | 0 => pure' ⟨rfl, by simp [All]⟩
  | n + 1 => bind' h fun a ha => bind' (many h n) fun as has => pure' ⟨by simp [has.1], by
      intro x hx
      rcases List.mem_cons.1 hx with rfl | hx
      · exact ha
      · exact has.2 x hx⟩

theorem forEach {f : α → P (List β)} {Q : β → Prop} (xs : List α) (h : ∀ x ∈ xs, Post (f x) (All Q)) : Post (P.forEach f xs) (All Q) := by
  induction xs with
  | nil => exact pure' (by simp [All])
  | cons x xs ih =>
    refine bind' (h x (by simp)) fun a ha => bind' (ih fun y hy => h y (by simp [hy])) fun as has => pure' ?_
    intro y hy
    rcases List.mem_append.1 hy with hy | hy
    · exact ha y hy
    · exact has y hy

theorem listOf {p : P α} {Q : α → Prop} (h : Post p Q) : Post (listOf p) fun xs => xs.length < 2 ^ 32 ∧ All Q xs :=
  bind' (Q := fun n => n < 2 ^ 32) (read 4) fun n hn => (many h n).weaken fun _ hx => ⟨hx.1 ▸ hn, hx.2⟩

theorem slistOf {p : P α} {Q : α → Prop} (h : Post p Q) : Post (slistOf p) (All Q) :=
  bind' (read 1) fun n _ => (many h n).weaken fun _ hx => hx.2

theorem all {p : P α} {Q : α → Prop} (h : Post p Q) : Post (Ygo.listOf p) (All Q) := (listOf h).weaken fun _ hx => hx.2

theorem u32 : Post (P.read 4) U32 := read 4
theorem u64 : Post (P.read 8) U64 := read 8
theorem u16 : Post (P.read 2) U32 := (read 2).weaken fun a h => by simp only [U32]; omega
theorem u8 : Post (P.read 1) U32 := (read 1).weaken fun a h => by simp only [U32]; omega

end Post

/-! ## The small readers -/

theorem toInt32_range {n : Nat} (h : U32 n) : I32 (toInt32 n) := by
  simp only [U32] at h
  simp only [toInt32, I32]
  split <;> omega

theorem wrap32_range (z : Int) : U32 (wrap32 z) := by
  simp only [wrap32, U32]; omega

theorem oseq_range : I32 OSEQ_INVALID := by unfold I32; decide

theorem Post.con : Post readCon I32 :=
  Post.bind' (Post.read 1) fun a h => Post.pure' (by simp only [I32]; omega)

theorem Post.counter : Post readCounter CounterHolds :=
  Post.bind' Post.u32 fun c h => Post.pure' (by
    simp only [U32] at h
    simp only [CounterHolds, U32]
    exact ⟨Nat.lt_of_le_of_lt Nat.and_le_left h, by rw [Nat.shiftRight_eq_div_pow]; omega⟩)

theorem Post.effect : Post readEffect EffectHolds :=
  Post.after fun ed => Post.pure' (by
    simp only [EffectHolds, U32]
    exact ⟨Nat.mod_lt _ (by decide), Nat.lt_of_le_of_lt Nat.and_le_right (by decide)⟩)

theorem fixSpell_range {loc seq : Nat} (hl : U32 loc) (hs : U32 seq) : U32 (fixSpell loc seq).1 ∧ U32 (fixSpell loc seq).2 := by
  simp only [U32] at *
  unfold fixSpell
  split
  · split <;> simp <;> omega
  · exact ⟨hl, hs⟩

theorem Post.loc {locW seqW : Nat} {posW : Option Nat} (hs : seqW ≤ 4) (hp : ∀ w, posW = some w → w ≤ 4) : Post (readLoc locW seqW posW) PlaceHolds := by
  have le4 : ∀ {w x : Nat}, w ≤ 4 → x < 256 ^ w → U32 x := fun hw hx =>
    Nat.lt_of_lt_of_le hx (show _ ≤ 256 ^ 4 from Nat.pow_le_pow_right (by decide) hw)
  refine Post.bind' Post.con fun con hc => Post.after fun l => Post.bind' (Post.read seqW) fun seq hq => ?_
  have hf := fixSpell_range (loc := l &&& 0xFFFFFF7F) (seq := seq) (Nat.lt_of_le_of_lt Nat.and_le_right (by decide)) (le4 hs hq)
  cases posW with
  | none => exact Post.pure' ⟨hc, hf.1, hf.2, oseq_range⟩
  | some w =>
    refine Post.bind' (Post.read w) fun pos hpos => Post.pure' ⟨hc, hf.1, hf.2, ?_⟩
    simp only
    split
    · exact toInt32_range (le4 (hp w rfl) hpos)
    · exact oseq_range

theorem Post.locInfo : Post readLocInfo PlaceHolds := Post.loc (by decide) (by simp)
theorem Post.locSeq : Post readLocSeq PlaceHolds := Post.loc (by decide) (by simp)
theorem Post.locSSeq : Post readLocSSeq PlaceHolds := Post.loc (by decide) (by simp)
theorem Post.coded {α : Type} {p : P α} {Q : α → Prop} (h : Post p Q) : Post (coded p) Q := Post.after fun _ => h

theorem unpackHalf_range (half : Nat) {con : Int} (hc : I32 con) : All PlaceHolds (unpackHalf half con) := by
  intro p hp
  simp only [unpackHalf, List.mem_append, List.mem_filterMap, List.mem_range] at hp
  rcases hp with ((⟨s, hs, e⟩ | ⟨s, hs, e⟩) | ⟨s, hs, e⟩) | ⟨s, hs, e⟩ <;> split at e <;> simp at e <;> subst e <;>
    exact ⟨hc, by simp [U32], by simp only [U32]; omega, oseq_range⟩

theorem unpackZones_range (zones : Nat) {invert : Nat} (h : invert < 256) : All PlaceHolds (unpackZones zones invert) := by
  intro p hp
  rcases List.mem_append.1 hp with hp | hp
  · exact unpackHalf_range _ (by simp only [I32]; omega) p hp
  · exact unpackHalf_range _ (by simp only [I32]; omega) p hp

/-! ## Queries -/

theorem Post.field (f : QField) : Post (readField f) (FieldHolds f) := by
  cases f <;> first
    | exact Post.u32
    | exact Post.u64
    | exact Post.locInfo
    | exact Post.con
    | exact Post.any _
    | exact Post.bind' Post.u32 fun a h => Post.pure' (toInt32_range h)

theorem _root_.Ygo.Spec.DataHolds.empty : DataHolds .empty := ⟨by simp [QueryData.empty], by simp [QueryData.empty], by simp [QueryData.empty]⟩

theorem _root_.Ygo.Spec.DataHolds.setSingle {d : QueryData} (h : DataHolds d) {f : QField} {v : f.Val} (hv : FieldHolds f v) : DataHolds (d.setSingle f v) where
  single g w hw := by
    simp only [QueryData.setSingle] at hw
    split at hw
    · rename_i e; subst e; simp at hw; exact hw ▸ hv
    · exact h.single g w hw
  targets := h.targets
  counters := h.counters

/-- What has been read of a query so far. -/
def ReadHolds (v : QueryRead) : Prop := DataHolds v.data ∧ v.overlays.length < 2 ^ 32 ∧ All U32 v.overlays

theorem Post.queryField (size flag : Nat) {v : QueryRead} (h : ReadHolds v) : Post (queryField size flag v) ReadHolds := by
  unfold Ygo.queryField
  split
  · refine Post.bind' (Post.all Post.locInfo) fun ps hps => Post.pure' ⟨⟨h.1.single, ?_, h.1.counters⟩, h.2⟩
    intro qs hq
    simp only [Option.some.injEq] at hq
    subst hq
    intro p hp
    rcases List.mem_append.1 hp with hp | hp
    · cases ht : v.data.targets with
      | none => simp [ht] at hp
      | some ts => rw [ht] at hp; exact h.1.targets ts ht p hp
    · exact hps p hp
  · split
    · refine Post.bind' (Post.all Post.counter) fun ps hps => Post.pure' ⟨⟨h.1.single, h.1.targets, ?_⟩, h.2⟩
      intro qs hq
      simp only [Option.some.injEq] at hq
      subst hq
      intro p hp
      rcases List.mem_append.1 hp with hp | hp
      · cases ht : v.data.counters with
        | none => simp [ht] at hp
        | some ts => rw [ht] at hp; exact h.1.counters ts ht p hp
      · exact hps p hp
    · split
      · exact Post.bind' Post.u32 fun r hr => Post.bind' Post.u32 fun a ha =>
          Post.pure' ⟨(h.1.setSingle (f := .linkRate) hr).setSingle (f := .linkArrow) ha, h.2⟩
      · split
        · exact Post.bind' (Post.listOf Post.u32) fun xs hx => Post.pure' ⟨h.1, hx⟩
        · split
          · rename_i f _
            exact Post.bind' (Post.field f) fun x hx => Post.pure' ⟨h.1.setSingle hx, h.2⟩
          · exact Post.after fun _ => Post.after fun _ => Post.pure' h

theorem Post.queryLoop : ∀ n {v : QueryRead}, ReadHolds v → Post (queryLoop n v) ReadHolds
  | 0, _, _ => Post.lift (by simp [ub])
  | n + 1, v, h => by
    unfold Ygo.queryLoop
    refine Post.after fun size => Post.after fun flag => ?_
    split
    · exact Post.pure' h
    · exact Post.bind' (Post.queryField size flag h) fun w hw => Post.queryLoop n hw

theorem Post.oneQuery : Post encodeOneQuery ReadHolds := by
  intro s a r h
  exact Post.queryLoop _ (v := { data := .empty }) ⟨DataHolds.empty, by simp, by simp [All]⟩ _ _ _ h

theorem withOverlays_range {place : Place} {v : QueryRead} (hp : PlaceHolds place) (hv : ReadHolds v) : All QueryHolds (withOverlays place v) := by
  intro q hq
  simp only [withOverlays, List.mem_cons, List.mem_mapIdx] at hq
  rcases hq with rfl | ⟨i, hi, rfl⟩
  · exact ⟨hp, hv.1⟩
  · refine ⟨⟨hp.con, hp.loc, hp.seq, toInt32_range ?_⟩, DataHolds.empty.setSingle (f := .code) (hv.2.2 _ (List.getElem_mem hi))⟩
    exact Nat.lt_trans hi hv.2.1

theorem Post.updateLoop {con : Int} {loc : Nat} (total : Nat) (hc : I32 con) (hl : U32 loc) :
    ∀ n i rs, U32 i → Post (updateLoop con loc total n i rs) (All QueryHolds)
  | 0, _, _, _ => Post.lift (by simp [ub])
  | n + 1, i, rs, hi => by
    have hi' : U32 ((i + 1) % 2 ^ 32) := Nat.mod_lt _ (by decide)
    unfold Ygo.updateLoop
    split
    · refine Post.after fun size => ?_
      split
      · exact Post.after fun _ => Post.updateLoop total hc hl n _ _ hi'
      · refine Post.bind' (Post.counted Post.oneQuery) fun x hx => ?_
        obtain ⟨v, used⟩ := x
        refine Post.bind' (Post.updateLoop total hc hl n _ _ hi') fun rest hrest => Post.pure' ?_
        have hf := fixSpell_range hl hi
        intro q hq
        rcases List.mem_append.1 hq with hq | hq
        · exact withOverlays_range ⟨hc, hf.1, hf.2, oseq_range⟩ hx q hq
        · exact hrest q hq
    · exact Post.pure' (by simp [All])

theorem Post.updateAll {con : Int} {loc : Nat} (total : Nat) (hc : I32 con) (hl : U32 loc) : Post (updateAll con loc total) (All QueryHolds) := by
  intro s a r h
  exact Post.updateLoop total hc hl _ _ _ (by simp [U32]) _ _ _ h

end Ygo

namespace Ygo
open Ygo.Spec P

/-! ## Whole messages -/

/-- Whatever message there is holds its numbers. -/
def OutcomeHolds (o : Outcome) : Prop := ∀ m, o.msg = some m → MsgHolds m

theorem OutcomeHolds.event {e : Event} (h : EventHolds e) : OutcomeHolds (.event e) := by
  intro m hm
  simp only [Outcome.event, Option.some.injEq] at hm
  subst hm
  exact ⟨fun e' he => by simp only [MsgBody.event.injEq] at he; exact he ▸ h, by simp, by simp [All]⟩

theorem OutcomeHolds.request {who : Int} {r : Request} (hw : I32 who) (h : RequestHolds r) : OutcomeHolds (.request who r) := by
  intro m hm
  simp only [Outcome.request, Option.some.injEq] at hm
  subst hm
  exact ⟨by simp, fun w r' he => by simp only [MsgBody.request.injEq] at he; exact he.1 ▸ he.2 ▸ ⟨hw, h⟩, by simp [All]⟩

theorem OutcomeHolds.queries {qs : List Query} (h : All QueryHolds qs) : OutcomeHolds (.queries qs) := by
  intro m hm
  simp only [Outcome.queries, Option.some.injEq] at hm
  subst hm
  exact ⟨by simp, by simp, h⟩

theorem OutcomeHolds.swallowed : OutcomeHolds .swallowed := by intro m hm; simp [Outcome.swallowed] at hm
theorem OutcomeHolds.none : OutcomeHolds {} := by intro m hm; simp at hm

theorem All.nil {α : Type} {Q : α → Prop} : All Q [] := by simp [All]
theorem All.cons {α : Type} {Q : α → Prop} {x : α} {xs : List α} (h : Q x) (hs : All Q xs) : All Q (x :: xs) := by
  intro y hy
  rcases List.mem_cons.1 hy with rfl | hy
  · exact h
  · exact hs y hy
theorem All.one {α : Type} {Q : α → Prop} {x : α} (h : Q x) : All Q [x] := All.cons h All.nil
theorem All.append {α : Type} {Q : α → Prop} {xs ys : List α} (h : All Q xs) (h' : All Q ys) : All Q (xs ++ ys) := by
  intro y hy
  rcases List.mem_append.1 hy with hy | hy
  · exact h y hy
  · exact h' y hy

theorem place_zero_range : PlaceHolds Place.zero := ⟨by simp [Place.zero, I32], by simp [Place.zero, U32], by simp [Place.zero, U32], by simp [Place.zero, I32]⟩

theorem Post.chain : Post readChain ChainHolds :=
  Post.after fun _ => Post.bind' Post.locInfo fun _ h1 => Post.bind' Post.locSeq fun _ h2 => Post.bind' Post.effect fun _ h3 =>
    Post.pure' ⟨h1, h2, h3⟩

theorem u64_small {n : Nat} (h : n < 2 ^ 32) : U64 n := by simp only [U64]; omega

theorem Post.lpEvent {t : Nat → LPChange} (ht : ∀ con n, I32 con → U32 n → EventHolds (.lp con (t n))) : Post (lpEvent t) OutcomeHolds :=
  Post.bind' Post.con fun _ hc => Post.bind' Post.u32 fun _ hn => Post.pure' (.event (ht _ _ hc hn))

theorem pileOp_range {con : Int} {loc count : Nat} (hc : I32 con) (hl : U32 loc) (hn : U32 count) : ResizeHolds (pileOp con loc count) :=
  ⟨⟨hc, hl, by simp [pileOp, U32], oseq_range⟩, hn⟩

theorem i32_zero : I32 0 := by simp [I32]
theorem i32_one : I32 1 := by simp [I32]

theorem Post.reloadZone {con : Int} {loc seq : Nat} (hc : I32 con) (hl : U32 loc) (hs : U32 seq) : Post (reloadZone con loc seq) (All PlaceHolds) := by
  unfold Ygo.reloadZone
  refine Post.after fun b => ?_
  split
  · exact Post.pure' All.nil
  · refine Post.after fun _ => Post.bind' Post.u32 fun mats hm => Post.pure' ?_
    have hf := fixSpell_range hl hs
    refine All.cons ⟨hc, ?_, ?_, oseq_range⟩ ?_
    · simp only; split
      · exact hf.1
      · exact hl
    · simp only; split
      · exact hf.2
      · exact hs
    · intro p hp
      simp only [List.mem_map, List.mem_range] at hp
      obtain ⟨o, ho, rfl⟩ := hp
      exact ⟨hc, hl, hs, toInt32_range (Nat.lt_trans ho hm)⟩

theorem Post.reloadController {con : Int} (hc : I32 con) :
    Post (reloadController con) fun x => U32 x.1 ∧ All PlaceHolds x.2.1 ∧ All ResizeHolds x.2.2 := by
  unfold Ygo.reloadController
  refine Post.bind' Post.u32 fun lp hlp => ?_
  refine Post.bind' (Post.forEach _ fun s hs => Post.reloadZone hc (by simp [U32]) (by rw [List.mem_range] at hs; simp only [U32]; omega)) fun ms hms => ?_
  refine Post.bind' (Post.forEach _ fun s hs => Post.reloadZone hc (by simp [U32]) (by rw [List.mem_range] at hs; simp only [U32]; omega)) fun ss hss => ?_
  refine Post.bind' Post.u32 fun a ha => Post.bind' Post.u32 fun b hb => Post.bind' Post.u32 fun d hd => Post.bind' Post.u32 fun e he =>
    Post.bind' Post.u32 fun f hf => Post.after fun _ => Post.pure' ⟨hlp, All.append hms hss, ?_⟩
  exact All.cons (pileOp_range hc (by simp [U32]) ha) (All.cons (pileOp_range hc (by simp [U32]) hb) (All.cons (pileOp_range hc (by simp [U32]) hd)
    (All.cons (pileOp_range hc (by simp [U32]) he) (All.one (pileOp_range hc (by simp [U32]) hf)))))

theorem Post.reloadEvent : Post reloadEvent OutcomeHolds := by
  unfold Ygo.reloadEvent
  refine Post.after fun flags => Post.bind' (Post.reloadController i32_zero) fun x hx => ?_
  obtain ⟨lp0, add0, rs0⟩ := x
  refine Post.bind' (Post.reloadController i32_one) fun y hy => ?_
  obtain ⟨lp1, add1, rs1⟩ := y
  exact Post.bind' (Post.all Post.chain) fun cs hcs => Post.pure' (.event ⟨by simp [I32], All.cons hx.1 (All.one hy.1), hcs,
    All.append hx.2.1 hy.2.1, All.append hx.2.2 hy.2.2⟩)

theorem Post.startEvent : Post startEvent OutcomeHolds := by
  refine Post.after fun _ => Post.bind' Post.u32 fun _ h0 => Post.bind' Post.u32 fun _ h1 => Post.bind' Post.u16 fun _ ha =>
    Post.bind' Post.u16 fun _ hb => Post.bind' Post.u16 fun _ hc => Post.bind' Post.u16 fun _ hd => Post.pure' (.event ?_)
  exact ⟨i32_zero, All.cons h0 (All.one h1), All.nil, All.nil, All.cons (pileOp_range i32_zero (by simp [U32]) ha)
    (All.cons (pileOp_range i32_zero (by simp [U32]) hb) (All.cons (pileOp_range i32_one (by simp [U32]) hc)
      (All.one (pileOp_range i32_one (by simp [U32]) hd))))⟩

theorem Post.tagSwapEvent : Post tagSwapEvent OutcomeHolds := by
  refine Post.bind' Post.con fun _ hc => Post.bind' Post.u32 fun _ hm => Post.bind' Post.u32 fun _ he => Post.after fun _ =>
    Post.bind' Post.u32 fun _ hh => Post.after fun _ => Post.after fun _ => Post.pure' (.event ?_)
  exact ⟨hc, All.nil, All.nil, All.cons (pileOp_range hc (by simp [U32]) hm) (All.cons (pileOp_range hc (by simp [U32]) he)
    (All.one (pileOp_range hc (by simp [U32]) hh)))⟩

theorem place_range {con : Int} {loc seq : Nat} (hc : I32 con) (hl : U32 loc) (hs : U32 seq) {o : Int} (ho : I32 o) : PlaceHolds ⟨con, loc, seq, o⟩ :=
  ⟨hc, hl, hs, ho⟩

theorem Post.selected : Post selectedEvent OutcomeHolds :=
  Post.bind' (Post.all Post.locInfo) fun _ h => Post.pure' (.event ⟨place_zero_range, by simp [U64], h⟩)

theorem Post.summoning {reason : Nat} (hr : U64 reason) : Post (summoningEvent reason) OutcomeHolds :=
  Post.after fun _ => Post.bind' Post.locInfo fun _ h => Post.pure' (.event ⟨hr, All.one h⟩)

theorem Post.eventCase {k : Kind} {p : P Outcome} (h : eventCase k = some p) : Post p OutcomeHolds := by
  have update : ∀ {q : Place}, PlaceHolds q → OutcomeHolds (.event (.metaInfo (.update 0 [q]))) :=
    fun hq => .event ⟨by simp [U64], All.one hq⟩
  have status : ∀ (s : ChainStatus), (∀ n, s ≠ .other n) → OutcomeHolds (.event (.metaInfo (.chainStatus s))) :=
    fun _ h => .event fun n e => absurd e (h n)
  have confirm : Post (do skip 1; let ps ← Ygo.listOf (Ygo.coded readLocSeq); return .event (.metaInfo (.confirm 0 ps))) OutcomeHolds :=
    Post.after fun _ => Post.bind' (Post.all (Post.coded Post.locSeq)) fun _ h => Post.pure' (.event ⟨by simp [U64], h⟩)
  have counter : Post (do skip 2; let p ← readLocSSeq; skip 2; return .event (.metaInfo (.update 0 [p]))) OutcomeHolds :=
    Post.after fun _ => Post.bind' Post.locSSeq fun _ h => Post.after fun _ => Post.pure' (update h)
  have target : Post (do let selector ← readLocInfo; let p ← readLocInfo; return .event (.metaInfo (.selection selector 0 [p]))) OutcomeHolds :=
    Post.bind' Post.locInfo fun _ h => Post.bind' Post.locInfo fun _ h' => Post.pure' (.event ⟨h, by simp [U64], All.one h'⟩)
  cases k <;> simp only [Ygo.eventCase, Option.some.injEq, reduceCtorEq] at h <;> subst h
  case shuffleDeck => exact Post.bind' Post.con fun _ h => Post.pure' (.event (All.one ⟨h, by simp [U32], by simp [U32], i32_zero⟩))
  case shuffleHand | shuffleExtra =>
    exact Post.bind' Post.con fun _ h => Post.after fun _ => Post.after fun _ => Post.pure' (.event (All.one ⟨h, by simp [U32], by simp [U32], i32_zero⟩))
  case shuffleSetCard =>
    exact Post.after fun _ => Post.after fun _ => Post.bind' (Post.many Post.locInfo _) fun _ h => Post.bind' (Post.many Post.locInfo _) fun _ h' =>
      Post.pure' (.event ⟨by simp [U64], h.2, h'.2⟩)
  case newTurn => exact Post.bind' Post.con fun _ h => Post.pure' (.event h)
  case newPhase => exact Post.bind' Post.u16 fun _ h => Post.pure' (.event h)
  case posChange => exact Post.after fun _ => Post.bind' Post.locSSeq fun _ h => Post.after fun _ => Post.after fun _ => Post.pure' (update h)
  case set => exact Post.after fun _ => Post.bind' Post.locSeq fun _ h => Post.after fun _ => Post.pure' (update h)
  case swap =>
    exact Post.after fun _ => Post.bind' Post.locInfo fun _ h => Post.after fun _ => Post.bind' Post.locInfo fun _ h' =>
      Post.pure' (.event ⟨by simp [U64], All.one ⟨h, h'⟩⟩)
  case fieldDisabled => exact Post.after fun _ => Post.pure' (.event (unpackZones_range _ (by decide)))
  case summoning | spsummoning | flipsummoning => exact Post.summoning (by unfold U64; decide)
  case chaining => exact Post.bind' Post.chain fun _ h => Post.after fun _ => Post.pure' (.event h)
  case chained | chainSolving | chainNegated | chainDisabled => exact Post.after fun _ => Post.pure' (status _ (by simp))
  case chainSolved => exact Post.after fun _ => Post.pure' (.event trivial)
  case damage | recover | lpupdate | payLpcost => exact Post.lpEvent fun _ _ hc hn => ⟨hc, hn⟩
  case randomSelected => exact Post.after fun _ => Post.selected
  case cardSelected | becomeTarget => exact Post.selected
  case cardTarget | cancelTarget => exact target
  case addCounter | removeCounter => exact counter
  case attack =>
    refine Post.bind' Post.locInfo fun _ h => Post.bind' Post.locInfo fun _ h' => Post.pure' (.event ⟨h, ?_⟩)
    split
    · exact place_zero_range
    · exact h'
  case tossCoin => exact Post.bind' Post.con fun _ h => Post.after fun _ => Post.pure' (.event h)
  case tossDice => exact Post.bind' Post.con fun _ h => Post.bind' (Post.slistOf Post.u8) fun _ h' => Post.pure' (.event ⟨h, h'⟩)
  case handRes =>
    refine Post.after fun b => Post.pure' (.event (All.cons ?_ (All.one ?_)))
    · have : b &&& 3 ≤ 3 := Nat.and_le_right
      simp only [I32]; omega
    · have : (b >>> 2) &&& 3 ≤ 3 := Nat.and_le_right
      simp only [I32]; omega
  case start => exact Post.startEvent
  case tagSwap => exact Post.tagSwapEvent
  case reloadField => exact Post.reloadEvent
  case playerHint =>
    refine Post.bind' Post.con fun _ h => Post.after fun t => Post.bind' Post.effect fun _ h' => Post.pure' (.event ⟨h, ?_⟩)
    by_cases ht : t = 1
    · rw [if_pos ht]; exact h'
    · rw [if_neg ht]; exact h'
  all_goals exact confirm

theorem Post.queryCase {k : Kind} {p : P Outcome} (h : queryCase k = some p) : Post p OutcomeHolds := by
  cases k <;> simp only [Ygo.queryCase, Option.some.injEq, reduceCtorEq] at h <;> subst h
  case updateData =>
    exact Post.bind' Post.con fun _ hc => Post.bind' Post.u8 fun _ hl => Post.after fun t => Post.bind' (Post.updateAll t hc hl) fun _ h =>
      Post.pure' (.queries h)
  case updateCard => exact Post.bind' Post.locSSeq fun _ hp => Post.bind' Post.oneQuery fun _ hv => Post.pure' (.queries (withOverlays_range hp hv))

theorem Post.selectable : Post readSelectable SelectableHolds :=
  Post.bind' Post.u32 fun _ hc => Post.bind' Post.locInfo fun _ hp => Post.pure' ⟨hp, hc⟩

theorem Post.actCard {p : P Place} (h : Post p PlaceHolds) : Post (readActCard p) ActHolds :=
  Post.after fun _ => Post.bind' h fun _ hp => Post.bind' Post.effect fun _ he => Post.after fun _ => Post.pure' ⟨hp, he⟩

theorem Post.selectCard : Post selectCardRequest SelectCardHolds := by
  unfold selectCardRequest
  refine Post.after fun _ => Post.bind' Post.u32 fun _ hn => Post.bind' Post.u32 fun _ hx => Post.after fun n => Post.after fun _ => Post.after fun b => ?_
  split
  · exact Post.bind' (Post.many Post.selectable _) fun _ h => Post.pure' ⟨hn, hx, h.2⟩
  · exact Post.bind' (Post.many (Post.bind' Post.u32 fun _ hc => Post.after fun _ => Post.pure' hc) _) fun _ h => Post.pure' ⟨hn, hx, h.2⟩

theorem phases_range (b b' : Bool) {x y : Nat} (hx : x < 2 ^ 32) (hy : y < 2 ^ 32) : U32 ((if b then x else 0) ||| (if b' then y else 0)) := by
  apply Nat.or_lt_two_pow <;> split <;> first | assumption | decide

theorem Post.battle : Post battleRequest IdleHolds := by
  unfold battleRequest
  refine Post.bind' (Post.all (Post.actCard Post.locSeq)) fun _ ha => ?_
  refine Post.bind' (Post.all (Q := fun c : AtkCard => PlaceHolds c.place) (Post.after fun _ => Post.bind' Post.locSSeq fun _ h => Post.after fun _ => Post.pure' h)) fun _ hc => ?_
  exact Post.after fun b => Post.after fun b' => Post.pure' ⟨phases_range b b' (by decide) (by decide), ha, All.nil, All.nil, All.nil, All.nil, All.nil, hc⟩

theorem Post.idle : Post idleRequest IdleHolds := by
  unfold idleRequest
  have hseq := Post.all (Post.coded Post.locSeq)
  refine Post.bind' hseq fun _ h1 => Post.bind' hseq fun _ h2 => Post.bind' (Post.all (Post.coded Post.locSSeq)) fun _ h3 =>
    Post.bind' hseq fun _ h4 => Post.bind' hseq fun _ h5 => Post.bind' (Post.all (Post.actCard Post.locSeq)) fun _ h6 => ?_
  exact Post.after fun b => Post.after fun b' => Post.after fun _ => Post.pure' ⟨phases_range b b' (by decide) (by decide), h6, h1, h2, h3, h4, h5, All.nil⟩

theorem Post.requestCase {k : Kind} {f : Int → P Request} (h : requestCase k = some f) (who : Int) : Post (f who) RequestHolds := by
  have u1 : U32 1 := by simp [U32]
  cases k <;> simp only [Ygo.requestCase, Option.some.injEq, reduceCtorEq] at h <;> subst h
  case announceAttrib => exact Post.bind' Post.u8 fun _ h => Post.bind' Post.u32 fun _ h' => Post.pure' ⟨h, h'⟩
  case selectCard => exact Post.bind' Post.selectCard fun _ h => Post.pure' h
  case selectUnselectCard =>
    exact Post.after fun _ => Post.after fun _ => Post.bind' Post.u32 fun _ h1 => Post.bind' Post.u32 fun _ h2 =>
      Post.bind' (Post.all Post.selectable) fun _ h3 => Post.bind' (Post.all Post.selectable) fun _ h4 => Post.pure' ⟨h1, h2, h3, h4⟩
  case selectTribute =>
    exact Post.after fun _ => Post.bind' Post.u32 fun _ h1 => Post.bind' Post.u32 fun _ h2 =>
      Post.bind' (Post.all (Q := fun c : TributeCard => PlaceHolds c.place ∧ U32 c.code ∧ U32 c.countAs)
        (Post.bind' Post.u32 fun _ hc => Post.bind' Post.locSeq fun _ hp => Post.bind' Post.u8 fun _ hn => Post.pure' ⟨hp, hc, hn⟩)) fun _ h3 =>
      Post.pure' ⟨h1, h2, h3⟩
  case selectOption => exact Post.bind' (Post.slistOf Post.effect) fun _ h => Post.pure' ⟨u1, h⟩
  case selectBattlecmd => exact Post.bind' Post.battle fun _ h => Post.pure' h
  case selectIdlecmd => exact Post.bind' Post.idle fun _ h => Post.pure' h
  case announceNumber => exact Post.bind' (Post.slistOf Post.u64) fun _ h => Post.pure' ⟨u1, h⟩
  case selectPosition => exact Post.bind' Post.u32 fun _ h => Post.bind' Post.u8 fun _ h' => Post.pure' ⟨u1, h, h'⟩
  case announceRace => exact Post.bind' Post.u8 fun _ h => Post.bind' Post.u64 fun _ h' => Post.pure' ⟨h, h'⟩
  case rockPaperScissors => exact Post.pure' trivial
  case selectChain => exact Post.after fun _ => Post.after fun _ => Post.after fun _ => Post.bind' (Post.all (Post.actCard Post.locInfo)) fun _ h => Post.pure' h
  case selectEffectyn => exact Post.bind' Post.u32 fun _ h => Post.bind' Post.locInfo fun _ h' => Post.bind' Post.effect fun _ h'' => Post.pure' ⟨h', h, h''⟩
  case selectYesno => exact Post.bind' Post.effect fun _ h => Post.pure' ⟨place_zero_range, by simp [U32], h⟩
  case selectPlace | selectDisfield =>
    exact Post.bind' Post.u8 fun _ h => Post.after fun _ => Post.pure' ⟨h, unpackZones_range _ (Nat.mod_lt _ (by decide))⟩
  case sortChain | sortCard => exact Post.bind' (Post.all (Post.coded (Post.loc (by decide) (by simp)))) fun _ h => Post.pure' h

end Ygo
