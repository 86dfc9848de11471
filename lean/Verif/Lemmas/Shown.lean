import Verif.Lemmas.TrackableRead
import Verif.Lemmas.Shape
import Verif.Lemmas.Message
import Verif.Spec.Shown

/-!
# What servers say has the form in which the core said it
-/

set_option linter.unusedSimpArgs false

namespace Ygo
open Ygo.Spec P

structure DataFits (d : QueryData) : Prop where
  single : ∀ f v, d.single f = some v → FieldFits f v
  targets : ∀ ps, d.targets = some ps → ∀ p ∈ ps, ∃ l : LocInfo, p = l.place
  counters : ∀ cs, d.counters = some cs → ∀ c ∈ cs, c.type < 2 ^ 16 ∧ c.count < 2 ^ 16

/-- Life points change by a number of four bytes. -/
def ChangeFits : LPChange → Prop
  | .unset => True
  | .become n | .damage n | .pay n | .recover n => n < 2 ^ 32

/-- What an event says beside the table has the form in which the core said it. -/
def EventFits : Event → Prop
  | .board (.state s) => s.turnCounter < 2 ^ 32 ∧ (∀ n ∈ s.lps, n < 2 ^ 32) ∧ ∃ ls : List Link, s.chains = ls.map (·.chain)
  | .chainStack (.push c) => ∃ l : Link, c = l.chain
  | .nextTurn con => ∃ p : UInt8, con = p.toNat
  | .nextPhase p => ∃ q : UInt16, p = q.toNat
  | .lp _ c => ChangeFits c
  | .zoneBlock zs => BlockedFits zs
  | _ => True

structure MsgFits (m : Msg) : Prop where
  event : ∀ e, m.body = .event e → EventFits e
  queries : All (fun q => DataFits q.data) m.queries

def OutcomeFits (o : Outcome) : Prop := ∀ m, o.msg = some m → MsgFits m

theorem OutcomeFits.event {e : Event} (h : EventFits e) : OutcomeFits (.event e) := by
  intro m hm
  simp only [Outcome.event, Option.some.injEq] at hm
  subst hm
  refine ⟨fun e' he => ?_, All.nil⟩
  simp only [MsgBody.event.injEq] at he
  exact he ▸ h

theorem OutcomeFits.request {who : Int} {r : Request} : OutcomeFits (.request who r) := by
  intro m hm
  simp only [Outcome.request, Option.some.injEq] at hm
  subst hm
  exact ⟨fun e he => by simp at he, All.nil⟩

theorem OutcomeFits.queries {qs : List Query} (h : All (fun q => DataFits q.data) qs) : OutcomeFits (.queries qs) := by
  intro m hm
  simp only [Outcome.queries, Option.some.injEq] at hm
  subst hm
  exact ⟨fun e he => by simp at he, h⟩

theorem OutcomeFits.swallowed : OutcomeFits .swallowed := by intro m hm; simp [Outcome.swallowed] at hm
theorem OutcomeFits.none : OutcomeFits {} := by intro m hm; simp at hm

/-! ## Readers -/

theorem PostFits.locInfo : Post readLocInfo fun p => ∃ l : LocInfo, p = l.place := by
  intro s a r h
  obtain ⟨l, _, rfl⟩ := Shape.readLocInfo _ _ _ h
  rw [readLocInfo_bytes] at h
  simp only [Except.ok.injEq, Prod.mk.injEq, and_true] at h
  exact ⟨l, h.symm⟩

theorem PostFits.chain : Post readChain fun c => ∃ l : Link, c = l.chain := by
  intro s a r h
  obtain ⟨l, _, rfl⟩ := Shape.readChain _ _ _ h
  rw [readChain_bytes] at h
  simp only [Except.ok.injEq, Prod.mk.injEq, and_true] at h
  exact ⟨l, h.symm⟩

theorem PostFits.counter : Post readCounter fun c => c.type < 2 ^ 16 ∧ c.count < 2 ^ 16 :=
  Post.bind' (Post.read 4) fun c h => Post.pure' (by
    refine ⟨Nat.lt_of_le_of_lt Nat.and_le_right (by decide), ?_⟩
    simp only [Nat.shiftRight_eq_div_pow]
    omega)

theorem PostFits.con : Post readCon fun c => 0 ≤ c ∧ c < 2 ^ 8 := Post.bind' (Post.read 1) fun c h => Post.pure' (by omega)

theorem PostFits.field (f : QField) : Post (readField f) (FieldFits f) := by
  have i32 : Post (do return toInt32 (← P.read 4)) fun v => -2 ^ 31 ≤ v ∧ v < 2 ^ 31 := Post.bind' Post.u32 fun a h => Post.pure' (by
    have := toInt32_range h
    simp only [I32] at this
    omega)
  cases f <;> first
    | exact Post.read 4
    | exact Post.read 8
    | exact PostFits.locInfo
    | exact PostFits.con
    | exact i32
    | exact Post.any _

theorem DataFits.empty : DataFits .empty := ⟨by simp [QueryData.empty], by simp [QueryData.empty], by simp [QueryData.empty]⟩

theorem DataFits.setSingle {d : QueryData} (h : DataFits d) {f : QField} {v : f.Val} (hv : FieldFits f v) : DataFits (d.setSingle f v) where
  single g w hw := by
    simp only [QueryData.setSingle] at hw
    split at hw
    · rename_i e; subst e; simp at hw; exact hw ▸ hv
    · exact h.single g w hw
  targets := h.targets
  counters := h.counters

def ReadFits (v : QueryRead) : Prop := DataFits v.data ∧ All (· < 2 ^ 32) v.overlays

theorem PostFits.queryField (size flag : Nat) {v : QueryRead} (h : ReadFits v) : Post (queryField size flag v) ReadFits := by
  unfold Ygo.queryField
  split
  · refine Post.bind' (Post.all PostFits.locInfo) fun ps hps => Post.pure' ⟨⟨h.1.single, ?_, h.1.counters⟩, h.2⟩
    intro qs hq
    simp only [Option.some.injEq] at hq
    subst hq
    intro p hp
    rcases List.mem_append.1 hp with hp | hp
    · cases ht : v.data.targets with
      | none => simp [ht] at hp
      | some ts => rw [ht] at hp; exact h.1.targets ts ht p hp
    · exact hps p hp
  · split
    · refine Post.bind' (Post.all PostFits.counter) fun ps hps => Post.pure' ⟨⟨h.1.single, h.1.targets, ?_⟩, h.2⟩
      intro qs hq
      simp only [Option.some.injEq] at hq
      subst hq
      intro p hp
      rcases List.mem_append.1 hp with hp | hp
      · cases ht : v.data.counters with
        | none => simp [ht] at hp
        | some ts => rw [ht] at hp; exact h.1.counters ts ht p hp
      · exact hps p hp
    · split
      · exact Post.bind' (Post.read 4) fun r hr => Post.bind' (Post.read 4) fun a ha =>
          Post.pure' ⟨(h.1.setSingle (f := .linkRate) hr).setSingle (f := .linkArrow) ha, h.2⟩
      · split
        · exact Post.bind' (Post.all (Post.read 4)) fun xs hx => Post.pure' ⟨h.1, hx⟩
        · split
          · rename_i f _
            exact Post.bind' (PostFits.field f) fun x hx => Post.pure' ⟨h.1.setSingle hx, h.2⟩
          · exact Post.after fun _ => Post.after fun _ => Post.pure' h

theorem PostFits.queryLoop : ∀ n {v : QueryRead}, ReadFits v → Post (queryLoop n v) ReadFits
  | 0, _, _ => Post.lift (by simp [ub])
  | n + 1, v, h => by
    unfold Ygo.queryLoop
    refine Post.after fun size => Post.after fun flag => ?_
    split
    · exact Post.pure' h
    · exact Post.bind' (PostFits.queryField size flag h) fun w hw => PostFits.queryLoop n hw

theorem PostFits.oneQuery : Post encodeOneQuery ReadFits := by
  intro s a r h
  exact PostFits.queryLoop _ (v := { data := .empty }) ⟨DataFits.empty, by simp [All]⟩ _ _ _ h

theorem withOverlays_fits {place : Place} {v : QueryRead} (hv : ReadFits v) : All (fun q => DataFits q.data) (withOverlays place v) := by
  intro q hq
  simp only [withOverlays, List.mem_cons, List.mem_mapIdx] at hq
  rcases hq with rfl | ⟨i, hi, rfl⟩
  · exact hv.1
  · exact DataFits.empty.setSingle (f := .code) (hv.2 _ (List.getElem_mem hi))

theorem PostFits.updateLoop {con : Int} {loc : Nat} (total : Nat) : ∀ n i rs, Post (updateLoop con loc total n i rs) (All fun q => DataFits q.data)
  | 0, _, _ => Post.lift (by simp [ub])
  | n + 1, i, rs => by
    unfold Ygo.updateLoop
    split
    · refine Post.after fun size => ?_
      split
      · exact Post.after fun _ => PostFits.updateLoop total n _ _
      · refine Post.bind' (Post.counted PostFits.oneQuery) fun x hx => ?_
        obtain ⟨v, used⟩ := x
        refine Post.bind' (PostFits.updateLoop total n _ _) fun rest hrest => Post.pure' ?_
        intro q hq
        rcases List.mem_append.1 hq with hq | hq
        · exact withOverlays_fits hx q hq
        · exact hrest q hq
    · exact Post.pure' (by simp [All])

theorem PostFits.updateAll {con : Int} {loc : Nat} (total : Nat) : Post (updateAll con loc total) (All fun q => DataFits q.data) := by
  intro s a r h
  exact PostFits.updateLoop total _ _ _ _ _ _ h

theorem PostFits.queryCase {k : Kind} {p : P Outcome} (h : queryCase k = some p) : Post p OutcomeFits := by
  cases k <;> simp only [Ygo.queryCase, Option.some.injEq, reduceCtorEq] at h <;> subst h
  case updateData => exact Post.after fun _ => Post.after fun _ => Post.after fun t => Post.bind' (PostFits.updateAll _) fun _ h => Post.pure' (.queries h)
  case updateCard => exact Post.after fun _ => Post.bind' PostFits.oneQuery fun _ h => Post.pure' (.queries (withOverlays_fits h))

theorem PostFits.lpEvent {t : Nat → LPChange} (ht : ∀ n, n < 2 ^ 32 → ChangeFits (t n)) : Post (lpEvent t) OutcomeFits :=
  Post.after fun _ => Post.bind' (Post.read 4) fun _ hn => Post.pure' (.event (ht _ hn))

theorem links_of {cs : List Chain} (h : All (fun c => ∃ l : Link, c = l.chain) cs) : ∃ ls : List Link, cs = ls.map (·.chain) := by
  induction cs with
  | nil => exact ⟨[], rfl⟩
  | cons c cs ih =>
    obtain ⟨l, hl⟩ := h c (by simp)
    obtain ⟨ls, hls⟩ := ih fun x hx => h x (by simp [hx])
    exact ⟨l :: ls, by rw [hl, hls]; rfl⟩

theorem PostFits.reloadController {con : Int} : Post (reloadController con) fun x => x.1 < 2 ^ 32 := by
  unfold Ygo.reloadController
  refine Post.bind' (Post.read 4) fun lp hl => ?_
  exact Post.after fun _ => Post.after fun _ => Post.after fun _ => Post.after fun _ => Post.after fun _ => Post.after fun _ => Post.after fun _ =>
    Post.after fun _ => Post.pure' hl

theorem PostFits.reloadEvent : Post reloadEvent OutcomeFits := by
  unfold Ygo.reloadEvent
  refine Post.after fun flags => Post.bind' PostFits.reloadController fun x hx => ?_
  obtain ⟨lp0, add0, rs0⟩ := x
  refine Post.bind' PostFits.reloadController fun y hy => ?_
  obtain ⟨lp1, add1, rs1⟩ := y
  refine Post.bind' (Post.all PostFits.chain) fun cs hcs => Post.pure' (.event ⟨?_, ?_, links_of hcs⟩)
  · simp
  · simp only [List.mem_cons, List.not_mem_nil, or_false]
    rintro n (rfl | rfl)
    · exact hx
    · exact hy

theorem PostFits.startEvent : Post startEvent OutcomeFits := by
  refine Post.after fun _ => Post.bind' (Post.read 4) fun _ h0 => Post.bind' (Post.read 4) fun _ h1 => Post.after fun _ =>
    Post.after fun _ => Post.after fun _ => Post.after fun _ => Post.pure' (.event ⟨by simp, ?_, [], rfl⟩)
  simp only [List.mem_cons, List.not_mem_nil, or_false]
  rintro n (rfl | rfl)
  · exact h0
  · exact h1

theorem PostFits.eventCase {k : Kind} {p : P Outcome} (h : eventCase k = some p) : Post p OutcomeFits := by
  cases k <;> simp only [Ygo.eventCase, Option.some.injEq, reduceCtorEq] at h <;> subst h
  case newTurn =>
    refine Post.bind' PostFits.con fun p hp => Post.pure' (.event ⟨UInt8.ofNat p.toNat, ?_⟩)
    rw [UInt8.toNat_ofNat']
    omega
  case newPhase =>
    refine Post.bind' (Post.read 2) fun p hp => Post.pure' (.event ⟨UInt16.ofNat p, ?_⟩)
    rw [UInt16.toNat_ofNat']
    omega
  case fieldDisabled =>
    refine Post.bind' (Post.read 4) fun z hz => Post.pure' (.event ⟨UInt32.ofNat z, ?_⟩)
    have := unpackZones_eq (UInt32.ofNat z) 0
    rw [← this, UInt32.toNat_ofNat', Nat.mod_eq_of_lt (by omega)]
    rfl
  case chaining => exact Post.bind' PostFits.chain fun _ h => Post.after fun _ => Post.pure' (.event h)
  case damage | recover | lpupdate | payLpcost => exact PostFits.lpEvent fun _ h => h
  case start => exact PostFits.startEvent
  case reloadField => exact PostFits.reloadEvent
  all_goals
    repeat (first | exact Post.pure' (.event trivial) | refine Post.after fun _ => ?_)

theorem PostFits.contextCase {c : BasicContext} {k : Kind} {p : P (Outcome × BasicContext)}
    (h : contextCase c k = some p) : Post p fun x => OutcomeFits x.1 := by
  cases k <;> simp only [Ygo.contextCase, Option.some.injEq, reduceCtorEq] at h <;> subst h
  case move =>
    refine Post.after fun _ => Post.after fun _ => Post.after fun _ => Post.after fun _ => Post.lift fun x h => ?_
    unfold moveOutcome at h
    have key : ∀ {e : CardEvent} {r : Nat} {c' : BasicContext}, OutcomeFits ((.event (.card r e), c') : Outcome × BasicContext).1 := fun {_ _ _} => .event trivial
    split at h
    · simp only [Except.ok.injEq] at h; subst h; exact .swallowed
    split at h
    · simp only [Except.ok.injEq] at h; subst h; exact key
    split at h
    · split at h
      all_goals
        simp only [bind_eq_ok, pure_eq_ok, Except.ok.injEq] at h
        first
          | (obtain ⟨_, _, rfl⟩ := h; exact key)
          | (obtain ⟨_, _, _, _, rfl⟩ := h; exact key)
    split at h
    · simp only [Except.ok.injEq] at h; subst h; exact .swallowed
    split at h
    · simp only [EncodeContext.takeDeferredXyzMat, Except.ok.injEq] at h; subst h; exact key
    split at h
    · simp only [bind_eq_ok, pure_eq_ok, Except.ok.injEq] at h
      obtain ⟨_, _, rfl⟩ := h
      exact key
    · split at h
      all_goals
        simp only [bind_eq_ok, pure_eq_ok, Except.ok.injEq] at h
        first
          | (obtain ⟨_, _, rfl⟩ := h; exact key)
          | (obtain ⟨_, _, _, _, rfl⟩ := h; exact key)
  case swapGraveDeck =>
    refine Post.bind' (Q := OutcomeFits) ?_ fun _ h => Post.pure' h
    unfold swapGraveDeckEvent
    refine Post.after fun con => Post.after fun pos => Post.after fun bs => Post.after fun gy => Post.after fun deck => Post.after fun _ => ?_
    simp only
    split
    · exact Post.bind' (Q := fun _ => False) (Post.lift (by simp)) fun _ h => h.elim
    · exact Post.after fun _ => Post.pure' (.event trivial)
  case matchKill => exact Post.after fun r => Post.pure' .swallowed
  all_goals
    refine Post.bind' (Q := OutcomeFits) ?_ fun _ h => Post.pure' h
    repeat (first | exact Post.pure' (.event trivial) | refine Post.after fun _ => ?_)

theorem PostFits.encodeBody {c : BasicContext} : Post (encodeBody c) fun x => OutcomeFits x.1 := by
  unfold Ygo.encodeBody
  refine Post.after fun b => ?_
  cases Kind.ofByte b with
  | none => exact Post.pure' .none
  | some k =>
    simp only
    unfold encodeCase
    cases h1 : Ygo.eventCase k with
    | some p => exact Post.bind' (PostFits.eventCase h1) fun _ h => Post.pure' h
    | none =>
      cases h2 : Ygo.queryCase k with
      | some p => exact Post.bind' (PostFits.queryCase h2) fun _ h => Post.pure' h
      | none =>
        cases h3 : Ygo.requestCase k with
        | some f => exact Post.after fun w => Post.after fun _ => Post.pure' .request
        | none =>
          cases swallowedCase k with
          | some p => exact Post.after fun _ => Post.pure' .swallowed
          | none =>
            cases h5 : Ygo.contextCase c k with
            | some p => exact PostFits.contextCase h5
            | none => exact Post.pure' .none

theorem fits_encodeOne {c c' : BasicContext} {d : List UInt8} {r : Encoded} (h : encodeOne c d = .ok (r, c')) (m : Msg) (hm : r.msg = some m) : MsgFits m := by
  unfold encodeOne at h
  split at h
  · rename_i o c'' rest hb
    simp only [Except.ok.injEq, Prod.mk.injEq] at h
    obtain ⟨rfl, rfl⟩ := h
    exact PostFits.encodeBody _ _ _ hb m hm
  · simp at h

theorem fits_feed : ∀ (ds : List (List UInt8)) (c c' : BasicContext) (rs : List Encoded), feed c ds = .ok (rs, c') → ∀ m ∈ messages rs, MsgFits m
  | [], c, c', rs, h, m, hm => by
    simp only [feed, Except.ok.injEq, Prod.mk.injEq] at h
    obtain ⟨rfl, rfl⟩ := h
    simp [messages] at hm
  | d :: ds, c, c', rs, h, m, hm => by
    unfold feed at h
    rw [bind_eq_ok] at h
    obtain ⟨⟨r, c1⟩, h1, h⟩ := h
    cases he : r.msg with
    | some x =>
      simp only [he, bind_eq_ok, pure_eq_ok, Except.ok.injEq, Prod.mk.injEq] at h
      obtain ⟨c2, _, ⟨rs', c3⟩, h3, rfl, rfl⟩ := h
      simp only [messages, List.filterMap_cons, he, List.mem_cons] at hm
      rcases hm with rfl | hm
      · exact fits_encodeOne h1 _ he
      · exact fits_feed ds _ _ rs' h3 m hm
    | none =>
      simp only [he, bind_eq_ok, pure_eq_ok, Except.ok.injEq, Prod.mk.injEq] at h
      obtain ⟨c2, rfl, ⟨rs', c3⟩, h3, rfl, rfl⟩ := h
      simp only [messages, List.filterMap_cons, he] at hm
      exact fits_feed ds _ _ rs' h3 m hm

theorem _root_.Ygo.Spec.OfServer.fits {m : Msg} (h : OfServer m) : MsgFits m := by
  obtain ⟨ds, rs, c, hf, hm⟩ := h
  exact fits_feed ds _ _ rs hf m hm

theorem _root_.Ygo.Spec.OfServer.near {m : Msg} (h : OfServer m) : MsgNear m := by
  obtain ⟨ds, rs, c, hf, hm⟩ := h
  exact (near_feed ds _ _ rs near_init hf).2 m hm

/-! ## What clients make of it -/

structure BoardFits (b : PlainBoard) : Prop where
  score : ScoreFits (boardScore b)
  blocked : BlockedFits b.blockedZones.val

theorem fits_event {b b' : PlainBoard} {e : Event} (h : b.parseEvent e = .ok b') (hb : BoardFits b) (he : EventFits e) : BoardFits b' := by
  have onFrame : ∀ {b b' : PlainBoard} {ops : List FrameOp}, b.onFrame ops = .ok b' → BoardFits b → BoardFits b' := by
    intro b b' ops h hb
    simp only [DuelBoard.onFrame, bind_eq_ok, pure_eq_ok, Except.ok.injEq] at h
    obtain ⟨f, hf, rfl⟩ := h
    exact ⟨⟨hb.score.turn, hb.score.player, hb.score.phase, hb.score.lp, hb.score.chain⟩, hb.blocked⟩
  cases e with
  | unset | finish _ | metaInfo _ | result _ => simp only [DuelBoard.parseEvent, Except.ok.injEq] at h; subst h; exact hb
  | nextPhase p =>
    simp only [DuelBoard.parseEvent, Except.ok.injEq] at h
    subst h
    exact ⟨⟨hb.score.turn, hb.score.player, he, hb.score.lp, hb.score.chain⟩, hb.blocked⟩
  | zoneBlock z =>
    simp only [DuelBoard.parseEvent, Except.ok.injEq] at h
    subst h
    exact ⟨⟨hb.score.turn, hb.score.player, hb.score.phase, hb.score.lp, hb.score.chain⟩, he⟩
  | card r e => cases e <;> exact onFrame h hb
  | pile r e => cases e <;> exact onFrame h hb
  | nextTurn con =>
    simp only [DuelBoard.parseEvent, bind_eq_ok, pure_eq_ok, Except.ok.injEq] at h
    obtain ⟨t, _, rfl⟩ := h
    exact ⟨⟨Nat.mod_lt _ (by decide), he, hb.score.phase, hb.score.lp, hb.score.chain⟩, hb.blocked⟩
  | chainStack e =>
    cases e with
    | unset => simp only [DuelBoard.parseEvent, Except.ok.injEq] at h; subst h; exact hb
    | push c =>
      simp only [DuelBoard.parseEvent, bind_eq_ok, pure_eq_ok, Except.ok.injEq, Cell.push] at h
      obtain ⟨t, rfl, rfl⟩ := h
      obtain ⟨ls, hl⟩ := hb.score.chain
      obtain ⟨l, rfl⟩ := he
      refine ⟨⟨hb.score.turn, hb.score.player, hb.score.phase, hb.score.lp, ls ++ [l], ?_⟩, hb.blocked⟩
      have hl : b.chainStack.val = _ := hl
      simp only [boardScore, hl, List.map_append, List.map_cons, List.map_nil]
    | pop _ =>
      simp only [DuelBoard.parseEvent, bind_eq_ok, pure_eq_ok, Except.ok.injEq, Cell.pop] at h
      obtain ⟨t, ⟨_, _, rfl⟩, rfl⟩ := h
      obtain ⟨ls, hl⟩ := hb.score.chain
      refine ⟨⟨hb.score.turn, hb.score.player, hb.score.phase, hb.score.lp, ls.dropLast, ?_⟩, hb.blocked⟩
      have hl : b.chainStack.val = _ := hl
      simp only [boardScore, hl, List.map_dropLast]
  | lp con c =>
    simp only [DuelBoard.parseEvent, bind_eq_ok, pure_eq_ok, Except.ok.injEq] at h
    obtain ⟨i, _, l, hl, rfl⟩ := h
    refine ⟨⟨hb.score.turn, hb.score.player, hb.score.phase, fun j => ?_, hb.score.chain⟩, hb.blocked⟩
    have hj : (b.lp j).val < 2 ^ 32 := hb.score.lp j
    have hi : (b.lp i).val < 2 ^ 32 := hb.score.lp i
    simp only [Cell.get, Except.ok.injEq] at hl
    subst hl
    simp only [boardScore, DuelBoard.setLp]
    split
    · show DuelBoard.lpAfter _ c < 2 ^ 32
      cases c <;> simp only [DuelBoard.lpAfter, EventFits, ChangeFits] at he ⊢ <;> first | omega | (split <;> omega)
    · exact hj
  | board e =>
    cases e with
    | unset => simp only [DuelBoard.parseEvent, Except.ok.injEq] at h; subst h; exact hb
    | exchange e => exact onFrame h hb
    | state s =>
      simp only [DuelBoard.parseEvent, DuelBoard.parseState, bind_eq_ok] at h
      obtain ⟨l0, h0, l1, h1, h⟩ := h
      have m : ∀ {l : List Nat} {i : Nat} {x : Nat}, orUb l[i]? = .ok x → x ∈ l := by
        intro l i x h
        cases hx : l[i]? with
        | none => rw [hx] at h; simp [orUb, ub] at h
        | some y =>
          rw [hx] at h
          simp only [orUb, Except.ok.injEq] at h
          exact h ▸ List.mem_of_getElem? hx
      have k0 := he.2.1 _ (m h0)
      have k1 := he.2.1 _ (m h1)
      have hlp := hb.score.lp
      have ht := hb.score.turn
      refine onFrame h ⟨⟨?_, ?_, ?_, fun j => ?_, he.2.2⟩, ?_⟩
      · simp only [boardScore, DuelBoard.setLp]
        split
        · have := he.1
          show s.turnCounter.toNat < 2 ^ 32
          omega
        · exact ht
      · simp only [boardScore, DuelBoard.setLp]
        split <;> exact hb.score.player
      · simp only [boardScore, DuelBoard.setLp]
        split <;> exact hb.score.phase
      · simp only [boardScore, DuelBoard.setLp]
        split
        · exact k1
        · split
          · exact k0
          · split <;> exact hlp j
      · simp only [DuelBoard.setLp]
        split <;> exact hb.blocked

theorem boardFits_init : BoardFits PlainBoard.init :=
  ⟨⟨by simp [boardScore, PlainBoard.init], ⟨0, rfl⟩, ⟨0, rfl⟩, fun i => by simp [boardScore, PlainBoard.init], ⟨[], rfl⟩⟩, 0xFFFFFFFF, by decide⟩

end Ygo
