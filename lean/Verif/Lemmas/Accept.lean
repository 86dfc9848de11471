import Verif.Lemmas.Shape
import Verif.Lemmas.Context

/-!
# Every message number: what is accepted is a message
-/

set_option linter.unusedSimpArgs false

namespace Ygo
open P Spec

namespace Tells

theorem map {α β : Type} {b : UInt8} {p : P α} {f : α → β} (h : Tells b p) : Tells b (p >>= fun a => Pure.pure (f a)) := by
  intro s a r e
  obtain ⟨x, t, h1, h2⟩ := bind_eq_ok_iff.mp e
  simp only [pure_run, Except.ok.injEq, Prod.mk.injEq] at h2
  obtain ⟨_, rfl⟩ := h2
  exact h _ _ _ h1

open Shape

theorem shuffleSetCard {b : UInt8} (hb : b.toNat = 36) : Tells b (do
    P.skip 1
    let count ← P.read 1
    let previous ← P.many Ygo.readLocInfo count
    let current ← P.many Ygo.readLocInfo count
    return (Outcome.event (.card 0 (.shuffle previous current)))) := by
  intro s a r h
  obtain ⟨_, t, h1, h2⟩ := bind_eq_ok_iff.mp h
  clear h
  obtain ⟨l, _, rfl⟩ := s8 _ _ _ h1
  clear h1
  obtain ⟨n, t, h3, h4⟩ := bind_eq_ok_iff.mp h2
  clear h2
  obtain ⟨hn, rfl⟩ := read_inv h3
  clear h3
  obtain ⟨⟨xs, ys⟩, ⟨⟨hx, _⟩, hy, _⟩, rfl⟩ :=
    Shape.bind (Shape.many Shape.readLocInfo n) (fun _ => Shape.map (Shape.many Shape.readLocInfo n)) _ _ _ h4
  have e : b = 36 := UInt8.toNat_inj.mp hb
  refine ⟨.shuffleSetCard l (xs.zip ys), ?_, ?_⟩
  · show (xs.zip ys).length < 2 ^ 8
    rw [List.length_zip, hx, hy]
    omega
  · simp only at hx hy
    have h1 : xs.flatMap LocInfo.bytes = (xs.zip ys).flatMap (fun c => c.1.bytes) := by
      rw [show xs.flatMap LocInfo.bytes = ((xs.zip ys).map Prod.fst).flatMap LocInfo.bytes by rw [List.map_fst_zip (by omega)], List.flatMap_map]
    have h2 : ys.flatMap LocInfo.bytes = (xs.zip ys).flatMap (fun c => c.2.bytes) := by
      rw [show ys.flatMap LocInfo.bytes = ((xs.zip ys).map Prod.snd).flatMap LocInfo.bytes by rw [List.map_snd_zip (by omega)], List.flatMap_map]
    simp [CoreMsg.bytes, e, h1, h2, hx, hy]

theorem selectCard {β : Type} {b : UInt8} (hb : b.toNat = 15) (f : Int → SelectCard → β) : Tells b (do
    let replier ← Ygo.readCon
    let x ← selectCardRequest
    return f replier x) := by
  intro s a r h0
  have e : b = 15 := UInt8.toNat_inj.mp hb
  obtain ⟨_, t1, h1, h2⟩ := bind_eq_ok_iff.mp h0
  clear h0
  obtain ⟨p, _, rfl⟩ := Shape.readCon _ _ _ h1
  clear h1
  obtain ⟨_, t2, h3, h4⟩ := bind_eq_ok_iff.mp h2
  clear h2
  simp only [pure_run, Except.ok.injEq, Prod.mk.injEq] at h4
  obtain ⟨_, rfl⟩ := h4
  unfold selectCardRequest at h3
  obtain ⟨_, t3, h4, h5⟩ := bind_eq_ok_iff.mp h3
  clear h3
  obtain ⟨c, _, rfl⟩ := Shape.readBool _ _ _ h4
  clear h4
  obtain ⟨_, t4, h6, h7⟩ := bind_eq_ok_iff.mp h5
  clear h5
  obtain ⟨mn, _, rfl⟩ := r32 _ _ _ h6
  clear h6
  obtain ⟨_, t5, h8, h9⟩ := bind_eq_ok_iff.mp h7
  clear h7
  obtain ⟨mx, _, rfl⟩ := r32 _ _ _ h8
  clear h8
  obtain ⟨n, t6, h10, h11⟩ := bind_eq_ok_iff.mp h9
  clear h9
  obtain ⟨hn, rfl⟩ := read_inv h10
  clear h10
  obtain ⟨_, t7, h12, h13⟩ := bind_eq_ok_iff.mp h11
  clear h11
  obtain ⟨h14, rfl⟩ := lift_eq_ok.mp h12
  clear h12
  have h0 : n > 0 := massert_eq_ok.mp h14
  obtain ⟨lim, t', h1, h'⟩ := bind_eq_ok_iff.mp h13
  clear h13
  have ht : t' = t6 := by
    unfold P.peek at h1
    split at h1
    · simp only [Except.ok.injEq, Prod.mk.injEq] at h1; exact h1.2.symm
    · cases h1
  subst t'
  have hx : ∃ xs : List (UInt32 × LocInfo), xs.length = n ∧ t6 = xs.flatMap (CoreMsg.withCode LocInfo.bytes) ++ t2 := by
    have two : Shape' (do let c ← P.read 4; P.skip 10; return c : P Nat) (CoreMsg.withCode LocInfo.bytes) :=
      weaken (Shape.bind r32 fun _ => Shape.map sLoc) fun x _ => ⟨x, trivial, rfl⟩
    split at h'
    · obtain ⟨xs, ⟨hl, _⟩, hx⟩ := Shape.map (Shape.many Shape.readSelectable n) _ _ _ h'
      exact ⟨xs, hl, hx⟩
    · obtain ⟨xs, ⟨hl, _⟩, hx⟩ := Shape.map (Shape.many two n) _ _ _ h'
      exact ⟨xs, hl, hx⟩
  obtain ⟨xs, hl, rfl⟩ := hx
  refine ⟨.selectCard p c mn mx xs, ⟨by omega, by omega⟩, ?_⟩
  simp [CoreMsg.bytes, e, list32, hl]

theorem swapGraveDeck {C : Type} [EncodeContext C] (c : C) {b : UInt8} (hb : b.toNat = 35) : Tells b (swapGraveDeckEvent c) := by
  intro s a r h
  have e : b = 35 := UInt8.toNat_inj.mp hb
  unfold swapGraveDeckEvent at h
  obtain ⟨_, t, h1, h'⟩ := bind_eq_ok_iff.mp h
  clear h
  obtain ⟨p, _, rfl⟩ := Shape.readCon _ _ _ h1
  obtain ⟨_, t, h1, h⟩ := bind_eq_ok_iff.mp h'
  clear h'
  obtain ⟨pos, _, rfl⟩ := r32 _ _ _ h1
  obtain ⟨n, t, h1, h'⟩ := bind_eq_ok_iff.mp h
  clear h
  obtain ⟨hn, rfl⟩ := read_inv h1
  obtain ⟨gy, t, h1, h⟩ := bind_eq_ok_iff.mp h'
  clear h'
  obtain ⟨_, rfl⟩ := lift_eq_ok.mp h1
  obtain ⟨deck, t, h1, h'⟩ := bind_eq_ok_iff.mp h
  clear h
  obtain ⟨_, rfl⟩ := lift_eq_ok.mp h1
  obtain ⟨ops, t, h1, h⟩ := bind_eq_ok_iff.mp h'
  clear h'
  obtain rfl := graveLoop_rest _ _ _ _ _ _ _ _ _ _ h1
  dsimp only at h
  split at h
  · obtain ⟨_, _, h7, _⟩ := bind_eq_ok_iff.mp h
    cases h7
  obtain ⟨_, t', h9, h10⟩ := bind_eq_ok_iff.mp h
  simp only [pure_run, Except.ok.injEq, Prod.mk.injEq] at h10
  obtain ⟨_, rfl⟩ := h10
  obtain ⟨mask, hl, rfl⟩ := skip_bytes h9
  refine ⟨.swapGraveDeck p pos mask, by show mask.length < 2 ^ 32; omega, ?_⟩
  have : mask.flatMap b8 = mask := flatMap_b8 mask
  simp [CoreMsg.bytes, e, list32, hl, this]

end Tells

/-- Message numbers behind which something that is no message may be accepted. -/
def lenient : List Kind := [.updateData, .updateCard, .tagSwap, .reloadField, .aiName]

section
variable {C : Type} [EncodeContext C]
open Shape Tells

theorem encodeCase_tells (c : C) (b : UInt8) (k : Kind) (h : Kind.ofByte b.toNat = some k) (hk : k ∉ lenient)
    (hu : k ∉ [Kind.selectCounter, .selectSum, .announceCard, .announceCardFilter]) : Tells b (encodeCase c k) := by
  have hm := Kind.mem_table h
  have pairs : Shape' (do P.skip 4; P.skip 4 : P Unit) CoreMsg.pair32 := weaken (Shape.bind s32 fun _ => s32) fun x _ => ⟨x, trivial, rfl⟩
  cases k <;> simp only [Kind.table, List.mem_cons, Prod.mk.injEq, reduceCtorEq, and_false, false_or, or_false, and_true, List.not_mem_nil] at hm
  case retry => exact (Shape.map (Shape.pure ())).tells hm fun _ _ => ⟨.retry, trivial, rfl⟩
  case hint => exact (Shape.map (Shape.bind s8 fun _ => Shape.bind s8 fun _ => s64)).tells hm fun ⟨a, b, c⟩ _ => ⟨.hint a b c, trivial, by simp [CoreMsg.bytes]⟩
  case start =>
    exact (Shape.map (Shape.bind s8 fun _ => Shape.bind r32 fun _ => Shape.bind r32 fun _ => Shape.bind r16 fun _ => Shape.bind r16 fun _ => Shape.bind r16 fun _ => Shape.map r16)).tells hm
      fun ⟨a, b, c, d, e, f, g⟩ _ => ⟨.start a b c d e f g, trivial, by simp [CoreMsg.bytes]⟩
  case win =>
    exact (Shape.map (Shape.bind r8 fun _ => Shape.bind r8 fun _ => Shape.map (Shape.lift _))).tells hm fun ⟨a, b, _⟩ _ => ⟨.win a b, trivial, by simp [CoreMsg.bytes]⟩
  case updateData => exact absurd (by decide) hk
  case updateCard => exact absurd (by decide) hk
  case selectBattlecmd =>
    have atk : Shape' (do P.skip 4; let place ← Ygo.readLocSSeq; return (⟨place, ← Ygo.readBool⟩ : AtkCard) : P AtkCard)
        (fun a : UInt32 × CardLocS × UInt8 => b32 a.1 ++ a.2.1.bytes ++ b8 a.2.2) :=
      weaken (Shape.bind s32 fun _ => Shape.bind Shape.readLocSSeq fun _ => Shape.map Shape.readBool) fun x _ => ⟨x, trivial, by simp⟩
    exact (Shape.bind Shape.readCon fun _ => Shape.map (Shape.map (Shape.bind (Shape.listOf (Shape.readActCard Shape.readLocSeq)) fun _ =>
      Shape.bind (Shape.listOf atk) fun _ => Shape.bind Shape.readBool fun _ => Shape.map Shape.readBool))).tells hm
        fun ⟨p, x, y, u, v⟩ hf => ⟨.selectBattlecmd p x y u v, ⟨hf.2.1, hf.2.2.1⟩, by simp [CoreMsg.bytes]⟩
  case selectIdlecmd =>
    have cl := Shape.listOf (Shape.coded Shape.readLocSeq)
    exact (Shape.bind Shape.readCon fun _ => Shape.map (Shape.map (Shape.bind cl fun _ => Shape.bind cl fun _ => Shape.bind (Shape.listOf (Shape.coded Shape.readLocSSeq)) fun _ =>
      Shape.bind cl fun _ => Shape.bind cl fun _ => Shape.bind (Shape.listOf (Shape.readActCard Shape.readLocSeq)) fun _ => Shape.bind Shape.readBool fun _ =>
      Shape.bind Shape.readBool fun _ => Shape.map Shape.readBool))).tells hm
        fun ⟨p, s, sp, r, ms, ss, acts, x, y, z⟩ ⟨_, h1, h2, h3, h4, h5, h6, _⟩ =>
          ⟨.selectIdlecmd p s sp r ms ss acts x y z, ⟨h1, h2, h3, h4, h5, h6⟩, by simp [CoreMsg.bytes]⟩
  case selectEffectyn =>
    exact (Shape.bind Shape.readCon fun _ => Shape.map (Shape.bind r32 fun _ => Shape.bind Shape.readLocInfo fun _ => Shape.map Shape.readEffect)).tells hm
      fun ⟨p, x, l, e⟩ _ => ⟨.selectEffectyn p x l e, trivial, by simp [CoreMsg.bytes]⟩
  case selectYesno =>
    exact (Shape.bind Shape.readCon fun _ => Shape.map (Shape.map Shape.readEffect)).tells hm fun ⟨p, e⟩ _ => ⟨.selectYesno p e, trivial, by simp [CoreMsg.bytes]⟩
  case selectOption =>
    exact (Shape.bind Shape.readCon fun _ => Shape.map (Shape.map (Shape.slistOf Shape.readEffect))).tells hm
      fun ⟨p, e⟩ hf => ⟨.selectOption p e, hf.2, by simp [CoreMsg.bytes]⟩
  case selectCard =>
    intro s a r e
    refine Tells.selectCard hm (fun replier x => (Outcome.request replier (.selectCard x), c)) s a r ?_
    rw [← e]
    obtain ⟨i, t, h1, h2⟩ := bind_eq_ok_iff.mp e
    obtain ⟨x, t', h3, h4⟩ := bind_eq_ok_iff.mp h2
    obtain ⟨y, t'', h5, h6⟩ := bind_eq_ok_iff.mp h3
    rw [e, bind_run_ok h1, bind_run_ok h5]
    simp only [pure_run, Except.ok.injEq, Prod.mk.injEq] at h4 h6 ⊢
    obtain ⟨rfl, rfl⟩ := h6
    exact h4
  case selectChain =>
    exact (Shape.bind Shape.readCon fun _ => Shape.map (Shape.bind r8 fun _ => Shape.bind Shape.readBool fun _ => Shape.bind s64 fun _ =>
      Shape.map (Shape.listOf (Shape.readActCard Shape.readLocInfo)))).tells hm
        fun ⟨p, x, y, z, l⟩ ⟨_, _, _, _, hf⟩ => ⟨.selectChain p x y z l, hf, by simp [CoreMsg.bytes]⟩
  case selectPlace =>
    exact (Shape.bind Shape.readCon fun _ => Shape.map (Shape.bind r8 fun _ => Shape.map r32)).tells hm
      fun ⟨p, x, y⟩ _ => ⟨.selectPlace p x y, trivial, by simp [CoreMsg.bytes]⟩
  case selectPosition =>
    exact (Shape.bind Shape.readCon fun _ => Shape.map (Shape.bind r32 fun _ => Shape.map r8)).tells hm
      fun ⟨p, x, y⟩ _ => ⟨.selectPosition p x y, trivial, by simp [CoreMsg.bytes]⟩
  case selectTribute =>
    have card : Shape' (do let code ← P.read 4; let place ← Ygo.readLocSeq; return (⟨place, code, ← P.read 1⟩ : TributeCard) : P TributeCard)
        (fun a : UInt32 × CardLoc × UInt8 => b32 a.1 ++ a.2.1.bytes ++ b8 a.2.2) :=
      weaken (Shape.bind r32 fun _ => Shape.bind Shape.readLocSeq fun _ => Shape.map r8) fun x _ => ⟨x, trivial, by simp⟩
    exact (Shape.bind Shape.readCon fun _ => Shape.map (Shape.bind Shape.readBool fun _ => Shape.bind r32 fun _ => Shape.bind r32 fun _ => Shape.map (Shape.listOf card))).tells hm
        fun ⟨p, x, y, z, l⟩ ⟨_, _, _, _, hf⟩ => ⟨.selectTribute p x y z l, hf, by simp [CoreMsg.bytes]⟩
  case sortChain =>
    exact (Shape.bind Shape.readCon fun _ => Shape.map (Shape.map (Shape.listOf (Shape.coded readLocL)))).tells hm
      fun ⟨p, e⟩ hf => ⟨.sortChain p e, hf.2, by simp [CoreMsg.bytes]⟩
  case selectCounter => exact absurd (by decide) hu
  case selectSum => exact absurd (by decide) hu
  case selectDisfield =>
    exact (Shape.bind Shape.readCon fun _ => Shape.map (Shape.bind r8 fun _ => Shape.map r32)).tells hm
      fun ⟨p, x, y⟩ _ => ⟨.selectDisfield p x y, trivial, by simp [CoreMsg.bytes]⟩
  case sortCard =>
    exact (Shape.bind Shape.readCon fun _ => Shape.map (Shape.map (Shape.listOf (Shape.coded readLocL)))).tells hm
      fun ⟨p, e⟩ hf => ⟨.sortCard p e, hf.2, by simp [CoreMsg.bytes]⟩
  case selectUnselectCard =>
    exact (Shape.bind Shape.readCon fun _ => Shape.map (Shape.bind Shape.readBool fun _ => Shape.bind Shape.readBool fun _ => Shape.bind r32 fun _ => Shape.bind r32 fun _ =>
      Shape.bind (Shape.listOf Shape.readSelectable) fun _ => Shape.map (Shape.listOf Shape.readSelectable))).tells hm
        fun ⟨p, f, a, mn, mx, x, y⟩ ⟨_, _, _, _, _, h1, h2⟩ => ⟨.selectUnselectCard p f a mn mx x y, ⟨h1, h2⟩, by simp [CoreMsg.bytes]⟩
  case confirmDecktop =>
    exact (Shape.map (Shape.bind s8 fun _ => Shape.map (Shape.listOf (Shape.coded Shape.readLocSeq)))).tells hm
      fun ⟨p, e⟩ hf => ⟨.confirmDecktop p e, hf.2, by simp [CoreMsg.bytes]⟩
  case confirmCards =>
    exact (Shape.map (Shape.bind s8 fun _ => Shape.map (Shape.listOf (Shape.coded Shape.readLocSeq)))).tells hm
      fun ⟨p, e⟩ hf => ⟨.confirmCards p e, hf.2, by simp [CoreMsg.bytes]⟩
  case shuffleDeck => exact (Shape.map (Shape.map Shape.readCon)).tells hm fun p _ => ⟨.shuffleDeck p, trivial, by simp [CoreMsg.bytes]⟩
  case shuffleHand =>
    exact (Shape.map (Shape.bind Shape.readCon fun _ => Shape.counted4 fun n => Shape.map (Shape.skipMany s32 n))).tells hm
      fun ⟨p, l⟩ hf => ⟨.shuffleHand p l, hf.2.1, by simp [CoreMsg.bytes]⟩
  case shuffleExtra =>
    exact (Shape.map (Shape.bind Shape.readCon fun _ => Shape.counted4 fun n => Shape.map (Shape.skipMany s32 n))).tells hm
      fun ⟨p, l⟩ hf => ⟨.shuffleExtra p l, hf.2.1, by simp [CoreMsg.bytes]⟩
  case swapGraveDeck => exact (Tells.swapGraveDeck c hm).map
  case shuffleSetCard => exact (Tells.shuffleSetCard hm).map
  case reverseDeck =>
    exact (Shape.map (Shape.bind (Shape.lift _) fun _ => Shape.map (Shape.lift _))).tells hm fun _ _ => ⟨.reverseDeck, trivial, by simp [CoreMsg.bytes]⟩
  case deckTop =>
    exact (Shape.map (Shape.bind Shape.readCon fun _ => Shape.bind (Shape.lift _) fun _ => Shape.bind r32 fun _ => Shape.bind s32 fun _ => Shape.map s32)).tells hm
      fun ⟨p, _, x, y, z⟩ _ => ⟨.deckTop p x y z, trivial, by simp [CoreMsg.bytes]⟩
  case newTurn =>
    exact (Shape.map (Shape.map (Shape.readCon))).tells hm
      fun p _ => ⟨.newTurn p, trivial, by simp [CoreMsg.bytes]⟩
  case newPhase =>
    exact (Shape.map (Shape.map (r16))).tells hm
      fun p _ => ⟨.newPhase p, trivial, by simp [CoreMsg.bytes]⟩
  case confirmExtratop =>
    exact (Shape.map (Shape.bind s8 fun _ => Shape.map (Shape.listOf (Shape.coded Shape.readLocSeq)))).tells hm
      fun ⟨p, e⟩ hf => ⟨.confirmExtratop p e, hf.2, by simp [CoreMsg.bytes]⟩
  case move =>
    exact (Shape.bind s32 fun _ => Shape.bind Shape.readLocInfo fun _ => Shape.bind Shape.readLocInfo fun _ => Shape.andStay r32 fun _ => Shape.lift _).tells hm
      fun ⟨x, a, b, r⟩ _ => ⟨.move x a b r, trivial, by simp [CoreMsg.bytes]⟩
  case posChange =>
    exact (Shape.map (Shape.bind s32 fun _ => Shape.bind Shape.readLocSSeq fun _ => Shape.bind s8 fun _ => Shape.map (s8))).tells hm
      fun ⟨x, a, b, r⟩ _ => ⟨.posChange x a b r, trivial, by simp [CoreMsg.bytes]⟩
  case set =>
    exact (Shape.map (Shape.bind s32 fun _ => Shape.bind Shape.readLocSeq fun _ => Shape.map (s32))).tells hm
      fun ⟨x, a, b⟩ _ => ⟨.set x a b, trivial, by simp [CoreMsg.bytes]⟩
  case swap =>
    exact (Shape.map (Shape.bind s32 fun _ => Shape.bind Shape.readLocInfo fun _ => Shape.bind s32 fun _ => Shape.map (Shape.readLocInfo))).tells hm
      fun ⟨x, a, y, b⟩ _ => ⟨.swap x a y b, trivial, by simp [CoreMsg.bytes]⟩
  case fieldDisabled =>
    exact (Shape.map (Shape.map (r32))).tells hm
      fun x _ => ⟨.fieldDisabled x, trivial, by simp [CoreMsg.bytes]⟩
  case summoning =>
    exact (Shape.map (Shape.bind s32 fun _ => Shape.map (Shape.readLocInfo))).tells hm
      fun ⟨x, a⟩ _ => ⟨.summoning x a, trivial, by simp [CoreMsg.bytes]⟩
  case spsummoning =>
    exact (Shape.map (Shape.bind s32 fun _ => Shape.map (Shape.readLocInfo))).tells hm
      fun ⟨x, a⟩ _ => ⟨.spsummoning x a, trivial, by simp [CoreMsg.bytes]⟩
  case flipsummoning =>
    exact (Shape.map (Shape.bind s32 fun _ => Shape.map (Shape.readLocInfo))).tells hm
      fun ⟨x, a⟩ _ => ⟨.flipsummoning x a, trivial, by simp [CoreMsg.bytes]⟩
  case summoned => exact (Shape.map (Shape.pure ())).tells hm fun _ _ => ⟨.summoned, trivial, rfl⟩
  case spsummoned => exact (Shape.map (Shape.pure ())).tells hm fun _ _ => ⟨.spsummoned, trivial, rfl⟩
  case flipsummoned => exact (Shape.map (Shape.pure ())).tells hm fun _ _ => ⟨.flipsummoned, trivial, rfl⟩
  case chainEnd => exact (Shape.map (Shape.pure ())).tells hm fun _ _ => ⟨.chainEnd, trivial, rfl⟩
  case attackDisabled => exact (Shape.map (Shape.pure ())).tells hm fun _ _ => ⟨.attackDisabled, trivial, rfl⟩
  case damageStepStart => exact (Shape.map (Shape.pure ())).tells hm fun _ _ => ⟨.damageStepStart, trivial, rfl⟩
  case damageStepEnd => exact (Shape.map (Shape.pure ())).tells hm fun _ _ => ⟨.damageStepEnd, trivial, rfl⟩
  case chaining =>
    exact (Shape.map (Shape.bind Shape.readChain fun _ => Shape.map (s32))).tells hm
      fun ⟨x, a⟩ _ => ⟨.chaining x a, trivial, by simp [CoreMsg.bytes]⟩
  case chained =>
    exact (Shape.map (Shape.map (s8))).tells hm
      fun x _ => ⟨.chained x, trivial, by simp [CoreMsg.bytes]⟩
  case chainSolving =>
    exact (Shape.map (Shape.map (s8))).tells hm
      fun x _ => ⟨.chainSolving x, trivial, by simp [CoreMsg.bytes]⟩
  case chainSolved =>
    exact (Shape.map (Shape.map (s8))).tells hm
      fun x _ => ⟨.chainSolved x, trivial, by simp [CoreMsg.bytes]⟩
  case chainNegated =>
    exact (Shape.map (Shape.map (s8))).tells hm
      fun x _ => ⟨.chainNegated x, trivial, by simp [CoreMsg.bytes]⟩
  case chainDisabled =>
    exact (Shape.map (Shape.map (s8))).tells hm
      fun x _ => ⟨.chainDisabled x, trivial, by simp [CoreMsg.bytes]⟩
  case cardSelected =>
    exact (Shape.map (Shape.map (Shape.listOf Shape.readLocInfo))).tells hm
      fun x hf => ⟨.cardSelected x, hf, by simp [CoreMsg.bytes]⟩
  case becomeTarget =>
    exact (Shape.map (Shape.map (Shape.listOf Shape.readLocInfo))).tells hm
      fun x hf => ⟨.becomeTarget x, hf, by simp [CoreMsg.bytes]⟩
  case randomSelected =>
    exact (Shape.map (Shape.bind s8 fun _ => Shape.map (Shape.listOf Shape.readLocInfo))).tells hm
      fun ⟨p, x⟩ hf => ⟨.randomSelected p x, hf.2, by simp [CoreMsg.bytes]⟩
  case draw =>
    exact (Shape.map (Shape.bind Shape.readCon fun _ => Shape.counted4 fun n => Shape.andStay (Shape.skipMany pairs n) fun _ => Shape.andStay (Shape.lift _) fun _ => Shape.map (Shape.lift _))).tells hm
      fun ⟨p, x⟩ hf => ⟨.draw p x, hf.2.1, by simp [CoreMsg.bytes]⟩
  case damage =>
    exact (Shape.map (Shape.bind Shape.readCon fun _ => Shape.map (r32))).tells hm
      fun ⟨p, x⟩ _ => ⟨.damage p x, trivial, by simp [CoreMsg.bytes]⟩
  case recover =>
    exact (Shape.map (Shape.bind Shape.readCon fun _ => Shape.map (r32))).tells hm
      fun ⟨p, x⟩ _ => ⟨.recover p x, trivial, by simp [CoreMsg.bytes]⟩
  case lpupdate =>
    exact (Shape.map (Shape.bind Shape.readCon fun _ => Shape.map (r32))).tells hm
      fun ⟨p, x⟩ _ => ⟨.lpupdate p x, trivial, by simp [CoreMsg.bytes]⟩
  case payLpcost =>
    exact (Shape.map (Shape.bind Shape.readCon fun _ => Shape.map (r32))).tells hm
      fun ⟨p, x⟩ _ => ⟨.payLpcost p x, trivial, by simp [CoreMsg.bytes]⟩
  case equip =>
    exact (Shape.map (Shape.bind sLoc fun _ => sLoc)).tells hm
      fun ⟨a, b⟩ _ => ⟨.equip a b, trivial, by simp [CoreMsg.bytes]⟩
  case cardTarget =>
    exact (Shape.map (Shape.bind Shape.readLocInfo fun _ => Shape.map (Shape.readLocInfo))).tells hm
      fun ⟨a, b⟩ _ => ⟨.cardTarget a b, trivial, by simp [CoreMsg.bytes]⟩
  case cancelTarget =>
    exact (Shape.map (Shape.bind Shape.readLocInfo fun _ => Shape.map (Shape.readLocInfo))).tells hm
      fun ⟨a, b⟩ _ => ⟨.cancelTarget a b, trivial, by simp [CoreMsg.bytes]⟩
  case attack =>
    exact (Shape.map (Shape.bind Shape.readLocInfo fun _ => Shape.map (Shape.readLocInfo))).tells hm
      fun ⟨a, b⟩ _ => ⟨.attack a b, trivial, by simp [CoreMsg.bytes]⟩
  case addCounter =>
    exact (Shape.map (Shape.bind s16 fun _ => Shape.bind Shape.readLocSSeq fun _ => Shape.map (s16))).tells hm
      fun ⟨a, l, b⟩ _ => ⟨.addCounter a l b, trivial, by simp [CoreMsg.bytes]⟩
  case removeCounter =>
    exact (Shape.map (Shape.bind s16 fun _ => Shape.bind Shape.readLocSSeq fun _ => Shape.map (s16))).tells hm
      fun ⟨a, l, b⟩ _ => ⟨.removeCounter a l b, trivial, by simp [CoreMsg.bytes]⟩
  case battle =>
    have nine : Shape (P.skip 9) _ _ := (skip_add s32 (skip_add s32 s8) : Shape (P.skip (4 + (4 + 1))) _ _)
    exact (Shape.map (Shape.bind sLoc fun _ => Shape.bind nine fun _ => Shape.bind sLoc fun _ => nine)).tells hm
      fun ⟨a, ⟨x, y, d⟩, b, u, v, e⟩ _ => ⟨.battle a x y d b u v e, trivial, by simp [CoreMsg.bytes]⟩
  case missedEffect =>
    exact (Shape.map (Shape.bind sLoc fun _ => s32)).tells hm
      fun ⟨a, b⟩ _ => ⟨.missedEffect a b, trivial, by simp [CoreMsg.bytes]⟩
  case tossCoin =>
    exact (Shape.map (Shape.bind Shape.readCon fun _ => Shape.map (Shape.slistOf Shape.readBool))).tells hm
      fun ⟨a, b⟩ hf => ⟨.tossCoin a b, hf.2, by simp [CoreMsg.bytes]⟩
  case tossDice =>
    exact (Shape.map (Shape.bind Shape.readCon fun _ => Shape.map (Shape.slistOf r8))).tells hm
      fun ⟨a, b⟩ hf => ⟨.tossDice a b, hf.2, by simp [CoreMsg.bytes]⟩
  case rockPaperScissors =>
    exact (Shape.bind Shape.readCon fun _ => Shape.map (Shape.pure _)).tells hm
      fun ⟨p, _⟩ _ => ⟨.rockPaperScissors p, trivial, by simp [CoreMsg.bytes]⟩
  case handRes =>
    exact (Shape.map (Shape.map (r8))).tells hm
      fun p _ => ⟨.handRes p, trivial, by simp [CoreMsg.bytes]⟩
  case announceRace =>
    exact (Shape.bind Shape.readCon fun _ => Shape.map (Shape.bind r8 fun _ => Shape.map (r64))).tells hm
      fun ⟨p, a, b⟩ _ => ⟨.announceRace p a b, trivial, by simp [CoreMsg.bytes]⟩
  case announceAttrib =>
    exact (Shape.bind Shape.readCon fun _ => Shape.map (Shape.bind r8 fun _ => Shape.map (r32))).tells hm
      fun ⟨p, a, b⟩ _ => ⟨.announceAttrib p a b, trivial, by simp [CoreMsg.bytes]⟩
  case announceNumber =>
    exact (Shape.bind Shape.readCon fun _ => Shape.map (Shape.map (Shape.slistOf r64))).tells hm
      fun ⟨p, a⟩ hf => ⟨.announceNumber p a, hf.2, by simp [CoreMsg.bytes]⟩
  case announceCard => exact absurd (by decide) hu
  case announceCardFilter => exact absurd (by decide) hu
  case cardHint =>
    exact (Shape.map (Shape.bind sLoc fun _ => Shape.bind s8 fun _ => s64)).tells hm
      fun ⟨l, t, v⟩ _ => ⟨.cardHint l t v, trivial, by simp [CoreMsg.bytes]⟩
  case tagSwap => exact absurd (by decide) hk
  case reloadField => exact absurd (by decide) hk
  case aiName => exact absurd (by decide) hk
  case playerHint =>
    exact (Shape.map (Shape.bind Shape.readCon fun _ => Shape.bind r8 fun _ => Shape.map (Shape.readEffect))).tells hm
      fun ⟨p, a, b⟩ _ => ⟨.playerHint p a b, trivial, by simp [CoreMsg.bytes]⟩
  case matchKill =>
    exact (Shape.map (r32)).tells hm
      fun x _ => ⟨.matchKill x, trivial, by simp [CoreMsg.bytes]⟩

end
end Ygo
