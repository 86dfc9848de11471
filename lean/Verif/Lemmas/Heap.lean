import Verif.Lemmas.FrameObjects
import Verif.Spec.Heap

/-!
# Frames at addresses against frames with names
-/

set_option linter.unusedSimpArgs false

namespace Ygo
open Ygo.Spec Ygo.Rename

theorem _root_.Ygo.Spec.SameOutcome.bind {α β γ δ : Type} {R : α → β → Prop} {S : γ → δ → Prop} {x : Res α} {y : Res β} {f : α → Res γ} {g : β → Res δ}
    (h : SameOutcome R x y) (hf : ∀ a b, x = .ok a → R a b → SameOutcome S (f a) (g b)) : SameOutcome S (x >>= f) (y >>= g) := by
  match x, y, h with
  | .ok a, .ok b, h => exact hf a b rfl h
  | .error e, .error _, h => exact h

theorem _root_.Ygo.Spec.SameOutcome.same {α β γ : Type} {S : β → γ → Prop} {f : α → Res β} {g : α → Res γ} (x : Res α)
    (hf : ∀ a, x = .ok a → SameOutcome S (f a) (g a)) : SameOutcome S (x >>= f) (x >>= g) := by
  cases x with
  | ok a => exact hf a rfl
  | error e => exact rfl

/-- An injection on a list is one on all numbers. -/
theorem exists_injection (owned : List CardId) (ρ : CardId → CardId) (n a : CardId) (hi : ∀ x ∈ owned, ∀ y ∈ owned, ρ x = ρ y → x = y)
    (hn : n ∉ owned) (ha : a ∉ owned.map ρ) :
    ∃ σ : CardId → CardId, (∀ x y, σ x = σ y → x = y) ∧ (∀ x ∈ owned, σ x = ρ x) ∧ σ n = a := by
  have hM : ∃ M, (∀ x ∈ owned, ρ x < M) ∧ a < M := by
    clear hi hn ha
    induction owned with
    | nil => exact ⟨a + 1, by simp, Nat.lt_succ_self a⟩
    | cons x xs ih =>
      obtain ⟨M, h1, h2⟩ := ih
      refine ⟨M + ρ x + 1, ?_, Nat.lt_of_lt_of_le h2 (by omega)⟩
      intro y hy
      rcases List.mem_cons.mp hy with rfl | hy
      · exact Nat.lt_succ_of_le (Nat.le_add_left _ _)
      · exact Nat.lt_of_lt_of_le (h1 y hy) (by omega)
  obtain ⟨M, hM, haM⟩ := hM
  have ha' : ∀ x ∈ owned, ρ x ≠ a := fun x hx e => ha (List.mem_map.mpr ⟨x, hx, e⟩)
  refine ⟨fun x => if x ∈ owned then ρ x else if x = n then a else M + x, fun x y e => ?_, fun x hx => if_pos hx, ?_⟩
  · dsimp only at e
    by_cases hx : x ∈ owned <;> by_cases hy : y ∈ owned
    · rw [if_pos hx, if_pos hy] at e; exact hi x hx y hy e
    · rw [if_pos hx, if_neg hy] at e
      split at e
      · exact absurd e (ha' x hx)
      · have := hM x hx; omega
    · rw [if_neg hx, if_pos hy] at e
      split at e
      · exact absurd e.symm (ha' y hy)
      · have := hM y hy; omega
    · rw [if_neg hx, if_neg hy] at e
      split at e <;> split at e
      · simp_all
      · omega
      · omega
      · exact Nat.add_left_cancel e
  · simp [hn]

/-- The splice works the same whatever is in the scratch vector. -/
theorem noneNull_some (cs : List CardId) : noneNull (cs.map some) = .ok cs := by
  induction cs with
  | nil => rfl
  | cons c cs ih => simp [noneNull, ih, orAssert]

theorem spliceThrough_eq (l : Layout) (s : List (Option CardId)) (a : Place) (n : Nat) (b : Place) (r : Bool) :
    SameOutcome (fun l1 x => x.1 = l1) (l.pileSplice a n b r) (l.spliceThrough s a n b r) := by
  unfold Layout.pileSplice Layout.spliceThrough
  refine .same _ fun _ _ => .same _ fun _ _ => .same _ fun k1 _ => .same _ fun _ h => ?_
  simp only [massert_eq_ok] at h
  refine .same _ fun k2 _ => .same _ fun _ _ => ?_
  have hlen : (((l.pile k1).drop a.seq).take n).length = n := by
    rw [List.length_take, List.length_drop]; omega
  have hc : (if r = true then (((l.pile k1).drop a.seq).take n).reverse else ((l.pile k1).drop a.seq).take n).length = n := by
    split <;> simp only [List.length_reverse, hlen]
  have hd : (s.take n ++ List.replicate (n - s.length) (none : Option CardId)).drop
      (if r = true then (((l.pile k1).drop a.seq).take n).reverse else ((l.pile k1).drop a.seq).take n).length = [] := by
    rw [hc]
    apply List.drop_eq_nil_of_le
    rw [List.length_append, List.length_take, List.length_replicate]; omega
  simp only [hd, List.append_nil, noneNull_some, bind_ok, pure_eq_ok]
  rfl

/-- Calls that make at most one card. -/
theorem step_renamed {f : Frame} {σ : CardId → CardId} (h : ∀ x y, σ x = σ y → x = y) (op : FrameOp)
    (hg : ∀ p n k, op = .resize p n → p.pileKey = .ok k → ¬ (f.layout.pile k).length < n) :
    SameOutcome (fun f1 f2 => f2.layout = f1.layout.map σ ∧ f2.owned = f1.owned.map σ) (f.step op) ((f.map σ).step op) := by
  have hl : (f.map σ).layout = f.layout.map σ := rfl
  have hR : ∀ x : Res Frame, SameOutcome (fun f1 f2 => f2.layout = f1.layout.map σ ∧ f2.owned = f1.owned.map σ) x (mapRes (Frame.map σ) x) := by
    intro x; cases x with
    | ok x => exact ⟨rfl, rfl⟩
    | error e => exact rfl
  cases op with
  | add p =>
    simp only [Frame.step, Frame.cardAdd, Frame.construct, bind_assoc, pure_bind]
    rw [hl, show (f.map σ).next = σ f.next from rfl, cardInsert]
    cases f.layout.cardInsert p f.next with
    | ok l => exact ⟨rfl, rfl⟩
    | error e => exact rfl
  | remove p =>
    have : (f.map σ).step (.remove p) = mapRes (Frame.map σ) (f.step (.remove p)) := by
      simp only [Frame.step, Frame.cardRemove, mapRes_bind, hl, hasCard_map, cardErase, bind_mapRes]
      congr; funext _; congr; funext _; congr; funext x
      exact destruct (f := ⟨x.2, f.owned, f.next⟩) h x.1
    rw [this]; exact hR _
  | move a b =>
    simp only [Frame.step, Frame.cardMove, bind_assoc, pure_bind, hl, cardMove]
    cases f.layout.cardMove a b with
    | ok l => exact ⟨rfl, rfl⟩
    | error e => exact rfl
  | shuffle a b n =>
    simp only [Frame.step, Frame.cardShuffle, hl, cardShuffle]
    cases f.layout.cardShuffle a b n with
    | ok l => exact ⟨rfl, rfl⟩
    | error e => exact rfl
  | swap a b =>
    simp only [Frame.step, Frame.cardSwap, hl, cardSwap]
    cases f.layout.cardSwap a b with
    | ok l => exact ⟨rfl, rfl⟩
    | error e => exact rfl
  | resize p n =>
    simp only [Frame.step, Frame.pileResize, hl]
    refine .same _ fun _ _ => .same _ fun k hk => ?_
    have hn := hg p n k rfl hk
    rw [pile_map, List.length_map, if_neg hn, if_neg hn]
    split
    · rw [shrinkPile _ _ h]; exact hR _
    · exact ⟨rfl, rfl⟩
  | splice a n b r =>
    simp only [Frame.step, Frame.pileSplice, hl, pileSplice]
    cases f.layout.pileSplice a n b r with
    | ok l => exact ⟨rfl, rfl⟩
    | error e => exact rfl
  | pswap a b =>
    simp only [Frame.step, Frame.pileSwap, hl, pileSwap]
    cases f.layout.pileSwap a b with
    | ok l => exact ⟨rfl, rfl⟩
    | error e => exact rfl
  | clear =>
    have : (f.map σ).step .clear = mapRes (Frame.map σ) (f.step .clear) := Rename.clear h
    rw [this]; exact hR _

/-- A frame whose cards are at addresses is a frame whose cards have names. -/
structure HeapOf {pick : Allocator} (f : Frame) (st : CardId → Card Plain) (g : HeapFrame pick) (ρ : CardId → CardId) : Prop where
  held : ∀ C, ∀ c ∈ view f.layout C, c ∈ f.owned
  low : ∀ c ∈ f.owned, c < f.next
  apart : ∀ x ∈ f.owned, ∀ y ∈ f.owned, ρ x = ρ y → x = y
  lay : g.layout = f.layout.map ρ
  owns : g.owned = f.owned.map ρ
  cards : ∀ c ∈ f.owned, g.contents (ρ c) = some (st c)
  fresh : ∀ c, f.next ≤ c → st c = BasicContext.newCard

variable {pick : Allocator}

theorem HeapOf.init (pick : Allocator) : HeapOf Frame.init (fun _ => BasicContext.newCard) (HeapFrame.init pick) id := by
  refine ⟨fun C c hc => ?_, fun c hc => ?_, fun x hx => ?_, ?_, rfl, fun c hc => ?_, fun _ _ => rfl⟩
  · rw [show Frame.init.layout = Layout.empty from rfl, view_empty] at hc; exact hc
  · simp [Frame.init] at hc
  · simp [Frame.init] at hx
  · simp [HeapFrame.init, Frame.init, Layout.map, Layout.empty]
  · simp [Frame.init] at hc

/-- Cards that are made get the address that was picked. -/
theorem HeapOf.extends {f : Frame} {st : CardId → Card Plain} {g : HeapFrame pick} {ρ : CardId → CardId} (h : HeapOf f st g ρ)
    (hp : ∀ n l, pick n l ∉ l) :
    ∃ σ : CardId → CardId, (∀ x y, σ x = σ y → x = y) ∧ σ f.next = pick g.asked g.owned ∧ HeapOf f st g σ := by
  obtain ⟨σ, h1, h2, h3⟩ := exists_injection f.owned ρ f.next (pick g.asked g.owned) h.apart
    (fun hn => Nat.lt_irrefl _ (h.low _ hn)) (h.owns ▸ hp _ _)
  refine ⟨σ, h1, h3, h.held, h.low, fun x _ y _ => h1 x y, ?_, ?_, fun c hc => h2 c hc ▸ h.cards c hc, h.fresh⟩
  · rw [h.lay]; exact Layout.map_congr fun C c hc => (h2 c (h.held C c hc)).symm
  · rw [h.owns]; exact List.map_congr_left fun c hc => (h2 c hc).symm

theorem HeapOf.grow {f : Frame} {st : CardId → Card Plain} {g : HeapFrame pick} {ρ : CardId → CardId} (h : HeapOf f st g ρ)
    (hp : ∀ n l, pick n l ∉ l) (k : PileKey) (n : Nat) : ∃ σ, HeapOf (Frame.growPile k n f) st (HeapFrame.growPile k n g) σ := by
  induction n generalizing f g ρ with
  | zero => exact ⟨ρ, h⟩
  | succ n ih =>
    obtain ⟨σ, hσ, ha, h⟩ := h.extends hp
    simp only [Frame.growPile, Frame.construct, HeapFrame.growPile]
    apply ih (ρ := σ)
    refine ⟨fun C c hc => ?_, fun c hc => ?_, fun x _ y _ => hσ x y, ?_, ?_, fun c hc => ?_, fun c hc => h.fresh c (Nat.le_of_succ_le hc)⟩
    · simp only [List.mem_cons]
      cases C with
      | pile k' =>
        simp only [view, Layout.setPile] at hc
        split at hc
        · rename_i e
          rcases List.mem_append.mp hc with hc | hc
          · exact .inr (h.held (.pile k) c hc)
          · exact .inl (by simpa using hc)
        · exact .inr (h.held (.pile k') c hc)
      | slot k' => exact .inr (h.held (.slot k') c hc)
      | mats k' => exact .inr (h.held (.mats k') c hc)
    · rcases List.mem_cons.mp hc with rfl | hc
      · exact Nat.lt_succ_self _
      · exact Nat.lt_succ_of_lt (h.low c hc)
    · rw [← setPile_map, h.lay, ← ha, List.map_append]; rfl
    · simp only [List.map_cons, ha, h.owns]
    · dsimp only
      rcases List.mem_cons.mp hc with rfl | hc
      · rw [if_pos ha, h.fresh f.next (Nat.le_refl _)]
      · rw [if_neg, h.cards c hc]
        intro e
        rw [← ha] at e
        have := h.low c hc
        rw [hσ _ _ e] at this
        exact Nat.lt_irrefl _ this

/-- Every call: the same outcome. -/
theorem HeapOf.step {f : Frame} {st : CardId → Card Plain} {g : HeapFrame pick} {ρ : CardId → CardId} (h : HeapOf f st g ρ) (hi : Inv f)
    (hp : ∀ n l, pick n l ∉ l) (op : FrameOp) : SameOutcome (fun f g => ∃ σ, HeapOf f st g σ) (f.step op) (g.step op) := by
  have quiet : (∀ p n k, op = .resize p n → p.pileKey = .ok k → ¬ (f.layout.pile k).length < n) →
      SameOutcome (fun f g => ∃ σ, HeapOf f st g σ) (f.step op) (g.call op) := by
    intro hg
    obtain ⟨σ, hσ, ha, h⟩ := h.extends hp
    have e : (⟨g.layout, g.owned, pick g.asked g.owned⟩ : Frame) = f.map σ := by
      simp only [Frame.map, Frame.mk.injEq]; exact ⟨h.lay, h.owns, ha.symm⟩
    unfold HeapFrame.call
    dsimp only
    rw [e]
    have hs := step_renamed hσ op hg (f := f)
    cases hf : f.step op with
    | error e =>
      rw [hf] at hs
      cases hf2 : (f.map σ).step op with
      | error e' => rw [hf2] at hs; exact hs
      | ok x => rw [hf2] at hs; exact hs.elim
    | ok f1 =>
      rw [hf] at hs
      cases hf2 : (f.map σ).step op with
      | error e' => rw [hf2] at hs; exact hs.elim
      | ok f2 =>
        rw [hf2] at hs
        obtain ⟨hl, ho⟩ := hs
        have hi1 := hi.step hf
        refine ⟨σ, fun C c hc => hi1.mem_owned hc, hi1.fresh, fun x _ y _ => hσ x y, hl, ho, fun c hc => ?_,
          fun c hc => h.fresh c (Nat.le_trans (step_next hf) hc)⟩
        dsimp only
        rw [if_pos (ho ▸ List.mem_map_of_mem hc)]
        by_cases hm : c ∈ f.owned
        · rw [if_pos (h.owns ▸ List.mem_map_of_mem hm), h.cards c hm]
        · rw [if_neg, h.fresh c ((step_owned hf hc).resolve_left hm)]
          rw [h.owns]
          intro hx
          obtain ⟨y, hy, e⟩ := List.mem_map.mp hx
          exact hm (hσ _ _ e ▸ hy)
  cases op with
  | resize p n =>
    simp only [HeapFrame.step]
    have hstep : f.step (.resize p n) = f.pileResize p n := rfl
    rw [hstep] at quiet ⊢
    unfold Frame.pileResize at quiet ⊢
    cases h1 : massert (p.isPile = true) with
    | error e => exact rfl
    | ok u =>
      cases h2 : p.pileKey with
      | error e => exact rfl
      | ok k =>
        have q := fun hlt => quiet fun p' n' k' e hk => by
          cases e
          rw [h2] at hk
          cases hk
          exact hlt
        simp only [h1, h2, bind_ok] at q ⊢
        have hl : (g.layout.pile k).length = (f.layout.pile k).length := by rw [h.lay, pile_map, List.length_map]
        by_cases hlt : (f.layout.pile k).length < n
        · rw [if_pos hlt, if_pos (hl ▸ hlt), hl]
          exact h.grow hp k _
        · have q := q hlt
          rw [if_neg hlt] at q ⊢
          rw [if_neg (show ¬ (g.layout.pile k).length < n from hl ▸ hlt)]
          exact q
  | splice a n b r =>
    simp only [Frame.step, Frame.pileSplice, HeapFrame.step]
    have h1 := spliceThrough_eq (f.layout.map ρ) g.scratch a n b r
    rw [pileSplice] at h1
    rw [h.lay]
    cases hf : f.layout.pileSplice a n b r with
    | error e =>
      rw [hf] at h1
      cases hg : (f.layout.map ρ).spliceThrough g.scratch a n b r with
      | error e' => rw [hg] at h1; exact h1
      | ok x => rw [hg] at h1; exact h1.elim
    | ok l =>
      rw [hf] at h1
      cases hg : (f.layout.map ρ).spliceThrough g.scratch a n b r with
      | error e' => rw [hg] at h1; exact h1.elim
      | ok x =>
        rw [hg] at h1
        have hi1 : Inv { f with layout := l } := hi.step (op := .splice a n b r) (by simp [Frame.step, Frame.pileSplice, hf])
        exact ⟨ρ, fun C c hc => hi1.mem_owned hc, h.low, h.apart, h1, h.owns, h.cards, h.fresh⟩
  | add p => exact quiet fun _ _ _ e => by cases e
  | remove p => exact quiet fun _ _ _ e => by cases e
  | move a b => exact quiet fun _ _ _ e => by cases e
  | shuffle a b n => exact quiet fun _ _ _ e => by cases e
  | swap a b => exact quiet fun _ _ _ e => by cases e
  | pswap a b => exact quiet fun _ _ _ e => by cases e
  | clear => exact quiet fun _ _ _ e => by cases e

theorem HeapOf.steps {f : Frame} {st : CardId → Card Plain} {g : HeapFrame pick} {ρ : CardId → CardId} (h : HeapOf f st g ρ) (hi : Inv f)
    (hp : ∀ n l, pick n l ∉ l) (ops : List FrameOp) :
    SameOutcome (fun f g => Inv f ∧ ∃ σ, HeapOf f st g σ) (runOps f ops) (runOps g ops) := by
  induction ops generalizing f g ρ with
  | nil => exact ⟨hi, ρ, h⟩
  | cons op ops ih =>
    exact (h.step hi hp op).bind fun f1 g1 hf ⟨σ, h1⟩ => ih h1 (hi.step hf)

theorem runOps_heap (g : HeapFrame pick) (ops : List FrameOp) : runOps g ops = g.run ops := by
  induction ops generalizing g with
  | nil => rfl
  | cons op ops ih => simp only [runOps, HeapFrame.run, ih]; rfl

theorem runOps_frame (f : Frame) (ops : List FrameOp) : runOps f ops = f.run ops := by
  induction ops generalizing f with
  | nil => rfl
  | cons op ops ih => simp only [runOps, Frame.run, ih]; rfl

/-- A board whose cards are at addresses. -/
def HeapBoard (s : Client) (b : HeapClient pick) : Prop :=
  Inv s.board.frame ∧ ∃ ρ, HeapOf s.board.frame s.store b.frame ρ ∧
    b = ⟨b.frame, s.board.chainStack, s.board.turn, s.board.turnController, s.board.lp, s.board.phase, s.board.blockedZones⟩

theorem HeapBoard.onFrame {s : Client} {b : HeapClient pick} (h : HeapBoard s b) (hp : ∀ n l, pick n l ∉ l) (ops : List FrameOp) :
    SameOutcome (fun x y => HeapBoard ⟨x, s.store⟩ y) (s.board.onFrame ops) (b.onFrame ops) := by
  obtain ⟨hi, ρ, h1, h2⟩ := h
  refine (h1.steps hi hp ops).bind fun f g _ ⟨hf, σ, hg⟩ => ⟨hf, σ, hg, ?_⟩
  rw [h2]

theorem HeapBoard.event {s : Client} {b : HeapClient pick} (h : HeapBoard s b) (hp : ∀ n l, pick n l ∉ l) (e : Event) :
    SameOutcome (fun x y => HeapBoard ⟨x, s.store⟩ y) (s.board.parseEvent e) (b.parseEvent e) := by
  have keep : ∀ {c : List Chain} {t : Nat} {tc : Int} {lp : Fin 2 → Plain Nat} {ph : Nat} {z : List Place},
      HeapBoard ⟨{ s.board with chainStack := ⟨c⟩, turn := ⟨t⟩, turnController := ⟨tc⟩, lp := lp, phase := ⟨ph⟩, blockedZones := ⟨z⟩ }, s.store⟩
        (⟨b.frame, ⟨c⟩, ⟨t⟩, ⟨tc⟩, lp, ⟨ph⟩, ⟨z⟩⟩ : HeapClient pick) := by
    intros
    obtain ⟨hi, ρ, h1, h2⟩ := h
    exact ⟨hi, ρ, h1, rfl⟩
  obtain ⟨hi, ρ, h1, h2⟩ := id h
  cases e with
  | board e =>
    cases e with
    | unset => exact h
    | exchange e => exact h.onFrame hp _
    | state st =>
      simp only [DuelBoard.parseEvent, DuelBoard.parseState]
      refine .same _ fun x _ => .same _ fun y _ => ?_
      have h' := h
      rw [h2]
      split
      · exact HeapBoard.onFrame (s := ⟨_, s.store⟩) keep hp _
      · exact HeapBoard.onFrame (s := ⟨_, s.store⟩) keep hp _
  | card r e => exact h.onFrame hp _
  | chainStack e =>
    rw [h2]
    cases e with
    | unset => exact keep
    | push c => exact keep
    | pop u =>
      simp only [DuelBoard.parseEvent, Cell.pop, bind_assoc]
      exact .same _ fun _ _ => keep
  | nextTurn con => rw [h2]; exact keep
  | lp con c =>
    rw [h2]
    simp only [DuelBoard.parseEvent]
    exact .same _ fun _ _ => keep
  | nextPhase p => rw [h2]; exact keep
  | pile r e => exact h.onFrame hp _
  | zoneBlock zs => rw [h2]; exact keep
  | finish _ => exact h
  | metaInfo _ => exact h
  | result _ => exact h
  | unset => exact h

theorem HeapOf.hasCard {f : Frame} {st : CardId → Card Plain} {g : HeapFrame pick} {ρ : CardId → CardId} (h : HeapOf f st g ρ) (p : Place) :
    g.layout.hasCard p = f.layout.hasCard p := by rw [h.lay, hasCard_map]

theorem HeapOf.query {f : Frame} {st : CardId → Card Plain} {g : HeapFrame pick} {ρ : CardId → CardId} (h : HeapOf f st g ρ)
    (cache : Bool) (q : Query) :
    SameOutcome (fun x y => x.1 = y.1 ∧ HeapOf f x.2 y.2 ρ) (parseQuery cache f.layout st q) (g.parseQuery cache q) := by
  unfold parseQuery HeapFrame.parseQuery
  rw [h.hasCard, h.lay, layout_card]
  refine .same _ fun _ _ => .same _ fun _ _ => ?_
  cases hc : f.layout.card q.place with
  | error e => exact rfl
  | ok c =>
    obtain ⟨C, i, _, hi⟩ := Layout.card_eq_ok.mp hc
    have hm := h.held C c (List.mem_of_getElem? hi)
    simp only [mapRes_ok, bind_ok, h.cards c hm, orUb]
    refine .same _ fun x _ => ⟨rfl, h.held, h.low, h.apart, rfl, h.owns, fun y hy => ?_, fun y hy => ?_⟩
    · dsimp only
      by_cases e : y = c
      · subst e; simp
      · rw [if_neg fun e' => e (h.apart y hy c hm e'), if_neg e, h.cards y hy]
    · dsimp only
      rw [if_neg, h.fresh y hy]
      intro e
      have := h.low c hm
      omega

theorem HeapOf.answer {f : Frame} {st : CardId → Card Plain} {g : HeapFrame pick} {ρ : CardId → CardId} (h : HeapOf f st g ρ)
    (cache : Bool) (qs : List Query) :
    SameOutcome (fun x y => HeapOf f x y ρ) (Client.answer cache f.layout qs st) (HeapClient.answer cache qs g) := by
  induction qs generalizing st g with
  | nil => exact h
  | cons q qs ih => exact (h.query cache q).bind fun x y _ hxy => ih hxy.2

theorem HeapBoard.follow {s : Client} {b : HeapClient pick} (h : HeapBoard s b) (hp : ∀ n l, pick n l ∉ l) (cache : Bool) (ms : List Msg) :
    SameOutcome HeapBoard (Client.follow cache s ms) (b.follow cache ms) := by
  induction ms generalizing s b with
  | nil => exact h
  | cons m ms ih =>
    have rest : ∀ (x : PlainBoard) (y : HeapClient pick), HeapBoard ⟨x, s.store⟩ y →
        SameOutcome HeapBoard (Client.answer cache x.frame.layout m.queries s.store >>= fun st => Client.follow cache ⟨x, st⟩ ms)
          (HeapClient.answer cache m.queries y.frame >>= fun g => HeapClient.follow cache { y with frame := g } ms) := by
      intro x y ⟨hi, ρ, h1, h2⟩
      exact (h1.answer cache m.queries).bind fun st g _ hg => ih ⟨hi, ρ, hg, by rw [h2]⟩
    simp only [Client.follow, HeapClient.follow, HeapClient.take]
    cases hm : m.body with
    | event e =>
      simp only [Msg.event?, hm, bind_assoc, pure_bind]
      exact (h.event hp e).bind fun x y _ hxy => rest x y hxy
    | _ =>
      simp only [Msg.event?, hm, bind_assoc, pure_bind]
      exact rest _ _ h

end Ygo
