import Verif.Lemmas.State
import Verif.Props.Undo

/-!
# Events on boards (C24 to C26)
-/

set_option linter.unusedSimpArgs false

namespace Ygo.Props
open Ygo Ygo.Spec

/-! ## C24: what an event touches -/

/-- The parts of a board. -/
inductive Part where
  | frame | chainStack | turn | turnController | lp0 | lp1 | phase | blockedZones
  deriving DecidableEq

/-- The parts an event kind names. -/
def concerns : Event → List Part
  | .board (.exchange _) => [.frame]
  | .board (.state s) => if 0 ≤ s.turnCounter then [.turn, .lp0, .lp1, .chainStack, .frame] else [.lp0, .lp1, .chainStack, .frame]
  | .card _ _ => [.frame]
  | .pile _ _ => [.frame]
  | .chainStack _ => [.chainStack]
  | .nextTurn _ => [.turn, .turnController]
  | .lp con _ => if con = 0 then [.lp0] else [.lp1]
  | .nextPhase _ => [.phase]
  | .zoneBlock _ => [.blockedZones]
  | _ => []

/-- Two boards agree on a part. -/
def SamePart {F : Type} {V : Type → Type} (a b : DuelBoard F V) : Part → Prop
  | .frame => a.frame = b.frame
  | .chainStack => a.chainStack = b.chainStack
  | .turn => a.turn = b.turn
  | .turnController => a.turnController = b.turnController
  | .lp0 => a.lp 0 = b.lp 0
  | .lp1 => a.lp 1 = b.lp 1
  | .phase => a.phase = b.phase
  | .blockedZones => a.blockedZones = b.blockedZones

theorem lpIdx_eq_ok {con : Int} {i : Fin 2} : DuelBoard.lpIdx con = .ok i ↔ con = i.val := by
  simp only [DuelBoard.lpIdx, bind_eq_ok, massert_eq_ok, conIdx_eq_ok]
  constructor
  · rintro ⟨_, _, h⟩; exact h
  · intro h
    exact ⟨(), by omega, h⟩

/-- **C24.** On every board (plain or undoable), parsing an event leaves every part alone that the event kind does not name. -/
theorem C24_only_named_parts {F : Type} {V : Type → Type} [FrameLike F] [Cell V] (b b' : DuelBoard F V) (e : Event)
    (h : b.parseEvent e = .ok b') (p : Part) (hp : p ∉ concerns e) : SamePart b' b p := by
  cases e with
  | board e =>
    cases e with
    | unset => cases h; cases p <;> rfl
    | exchange e =>
      simp [DuelBoard.parseEvent, DuelBoard.onFrame] at h; obtain ⟨f, h, rfl⟩ := h
      cases p <;> first | rfl | simp [concerns] at hp
    | state s =>
      simp only [DuelBoard.parseEvent, DuelBoard.parseState, DuelBoard.onFrame, DuelBoard.setLp, bind_eq_ok, pure_eq_ok, Except.ok.injEq] at h
      obtain ⟨x, hx, y, hy, f, h, rfl⟩ := h
      simp only [concerns] at hp
      by_cases ht : 0 ≤ s.turnCounter
      · simp only [ht, if_true] at hp ⊢
        cases p <;> first | rfl | simp at hp
      · simp only [ht, if_false] at hp ⊢
        cases p <;> first | rfl | simp at hp
  | card r e =>
    simp [DuelBoard.parseEvent, DuelBoard.onFrame] at h; obtain ⟨f, h, rfl⟩ := h
    cases p <;> first | rfl | simp [concerns] at hp
  | chainStack e =>
    cases e <;> simp only [DuelBoard.parseEvent, bind_eq_ok, pure_eq_ok, Except.ok.injEq] at h
    · cases h; cases p <;> rfl
    · obtain ⟨f, h, rfl⟩ := h
      cases p <;> first | rfl | simp [concerns] at hp
    · obtain ⟨f, h, rfl⟩ := h
      cases p <;> first | rfl | simp [concerns] at hp
  | nextTurn c =>
    simp only [DuelBoard.parseEvent, bind_eq_ok, pure_eq_ok, Except.ok.injEq] at h
    obtain ⟨f, h, rfl⟩ := h
    cases p <;> first | rfl | simp [concerns] at hp
  | lp con c =>
    simp only [DuelBoard.parseEvent, DuelBoard.setLp, bind_eq_ok, pure_eq_ok, Except.ok.injEq] at h
    obtain ⟨i, hi, x, _, rfl⟩ := h
    have hi := lpIdx_eq_ok.mp hi
    subst hi
    match i with
    | 0 =>
      simp only [concerns] at hp
      cases p <;> first | rfl | simp at hp
    | 1 =>
      simp only [concerns] at hp
      cases p <;> first | rfl | simp at hp
  | nextPhase ph =>
    cases h
    cases p <;> first | rfl | simp [concerns] at hp
  | pile r e =>
    simp [DuelBoard.parseEvent, DuelBoard.onFrame] at h; obtain ⟨f, h, rfl⟩ := h
    cases p <;> first | rfl | simp [concerns] at hp
  | zoneBlock zs =>
    cases h
    cases p <;> first | rfl | simp [concerns] at hp
  | finish => cases h; cases p <;> rfl
  | metaInfo => cases h; cases p <;> rfl
  | result => cases h; cases p <;> rfl
  | unset => cases h; cases p <;> rfl

/-- **C24.** Result, finish, meta and unset events, and pile resize events, return and change nothing at all. -/
theorem C24_inert_events {F : Type} {V : Type → Type} [FrameLike F] [Cell V] (b : DuelBoard F V) (r : ResultEvent) (f : Finish) (m : MetaEvent)
    (rs : List ResizeOp) (n : Nat) :
    b.parseEvent (.result r) = .ok b ∧ b.parseEvent (.finish f) = .ok b ∧ b.parseEvent (.metaInfo m) = .ok b ∧
    b.parseEvent .unset = .ok b ∧ b.parseEvent (.pile n (.resize rs)) = .ok b :=
  ⟨rfl, rfl, rfl, rfl, rfl⟩

/-- **C24.** What the value-carrying events store on a plain board. -/
theorem C24_values (b : PlainBoard) (con : Int) (ph : Nat) (zs : List Place) (c : Chain) (x : Bool) :
    b.parseEvent (.nextTurn con) = .ok { b with turn := ⟨(b.turn.val + 1) % 2 ^ 32⟩, turnController := ⟨con⟩ } ∧
    b.parseEvent (.nextPhase ph) = .ok { b with phase := ⟨ph⟩ } ∧
    b.parseEvent (.zoneBlock zs) = .ok { b with blockedZones := ⟨zs⟩ } ∧
    b.parseEvent (.chainStack (.push c)) = .ok { b with chainStack := ⟨b.chainStack.val ++ [c]⟩ } ∧
    (∀ cs d, b.chainStack.val = cs ++ [d] → b.parseEvent (.chainStack (.pop x)) = .ok { b with chainStack := ⟨cs⟩ }) ∧
    (b.chainStack.val = [] → b.parseEvent (.chainStack (.pop x)) = .error .ub) := by
  refine ⟨rfl, rfl, rfl, rfl, ?_, ?_⟩
  · intro cs d h
    simp [DuelBoard.parseEvent, Cell.pop, h, guardUb]
  · intro h
    simp [DuelBoard.parseEvent, Cell.pop, h, guardUb]

/-- **C24.** Push and pop are inverse on a plain board. -/
theorem C24_push_pop (b : PlainBoard) (c : Chain) (x : Bool) :
    ((b.parseEvent (.chainStack (.push c))).bind fun b => b.parseEvent (.chainStack (.pop x))) = .ok b := by
  simp [DuelBoard.parseEvent, Cell.pop, Cell.push, guardUb, Except.bind]

example : concerns (.lp 1 (.damage 3)) = [.lp1] := by decide
example : ((PlainBoard.init.parseEvents demoEvents).map fun b => (b.phase.val, b.turn.val, b.turnController.val, b.blockedZones.val)) =
    .ok (4, 2, 1, [mz0 4]) := by decide

/-! ## C25: life points -/

/-- Life points after a change, in exact arithmetic. -/
def exactLp (lp : Nat) : LPChange → Nat
  | .unset => lp
  | .become n => n
  | .damage n => lp - n
  | .pay n => lp - n
  | .recover n => lp + n

/-- **C25.** An LP event on a plain board with controller 0 or 1 returns; the player's life points are the exact result
(subtraction stops at 0), as long as a recovery fits in 32 bits; the other player's life points stay. -/
theorem C25_lp_event (b : PlainBoard) (i : Fin 2) (c : LPChange) (hfit : ∀ n, c = .recover n → (b.lp i).val + n < 2 ^ 32) :
    ∃ b', b.parseEvent (.lp i.val c) = .ok b' ∧ (b'.lp i).val = exactLp (b.lp i).val c ∧ ∀ j, j ≠ i → b'.lp j = b.lp j := by
  have h1 : DuelBoard.lpIdx (i.val : Int) = .ok i := lpIdx_eq_ok.mpr rfl
  refine ⟨b.setLp i ⟨DuelBoard.lpAfter (b.lp i).val c⟩, ?_, ?_, ?_⟩
  · simp [DuelBoard.parseEvent, h1, Cell.get, Cell.set]
  · simp only [DuelBoard.setLp, if_true]
    cases c with
    | unset => rfl
    | become n => rfl
    | damage n => simp only [DuelBoard.lpAfter, exactLp]; split <;> omega
    | pay n => simp only [DuelBoard.lpAfter, exactLp]; split <;> omega
    | recover n => simp only [DuelBoard.lpAfter, exactLp]; exact Nat.mod_eq_of_lt (hfit n rfl)
  · intro j hj
    simp [DuelBoard.setLp, hj]

/-- **C25.** Without the bound a recovery wraps around. -/
theorem C25_recover_wraps :
    ∃ (b : PlainBoard) (b' : PlainBoard) (n : Nat), b.parseEvent (.lp 0 (.recover n)) = .ok b' ∧ (b'.lp 0).val < (b.lp 0).val :=
  ⟨{ PlainBoard.init with lp := fun _ => ⟨8000⟩ }, _, 2 ^ 32 - 1, rfl, by decide⟩

/-- **C25.** Stored life points stay below 2³², if they and the event's amount are. -/
theorem C25_lp_in_range (b b' : PlainBoard) (con : Int) (c : LPChange) (hb : ∀ i, (b.lp i).val < 2 ^ 32)
    (hc : ∀ n, c = .become n → n < 2 ^ 32) (h : b.parseEvent (.lp con c) = .ok b') : ∀ i, (b'.lp i).val < 2 ^ 32 := by
  simp only [DuelBoard.parseEvent, DuelBoard.setLp, bind_eq_ok, pure_eq_ok, Except.ok.injEq] at h
  obtain ⟨i, _, x, hx, rfl⟩ := h
  have hx : x = (b.lp i).val := by cases hx; rfl
  intro j
  by_cases hj : j = i
  · subst hj
    simp only [if_true, Cell.set, hx]
    have := hb j
    cases c with
    | unset => exact this
    | become n => exact hc n rfl
    | damage n => simp only [DuelBoard.lpAfter]; split <;> omega
    | pay n => simp only [DuelBoard.lpAfter]; split <;> omega
    | recover n => exact Nat.mod_lt _ (by decide)
  · simp only [hj, if_false]; exact hb j

/-- **C25.** The controller check of `lp()` is off by one: 2 gets through to the array access; everything else outside 0 and 1 stops
at the assertion. -/
theorem C25_bad_controller (b : PlainBoard) (c : LPChange) (con : Int) :
    b.parseEvent (.lp 2 c) = .error .ub ∧ (con < 0 ∨ 2 < con → b.parseEvent (.lp con c) = .error .assert) := by
  constructor
  · rfl
  · intro h
    have : ¬ (0 ≤ con ∧ con ≤ 2) := by omega
    simp [DuelBoard.parseEvent, DuelBoard.lpIdx, massert, this]

example : ((PlainBoard.init.parseEvents [.lp 0 (.become 8000), .lp 0 (.damage 3000), .lp 1 (.pay 1), .lp 0 (.recover 7)]).map
    fun b => ((b.lp 0).val, (b.lp 1).val)) = .ok (5007, 0) := by decide

/-! ## C26: state events -/

/-- Boards that clients reach by parsing events on a new board. -/
def ReachablePlain (b : PlainBoard) : Prop := ∃ es, PlainBoard.init.parseEvents es = .ok b

theorem runOps_inv {Xs : List FrameOp} {g g' : Frame} (hi : Inv g) (h : runOps g Xs = .ok g') : Inv g' := by
  induction Xs generalizing g with
  | nil => cases h; exact hi
  | cons X Xs ih =>
    simp only [runOps, FrameLike.step, bind_eq_ok] at h
    obtain ⟨g1, h1, h2⟩ := h
    exact ih (hi.step h1) h2

theorem ReachablePlain.inv {b : PlainBoard} (h : ReachablePlain b) : Inv b.frame := by
  obtain ⟨es, h⟩ := h
  suffices hgen : ∀ (es : List Event) (b0 b : PlainBoard), Inv b0.frame → b0.parseEvents es = .ok b → Inv b.frame from
    hgen es _ b Inv.init h
  intro es
  induction es with
  | nil => intro b0 b hi h; cases h; exact hi
  | cons e es ih =>
    intro b0 b hi h
    simp only [DuelBoard.parseEvents, bind_eq_ok] at h
    obtain ⟨b1, h1, h2⟩ := h
    exact ih b1 b (runOps_inv hi (parse_frame h1)) h2

/-- **C26.** Whether a state event parses does not depend on the board it meets.  Afterwards life points and chain stack are those of the
event, the turn counter too if it is not negative, and the layout is the same on all boards up to the numbering of cards: card
`c` of one is card `c - next₁ + next₂` of the other, where `next` is the first identity not yet used. -/
theorem C26_state_event (b1 b2 b1' : PlainBoard) (s : BoardState) (hr1 : ReachablePlain b1) (hr2 : ReachablePlain b2)
    (h : b1.parseEvent (.board (.state s)) = .ok b1') :
    ∃ b2', b2.parseEvent (.board (.state s)) = .ok b2' ∧
      (∀ C, view b2'.frame.layout C = (view b1'.frame.layout C).map fun c => c - b1.frame.next + b2.frame.next) ∧
      (∀ C, ∀ c ∈ view b1'.frame.layout C, b1.frame.next ≤ c) ∧
      s.lps[0]? = some (b1'.lp 0).val ∧ s.lps[1]? = some (b1'.lp 1).val ∧ b2'.lp = b1'.lp ∧
      b1'.chainStack.val = s.chains ∧ b2'.chainStack = b1'.chainStack ∧
      (0 ≤ s.turnCounter → (b1'.turn.val : Int) = s.turnCounter ∧ b2'.turn = b1'.turn) := by
  simp only [DuelBoard.parseEvent, DuelBoard.parseState, DuelBoard.onFrame, DuelBoard.setLp, bind_eq_ok, pure_eq_ok, Except.ok.injEq, orUb_eq_ok] at h ⊢
  obtain ⟨x, hx, y, hy, f, h, rfl⟩ := h
  by_cases ht : 0 ≤ s.turnCounter
  · simp only [ht, if_true] at h ⊢
    obtain ⟨g2, h2, h3⟩ := Shifted.state hr1.inv hr2.inv h
    refine ⟨_, ⟨x, hx, y, hy, g2, h2, rfl⟩, h3.view, h3.low, hx, hy, ?_, rfl, rfl, fun _ => ⟨?_, rfl⟩⟩
    · funext i
      match i with
      | 0 => rfl
      | 1 => rfl
    · simp [Cell.set]; omega
  · simp only [ht, if_false] at h ⊢
    obtain ⟨g2, h2, h3⟩ := Shifted.state hr1.inv hr2.inv h
    refine ⟨_, ⟨x, hx, y, hy, g2, h2, rfl⟩, h3.view, h3.low, hx, hy, ?_, rfl, rfl, fun h => h.elim⟩
    funext i
    match i with
    | 0 => rfl
    | 1 => rfl

/-- **C26.** In particular every container holds the same number of cards afterwards. -/
theorem C26_same_shape (b1 b2 b1' b2' : PlainBoard) (s : BoardState) (hr1 : ReachablePlain b1) (hr2 : ReachablePlain b2)
    (h1 : b1.parseEvent (.board (.state s)) = .ok b1') (h2 : b2.parseEvent (.board (.state s)) = .ok b2') (C : Container) :
    (view b1'.frame.layout C).length = (view b2'.frame.layout C).length := by
  obtain ⟨b, h3, h4, _⟩ := C26_state_event b1 b2 b1' s hr1 hr2 h1
  rw [h2] at h3; cases h3
  rw [h4]; simp

/-- A state event on the demo board and on a new board. -/
example : ((PlainBoard.init.parseEvents (demoEvents ++ demoEvents.take 1)).map fun b => placed (view b.frame.layout)) =
    .ok [19, 20, 21, 22, 23, 24, 25, 26, 27, 16, 18, 17] ∧
    ((PlainBoard.init.parseEvents (demoEvents.take 1)).map fun b => placed (view b.frame.layout)) =
    .ok [3, 4, 5, 6, 7, 8, 9, 10, 11, 0, 2, 1] := by decide

end Ygo.Props
