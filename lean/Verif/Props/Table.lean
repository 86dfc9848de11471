import Verif.Lemmas.Table
import Verif.Props.Event
import Verif.Props.Undo

/-!
# C82, C83: the frame and the board play a game on lists
-/

set_option linter.unusedSimpArgs false

namespace Ygo.Props
open Ygo Ygo.Spec

/-! ## C82 -/

/-- **C82.** On every reachable frame, a call returns exactly when it can be made on the table, and leaves the table it is to leave. -/
theorem C82_call (f : Frame) (hr : Reachable f) (op : FrameOp) (ht : Tidy op) (T : Table) :
    (∃ f', f.step op = .ok f' ∧ tableOf f' = T) ↔ (tableOf f).Step op T := hr.inv.step_iff op ht T

theorem run_eq_runOps (f : Frame) (ops : List FrameOp) : f.run ops = runOps f ops := by
  induction ops generalizing f with
  | nil => rfl
  | cons op ops ih =>
    simp only [Frame.run, runOps, FrameLike.step]
    cases f.step op with
    | error e => rfl
    | ok g => exact ih g

/-- **C82.** The same for any number of calls on a new frame. -/
theorem C82_calls (ops : List FrameOp) (ht : ∀ op ∈ ops, Tidy op) (T : Table) :
    (∃ f, Frame.init.run ops = .ok f ∧ tableOf f = T) ↔ Table.Steps ⟨fun _ => [], 0⟩ ops T := by
  rw [run_eq_runOps, Inv.init.steps_iff ops ht T, show tableOf Frame.init = ⟨fun _ => [], 0⟩ from eq_tableOf.mpr ⟨funext view_empty, rfl⟩]

/-- **C82.** A call that cannot be made on the table fails, and only such a call does. -/
theorem C82_call_fails (f : Frame) (hr : Reachable f) (op : FrameOp) (ht : Tidy op) :
    (∃ e, f.step op = .error e) ↔ ∀ T, ¬ (tableOf f).Step op T := by
  constructor
  · rintro ⟨e, h⟩ T hT
    obtain ⟨f', h', _⟩ := (C82_call f hr op ht T).mpr hT
    rw [h] at h'; cases h'
  · intro h
    cases hs : f.step op with
    | error e => exact ⟨e, rfl⟩
    | ok f' => exact absurd ((C82_call f hr op ht _).mp ⟨f', hs, rfl⟩) (h _)

theorem dealt_unique {B : Board} {n : Nat} {prev cur : List Place} {zs zs' : List (ZoneKey × Option ZoneKey)} (h : Dealt B prev cur n zs)
    (h' : Dealt B prev cur n zs') : zs = zs' := by
  induction n generalizing prev cur zs zs' with
  | zero => cases prev <;> cases cur <;> (simp only [Dealt] at h h'; rw [h, h'])
  | succ n ih =>
    cases prev with
    | nil => simp [Dealt] at h
    | cons p prev =>
    cases cur with
    | nil => simp [Dealt] at h
    | cons q cur =>
      simp only [Dealt] at h h'
      obtain ⟨k, t, rest, rfl, hk, ht, hd⟩ := h
      obtain ⟨k', t', rest', rfl, hk', ht', hd'⟩ := h'
      rw [ih hd hd', Layout.names_unique hk.1 hk'.1]
      congr 2
      cases t <;> cases t' <;> simp only [NamesOr] at ht ht'
      · rfl
      · have := Layout.names_not_empty ht'; rw [ht] at this; cases this
      · have := Layout.names_not_empty ht; rw [ht'] at this; cases this
      · rw [Layout.names_unique ht ht']

/-- **C82.** Every call has at most one outcome on a table. -/
theorem C82_one_outcome (T T1 T2 : Table) (op : FrameOp) (h1 : T.Step op T1) (h2 : T.Step op T2) : T1 = T2 := by
  cases op with
  | add p =>
    obtain ⟨C, i, a, _, rfl⟩ := h1
    obtain ⟨D, j, b, _, rfl⟩ := h2
    obtain ⟨rfl, rfl⟩ := At.unique a b; rfl
  | remove p =>
    obtain ⟨C, i, a, _, rfl⟩ := h1
    obtain ⟨D, j, b, _, rfl⟩ := h2
    obtain ⟨rfl, rfl⟩ := At.unique a b; rfl
  | move a b =>
    obtain ⟨C1, i, C2, j, c, a1, a2, _, _, a3, _, _, _, rfl⟩ := h1
    obtain ⟨D1, i', D2, j', c', b1, b2, _, _, b3, _, _, _, rfl⟩ := h2
    obtain ⟨rfl, rfl⟩ := At.unique a1 b1
    obtain ⟨rfl, rfl⟩ := At.unique a2 b2
    rw [a3] at b3; cases b3; rfl
  | shuffle prev cur n =>
    obtain ⟨_, _, zs, a, rfl⟩ := h1
    obtain ⟨_, _, zs', b, rfl⟩ := h2
    rw [dealt_unique a b]
  | swap a b =>
    obtain ⟨C1, i, C2, j, c1, c2, a1, a2, _, _, _, _, a3, a4, rfl⟩ := h1
    obtain ⟨D1, i', D2, j', c1', c2', b1, b2, _, _, _, _, b3, b4, rfl⟩ := h2
    obtain ⟨rfl, rfl⟩ := At.unique a1 b1
    obtain ⟨rfl, rfl⟩ := At.unique a2 b2
    rw [a3] at b3; cases b3
    rw [a4] at b4; cases b4; rfl
  | resize p n =>
    obtain ⟨k, i, a, rfl⟩ := h1
    obtain ⟨k', i', b, rfl⟩ := h2
    obtain ⟨e, rfl⟩ := At.unique a b
    cases e; rfl
  | splice a n b rev =>
    obtain ⟨k1, i, k2, j, a1, a2, _, _, rfl⟩ := h1
    obtain ⟨k1', i', k2', j', b1, b2, _, _, rfl⟩ := h2
    obtain ⟨e, rfl⟩ := At.unique a1 b1
    cases e
    obtain ⟨e, rfl⟩ := At.unique a2 b2
    cases e; rfl
  | pswap a b =>
    obtain ⟨k1, i, k2, j, a1, a2, rfl⟩ := h1
    obtain ⟨k1', i', k2', j', b1, b2, rfl⟩ := h2
    obtain ⟨e, rfl⟩ := At.unique a1 b1
    cases e
    obtain ⟨e, rfl⟩ := At.unique a2 b2
    cases e; rfl
  | clear => rw [h1, h2]

/-- On a table with three monsters the second one is dealt to the first zone and the first one to the third: the third one ends up in the second zone. -/
example : let z := fun (i : Nat) (h : i < 7) => ZoneKey.mk 0 .monster i h
    let B : Board := fun C => if C = .slot (z 0 (by decide)) then [10] else if C = .slot (z 1 (by decide)) then [11]
      else if C = .slot (z 2 (by decide)) then [12] else []
    let B' := B.deal id [(z 1 (by decide), some (z 0 (by decide))), (z 0 (by decide), some (z 2 (by decide)))]
    (B' (.slot (z 0 (by decide))), B' (.slot (z 1 (by decide))), B' (.slot (z 2 (by decide)))) = ([11], [12], [10]) := by decide

/-- A frame with a monster of each player. -/
def twoMonsters : Res Frame := Frame.init.run [.add ⟨0, 0x4, 0, -1⟩, .add ⟨1, 0x4, 3, -1⟩]

/-- **C82** (why shuffles have to stay within a row). A shuffle that names a zone of the other player as the new place returns, but does not deal the card there: it exchanges
the other player's zones (frame.hpp:331 takes row and player from the new place only). -/
theorem C82_shuffle_across_rows : ∃ f f' T, Reachable f ∧ f.step (.shuffle [⟨0, 0x4, 0, -1⟩] [⟨1, 0x4, 3, -1⟩] 1) = .ok f' ∧
    (tableOf f).Step (.shuffle [⟨0, 0x4, 0, -1⟩] [⟨1, 0x4, 3, -1⟩] 1) T ∧ tableOf f' ≠ T := by
  obtain ⟨f, hf⟩ : ∃ f, twoMonsters = .ok f := ⟨_, rfl⟩
  obtain ⟨f', hf'⟩ : ∃ f', f.step (.shuffle [⟨0, 0x4, 0, -1⟩] [⟨1, 0x4, 3, -1⟩] 1) = .ok f' := by
    cases hf; exact ⟨_, rfl⟩
  let k : ZoneKey := ⟨0, .monster, 0, by decide⟩
  let t : ZoneKey := ⟨1, .monster, 3, by decide⟩
  refine ⟨f, f', ⟨(view f.layout).deal id [(k, some t)], f.next⟩, ⟨_, hf⟩, hf', ⟨by simp, by decide, [(k, some t)], ?_, rfl⟩, ?_⟩
  · refine ⟨k, some t, [], rfl, ⟨⟨rfl, rfl, rfl⟩, .slot k, 0, .slot k (-1) (by decide), ?_⟩, ⟨rfl, rfl, rfl⟩, rfl⟩
    cases hf; decide
  · intro h
    have := congrArg (fun T => T.board (.slot k)) h
    cases hf; cases hf'
    revert this
    decide

/-! ## C83 -/

/-- The board with these values and this frame. -/
def boardOf (G : Game) (f : Frame) : PlainBoard :=
  ⟨f, ⟨G.chain⟩, ⟨G.turn⟩, ⟨G.turnPlayer⟩, fun i => ⟨G.lp i⟩, ⟨G.phase⟩, ⟨G.blocked⟩⟩

theorem boardOf_gameOf (b : PlainBoard) : boardOf (gameOf b) b.frame = b := rfl

theorem gameOf_boardOf (G : Game) (f : Frame) : gameOf (boardOf G f) = { G with table := tableOf f } := rfl

theorem onFrame_iff {b b' : PlainBoard} {ops : List FrameOp} :
    b.onFrame ops = .ok b' ↔ ∃ H f, some (gameOf b) = some H ∧ runOps b.frame ops = .ok f ∧ b' = boardOf H f := by
  simp only [DuelBoard.onFrame, bind_eq_ok, pure_eq_ok, Except.ok.injEq, Option.some.injEq]
  constructor
  · rintro ⟨f, h, rfl⟩; exact ⟨_, f, rfl, h, rfl⟩
  · rintro ⟨H, f, rfl, h, rfl⟩; exact ⟨f, h, rfl⟩

theorem inert_iff {b b' : PlainBoard} : (Except.ok b : Res PlainBoard) = .ok b' ↔ ∃ H f, some (gameOf b) = some H ∧ runOps b.frame [] = .ok f ∧ b' = boardOf H f := by
  simp only [Except.ok.injEq, runOps, Option.some.injEq]
  constructor
  · rintro rfl; exact ⟨_, _, rfl, rfl, rfl⟩
  · rintro ⟨H, f, rfl, rfl, rfl⟩; rfl

theorem beside_iff {b b' : PlainBoard} {H : Game} : (Except.ok (boardOf H b.frame) : Res PlainBoard) = .ok b' ↔
    ∃ H' f, some H = some H' ∧ runOps b.frame [] = .ok f ∧ b' = boardOf H' f := by
  simp only [Except.ok.injEq, runOps, Option.some.injEq]
  constructor
  · rintro rfl; exact ⟨_, _, rfl, rfl, rfl⟩
  · rintro ⟨H, f, rfl, rfl, rfl⟩; rfl

theorem lpAfter_eq (n : Nat) (c : LPChange) : DuelBoard.lpAfter n c = lpChanged n c := by
  cases c <;> simp only [DuelBoard.lpAfter, lpChanged] <;> split <;> omega

theorem parseEvent_iff {b b' : PlainBoard} {e : Event} : b.parseEvent e = .ok b' ↔
    ∃ H f, (gameOf b).beside e = some H ∧ runOps b.frame (callsOf e) = .ok f ∧ b' = boardOf H f := by
  cases e with
  | board e =>
    cases e with
    | unset => exact inert_iff
    | exchange e => exact onFrame_iff
    | state s =>
      cases hl : s.lps with
      | nil => simp [DuelBoard.parseEvent, DuelBoard.parseState, Game.beside, hl, orUb]
      | cons x r =>
        cases r with
        | nil => simp [DuelBoard.parseEvent, DuelBoard.parseState, Game.beside, hl, orUb]
        | cons y r =>
          have key : b.parseEvent (.board (.state s)) = DuelBoard.onFrame (boardOf { gameOf b with
              turn := if 0 ≤ s.turnCounter then s.turnCounter.toNat else b.turn.val
              lp := fun i => if i = 0 then x else y
              chain := s.chains } b.frame) (DuelBoard.stateOps s) := by
            have hlp : ∀ (v : Fin 2 → Plain Nat), (fun j : Fin 2 => if j = 1 then Plain.mk y else if j = 0 then ⟨x⟩ else v j) =
                fun i => ⟨if i = 0 then x else y⟩ := by
              intro v; funext j
              match j with
              | 0 => rfl
              | 1 => rfl
            simp only [DuelBoard.parseEvent, DuelBoard.parseState, hl, orUb, DuelBoard.setLp, Cell.set]
            show DuelBoard.onFrame _ _ = _
            by_cases ht : 0 ≤ s.turnCounter
            · simp only [if_pos ht, hlp, boardOf, gameOf]
            · simp only [if_neg ht, hlp, boardOf, gameOf]
          rw [key, onFrame_iff]
          simp only [Game.beside, hl]
          rfl
  | card r e => cases e <;> first | exact onFrame_iff | exact onFrame_iff
  | chainStack e =>
    cases e with
    | unset => exact inert_iff
    | push c => exact beside_iff (H := { gameOf b with chain := b.chainStack.val ++ [c] })
    | pop x =>
      simp only [DuelBoard.parseEvent, Game.beside, callsOf]
      by_cases h : b.chainStack.val = []
      · simp [gameOf, h, Cell.pop, guardUb]
      · have : (gameOf b).chain ≠ [] := h
        rw [if_neg this]
        have hl : b.chainStack.val.length ≠ 0 := fun e => h (List.eq_nil_of_length_eq_zero e)
        simp only [Cell.pop, guardUb, if_pos hl]
        exact beside_iff (H := { gameOf b with chain := b.chainStack.val.dropLast })
  | nextTurn con => exact beside_iff (H := { gameOf b with turn := (b.turn.val + 1) % 2 ^ 32, turnPlayer := con })
  | lp con c =>
    simp only [DuelBoard.parseEvent, Game.beside, callsOf]
    by_cases h0 : con = 0
    · have h1 : DuelBoard.lpIdx con = .ok 0 := lpIdx_eq_ok.mpr h0
      rw [h1, if_pos h0, ← beside_iff]
      simp only [bind_ok, Cell.get, Cell.set, DuelBoard.setLp, lpAfter_eq, boardOf, gameOf]
      rw [show (fun j : Fin 2 => if j = 0 then Plain.mk (lpChanged (b.lp 0).val c) else b.lp j) =
        fun i => ⟨if i = 0 then lpChanged (b.lp 0).val c else (b.lp i).val⟩ from funext fun j => by split <;> rfl]
      rfl
    · rw [if_neg h0]
      by_cases h0' : con = 1
      · have h1 : DuelBoard.lpIdx con = .ok 1 := lpIdx_eq_ok.mpr h0'
        rw [h1, if_pos h0', ← beside_iff]
        simp only [bind_ok, Cell.get, Cell.set, DuelBoard.setLp, lpAfter_eq, boardOf, gameOf]
        rw [show (fun j : Fin 2 => if j = 1 then Plain.mk (lpChanged (b.lp 1).val c) else b.lp j) =
          fun i => ⟨if i = 1 then lpChanged (b.lp 1).val c else (b.lp i).val⟩ from funext fun j => by split <;> rfl]
        rfl
      · rw [if_neg h0']
        simp only [bind_eq_ok, lpIdx_eq_ok]
        constructor
        · rintro ⟨i, hi, _⟩
          match i with
          | 0 => exact absurd hi h0
          | 1 => exact absurd hi h0'
        · rintro ⟨_, _, h, _⟩; cases h
  | nextPhase ph => exact beside_iff (H := { gameOf b with phase := ph })
  | pile r e => cases e <;> exact onFrame_iff
  | zoneBlock zs => exact beside_iff (H := { gameOf b with blocked := zs })
  | finish => exact inert_iff
  | metaInfo => exact inert_iff
  | result => exact inert_iff
  | unset => exact inert_iff

/-- **C83.** On every reachable board an event parses exactly when it can happen in the game, and the game goes on as told. -/
theorem C83_event (b : PlainBoard) (hr : ReachablePlain b) (e : Event) (ht : TidyEvent e) (G : Game) :
    (∃ b', b.parseEvent e = .ok b' ∧ gameOf b' = G) ↔ (gameOf b).Happens e G := by
  constructor
  · rintro ⟨b', h, rfl⟩
    obtain ⟨H, f, h1, h2, rfl⟩ := parseEvent_iff.mp h
    exact ⟨H, tableOf f, h1, (hr.inv.steps_iff _ ht _).mp ⟨f, h2, rfl⟩, rfl⟩
  · rintro ⟨H, T, h1, h2, rfl⟩
    obtain ⟨f, h3, rfl⟩ := (hr.inv.steps_iff _ ht _).mpr h2
    exact ⟨boardOf H f, parseEvent_iff.mpr ⟨H, f, h1, h3, rfl⟩, rfl⟩

theorem ReachablePlain.next {b b' : PlainBoard} {e : Event} (hr : ReachablePlain b) (h : b.parseEvent e = .ok b') : ReachablePlain b' := by
  obtain ⟨es, hes⟩ := hr
  refine ⟨es ++ [e], ?_⟩
  suffices hg : ∀ (es : List Event) (b0 : PlainBoard), b0.parseEvents es = .ok b → b0.parseEvents (es ++ [e]) = .ok b' from hg es _ hes
  intro es
  induction es with
  | nil => intro b0 h0; cases h0; simp only [List.nil_append, DuelBoard.parseEvents, h]; rfl
  | cons x es ih =>
    intro b0 h0
    simp only [DuelBoard.parseEvents, bind_eq_ok, List.cons_append] at h0 ⊢
    obtain ⟨b1, h1, h2⟩ := h0
    exact ⟨b1, h1, ih b1 h2⟩

/-- The same from any reachable board. -/
theorem story_iff (G : Game) : ∀ (es : List Event) (b : PlainBoard), (∀ e ∈ es, TidyEvent e) → ReachablePlain b →
    ((∃ b', b.parseEvents es = .ok b' ∧ gameOf b' = G) ↔ (gameOf b).Story es G) := by
  intro es
  induction es with
  | nil =>
    intro b _ _
    constructor
    · rintro ⟨b', h, rfl⟩; cases h; exact .nil _
    · intro h; cases h; exact ⟨b, rfl, rfl⟩
  | cons e es ih =>
    intro b ht hr
    have he := ht e (by simp)
    have hes : ∀ e ∈ es, TidyEvent e := fun x hx => ht x (by simp [hx])
    simp only [DuelBoard.parseEvents, bind_eq_ok]
    constructor
    · rintro ⟨b', ⟨b1, h1, h2⟩, h3⟩
      exact .cons ((C83_event b hr e he _).mp ⟨b1, h1, rfl⟩) ((ih b1 hes (hr.next h1)).mp ⟨b', h2, h3⟩)
    · intro h
      cases h with
      | cons h t =>
        obtain ⟨b1, h1, rfl⟩ := (C83_event b hr e he _).mpr h
        obtain ⟨b', h2, h3⟩ := (ih b1 hes (hr.next h1)).mpr t
        exact ⟨b', ⟨b1, h1, h2⟩, h3⟩

/-- **C83.** A sequence of events can be parsed by a new board exactly when it is a story that can be told, and the board shows how it ends. -/
theorem C83_story (es : List Event) (ht : ∀ e ∈ es, TidyEvent e) (G : Game) :
    (∃ b, PlainBoard.init.parseEvents es = .ok b ∧ gameOf b = G) ↔ Game.new.Story es G := by
  rw [story_iff G es PlainBoard.init ht ⟨[], rfl⟩, show gameOf PlainBoard.init = Game.new by
    simp only [gameOf, Game.new, show tableOf PlainBoard.init.frame = ⟨fun _ => [], 0⟩ from eq_tableOf.mpr ⟨funext view_empty, rfl⟩]
    rfl]

/-- A duel in small: cards are dealt, drawn, played and shuffled, life points are lost, the turn passes. -/
def smallDuel : List Event :=
  [.board (.state { lps := [8000, 8000], turnCounter := -1, add := [], resize := [⟨⟨0, 0x1, 0, -1⟩, 5⟩, ⟨⟨1, 0x1, 0, -1⟩, 5⟩], chains := [] }),
   .nextTurn 0, .pile 0 (.splice [⟨⟨0, 0x1, 3, -1⟩, 2, ⟨0, 0x2, 0, -1⟩, false⟩]),
   .card 0 (.move [⟨⟨0, 0x2, 0, -1⟩, ⟨0, 0x4, 0, -1⟩⟩]), .card 0 (.move [⟨⟨0, 0x2, 0, -1⟩, ⟨0, 0x4, 1, -1⟩⟩]),
   .card 0 (.shuffle [⟨0, 0x4, 0, -1⟩, ⟨0, 0x4, 1, -1⟩] [⟨0, 0x4, 1, -1⟩, ⟨0, 0x4, 0, -1⟩]),
   .lp 1 (.damage 1500), .nextTurn 1]

example : ∃ G, Game.new.Story smallDuel G ∧ G.lp 1 = 6500 ∧ G.turn = 2 ∧ G.turnPlayer = 1 ∧
    G.table.board (.pile ⟨0, .mainDeck⟩) = [0, 1, 2] ∧ G.table.board (.slot ⟨0, .monster, 0, by decide⟩) = [4] ∧
    G.table.board (.slot ⟨0, .monster, 1, by decide⟩) = [3] := by
  obtain ⟨b, hb⟩ : ∃ b, PlainBoard.init.parseEvents smallDuel = .ok b := ⟨_, rfl⟩
  refine ⟨gameOf b, (C83_story smallDuel ?_ _).mp ⟨b, hb, rfl⟩, ?_⟩
  · intro e he op hop
    simp only [smallDuel, List.mem_cons, List.not_mem_nil, or_false] at he
    rcases he with rfl | rfl | rfl | rfl | rfl | rfl | rfl | rfl
    all_goals
      simp [callsOf] at hop
      try (rcases hop with rfl | rfl | rfl <;> trivial)
      try (subst hop; trivial)
    subst hop
    exact ⟨0, .monster, by decide, by decide, by decide⟩
  · cases hb
    decide

/-- The last card of an empty hand cannot be played. -/
example : ∀ G, ¬ Game.new.Happens (.card 0 (.move [⟨⟨0, 0x2, 0, -1⟩, ⟨0, 0x4, 0, -1⟩⟩])) G := by
  rintro G ⟨H, T, _, h, _⟩
  cases h with
  | cons h _ =>
    obtain ⟨C1, i, C2, j, c, _, _, _, _, h, _⟩ := h
    simp [Game.new] at h

/-- **C83.** A client whose board can be undone sees the same story. -/
theorem C83_undoable (es : List Event) (ht : ∀ e ∈ es, TidyEvent e) (u : UndoBoard) (h : UndoBoard.init.parseEvents es = .ok u) :
    ∃ G, Game.new.Story es G ∧ view u.frame.base.layout = G.table.board ∧ u.chainStack.get = .ok G.chain ∧ u.turn.get = .ok G.turn ∧
      u.turnController.get = .ok G.turnPlayer ∧ (∀ i, (u.lp i).get = .ok (G.lp i)) ∧ u.phase.get = .ok G.phase ∧
      u.blockedZones.get = .ok G.blocked := by
  obtain ⟨p, h1, h2⟩ := C58_same_as_plain es u h
  exact ⟨gameOf p, (C83_story es ht _).mp ⟨p, h1, rfl⟩, by rw [h2.layout]; rfl, h2.chainStack, h2.turn, h2.turnController, h2.lp, h2.phase, h2.blockedZones⟩

end Ygo.Props
