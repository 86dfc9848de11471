import Verif.Spec.Parts
import Verif.Spec.System
import Verif.Spec.Table
import Verif.Model.ReleaseUndo
import Verif.Lemmas.UndoExact
import Verif.Props.CatchUp

/-!
# Events taken apart (C127)
-/

namespace Ygo.Props
open Ygo Ygo.Spec

section Forward
variable {F : Type} {V : Type → Type} [FrameLike F] [Cell V]

theorem runs_append (f : F) (xs ys : List FrameOp) : runOps f (xs ++ ys) = (runOps f xs).bind fun g => runOps g ys := by
  induction xs generalizing f with
  | nil => rfl
  | cons x xs ih =>
    simp only [List.cons_append, runOps]
    cases h : FrameLike.step f x with
    | error e => rfl
    | ok g => exact ih g

omit [Cell V] in
theorem onFrame_append (b : DuelBoard F V) (xs ys : List FrameOp) : b.onFrame (xs ++ ys) = (b.onFrame xs).bind fun c => c.onFrame ys := by
  simp only [DuelBoard.onFrame, runs_append]
  cases runOps b.frame xs <;> rfl

theorem parses_append (b : DuelBoard F V) (es es' : List Event) : b.parseEvents (es ++ es') = (b.parseEvents es).bind fun c => c.parseEvents es' := by
  induction es generalizing b with
  | nil => rfl
  | cons e es ih =>
    simp only [List.cons_append, DuelBoard.parseEvents]
    cases h : b.parseEvent e with
    | error x => rfl
    | ok c => exact ih c

theorem parses_one (b : DuelBoard F V) (e : Event) : b.parseEvents [e] = b.parseEvent e := by
  simp only [DuelBoard.parseEvents]
  cases b.parseEvent e <;> rfl

/-- One event for each operation. -/
theorem parses_singles {α : Type} (op : α → FrameOp) (ev : α → Event) (h : ∀ x (b : DuelBoard F V), b.parseEvent (ev x) = b.onFrame [op x]) (xs : List α)
    (b : DuelBoard F V) : b.parseEvents (xs.map ev) = b.onFrame (xs.map op) := by
  induction xs generalizing b with
  | nil => rfl
  | cons x xs ih =>
    rw [List.map_cons, List.map_cons, show ev x :: xs.map ev = [ev x] ++ xs.map ev from rfl, show op x :: xs.map op = [op x] ++ xs.map op from rfl, parses_append,
      onFrame_append, parses_one, h]
    cases b.onFrame [op x] with
    | error e => rfl
    | ok c => exact ih c

/-- A state is a state without cards, and then the cards. -/
theorem parse_state (b : DuelBoard F V) (s : BoardState) : b.parseState s =
    (b.parseState { s with add := [], resize := [] }).bind fun c => c.onFrame (s.add.map .add ++ DuelBoard.resizeOps s.resize) := by
  simp only [DuelBoard.parseState]
  cases h0 : s.lps[0]? with
  | none => rfl
  | some l0 =>
    cases h1 : s.lps[1]? with
    | none => rfl
    | some l1 =>
      exact onFrame_append (F := F) (V := V) _ [.clear] (s.add.map .add ++ DuelBoard.resizeOps s.resize)

/-- **C127.** An event with several operations does what the events with one operation do one after the other, whatever the board: the same board comes out, or the
same failure. -/
theorem C127_parts (b : DuelBoard F V) (e : Event) : b.parseEvents (parts e) = b.parseEvent e := by
  cases e with
  | board e =>
    cases e with
    | unset => exact parses_one b _
    | exchange e =>
      have h1 := parses_singles (F := F) (V := V) (fun r : ResizeOp => .resize r.place r.count) (fun r => .board (.exchange { con := e.con, resize := [r] })) (fun _ _ => rfl) e.resize
      have h2 := parses_singles (F := F) (V := V) FrameOp.remove (fun p => .board (.exchange { con := e.con, remove := [p] })) (fun _ _ => rfl) e.remove
      have h3 := parses_singles (F := F) (V := V) FrameOp.add (fun p => .board (.exchange { con := e.con, add := [p] })) (fun _ _ => rfl) e.add
      simp only [parts, parses_append, h1, h2, h3]
      simp only [DuelBoard.parseEvent, DuelBoard.exchangeOps, onFrame_append, DuelBoard.resizeOps]
    | state s =>
      have h1 := parses_singles (F := F) (V := V) (fun r : ResizeOp => .resize r.place r.count) (fun r => .board (.exchange { resize := [r] })) (fun _ _ => rfl) s.resize
      have h3 := parses_singles (F := F) (V := V) FrameOp.add (fun p => .board (.exchange { add := [p] })) (fun _ _ => rfl) s.add
      simp only [parts]
      rw [← List.singleton_append, parses_append, parses_one]
      simp only [parses_append, h1, h3]
      rw [DuelBoard.parseEvent, DuelBoard.parseEvent, parse_state b s]
      simp only [onFrame_append, DuelBoard.resizeOps]
  | card r e =>
    cases e with
    | unset => exact parses_one b _
    | add ps => exact parses_singles FrameOp.add (fun p => .card r (.add [p])) (fun _ _ => rfl) ps b
    | remove ps => exact parses_singles FrameOp.remove (fun p => .card r (.remove [p])) (fun _ _ => rfl) ps b
    | move os => exact parses_singles (fun o : PlacePair => .move o.fst o.snd) (fun o => .card r (.move [o])) (fun _ _ => rfl) os b
    | exchange os => exact parses_singles (fun o : PlacePair => .swap o.fst o.snd) (fun o => .card r (.exchange [o])) (fun _ _ => rfl) os b
    | shuffle prev cur => exact parses_one b _
  | pile r e =>
    cases e with
    | unset => exact parses_one b _
    | resize os => exact parses_one b _
    | exchange os => exact parses_singles (fun o : PlacePair => .pswap o.fst o.snd) (fun o => .pile r (.exchange [o])) (fun _ _ => rfl) os b
    | splice os => exact parses_singles (fun o : SpliceOp => .splice o.src o.count o.dst o.reverse) (fun o => .pile r (.splice [o])) (fun _ _ => rfl) os b
  | _ => exact parses_one b _

/-- **C127.** So it does not matter how operations are grouped into events: events with the same parts make the same of any board. -/
theorem C127_regroup (b : DuelBoard F V) (es es' : List Event) (h : es.flatMap parts = es'.flatMap parts) : b.parseEvents es = b.parseEvents es' := by
  have key : ∀ (es : List Event) (b : DuelBoard F V), b.parseEvents (es.flatMap parts) = b.parseEvents es := by
    intro es
    induction es with
    | nil => intro b; rfl
    | cons e es ih =>
      intro b
      rw [List.flatMap_cons, parses_append, C127_parts]
      simp only [DuelBoard.parseEvents]
      cases b.parseEvent e with
      | error x => rfl
      | ok c => exact ih c
  rw [← key es, ← key es', h]

end Forward

/-! ## Going back -/

theorem undoFrame_append (b : UndoBoard) (xs ys : List FrameOp) : b.undoFrame (xs ++ ys) = (b.undoFrame xs).bind fun c => c.undoFrame ys := by
  simp only [UndoBoard.undoFrame, undoOps_append]
  cases UndoBoard.undoOps b.frame xs <;> rfl

theorem undoes_append (b : UndoBoard) (es es' : List Event) : b.undoEvents (es ++ es') = (b.undoEvents es').bind fun c => c.undoEvents es := by
  induction es with
  | nil =>
    show b.undoEvents es' = (b.undoEvents es').bind fun c => .ok c
    cases b.undoEvents es' <;> rfl
  | cons e es ih =>
    simp only [List.cons_append, UndoBoard.undoEvents, ih]
    cases b.undoEvents es' <;> rfl

theorem undoes_one (b : UndoBoard) (e : Event) : b.undoEvents [e] = b.undoParseEvent e := rfl

theorem undoes_singles {α : Type} (op : α → FrameOp) (ev : α → Event) (h : ∀ x (b : UndoBoard), b.undoParseEvent (ev x) = b.undoFrame [op x]) (xs : List α)
    (b : UndoBoard) : b.undoEvents (xs.map ev) = b.undoFrame (xs.reverse.map op) := by
  induction xs with
  | nil => rfl
  | cons x xs ih =>
    rw [List.map_cons, List.reverse_cons, List.map_append, undoFrame_append]
    simp only [UndoBoard.undoEvents, ih]
    cases b.undoFrame (xs.reverse.map op) with
    | error e => rfl
    | ok c => exact h x c

/-- **C127.** Undoing an event with several operations does what undoing the events with one operation does, last one first. -/
theorem C127_undo (b : UndoBoard) (e : Event) : b.undoEvents (parts e) = b.undoParseEvent e := by
  cases e with
  | board e =>
    cases e with
    | unset => exact undoes_one b _
    | exchange e =>
      have h1 := undoes_singles (fun r : ResizeOp => .resize r.place r.count) (fun r => .board (.exchange { con := e.con, resize := [r] })) (fun _ _ => rfl) e.resize
      have h2 := undoes_singles FrameOp.remove (fun p => .board (.exchange { con := e.con, remove := [p] })) (fun _ _ => rfl) e.remove
      have h3 := undoes_singles FrameOp.add (fun p => .board (.exchange { con := e.con, add := [p] })) (fun _ _ => rfl) e.add
      simp only [parts, undoes_append, h1, h2, h3]
      simp only [UndoBoard.undoParseEvent, UndoBoard.exchangeUndo, undoFrame_append, DuelBoard.resizeOps]
      cases b.undoFrame (e.add.reverse.map .add) <;> rfl
    | state s =>
      have h1 := undoes_singles (fun r : ResizeOp => .resize r.place r.count) (fun r => .board (.exchange { resize := [r] })) (fun _ _ => rfl) s.resize
      have h3 := undoes_singles FrameOp.add (fun p => .board (.exchange { add := [p] })) (fun _ _ => rfl) s.add
      simp only [parts]
      rw [← List.singleton_append, undoes_append]
      simp only [undoes_append, undoes_one, h1, h3]
      simp only [UndoBoard.undoParseEvent, UndoBoard.undoState, UndoBoard.stateUndo, undoFrame_append, DuelBoard.resizeOps]
      cases b.undoFrame (s.resize.reverse.map fun r => .resize r.place r.count) with
      | error x => rfl
      | ok c => cases h : c.undoFrame (s.add.reverse.map .add) with
        | error x => simp only [Except.bind, h]; rfl
        | ok d => simp only [Except.bind, h]; rfl
  | card r e =>
    cases e with
    | unset => exact undoes_one b _
    | add ps => exact undoes_singles FrameOp.add (fun p => .card r (.add [p])) (fun _ _ => rfl) ps b
    | remove ps => exact undoes_singles FrameOp.remove (fun p => .card r (.remove [p])) (fun _ _ => rfl) ps b
    | move os => exact undoes_singles (fun o : PlacePair => .move o.fst o.snd) (fun o => .card r (.move [o])) (fun _ _ => rfl) os b
    | exchange os => exact undoes_singles (fun o : PlacePair => .swap o.fst o.snd) (fun o => .card r (.exchange [o])) (fun _ _ => rfl) os b
    | shuffle prev cur => exact undoes_one b _
  | pile r e =>
    cases e with
    | unset => exact undoes_one b _
    | resize os => exact undoes_one b _
    | exchange os => exact undoes_singles (fun o : PlacePair => .pswap o.fst o.snd) (fun o => .pile r (.exchange [o])) (fun _ _ => rfl) os b
    | splice os => exact undoes_singles (fun o : SpliceOp => .splice o.src o.count o.dst o.reverse) (fun o => .pile r (.splice [o])) (fun _ _ => rfl) os b
  | _ => exact undoes_one b _

/-- **C127.** So one can go forward over events grouped in one way and back over the same grouped in another. -/
theorem C127_regroup_undo (b : UndoBoard) (es es' : List Event) (h : es.flatMap parts = es'.flatMap parts) : b.undoEvents es = b.undoEvents es' := by
  have key : ∀ (es : List Event), b.undoEvents (es.flatMap parts) = b.undoEvents es := by
    intro es
    induction es with
    | nil => rfl
    | cons e es ih =>
      rw [List.flatMap_cons, undoes_append, ih]
      simp only [UndoBoard.undoEvents]
      cases b.undoEvents es with
      | error x => rfl
      | ok c => exact C127_undo c e
  rw [← key es, ← key es', h]

/-! ## Builds without asserts -/

/-- Not about life points. -/
def NotLp (e : Event) : Prop := ∀ con c, e ≠ .lp con c

theorem parts_notLp {e : Event} (h : NotLp e) : ∀ p ∈ parts e, NotLp p := by
  intro p hp con c
  rintro rfl
  cases e with
  | board e => cases e <;> simp [parts] at hp
  | card r e => cases e <;> simp [parts] at hp
  | pile r e => cases e <;> simp [parts] at hp
  | lp con c => exact h con c rfl
  | _ => simp [parts] at hp

theorem rawParse_same {b : RawBoard} {e : Event} (h : NotLp e) : RawBoard.parseEvent b e = DuelBoard.parseEvent b e := by
  cases e <;> first | rfl | exact absurd rfl (h _ _)

theorem rawParses_same : ∀ (es : List Event) (b : RawBoard), (∀ e ∈ es, NotLp e) → RawBoard.parseEvents b es = DuelBoard.parseEvents b es := by
  intro es
  induction es with
  | nil => intro b _; rfl
  | cons e es ih =>
    intro b h
    simp only [RawBoard.parseEvents, DuelBoard.parseEvents, rawParse_same (h e (by simp))]
    cases DuelBoard.parseEvent b e with
    | error x => rfl
    | ok c => exact ih c fun e he => h e (by simp [he])

theorem rawUndoParse_same {b : RawUndoBoard} {e : Event} (h : NotLp e) : RawUndoBoard.parseEvent b e = DuelBoard.parseEvent b e := by
  cases e <;> first | rfl | exact absurd rfl (h _ _)

theorem rawUndoParses_same : ∀ (es : List Event) (b : RawUndoBoard), (∀ e ∈ es, NotLp e) → RawUndoBoard.parseEvents b es = DuelBoard.parseEvents b es := by
  intro es
  induction es with
  | nil => intro b _; rfl
  | cons e es ih =>
    intro b h
    simp only [RawUndoBoard.parseEvents, DuelBoard.parseEvents, rawUndoParse_same (h e (by simp))]
    cases DuelBoard.parseEvent b e with
    | error x => rfl
    | ok c => exact ih c fun e he => h e (by simp [he])

/-- **C127.** The same in builds without asserts, where the same board comes out or the same is undefined. -/
theorem C127_release (b : RawBoard) (e : Event) : RawBoard.parseEvents b (parts e) = RawBoard.parseEvent b e := by
  by_cases h : NotLp e
  · rw [rawParses_same _ b (parts_notLp h), C127_parts, rawParse_same h]
  · have : ∃ con c, e = .lp con c := by
      by_contra hn
      exact h fun con c he => hn ⟨con, c, he⟩
    obtain ⟨con, c, rfl⟩ := this
    simp only [parts, RawBoard.parseEvents]
    cases RawBoard.parseEvent b (.lp con c) <;> rfl

/-- **C127.** And for boards that can be undone. -/
theorem C127_release_undoable (b : RawUndoBoard) (e : Event) : RawUndoBoard.parseEvents b (parts e) = RawUndoBoard.parseEvent b e := by
  by_cases h : NotLp e
  · rw [rawUndoParses_same _ b (parts_notLp h), C127_parts, rawUndoParse_same h]
  · have : ∃ con c, e = .lp con c := by
      by_contra hn
      exact h fun con c he => hn ⟨con, c, he⟩
    obtain ⟨con, c, rfl⟩ := this
    simp only [parts, RawUndoBoard.parseEvents]
    cases RawUndoBoard.parseEvent b (.lp con c) <;> rfl

/-! ## Whole messages -/

/-- **C127.** A message can be sent in parts: an event for each operation and at last what is told about the cards. Every client makes the same of it. -/
theorem C127_message (cache : Bool) (s : Client) (e : Event) (qs : List Query) :
    Client.follow cache s (((parts e).map fun p => ⟨.event p, []⟩) ++ [⟨.event .unset, qs⟩]) = Client.follow cache s [⟨.event e, qs⟩] := by
  have key : ∀ (es : List Event) (s : Client), Client.follow cache s (es.map fun p => ⟨.event p, []⟩) =
      (s.board.parseEvents es).bind fun b => .ok ⟨b, s.store⟩ := by
    intro es
    induction es with
    | nil => intro s; rfl
    | cons e es ih =>
      intro s
      simp only [List.map_cons, Client.follow, Msg.event?, DuelBoard.parseEvents]
      cases h : s.board.parseEvent e with
      | error x => rfl
      | ok b => exact ih ⟨b, s.store⟩
  rw [follow_append, key, C127_parts]
  simp only [Client.follow, Msg.event?]
  cases s.board.parseEvent e <;> rfl

/-! ## The parts are single -/

/-- **C127.** No part has more than one operation on the table. -/
theorem C127_single (e p : Event) (h : p ∈ parts e) : (callsOf p).length ≤ 1 := by
  cases e with
  | board e =>
    cases e with
    | unset => simp only [parts, List.mem_singleton] at h; subst h; simp [callsOf]
    | exchange e =>
      simp only [parts, List.mem_append, List.mem_map] at h
      rcases h with (⟨_, -, rfl⟩ | ⟨_, -, rfl⟩) | ⟨_, -, rfl⟩ <;> simp [callsOf]
    | state s =>
      simp only [parts, List.mem_cons, List.mem_append, List.mem_map] at h
      rcases h with rfl | ⟨_, -, rfl⟩ | ⟨_, -, rfl⟩ <;> simp [callsOf]
  | card r e =>
    cases e with
    | unset => simp only [parts, List.mem_singleton] at h; subst h; simp [callsOf]
    | shuffle prev cur => simp only [parts, List.mem_singleton] at h; subst h; simp [callsOf]
    | _ =>
      simp only [parts, List.mem_map] at h
      obtain ⟨_, -, rfl⟩ := h
      simp [callsOf]
  | pile r e =>
    cases e with
    | unset => simp only [parts, List.mem_singleton] at h; subst h; simp [callsOf]
    | resize os => simp only [parts, List.mem_singleton] at h; subst h; simp [callsOf]
    | _ =>
      simp only [parts, List.mem_map] at h
      obtain ⟨_, -, rfl⟩ := h
      simp [callsOf]
  | _ => simp only [parts, List.mem_singleton] at h; subst h; simp [callsOf]

/-- **C127.** Together they have the operations of the event, in order. -/
theorem C127_calls (e : Event) : (parts e).flatMap callsOf = callsOf e := by
  have key : ∀ {α : Type} (op : α → FrameOp) (ev : α → Event), (∀ x, callsOf (ev x) = [op x]) → ∀ xs : List α, (xs.map ev).flatMap callsOf = xs.map op := by
    intro α op ev h xs
    induction xs with
    | nil => rfl
    | cons x xs ih => rw [List.map_cons, List.flatMap_cons, h, ih]; rfl
  cases e with
  | board e =>
    cases e with
    | unset => rfl
    | exchange e =>
      simp only [parts, List.flatMap_append]
      rw [key (fun r : ResizeOp => .resize r.place r.count) _ fun _ => rfl, key FrameOp.remove _ fun _ => rfl, key FrameOp.add _ fun _ => rfl]
      rfl
    | state s =>
      simp only [parts, List.flatMap_append, List.flatMap_cons]
      rw [key (fun r : ResizeOp => .resize r.place r.count) _ fun _ => rfl, key FrameOp.add _ fun _ => rfl]
      rfl
  | card r e =>
    cases e with
    | unset => rfl
    | add ps => exact key FrameOp.add _ (fun _ => rfl) ps
    | remove ps => exact key FrameOp.remove _ (fun _ => rfl) ps
    | move os => exact key (fun o : PlacePair => .move o.fst o.snd) _ (fun _ => rfl) os
    | exchange os => exact key (fun o : PlacePair => .swap o.fst o.snd) _ (fun _ => rfl) os
    | shuffle prev cur => rfl
  | pile r e =>
    cases e with
    | unset => rfl
    | resize os => rfl
    | exchange os => exact key (fun o : PlacePair => .pswap o.fst o.snd) _ (fun _ => rfl) os
    | splice os => exact key (fun o : SpliceOp => .splice o.src o.count o.dst o.reverse) _ (fun _ => rfl) os
  | _ => rfl

/-! ## Cases -/

/-- A monster summoned from the extra deck with two materials from the field, in one event. -/
def summonInOne : Event := .card 0 (.move [⟨⟨0, Loc.monsterZone, 0, -1⟩, ⟨0, Loc.monsterZone, 2, 0⟩⟩, ⟨⟨0, Loc.monsterZone, 1, -1⟩, ⟨0, Loc.monsterZone, 2, 1⟩⟩,
  ⟨⟨0, Loc.extraDeck, 0, -1⟩, ⟨0, Loc.monsterZone, 2, -1⟩⟩])

/-- It has three parts; they do what it does, and undoing them undoes it. -/
example : (parts summonInOne).length = 3 ∧
    ∀ u v : UndoBoard, u.parseEvents [.board (.state { lps := [8000, 8000], add := [⟨0, Loc.monsterZone, 0, -1⟩, ⟨0, Loc.monsterZone, 1, -1⟩, ⟨0, Loc.extraDeck, 0, -1⟩] }), summonInOne] = .ok v →
      v.undoEvents (parts summonInOne) = v.undoParseEvent summonInOne := ⟨rfl, fun _ v _ => C127_undo v _⟩

/-- The board of the case exists: materials and monster are where they belong, after the event as after its parts. -/
example : ∀ es ∈ [[summonInOne], parts summonInOne],
    (DuelBoard.parseEvents PlainBoard.init (.board (.state { lps := [8000, 8000], add := [⟨0, Loc.monsterZone, 0, -1⟩, ⟨0, Loc.monsterZone, 1, -1⟩, ⟨0, Loc.extraDeck, 0, -1⟩] }) :: es)).toOption.map
      (fun b => (view b.frame.layout (.slot ⟨0, .monster, 2, by decide⟩), view b.frame.layout (.mats ⟨0, .monster, 2, by decide⟩))) = some ([2], [0, 1]) := by
  decide +kernel

/-- The order of the parts matters: a card cannot go on before it has come. -/
example : (DuelBoard.parseEvents PlainBoard.init [.board (.state { lps := [8000, 8000], add := [⟨0, Loc.monsterZone, 0, -1⟩] }),
      .card 0 (.move [⟨⟨0, Loc.monsterZone, 0, -1⟩, ⟨0, Loc.monsterZone, 1, -1⟩⟩, ⟨⟨0, Loc.monsterZone, 1, -1⟩, ⟨0, Loc.graveyard, 0, -1⟩⟩])]).toOption.isSome = true ∧
    (DuelBoard.parseEvents PlainBoard.init [.board (.state { lps := [8000, 8000], add := [⟨0, Loc.monsterZone, 0, -1⟩] }),
      .card 0 (.move [⟨⟨0, Loc.monsterZone, 1, -1⟩, ⟨0, Loc.graveyard, 0, -1⟩⟩, ⟨⟨0, Loc.monsterZone, 0, -1⟩, ⟨0, Loc.monsterZone, 1, -1⟩⟩])]).toOption.isSome = false := by
  refine ⟨?_, ?_⟩ <;> decide +kernel

end Ygo.Props
