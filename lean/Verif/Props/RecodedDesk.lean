import Verif.Spec.RecodedDesk
import Verif.Props.Recoded
import Verif.Props.UndoQuery

/-! C138 for clients that go back and forth. -/

namespace Ygo.Props
open Ygo Ygo.Spec

variable (f : Recoding)

theorem takeSingles_recoded (report : Nat) (d : QueryData) (gs : List QField) (c : Card Undoable) :
    takeSingles report (d.recoded f) gs (c.recoded f) = (takeSingles report d gs c).map (Card.recoded f) := by
  induction gs generalizing c with
  | nil => rfl
  | cons g gs ih =>
    have e : ((d.recoded f).single g).isSome = (d.single g).isSome := by simp [QueryData.recoded]
    simp only [takeSingles, e]
    split
    · have u : ((c.recoded f).single g).undo = ((c.single g).undo).map (Inside.map (recodedVal f g)) := by
        simp only [Undoable.undo, Card.recoded, Inside.map, massert]
        by_cases h0 : (c.single g).current = 0 <;> simp only [h0, ne_eq, not_true_eq_false, not_false_eq_true, if_true, if_false] <;> rfl
      rw [u]
      cases hu : (c.single g).undo with
      | error x => rfl
      | ok v =>
        show takeSingles report (d.recoded f) gs ((c.recoded f).setSingle g (Inside.map (recodedVal f g) v)) = _
        rw [recoded_setSingle, ih]
        rfl
    · exact ih c

theorem takeData_recoded (report : Nat) (d : QueryData) (c : Card Undoable) :
    takeData report (d.recoded f) (c.recoded f) = (takeData report d c).map (Card.recoded f) := by
  simp only [takeData, takeSingles_recoded]
  cases takeSingles report d QField.all c with
  | error x => rfl
  | ok c =>
    show (takeList d.counters.isSome c.counters >>= _) = Except.map _ (takeList d.counters.isSome c.counters >>= _)
    cases takeList d.counters.isSome c.counters with
    | error x => rfl
    | ok a =>
      show (takeList d.targets.isSome c.targets >>= _) = Except.map _ (takeList d.targets.isSome c.targets >>= _)
      cases takeList d.targets.isSome c.targets <;> rfl

theorem deskParse_recoded (k : Desk) (n : Note) :
    (k.recoded f).parse (n.recoded f) = (k.parse n).map fun x => (x.1, x.2.recoded f) := by
  cases n with
  | event e =>
    show (k.board.parseEvent e >>= _) = Except.map _ (k.board.parseEvent e >>= _)
    cases k.board.parseEvent e <;> rfl
  | query c q =>
    simp only [Desk.parse, Note.recoded, Desk.recoded, parseQuery_recoded]
    cases parseQuery c k.board.frame.base.layout k.store q <;> rfl

theorem deskUndo_recoded (k : Desk) (r : Nat) (n : Note) : (k.recoded f).undo r (n.recoded f) = (k.undo r n).map (Desk.recoded f) := by
  cases n with
  | event e =>
    show (k.board.undoParseEvent e >>= _) = Except.map _ (k.board.undoParseEvent e >>= _)
    cases k.board.undoParseEvent e <;> rfl
  | query c q =>
    show (k.board.frame.base.layout.card q.place >>= _) = Except.map _ (k.board.frame.base.layout.card q.place >>= _)
    cases k.board.frame.base.layout.card q.place with
    | error x => rfl
    | ok y =>
      show (takeData r (q.data.recoded f) ((k.store y).recoded f) >>= _) = Except.map _ (takeData r q.data (k.store y) >>= _)
      rw [takeData_recoded]
      cases takeData r q.data (k.store y) with
      | error x => rfl
      | ok z =>
        show Except.ok _ = Except.ok _
        simp only [Desk.recoded, Except.ok.injEq, Desk.mk.injEq, true_and]
        funext x
        split <;> rfl

/-- **C138.** A client that goes back and forth over messages about other cards, in any way and from any state, gets as far as with these
cards, keeps the same reports, and shows the same with other cards; and so it does after going back or forth again. -/
theorem C138_desks (ns : List Note) (k : Desk) (reports : List Nat) (ms : List Move) :
    Desk.scrub (ns.map (Note.recoded f)) (k.recoded f) reports ms = (Desk.scrub ns k reports ms).map fun x => (x.1.recoded f, x.2) := by
  induction ms generalizing k reports with
  | nil => rfl
  | cons m ms ih =>
    cases m with
    | forward =>
      simp only [Desk.scrub, List.getElem?_map]
      cases ns[reports.length]? with
      | none => exact ih k reports
      | some n =>
        simp only [Option.map_some, deskParse_recoded]
        cases k.parse n with
        | error x => rfl
        | ok x => exact ih x.2 (x.1 :: reports)
    | backward =>
      cases reports with
      | nil => exact ih k []
      | cons r rs =>
        simp only [Desk.scrub, List.getElem?_map]
        cases ns[rs.length]? with
        | none => exact ih k (r :: rs)
        | some n =>
          simp only [Option.map_some, deskUndo_recoded]
          cases k.undo r n with
          | error x => rfl
          | ok x => exact ih x rs

/-- Code 7 becomes 9, and the other way round. -/
def sevenForNine : Recoding where
  of v := if v = 7 then 9 else if v = 9 then 7 else v
  injective a b h := by
    split at h <;> split at h <;> (try split at h) <;> (try split at h) <;> simp_all
  zero := rfl

/-- The reports and codes after these moves in the duel of `demoDesk` with other cards. -/
def demoRecoded (ms : List Move) : Res (List Nat × List Nat) := do
  let (k, rs) ← Desk.scrub (demoNotes.map (Note.recoded sevenForNine)) ⟨UndoBoard.init, fun _ => newUndoable⟩ [] ms
  return (rs, ← (placed (view k.board.frame.base.layout)).mapM fun c => ((k.store c).single .code).get)

example : demoRecoded (List.replicate 6 .forward) = .ok ([0, 0, 0, 1, 0, 0], [0, 0, 7]) := by decide
example : demoRecoded (List.replicate 6 .forward ++ List.replicate 5 .backward ++ List.replicate 4 .forward) =
    .ok ([0, 0, 1, 0, 0], [0, 0, 9]) := by decide

end Ygo.Props
