import Verif.Spec.Screen
import Verif.Lemmas.Screen

namespace Ygo.Props
open Ygo Ygo.Spec

set_option linter.unusedSimpArgs false

/-- **C109.** Clients that show the same go on showing the same, whatever they got before and whatever they get from now on, until both fail in the
same way. Neither how they name their cards matters nor what they know about cards that are gone, nor whether they look values up first. -/
theorem C109_shown (cache cache' : Bool) (ms0 ms1 ms : List Msg) (s s' : Client) (h : Client.follow cache Client.init ms0 = .ok s)
    (h' : Client.follow cache' Client.init ms1 = .ok s') (hl : LookSame s s') :
    Together LookSame (Client.follow cache s ms) (Client.follow cache' s' ms) :=
  (follow_look (follow_sound .init h) (follow_sound .init h') hl cache cache' ms).mono fun _ _ _ _ h => h.1

/-- What is known about a card that is told of does not depend on anything else: values that are given replace what was known, and everything else stays. -/
theorem C109_told (cache : Bool) (l : Layout) (st : CardId → Card Plain) (q : Query) (C : Container) (i : Nat) (x : CardId) (ha : At q.place C i)
    (hx : (view l C)[i]? = some x) : ∃ n, parseQuery cache l st q = .ok (n, fun y => if y = x then (st x).told q.data else st y) :=
  parseQuery_told ha hx

/-- Clients that show something else are told apart before anything more is sent: no coarser relation would do. -/
theorem C109_coarsest (R : Client → Client → Prop)
    (h : ∀ s s' ms, R s s' → Together LookSame (Client.follow false s ms) (Client.follow false s' ms)) (s s' : Client) (hr : R s s') : LookSame s s' :=
  h s s' [] hr

/-! ## Not vacuous -/

/-- Decks of one and two cards and a monster, made in different orders; one of the clients also had a card that it lost again after hearing about it. -/
def maker0 : List Msg :=
  [{ body := .event (.board (.state { lps := [7, 9], add := [⟨0, Loc.monsterZone, 2, -1⟩], resize := [⟨⟨0, Loc.mainDeck, 0, -1⟩, 1⟩, ⟨⟨1, Loc.mainDeck, 0, -1⟩, 2⟩] })) }]

def maker1 : List Msg :=
  [{ body := .event (.card 0 (.add [⟨1, Loc.hand, 0, -1⟩])), queries := [⟨⟨1, Loc.hand, 0, -1⟩, QueryData.empty.setSingle .code (5 : Nat)⟩] },
   { body := .event (.card 0 (.remove [⟨1, Loc.hand, 0, -1⟩])) },
   { body := .event (.board (.exchange { con := 0, resize := [⟨⟨1, Loc.mainDeck, 0, -1⟩, 2⟩, ⟨⟨0, Loc.mainDeck, 0, -1⟩, 1⟩] })) },
   { body := .event (.card 0 (.add [⟨0, Loc.monsterZone, 2, -1⟩])) },
   { body := .event (.lp 0 (.become 7)) },
   { body := .event (.lp 1 (.become 9)) }]

def shown0 : Res Client := Client.follow true Client.init maker0
def shown1 : Res Client := Client.follow false Client.init maker1

/-- They do name their cards differently. -/
example : (shown0.toOption.map fun s => placed (view s.board.frame.layout)) = some [1, 2, 3, 0] ∧
    (shown1.toOption.map fun s => placed (view s.board.frame.layout)) = some [3, 1, 2, 4] := by
  decide +kernel

/-- They look the same. -/
theorem shown_same : match shown0, shown1 with
    | .ok s, .ok s' => LookSame s s'
    | _, _ => False := by
  have e : (match shown0, shown1 with
    | .ok s, .ok s' => (containers.all fun C => (view s.board.frame.layout C).length == (view s'.board.frame.layout C).length) &&
        placed (view s.board.frame.layout) == [1, 2, 3, 0] && placed (view s'.board.frame.layout) == [3, 1, 2, 4] && s.board.lp 0 == s'.board.lp 0 &&
        s.board.lp 1 == s'.board.lp 1
    | _, _ => false) = true := by decide +kernel
  have d : (match shown0, shown1 with
    | .ok s, .ok s' => (∀ x ∈ [1, 2, 3, 0], s.store x = BasicContext.newCard) ∧ ∀ x ∈ [3, 1, 2, 4], s'.store x = BasicContext.newCard
    | _, _ => False) := by
    constructor
    · intro x hx
      simp only [List.mem_cons, List.not_mem_nil, or_false] at hx
      rcases hx with rfl | rfl | rfl | rfl <;> rfl
    · intro x hx
      simp only [List.mem_cons, List.not_mem_nil, or_false] at hx
      rcases hx with rfl | rfl | rfl | rfl <;> rfl
  have o : (match shown0, shown1 with
    | .ok s, .ok s' => s.board.chainStack = s'.board.chainStack ∧ s.board.turn = s'.board.turn ∧ s.board.turnController = s'.board.turnController ∧
        s.board.phase = s'.board.phase ∧ s.board.blockedZones = s'.board.blockedZones
    | _, _ => False) := ⟨rfl, rfl, rfl, rfl, rfl⟩
  revert e d o
  cases shown0 with
  | error x => exact fun h _ _ => nomatch h
  | ok s =>
    cases shown1 with
    | error x => exact fun h _ _ => nomatch h
    | ok s' =>
      simp only [Bool.and_eq_true, beq_iff_eq, List.all_eq_true]
      rintro ⟨⟨⟨⟨h1, h2⟩, h3⟩, h4⟩, h5⟩ ⟨d1, d2⟩ ⟨o1, o2, o3, o4, o5⟩
      refine ⟨funext fun C => ?_, o1, o2, o3, funext fun i => ?_, o4, o5⟩
      · refine List.ext_getElem (by simpa [Client.screen] using h1 C (mem_containers C)) fun i hi hi' => ?_
        simp only [Client.screen, List.length_map] at hi hi'
        simp only [Client.screen, List.getElem_map]
        rw [d1 _ (h2 ▸ mem_placed.mpr ⟨C, List.getElem_mem hi⟩), d2 _ (h3 ▸ mem_placed.mpr ⟨C, List.getElem_mem hi'⟩)]
      · match i with
        | 0 => exact h4
        | 1 => exact h5

/-- So they go on looking the same, whatever they get. -/
example : ∃ s s', shown0 = .ok s ∧ shown1 = .ok s' ∧ ∀ ms, Together LookSame (Client.follow true s ms) (Client.follow false s' ms) := by
  have h := shown_same
  cases h0 : shown0 with
  | error x => rw [h0] at h; exact h.elim
  | ok s =>
    cases h1 : shown1 with
    | error x => rw [h0, h1] at h; exact h.elim
    | ok s' =>
      rw [h0, h1] at h
      exact ⟨s, s', rfl, rfl, fun ms => C109_shown true false maker0 maker1 ms s s' h0 h1 h⟩

end Ygo.Props
