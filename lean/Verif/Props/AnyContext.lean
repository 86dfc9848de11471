import Verif.Lemmas.AnyContext

namespace Ygo.Props
open Ygo Ygo.Spec

set_option linter.unusedSimpArgs false

variable {C D : Type} [EncodeContext C] [EncodeContext D]

/-- **C108.** Whatever the buffer, `encode_one` fails in the same way or reports the same with any two contexts that answer alike, and
leaves contexts that answer alike. -/
theorem C108_any_context (R : C → D → Prop) (hR : AnswerAlike R) (c : C) (d : D) (h : R c d) (buf : List UInt8) :
    Together (fun x y => x.1 = y.1 ∧ R x.2 y.2) (encodeOne c buf) (encodeOne d buf) := encodeOne_alike hR h buf

/-- **C108.** So do servers for whole histories, if their contexts still answer alike after following a message. -/
theorem C108_histories (R : C → D → Prop) (hR : AnswerAlike R) (parse : C → Msg → Res C) (parse' : D → Msg → Res D)
    (hp : ∀ c d, R c d → ∀ m, Together R (parse c m) (parse' d m)) (c : C) (d : D) (h : R c d) (bufs : List (List UInt8)) :
    Together (fun x y => x.1 = y.1 ∧ R x.2 y.2) (feedWith parse c bufs) (feedWith parse' d bufs) := by
  induction bufs generalizing c d with
  | nil => exact ⟨rfl, h⟩
  | cons b bs ih =>
    simp only [feedWith]
    refine (encodeOne_alike hR h b).bind ?_
    rintro ⟨r, c1⟩ ⟨r', d1⟩ - - ⟨hr, h1⟩
    simp only at hr h1
    subst hr
    have rest : ∀ c2 d2, R c2 d2 → Together (fun x y => x.1 = y.1 ∧ R x.2 y.2)
        (feedWith parse c2 bs >>= fun x => Except.ok (r :: x.1, x.2)) (feedWith parse' d2 bs >>= fun x => Except.ok (r :: x.1, x.2)) := by
      intro c2 d2 h2
      refine (ih c2 d2 h2).bind ?_
      rintro ⟨rs, c3⟩ ⟨rs', d3⟩ - - ⟨h3, h4⟩
      exact ⟨congrArg (r :: ·) h3, h4⟩
    cases r.msg with
    | none => exact rest _ _ h1
    | some m => exact (hp _ _ h1 m).bind fun c2 d2 _ _ h2 => rest c2 d2 h2

/-- **C108.** A buffer that does not begin with one of seven kinds is encoded alike with any two contexts, which stay as they are. -/
theorem C108_no_questions (c : C) (d : D) (b : UInt8) (more : List UInt8) (hb : b.toNat ∉ consulting) :
    Together (fun x y => x.1 = y.1 ∧ x.2 = c ∧ y.2 = d) (encodeOne c (b :: more)) (encodeOne d (b :: more)) := by
  have key : Alongside (NextTo fun c' d' => c' = c ∧ d' = d) (match Kind.ofByte b.toNat with | some k => encodeCase c k | none => pure ({}, c))
      (match Kind.ofByte b.toNat with | some k => encodeCase d k | none => pure ({}, d)) := by
    cases hk : Kind.ofByte b.toNat with
    | none => exact Alongside.pure ⟨rfl, rfl, rfl⟩
    | some k =>
      refine encodeCase_alone c d k fun hm => hb ?_
      revert hk hm
      generalize b.toNat = n
      intro hk hm
      have hf : ∃ e ∈ Kind.table, e.1 = n ∧ e.2 = k := by
        simp only [Kind.ofByte, Option.map_eq_some_iff] at hk
        obtain ⟨e, he, h2⟩ := hk
        exact ⟨e, List.mem_of_find?_eq_some he, by simpa using List.find?_some he, h2⟩
      obtain ⟨e, he, rfl, rfl⟩ := hf
      revert e
      decide
  have h1 : ∀ {E : Type} [EncodeContext E] (e : E), encodeBody e (b :: more) =
      (match Kind.ofByte b.toNat with | some k => encodeCase e k | none => pure ({}, e)) more := by
    intro E _ e
    rw [encodeBody, P.bind_run]
    have : P.read 1 (b :: more) = .ok (b.toNat, more) := by simp [P.read, P.leVal]
    rw [this]
    rfl
  have := key more
  unfold encodeOne
  rw [h1 c, h1 d]
  revert this
  generalize (match Kind.ofByte b.toNat with | some k => encodeCase c k | none => pure ({}, c)) more = x
  generalize (match Kind.ofByte b.toNat with | some k => encodeCase d k | none => pure ({}, d)) more = y
  cases x with
  | error e =>
    cases y with
    | error e' => exact id
    | ok y => exact False.elim
  | ok x =>
    cases y with
    | error e' => exact False.elim
    | ok y =>
      obtain ⟨⟨o, c'⟩, r⟩ := x
      obtain ⟨⟨o', d'⟩, r'⟩ := y
      rintro ⟨⟨rfl, hr⟩, rfl⟩
      exact ⟨rfl, hr⟩

/-- Two contexts without a board. -/
def tallyA : Tally := ⟨fun _ _ => .ok 3, fun _ => .ok true, some 7, fun _ => none, []⟩
def tallyB : Tally := ⟨fun _ _ => .ok 4, fun _ => .ok false, some 8, fun _ => none, []⟩

/-- Buffers that begin with each of the seven kinds: player 0 wins; graveyard and deck of player 0 are exchanged; decks are turned over;
the top of the deck of player 0; the card in the first monster zone of player 0 goes to the graveyard; player 0 draws a card; the match is won. -/
def sevenBuffers : List (List UInt8) :=
  [[5, 0, 1], [35, 0, 0, 0, 0, 0, 1, 0, 0, 0, 0], [37], [38, 0, 0, 0, 0, 0, 0, 0, 0, 0, 0, 0, 0, 0],
   [50, 0, 0, 0, 0, 0, 4, 0, 0, 0, 0, 0, 0, 0, 0, 0, 16, 0, 0, 0, 0, 0, 0, 0, 0, 0, 0, 0, 0],
   [90, 0, 1, 0, 0, 0, 0, 0, 0, 0, 0, 0, 0, 0], [170, 9, 0, 0, 0]]

/-- The event and some of what the context notes: the reason for winning the match, if it is new, and where the card now first in the
graveyard of player 0 was. -/
def told (t : Tally) (buf : List UInt8) : Option (Option Event × Option Nat × Option Place) :=
  match encodeOne t buf with
  | .ok (r, t') => some (r.msg.bind Msg.event?, if t'.reason = t.reason then none else t'.reason, t'.left ⟨0, 16, 0, -1⟩)
  | .error _ => none

/-- **C108.** Each of the seven kinds does need the context: there are buffers for which another context leads to another event or
another note, or a note is taken at all. -/
theorem C108_needed : sevenBuffers.map (fun b => b.head?.map (·.toNat)) = consulting.map some ∧
    (∀ b ∈ sevenBuffers, (told tallyA b).isSome ∧ (told tallyB b).isSome ∧
      (told tallyA b ≠ told tallyB b ∨ (told tallyA b).bind (·.2.1) = some 9)) := by
  decide +kernel

/-- What is asked of a server's board and its notes. -/
def tallyOf (c : BasicContext) : Tally :=
  { piles := EncodeContext.pileSize c, mats := EncodeContext.hasXyzMat c, reason := c.matchWinReason, left := c.left, deferred := c.deferred }

theorem tallyOf_alike : AnswerAlike fun (c : BasicContext) (t : Tally) => t = tallyOf c := by
  constructor <;> rintro c _ rfl <;> intros <;> rfl

/-- **C108.** A server that has written down the sizes of piles and the zones with materials reports what one with the whole board does. -/
theorem C108_tally (c : BasicContext) (buf : List UInt8) :
    encodeOne (tallyOf c) buf = (encodeOne c buf).map fun x => (x.1, tallyOf x.2) := by
  have := C108_any_context _ tallyOf_alike c (tallyOf c) rfl buf
  revert this
  cases encodeOne c buf with
  | error e =>
    cases encodeOne (tallyOf c) buf with
    | error e' => rintro ⟨⟩; rfl
    | ok y => exact False.elim
  | ok x =>
    cases encodeOne (tallyOf c) buf with
    | error e' => exact False.elim
    | ok y =>
      obtain ⟨r, t⟩ := y
      rintro ⟨rfl, rfl⟩
      rfl

/-- Not every pair of contexts answers alike. -/
example : ¬ AnswerAlike fun (_ _ : Tally) => True := fun h => by
  have := h.pileSize tallyA tallyB trivial 0 Loc.mainDeck (.inl rfl)
  cases this

/-- A context that also counts how often it was told something answers like one that does not. -/
structure CountingTally where
  tally : Tally
  calls : Nat

instance : EncodeContext CountingTally where
  pileSize c := EncodeContext.pileSize c.tally
  getMatchWinReason c := EncodeContext.getMatchWinReason c.tally
  hasXyzMat c := EncodeContext.hasXyzMat c.tally
  getXyzLeft c := EncodeContext.getXyzLeft c.tally
  matchWinReason c n := ⟨EncodeContext.matchWinReason c.tally n, c.calls + 1⟩
  xyzMatDefer c p := ⟨EncodeContext.xyzMatDefer c.tally p, c.calls + 1⟩
  takeDeferredXyzMat c := ((EncodeContext.takeDeferredXyzMat c.tally).1, ⟨(EncodeContext.takeDeferredXyzMat c.tally).2, c.calls + 1⟩)
  xyzLeft c p q := ⟨EncodeContext.xyzLeft c.tally p q, c.calls + 1⟩

theorem counting_alike : AnswerAlike fun (c : CountingTally) (t : Tally) => c.tally = t := by
  constructor <;> rintro c _ rfl <;> intros <;> rfl

/-- They report the same for the seven buffers one after the other, and one was told something twice. -/
example : Together (fun x y => x.1 = y.1 ∧ x.2.tally = y.2) (feedWith (fun c _ => .ok c) (⟨tallyA, 0⟩ : CountingTally) sevenBuffers)
    (feedWith (fun c _ => .ok c) tallyA sevenBuffers) :=
  C108_histories _ counting_alike (fun c _ => .ok c) (fun c _ => .ok c) (fun _ _ h _ => h) _ _ rfl _
example : ((feedWith (fun c _ => .ok c) (⟨tallyA, 0⟩ : CountingTally) sevenBuffers).toOption.map fun x => (x.1.length, x.2.calls)) = some (7, 2) := by
  decide +kernel

end Ygo.Props
