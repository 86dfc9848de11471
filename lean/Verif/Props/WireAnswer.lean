import Verif.Spec.WireAnswer
import Verif.Props.Dialog
import Verif.Props.Network
import Verif.Props.Size
import Verif.Props.Hostile
import Verif.Props.ReleaseServer

/-!
# Questions and answers over the wire (C99)
-/

set_option linter.unusedSimpArgs false

namespace Ygo.Pb
open Ygo.Spec Obj

theorem size_anIndexes (vs : List Nat) : size .anIndexes (setIndexes vs) ≤ 20 + 10 * vs.length := by sized [setIndexes]
instance {vs : List Nat} : Le (size .anIndexes (setIndexes vs)) (20 + 10 * vs.length) := ⟨size_anIndexes _⟩
instance {ps : List Place} : Le (size .anSelectZone (setPlaces ps)) (100 * ps.length) := ⟨size_places rfl _⟩
theorem size_anAction (a : IdleAction) (i : Nat) : size .anSelectIdleCardAction (with_ [(1, int (setAction a)), (2, nat i)]) ≤ 40 := by sized []
instance {a : IdleAction} {i : Nat} : Le (size .anSelectIdleCardAction (with_ [(1, int (setAction a)), (2, nat i)])) 40 := ⟨size_anAction _ _⟩
theorem size_anCounter (v : Nat × Nat) : size .anSelectCounterPair (with_ [(1, nat v.1), (2, nat v.2)]) ≤ 40 := by sized []
instance {v : Nat × Nat} : Le (size .anSelectCounterPair (with_ [(1, nat v.1), (2, nat v.2)])) 40 := ⟨size_anCounter _⟩
theorem size_anCounters (vs : List (Nat × Nat)) :
    size .anSelectCounter (with_ [(1, objs (fun v : Nat × Nat => with_ [(1, nat v.1), (2, nat v.2)]) vs)]) ≤ 60 * vs.length := by sized []
instance {vs : List (Nat × Nat)} : Le (size .anSelectCounter (with_ [(1, objs (fun v : Nat × Nat => with_ [(1, nat v.1), (2, nat v.2)]) vs)]))
    (60 * vs.length) := ⟨size_anCounters _⟩

theorem size_anSelectCard (a : AnswerCard) : size .anSelectCard (setAnswerCard a) ≤ 40 + 10 * listed (.selectCard a) := by
  cases a <;> (dsimp only [listed]; sized [setAnswerCard])
instance {a : AnswerCard} : Le (size .anSelectCard (setAnswerCard a)) (40 + 10 * listed (.selectCard a)) := ⟨size_anSelectCard _⟩
theorem size_anSort (a : AnswerSort) : size .anSort (setAnswerSort a) ≤ 40 + 10 * listed (.sort a) := by
  cases a <;> (dsimp only [listed]; sized [setAnswerSort])
instance {a : AnswerSort} : Le (size .anSort (setAnswerSort a)) (40 + 10 * listed (.sort a)) := ⟨size_anSort _⟩
theorem size_anSelectIdle (a : AnswerIdle) : size .anSelectIdle (setAnswerIdle a) ≤ 60 := by cases a <;> sized [setAnswerIdle]
instance {a : AnswerIdle} : Le (size .anSelectIdle (setAnswerIdle a)) 60 := ⟨size_anSelectIdle _⟩
theorem size_anSelectToChain (a : AnswerChain) : size .anSelectToChain (setAnswerChain a) ≤ 20 := by cases a <;> sized [setAnswerChain]
instance {a : AnswerChain} : Le (size .anSelectToChain (setAnswerChain a)) 20 := ⟨size_anSelectToChain _⟩

/-- What an answer takes. -/
theorem size_answer (a : Answer) : (sendAnswer a).length ≤ 80 + 100 * listed a := by
  show size .answer (setAnswer a) ≤ _
  cases a
  case selectCard => sized [setAnswer]
  case sort => sized [setAnswer]
  all_goals (dsimp only [listed]; sized [setAnswer])

end Ygo.Pb

namespace Ygo.Props
open Ygo Ygo.Spec Ygo.Spec.CoreMsg Ygo.Pb

/-- **C99.** A client that gets a question of the core as bytes and sends its answer as bytes decides what the core understands. -/
theorem C99_understood (c : BasicContext) (m : CoreMsg) (hf : m.Fits) (who : Int) (r : Request) (hm : m.meaning = some (.request who r))
    (more : List UInt8) (a : Answer) (d : Decision) (hd : clientMeans r a = some d) (hw : Writable r a) (ha : AnswerHolds a)
    (hq : m.bytes.length < 2 ^ 20) (hl : listed a < 2 ^ 20) (out : List UInt8) :
    ∃ msg ans bs, encodeOne c (m.bytes ++ more) = .ok (⟨.ok, m.bytes.length, some msg⟩, c) ∧
      receiveMsg (sendMsg msg) = some ⟨.request who r, []⟩ ∧
      receiveAnswer (sendAnswer a) = some ans ∧ decodeOneAnswer r ans out = .ok bs ∧ coreReads m bs = some d := by
  obtain ⟨h1, bs, h2, h3⟩ := C72_understood c m hf who r hm more a d hd hw out
  refine ⟨_, a, bs, h1, ?_, ?_, h2, h3⟩
  · obtain ⟨h4, -⟩ := C72_understood BasicContext.init m hf who r hm [] a d hd hw out
    rw [List.append_nil] at h4
    have h0 : ServerHolds 0 BasicContext.init :=
      ⟨init_range, fun _ => newCard_range, by simp [BasicContext.init], by simp [BasicContext.init], All.nil, by simp [BasicContext.init]⟩
    refine C92_messages _ ((encodeOne_range (by omega) h0 h4).1 _ rfl) ?_
    have h5 := C96_reload _ _ _ _ h4 _ rfl
    simp [BasicContext.init, placesAdded] at h5
    omega
  · refine C92_answers a ha ?_
    have := size_answer a
    omega

/-- **C99.** Whatever bytes a client sends for an answer, to whatever request: they cannot be read, or they make a response, or the server
aborts; it does so exactly if an answer can be read that is misplaced. Nothing is undefined and nothing hangs. -/
theorem C99_any_bytes (r : Request) (bytes : List Nat) (out : List UInt8) : receiveAnswer bytes = none ∨
    ∃ a, receiveAnswer bytes = some a ∧ (Misplaced r a ∧ decodeOneAnswer r a out = .error .assert ∨
      ¬ Misplaced r a ∧ ∃ bs, decodeOneAnswer r a out = .ok bs) := by
  cases h : receiveAnswer bytes with
  | none => exact .inl rfl
  | some a =>
    refine .inr ⟨a, rfl, ?_⟩
    by_cases hm : Misplaced r a
    · exact .inl ⟨hm, (C80_aborts_iff r a out).mpr hm⟩
    · exact .inr ⟨hm, C80_taken r a out hm⟩

/-- **C99.** Four bytes (the answer that no card is selected) abort the server, whatever it asked for. -/
theorem C99_abort (r : Request) (out : List UInt8) : ∃ a, receiveAnswer [18, 2, 26, 0] = some a ∧ decodeOneAnswer r a out = .error .assert :=
  ⟨.selectCard (.indexes []), by decide +kernel, rfl⟩

/-- **C99.** Without asserts they are undefined behaviour where cards are selected one by one, and a selection of no card elsewhere. -/
theorem C99_abort_release (r : Request) (out : List UInt8) : ∃ a, receiveAnswer [18, 2, 26, 0] = some a ∧
    (OneByOne r → rawDecodeOneAnswer r a out = .error .ub) ∧ (¬ OneByOne r → rawDecodeOneAnswer r a out = .ok [1, 0, 0, 0, 0, 0, 0, 0]) := by
  refine ⟨.selectCard (.indexes []), by decide +kernel, ?_⟩
  cases r with
  | selectCard s => cases s <;> first | exact ⟨fun _ => rfl, fun h => absurd trivial h⟩ | exact ⟨fun h => h.elim, fun _ => rfl⟩
  | _ => exact ⟨fun h => h.elim, fun _ => rfl⟩

/-- **C99.** No bytes at all are an answer too, which leaves the last response where it was: the core is given it again. -/
theorem C99_silent (r : Request) (out : List UInt8) : ∃ a, receiveAnswer [] = some a ∧ decodeOneAnswer r a out = .ok out :=
  ⟨.unset, by decide +kernel, rfl⟩

/-- **C99.** The other way round, six bytes of a server (that a chain link is resolved) are undefined behaviour for a client that just
connected. -/
theorem C99_hostile_server (cache : Bool) : ∃ m, receiveMsg [10, 4, 26, 2, 16, 1] = some m ∧ Client.follow cache .init [m] = .error .ub := by
  refine ⟨⟨.event (.chainStack (.pop true)), []⟩, ?_, rfl⟩
  have h : sendMsg ⟨.event (.chainStack (.pop true)), []⟩ = [10, 4, 26, 2, 16, 1] := by decide +kernel
  rw [← h]
  refine C92_messages _ ⟨fun e he => ?_, fun _ _ he => (by cases he), All.nil⟩ (by rw [h]; decide)
  cases he
  trivial

/-! Non-vacuity: the core asks to select one or two of three cards; the client selects the third and the first. -/

/-- The question. -/
def whichCards : CoreMsg := .selectCard 1 0 1 2 [(7, ⟨0, 4, 1, 1⟩), (8, ⟨0, 4, 2, 1⟩), (9, ⟨1, 4, 3, 1⟩)]

example : whichCards.Fits ∧ ∃ who r, whichCards.meaning = some (.request who r) ∧
    clientMeans r (.selectCard (.indexes [2, 0])) = some (.cards [(⟨1, 4, 3, -1⟩, 9), (⟨0, 4, 1, -1⟩, 7)]) ∧
    Writable r (.selectCard (.indexes [2, 0])) ∧ AnswerHolds (.selectCard (.indexes [2, 0])) := by
  refine ⟨by simp [whichCards, CoreMsg.Fits], _, _, rfl, by decide, ?_, ?_⟩
  · exact ⟨by decide, by decide⟩
  · show All U32 [2, 0]
    simp [All, U32]

example : sendAnswer (.selectCard (.indexes [2, 0])) = [18, 6, 26, 4, 10, 2, 2, 0] := by decide +kernel

example : ∃ bs, (receiveAnswer [18, 6, 26, 4, 10, 2, 2, 0]).map (fun a => decodeOneAnswer (.selectCard (.uniqueRange false 1 2 [])) a []) = some (.ok bs) ∧
    coreReads whichCards bs = some (.cards [(⟨1, 4, 3, -1⟩, 9), (⟨0, 4, 1, -1⟩, 7)]) :=
  ⟨[1, 0, 0, 0, 2, 0, 0, 0, 2, 0, 0, 0], by decide +kernel, by decide⟩

/-- Bytes that cannot be read. -/
example : receiveAnswer [18, 2, 26] = none := by decide +kernel

end Ygo.Props
