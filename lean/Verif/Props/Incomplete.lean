import Verif.Lemmas.Cut
import Verif.Props.Encode

/-!
# Incomplete messages (C74)

The caller says where a buffer begins but not where it ends, so a message that is not there in full cannot be reported; what is shown
here is that it is never taken for something else.
-/

set_option linter.unusedSimpArgs false

namespace Ygo.Props
open Ygo Ygo.Spec P

section
variable {C : Type} [EncodeContext C]

/-- **C74.** On the first part of a buffer the encoder does the same as on the whole buffer, or reads past the end. -/
theorem C74_same_or_past_end (c : C) (data : List UInt8) (r : Encoded) (c' : C) (h : encodeOne c data = .ok (r, c')) (k : Nat) :
    encodeOne c (data.take k) = .ok (r, c') ∨ encodeOne c (data.take k) = .error .ub := by
  obtain ⟨o, rest, hb, rfl⟩ := encodeOne_eq h
  have hd : data.take k ++ data.drop k = data := List.take_append_drop _ _
  rw [← hd] at hb
  unfold encodeOne
  rcases Cut.body c _ _ _ _ hb with h1 | ⟨r', h1, h2⟩
  · exact Or.inr (by rw [h1])
  · refine Or.inl ?_
    have hl : (data.take k).length + (data.drop k).length = data.length := by rw [← List.length_append, hd]
    have : (data.take k).length - r'.length = data.length - rest.length := by rw [h2, List.length_append]; omega
    rw [h1]
    simp only [this]

/-- **C74.** With fewer bytes than were read, it reads past the end. -/
theorem C74_cut (c : C) (data : List UInt8) (r : Encoded) (c' : C) (h : encodeOne c data = .ok (r, c')) (k : Nat) (hk : k < r.bytesRead) :
    encodeOne c (data.take k) = .error .ub := by
  rcases C74_same_or_past_end c data r c' h k with h1 | h1
  · have := (C32_result_contract c _ r c' h1).2.2.2
    rw [List.length_take] at this
    omega
  · exact h1

/-- **C74.** A message that is understood when it is complete, whatever follows it, is not understood as anything when bytes at its end
are missing. -/
theorem C74_incomplete_message (c : C) (m : CoreMsg) (hf : m.Fits) (more : List UInt8) (r : Encoded) (c' : C)
    (h : encodeOne c (m.bytes ++ more) = .ok (r, c')) (k : Nat) (hk : k < m.bytes.length) : encodeOne c (m.bytes.take k) = .error .ub := by
  have := C74_cut c _ r c' h k (by rw [C34_consumed c m hf more r c' h]; exact hk)
  rwa [List.take_append_of_le_length (by omega)] at this

/-- **C74.** In particular, of two different messages that are understood neither is the beginning of the other. -/
theorem C74_no_prefix (c : C) (m m' : CoreMsg) (hf' : m'.Fits) (x x' : Encoded × C) (h : encodeOne c m.bytes = .ok x)
    (h' : encodeOne c m'.bytes = .ok x') (hp : m.bytes <+: m'.bytes) : m.bytes = m'.bytes := by
  by_cases hl : m.bytes.length < m'.bytes.length
  · have h1 := C74_incomplete_message c m' hf' [] x'.1 x'.2 (by rw [List.append_nil]; exact h') _ hl
    rw [← List.prefix_iff_eq_take.mp hp, h] at h1
    cases h1
  · exact hp.eq_of_length (by have := hp.length_le; omega)

/-- **C74.** A buffer of complete messages whose last one is incomplete is read past its end: what was understood before is as it would be
without the last message, and nothing is reported for the rest. -/
theorem C74_buffer (use : C → Encoded → Res C) (ms : List CoreMsg) (hf : ∀ m ∈ ms, m.Fits) (c : C) (rs : List Encoded) (c' : C)
    (h : eachMessage use c ms = .ok (rs, c')) (m : CoreMsg) (hm : m.Fits) (x : Encoded × C) (hx : encodeOne c' m.bytes = .ok x)
    (k : Nat) (h0 : 0 < k) (hk : k < m.bytes.length) (fuel : Nat) (hn : ms.length < fuel) :
    wholeBuffer use fuel c (ms.flatMap (·.bytes) ++ m.bytes.take k) = .error .ub := by
  induction ms generalizing c rs fuel with
  | nil =>
    simp only [eachMessage, Except.ok.injEq, Prod.mk.injEq] at h
    obtain ⟨-, rfl⟩ := h
    obtain ⟨f, rfl⟩ : ∃ f, fuel = f + 1 := ⟨fuel - 1, by omega⟩
    have hne : m.bytes.take k ≠ [] := by
      intro e
      have := congrArg List.length e
      rw [List.length_take, List.length_nil] at this
      omega
    simp only [List.flatMap_nil, List.nil_append, wholeBuffer, if_neg hne]
    rw [C74_incomplete_message c m hm [] x.1 x.2 (by rw [List.append_nil]; exact hx) k hk]
    rfl
  | cons m0 ms ih =>
    simp only [eachMessage, bind_eq_ok, pure_eq_ok, Except.ok.injEq, Prod.exists, Prod.mk.injEq] at h
    obtain ⟨r, c1, h1, c2, h2, rs', c3, h3, rfl, rfl⟩ := h
    obtain ⟨f, rfl⟩ : ∃ f, fuel = f + 1 := ⟨fuel - 1, by omega⟩
    have hf0 := hf m0 (List.mem_cons_self ..)
    have hc : r.bytesRead = m0.bytes.length := C34_consumed c m0 hf0 [] r c1 (by rw [List.append_nil]; exact h1)
    have hpos := (C32_result_contract c _ r c1 h1).2.2.1
    have e : (m0 :: ms).flatMap (·.bytes) ++ m.bytes.take k = m0.bytes ++ (ms.flatMap (·.bytes) ++ m.bytes.take k) := by simp
    have hne : m0.bytes ++ (ms.flatMap (·.bytes) ++ m.bytes.take k) ≠ [] := by
      intro e
      have := congrArg List.length e
      rw [List.length_append, List.length_nil] at this
      omega
    rw [e, wholeBuffer, if_neg hne, C33_appended_bytes c _ _ r c1 h1]
    simp only [bind_ok]
    rw [h2]
    simp only [bind_ok]
    rw [hc, List.drop_left, ih (fun m h => hf m (List.mem_cons_of_mem _ h)) c2 rs' h3 f (by simp at hn; omega)]
    rfl

end

/-! A damage message without its last byte, and a buffer with a new turn and two bytes of the message that follows. -/
example : encodeOne BasicContext.init ((CoreMsg.damage 1 500).bytes.take 5) = .error .ub :=
  C74_incomplete_message _ (.damage 1 500) trivial [] _ _ rfl 5 (by decide)

example : (CoreMsg.damage 1 500).bytes.length = 6 ∧ (encodeOne BasicContext.init (CoreMsg.damage 1 500).bytes).toOption.isSome = true := ⟨rfl, rfl⟩

example : wholeBuffer (fun c r => match r.msg with | some m => BasicContext.parse c m | none => .ok c) 9 BasicContext.init
    ((CoreMsg.newTurn 0).bytes ++ (CoreMsg.damage 1 500).bytes.take 2) = .error .ub := by
  have h := C74_buffer (fun c r => match r.msg with | some m => BasicContext.parse c m | none => .ok c) [.newTurn 0] (by simp [CoreMsg.Fits])
    BasicContext.init _ _ rfl (.damage 1 500) trivial _ rfl 2 (by decide) (by decide) 9 (by decide)
  simpa using h

end Ygo.Props
