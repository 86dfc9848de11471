import Verif.Spec.QuestionKind
import Verif.Props.Decode

/-! C141: what translating answers depends on. -/

set_option linter.unusedSimpArgs false

namespace Ygo.Props
open Ygo Ygo.Spec

theorem decode_kind (r r' : Request) (h : questionKind r = questionKind r') (a : Answer) (out : List UInt8) :
    decodeOneAnswer r a out = decodeOneAnswer r' a out := by
  have hi : r.isSelectIdle = r'.isSelectIdle ∧ r.isBattleCmd = r'.isBattleCmd := by
    have key : ∀ q : Request, q.isSelectIdle = (questionKind q == .battle || questionKind q == .idle) ∧ q.isBattleCmd = (questionKind q == .battle) := by
      intro q
      cases q with
      | selectCard s => cases s <;> exact ⟨rfl, rfl⟩
      | selectIdle s =>
        simp only [questionKind, Request.isSelectIdle, Request.isBattleCmd]
        cases s.isBattleCmd <;> exact ⟨rfl, rfl⟩
      | _ => exact ⟨rfl, rfl⟩
    rw [(key r).1, (key r').1, (key r).2, (key r').2, h]
    exact ⟨rfl, rfl⟩
  have hc : ∀ (q : Request) is, decodeOneAnswer q (.selectCard (.indexes is)) out = massert (0 < is.length) >>= fun _ =>
      (match questionKind q with
      | .oneByOne => .ok (writeLE 4 1 ++ writeLE 4 (is.headD 0 : Nat))
      | .cards => .ok (writeLE 4 1 ++ writeLE 4 is.length ++ is.flatMap fun (i : Nat) => writeLE 2 i)
      | _ => .error .assert) := by
    intro q is
    cases q with
    | selectCard s => cases s <;> rfl
    | selectIdle s =>
      simp only [questionKind]
      cases s.isBattleCmd <;> rfl
    | _ => rfl
  cases a with
  | selectCard a =>
    cases a with
    | indexes is => rw [hc, hc, h]
    | _ => rfl
  | selectIdle a => simp only [decodeOneAnswer, hi.1, hi.2]
  | _ => rfl

/-- **C141 (exactly).** All answers to two questions are translated alike exactly if the questions are of the same of five kinds. So a server
has to remember no more of a question than that, and no less. -/
theorem C141_kinds_exactly (r r' : Request) :
    (∀ a out, decodeOneAnswer r a out = decodeOneAnswer r' a out) ↔ questionKind r = questionKind r' := by
  constructor
  · intro h
    have h1 := h (.selectCard (.indexes [0])) []
    have h2 := h (.selectIdle (.cardAction .activate 0)) []
    have key : ∀ q : Request, (questionKind q, decodeOneAnswer q (.selectCard (.indexes [0])) [], decodeOneAnswer q (.selectIdle (.cardAction .activate 0)) []) ∈
        ([(.oneByOne, .ok [1, 0, 0, 0, 0, 0, 0, 0], .error .assert), (.cards, .ok [1, 0, 0, 0, 1, 0, 0, 0, 0, 0], .error .assert),
          (.battle, .error .assert, .ok [0, 0, 0, 0]), (.idle, .error .assert, .ok [5, 0, 0, 0]), (.other, .error .assert, .error .assert)] :
          List (QuestionKind × Res (List UInt8) × Res (List UInt8))) := by
      intro q
      cases q with
      | selectCard s => cases s <;> simp only [List.mem_cons] <;> first | exact .inl rfl | exact .inr (.inl rfl)
      | selectIdle s =>
        obtain ⟨x1, x2, x3, x4, x5, x6, x7, x8, x9, b⟩ := s
        cases b <;> simp [questionKind, decodeOneAnswer, Request.isSelectIdle, Request.isBattleCmd, massert, actionCode, responseI, writeLE]
      | _ => simp only [List.mem_cons]; exact .inr (.inr (.inr (.inr (.inl rfl))))
    have k1 := key r
    have k2 := key r'
    rw [h1, h2] at k1
    simp only [List.mem_cons, List.not_mem_nil, or_false, Prod.mk.injEq] at k1 k2
    rcases k1 with ⟨a1, a2, a3⟩ | ⟨a1, a2, a3⟩ | ⟨a1, a2, a3⟩ | ⟨a1, a2, a3⟩ | ⟨a1, a2, a3⟩ <;>
      rcases k2 with ⟨b1, b2, b3⟩ | ⟨b1, b2, b3⟩ | ⟨b1, b2, b3⟩ | ⟨b1, b2, b3⟩ | ⟨b1, b2, b3⟩ <;>
      first | (rw [a1, b1]; done) | (rw [a2] at b2; simp at b2; done) | (rw [a3] at b3; simp at b3; done)
  · exact fun h a out => decode_kind r r' h a out

/-- **C141 (exactly).** What was in the buffer before stays in it exactly if the answer says nothing; otherwise it makes no difference. -/
theorem C141_buffer_exactly (r : Request) (a : Answer) :
    ((∀ out, decodeOneAnswer r a out = .ok out) ↔ TellsNothing r a) ∧
    (¬ TellsNothing r a → ∀ out out', decodeOneAnswer r a out = decodeOneAnswer r a out') := by
  have far : ∀ {x : Res (List UInt8)}, ¬ ∀ out, x = .ok out := by
    intro x h
    have := (h []).symm.trans (h [0])
    cases this
  have told : ∀ {x : Res (List UInt8)}, (∀ out, decodeOneAnswer r a out = x) → ¬ TellsNothing r a →
      ((∀ out, decodeOneAnswer r a out = .ok out) ↔ TellsNothing r a) ∧
      (¬ TellsNothing r a → ∀ out out', decodeOneAnswer r a out = decodeOneAnswer r a out') := by
    intro x hx hn
    refine ⟨⟨fun h => absurd (fun out => (hx out).symm.trans (h out)) far, fun h => absurd h hn⟩, fun _ o o' => ?_⟩
    rw [hx, hx]
  have kept : (∀ out, decodeOneAnswer r a out = .ok out) → TellsNothing r a →
      ((∀ out, decodeOneAnswer r a out = .ok out) ↔ TellsNothing r a) ∧
      (¬ TellsNothing r a → ∀ out out', decodeOneAnswer r a out = decodeOneAnswer r a out') :=
    fun h hs => ⟨⟨fun _ => hs, fun _ => h⟩, fun hn => absurd hs hn⟩
  cases a with
  | unset => exact kept (fun _ => rfl) trivial
  | selectCounter v => exact kept (fun _ => rfl) trivial
  | selectCard b =>
    cases b with
    | unset => exact kept (fun _ => rfl) trivial
    | _ => exact told (fun _ => rfl) id
  | selectToChain b =>
    cases b with
    | unset => exact kept (fun _ => rfl) trivial
    | _ => exact told (fun _ => rfl) id
  | sort b => cases b <;> exact told (fun _ => rfl) id
  | selectIdle b =>
    by_cases hr : ∃ s, r = .selectIdle s
    · obtain ⟨s, rfl⟩ := hr
      cases b with
      | unset => exact kept (fun _ => rfl) ⟨s, rfl⟩
      | shuffle b => exact told (fun _ => rfl) id
      | cardAction act i => exact told (fun _ => rfl) id
      | phase p =>
        by_cases hb : s.isBattleCmd = true
        · have hd : ∀ out, decodeOneAnswer (.selectIdle s) (.selectIdle (.phase p)) out =
              .ok (if p &&& 0x200 ≠ 0 then responseI 3 else if p &&& 0x100 ≠ 0 then responseI 2 else out) := by
            intro out
            simp only [decodeOneAnswer, Request.isSelectIdle, Request.isBattleCmd, hb, massert_true, bind_ok, if_true, pure_eq_ok]
          by_cases h2 : p &&& 0x200 = 0
          · by_cases h1 : p &&& 0x100 = 0
            · exact kept (fun out => by rw [hd, if_neg (by simp [h2]), if_neg (by simp [h1])]) ⟨s, rfl, h2, by rw [if_pos hb]; exact h1⟩
            · refine told (fun out => by rw [hd, if_neg (by simp [h2]), if_pos h1]) ?_
              rintro ⟨t, e, -, h⟩
              cases e
              rw [if_pos hb] at h
              exact h1 h
          · refine told (fun out => by rw [hd, if_pos h2]) ?_
            rintro ⟨t, e, h, -⟩
            exact h2 h
        · have hd : ∀ out, decodeOneAnswer (.selectIdle s) (.selectIdle (.phase p)) out =
              .ok (if p &&& 0x80 ≠ 0 then responseI 6 else if p &&& 0x200 ≠ 0 then responseI 7 else out) := by
            intro out
            simp only [decodeOneAnswer, Request.isSelectIdle, Request.isBattleCmd, hb, massert_true, bind_ok, Bool.false_eq_true, if_false, pure_eq_ok,
              Phase.battle, Phase.end_]
            split
            · rfl
            split <;> rfl
          by_cases h1 : p &&& 0x80 = 0
          · by_cases h2 : p &&& 0x200 = 0
            · exact kept (fun out => by rw [hd, if_neg (by simp [h1]), if_neg (by simp [h2])]) ⟨s, rfl, h2, by rw [if_neg hb]; exact h1⟩
            · refine told (fun out => by rw [hd, if_neg (by simp [h1]), if_pos h2]) ?_
              rintro ⟨t, e, h, -⟩
              exact h2 h
          · refine told (fun out => by rw [hd, if_pos h1]) ?_
            rintro ⟨t, e, -, h⟩
            cases e
            rw [if_neg hb] at h
            exact h1 h
    · have hi : r.isSelectIdle = false := by
        cases r <;> first | rfl | exact absurd ⟨_, rfl⟩ hr
      refine told (x := .error .assert) (fun out => by simp [decodeOneAnswer, hi, massert]) ?_
      cases b <;> first | exact id | (rintro ⟨s, e⟩; exact hr ⟨s, e⟩) | (rintro ⟨s, e, -⟩; exact hr ⟨s, e⟩)
  | _ => exact told (fun _ => rfl) id

/-! ## Examples -/

/-- Questions of all kinds, and an answer to each. -/
example : [Request.selectCard (.recursive true true 1 1 [] []), .selectCard .unset, .selectIdle { isBattleCmd := true }, .selectIdle {}, .selectNumber 1 [3]].map questionKind =
    [.oneByOne, .cards, .battle, .idle, .other] := by decide

example : TellsNothing (.selectIdle {}) (.selectIdle (.phase 0x100)) ∧ ¬ TellsNothing (.selectIdle { isBattleCmd := true }) (.selectIdle (.phase 0x100)) := by
  refine ⟨⟨{}, rfl, rfl, rfl⟩, ?_⟩
  rintro ⟨s, e, -, h⟩
  cases e
  exact absurd h (by decide)

end Ygo.Props
