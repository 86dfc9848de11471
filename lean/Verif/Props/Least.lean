import Verif.Props.NextDuel

/-!
# No fewer messages (C110)
-/

namespace Ygo.Props
open Ygo Ygo.Spec

/-- What kind of message. -/
def msgKind (m : Msg) : Nat :=
  match Msg.event? m with
  | some (.nextTurn _) => 1
  | some (.nextPhase _) => 2
  | some (.zoneBlock _) => 3
  | some _ => 4
  | none => 0

/-- Only messages of the last kind touch the table. -/
theorem untouched {cache : Bool} {ms : List Msg} {s t : Client} (hk : 4 ∉ ms.map msgKind) (h : Client.follow cache s ms = .ok t) :
    t.board.frame = s.board.frame := by
  induction ms generalizing s with
  | nil => cases h; rfl
  | cons m ms ih =>
    rw [List.map_cons, List.mem_cons, not_or] at hk
    rw [follow_cons, bind_eq_ok] at h
    obtain ⟨b, h1, h2⟩ := h
    rw [bind_eq_ok] at h2
    obtain ⟨st, _, h3⟩ := h2
    rw [ih hk.2 h3]
    show b.frame = s.board.frame
    have hm := hk.1
    unfold msgKind at hm
    cases he : Msg.event? m with
    | none => rw [he] at h1; cases h1; rfl
    | some e =>
      rw [he] at h1 hm
      cases e <;> first | (exact absurd rfl hm) | (cases h1; rfl)

/-- **C110.** No fewer messages will do: if whose turn it is, the phase and the blocked zones are not what they are in the beginning and there is a card, it
takes four messages to come from nothing to where another client is. -/
theorem C110_least (cache : Bool) (s t : Client) (ms : List Msg) (h : Client.follow cache Client.init ms = .ok t) (hl : LookSame t s)
    (h1 : s.board.turnController.val ≠ 0) (h2 : s.board.phase.val ≠ 0) (h3 : s.board.blockedZones.val ≠ []) (C : Container) (h4 : Client.screen s C ≠ []) :
    4 ≤ ms.length := by
  have st := follow_stays h
  have told : ∀ {P : Event → Prop} {k : Nat}, EventTold P ms → (∀ m e, Msg.event? m = some e → P e → msgKind m = k) → k ∈ ms.map msgKind := by
    rintro P k ⟨m, hm, e, he, hp⟩ hk
    exact List.mem_map.mpr ⟨m, hm, hk m e he hp⟩
  have k1 : 1 ∈ ms.map msgKind := by
    by_cases hn : EventTold Event.SaysTurn ms
    · exact told hn (by rintro m e he ⟨_, rfl⟩; simp only [msgKind, he])
    · exact absurd (by rw [← hl.turnPlayer, st.turnPlayer hn]; rfl) h1
  have k2 : 2 ∈ ms.map msgKind := by
    by_cases hn : EventTold Event.SaysPhase ms
    · exact told hn (by rintro m e he ⟨_, rfl⟩; simp only [msgKind, he])
    · exact absurd (by rw [← hl.phase, st.phase hn]; rfl) h2
  have k3 : 3 ∈ ms.map msgKind := by
    by_cases hn : EventTold Event.SaysBlocked ms
    · exact told hn (by rintro m e he ⟨_, rfl⟩; simp only [msgKind, he])
    · exact absurd (by rw [← hl.blocked, st.blocked hn]; rfl) h3
  have k4 : 4 ∈ ms.map msgKind := by
    by_contra hn
    refine h4 ?_
    rw [← hl.cards, Client.screen, untouched hn h]
    cases C <;> rfl
  have hs : [1, 2, 3, 4] ⊆ ms.map msgKind := by
    intro k hk
    simp only [List.mem_cons, List.not_mem_nil, or_false] at hk
    rcases hk with rfl | rfl | rfl | rfl <;> assumption
  have := List.Nodup.length_le_of_subset (by decide : [1, 2, 3, 4].Nodup) hs
  simpa using this

/-- There are such clients, and four messages suffice for them. -/
example : ∃ ms t, Client.follow true Client.init ms = .ok t ∧ t.board.turnController.val ≠ 0 ∧ t.board.phase.val ≠ 0 ∧ t.board.blockedZones.val ≠ [] ∧
    Client.screen t (.pile ⟨0, .hand⟩) ≠ [] :=
  ⟨[⟨.event (.nextTurn 1), []⟩, ⟨.event (.nextPhase 2), []⟩, ⟨.event (.zoneBlock [⟨0, 4, 0, -1⟩]), []⟩, ⟨.event (.card 0 (.add [⟨0, 2, 0, -1⟩])), []⟩], _, rfl, by decide,
    by decide, by decide, by intro h; exact absurd (congrArg List.length h) (by decide)⟩

end Ygo.Props
