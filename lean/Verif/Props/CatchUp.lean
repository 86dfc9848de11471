import Verif.Spec.CatchUp
import Verif.Lemmas.CatchUp
import Verif.Props.Screen
import Verif.Props.Network

namespace Ygo.Props
open Ygo Ygo.Spec Ygo.Pb

set_option linter.unusedSimpArgs false

/-- **C110.** Whatever a client followed before, four messages bring it to where another one is. -/
theorem C110_catch_up (cache cache' : Bool) (ms0 ms1 : List Msg) (s t : Client) (h : Client.follow cache' Client.init ms0 = .ok s)
    (h' : Client.follow cache Client.init ms1 = .ok t) : (catchUp s).length = 4 ∧ ∃ t', Client.follow cache t (catchUp s) = .ok t' ∧ LookSame t' s :=
  ⟨rfl, catchUp_looks (follow_sound .init h) (follow_sound .init h') cache⟩

theorem follow_append (cache : Bool) (s : Client) (ms ms' : List Msg) :
    Client.follow cache s (ms ++ ms') = (Client.follow cache s ms).bind fun t => Client.follow cache t ms' := by
  induction ms generalizing s with
  | nil => rfl
  | cons m ms ih =>
    simp only [List.cons_append, Client.follow]
    cases Msg.event? m with
    | none =>
      simp only [pure_eq_ok, bind_ok]
      cases Client.answer cache s.board.frame.layout m.queries s.store with
      | error x => rfl
      | ok st => exact ih _
    | some e =>
      simp only
      cases s.board.parseEvent e with
      | error x => rfl
      | ok b =>
        simp only [bind_ok]
        cases Client.answer cache b.frame.layout m.queries s.store with
        | error x => rfl
        | ok st => exact ih _

/-- **C110.** So a spectator who comes late misses nothing: from then on they see what those see who were there from the start, whatever happens. -/
theorem C110_late (cache cache' : Bool) (ms0 ms1 ms : List Msg) (s t : Client) (h : Client.follow cache' Client.init ms0 = .ok s)
    (h' : Client.follow cache Client.init ms1 = .ok t) :
    Together LookSame (Client.follow cache t (catchUp s ++ ms)) (Client.follow cache' s ms) := by
  obtain ⟨_, t', h1, h2⟩ := C110_catch_up cache cache' ms0 ms1 s t h h'
  rw [follow_append, h1]
  exact C109_shown cache cache' (ms1 ++ catchUp s) ms0 ms t' s (by rw [follow_append, h']; exact h1) h h2

theorem feed_joined {ds ds' : List (List UInt8)} {c0 c c' : BasicContext} {rs rs' : List Encoded} (h : feed c0 ds = .ok (rs, c))
    (h' : feed c ds' = .ok (rs', c')) : feed c0 (ds ++ ds') = .ok (rs ++ rs', c') := by
  induction ds generalizing c0 rs with
  | nil => cases h; exact h'
  | cons d ds ih =>
    simp only [List.cons_append, feed] at h ⊢
    cases e1 : encodeOne c0 d with
    | error x => rw [e1] at h; cases h
    | ok x =>
      obtain ⟨r, c1⟩ := x
      rw [e1] at h
      simp only [bind_ok] at h ⊢
      cases hm : r.msg with
      | none =>
        simp only [hm, pure_eq_ok, bind_ok, bind_eq_ok, Except.ok.injEq, Prod.mk.injEq] at h ⊢
        obtain ⟨⟨rs1, c2⟩, h1, rfl, rfl⟩ := h
        exact ⟨_, ih h1, rfl, rfl⟩
      | some m =>
        simp only [hm, pure_eq_ok, bind_ok, bind_eq_ok, Except.ok.injEq, Prod.mk.injEq] at h ⊢
        obtain ⟨c3, h0, ⟨rs1, c2⟩, h1, rfl, rfl⟩ := h
        exact ⟨c3, h0, _, ih h1, rfl, rfl⟩

/-- The same for a duel that a server encodes: those who come after some buffers see at the end what the server tracks. -/
theorem C110_server (cache : Bool) (ds ds' : List (List UInt8)) (rs rs' : List Encoded) (c c' : BasicContext)
    (h : feed BasicContext.init ds = .ok (rs, c)) (h' : feed c ds' = .ok (rs', c')) :
    ∃ t, Client.follow cache .init (catchUp ⟨c.board, c.store⟩ ++ messages rs') = .ok t ∧ LookSame t ⟨c'.board, c'.store⟩ := by
  have h1 := C66_clients_in_step ds rs c h cache
  have h2 := C66_clients_in_step _ _ _ (feed_joined h h') cache
  rw [messages, List.filterMap_append, follow_append] at h2
  rw [messages] at h1
  rw [h1] at h2
  have k := C110_late cache cache _ [] (messages rs') ⟨c.board, c.store⟩ .init h1 rfl
  rw [show Client.follow cache ⟨c.board, c.store⟩ (messages rs') = .ok ⟨c'.board, c'.store⟩ from h2] at k
  cases e : Client.follow cache .init (catchUp ⟨c.board, c.store⟩ ++ messages rs') with
  | error x => rw [e] at k; exact k.elim
  | ok t => rw [e] at k; exact ⟨t, rfl, k⟩

/-- **C110.** Messages can say everything: for any cards with any data in any places, but for one card in a zone at most, and any values beside the
table there are four messages after which a new client shows just that. No client ever shows anything else. -/
theorem C110_every_table (cache : Bool) (S : Container → List (Card Plain)) (chain : List Chain) (turn : Nat) (con : Int) (lp : Fin 2 → Nat) (phase : Nat)
    (blocked : List Place) :
    (∀ k, (S (.slot k)).length ≤ 1) ↔ ∃ ms t, Client.follow cache .init ms = .ok t ∧ Client.screen t = S ∧ t.board.chainStack.val = chain ∧ t.board.turn.val = turn ∧
      t.board.turnController.val = con ∧ (∀ i, (t.board.lp i).val = lp i) ∧ t.board.phase.val = phase ∧ t.board.blockedZones.val = blocked ∧ ms.length = 4 := by
  constructor
  · intro hS
    obtain ⟨s, h1, h2, h3⟩ := sound_with S hS ⟨Frame.init, ⟨chain⟩, ⟨turn⟩, ⟨con⟩, fun i => ⟨lp i⟩, ⟨phase⟩, ⟨blocked⟩⟩
    obtain ⟨t, k1, k2⟩ := catchUp_looks h1 Sound.init cache
    refine ⟨catchUp s, t, k1, k2.cards.trans h2, ?_, ?_, ?_, fun i => ?_, ?_, ?_, rfl⟩
    · rw [k2.chain, h3]
    · rw [k2.turn, h3]
    · rw [k2.turnPlayer, h3]
    · rw [k2.lp, h3]
    · rw [k2.phase, h3]
    · rw [k2.blocked, h3]
  · rintro ⟨ms, t, _, rfl, _⟩ k
    simpa [Client.screen] using view_slot_le t.board.frame.layout k

/-- **C110.** The four messages can be sent, unless there were 2³¹ turns or a place has 2³¹ cards. -/
theorem C110_sent (cache cache' : Bool) (bss : List (List Nat)) (hb : ∀ bs ∈ bss, ∀ b ∈ bs, b < 256) (ms0 ms1 : List Msg)
    (hr : receiveAll bss = some ms0) (s t : Client) (h : Client.follow cache' Client.init ms0 = .ok s)
    (h' : Client.follow cache Client.init ms1 = .ok t) (ht : s.board.turn.val < 2 ^ 31) (hn : ∀ C, (view s.board.frame.layout C).length < 2 ^ 31)
    (hl : ∀ m ∈ catchUp s, (sendMsg m).length < 2 ^ 31 - 16) :
    ∃ ms t', receiveAll ((catchUp s).map sendMsg) = some ms ∧ Client.follow cache t ms = .ok t' ∧ LookSame t' s := by
  obtain ⟨hbd, hcd⟩ := C92_any_client bss hb ms0 hr cache' s h
  obtain ⟨t', h1, h2⟩ := (C110_catch_up cache cache' ms0 ms1 s t h h').2
  refine ⟨catchUp s, t', ?_, h1, h2⟩
  have hm := catchUp_holds hbd hcd ht hn
  clear h1
  generalize catchUp s = ms at hl hm
  induction ms with
  | nil => rfl
  | cons m ms ih =>
    simp only [List.map_cons, receiveAll]
    rw [C92_messages m (hm m (by simp)) (hl m (by simp)), ih (fun x hx => hl x (by simp [hx])) (fun x hx => hm x (by simp [hx]))]
    rfl

/-! ## Not vacuous -/

/-- A client with a monster on a material, which it knows, two cards in hand and a turn that was taken; and what it is told. -/
def busy : List Msg :=
  [{ body := .event (.board (.state { lps := [7, 9], resize := [⟨⟨0, Loc.hand, 0, -1⟩, 4⟩] })) },
   { body := .event (.nextTurn 1) },
   { body := .event (.card 0 (.move [⟨⟨0, Loc.hand, 1, -1⟩, ⟨0, Loc.monsterZone, 2, -1⟩⟩, ⟨⟨0, Loc.hand, 2, -1⟩, ⟨0, Loc.monsterZone, 2, 0⟩⟩])),
     queries := [⟨⟨0, Loc.monsterZone, 2, -1⟩, QueryData.empty.setSingle .code (5 : Nat)⟩, ⟨⟨0, Loc.monsterZone, 2, 0⟩, QueryData.empty.setSingle .atk (-2 : Int)⟩] },
   { body := .event (.nextPhase 4) }]

/-- What a client shows, in part. -/
def glance (s : Client) : List (List (Nat × Int)) × Nat × Int × Nat × List Nat :=
  ((containers.map fun C => (Client.screen s C).map fun c => ((c.single .code).val, (c.single .atk).val)).filter (· ≠ []), s.board.turn.val,
    s.board.turnController.val, s.board.phase.val, placed (view s.board.frame.layout))

/-- A client that knew other cards, and one that is new, are told in four messages; they show the same, with other names for the cards. -/
example : ((Client.follow false .init busy).toOption.map glance) = some ([[(0, 0), (0, 0)], [(5, 0)], [(0, -2)]], 1, 1, 4, [0, 2, 1, 3]) ∧
    ((do
      let s ← Client.follow false .init busy
      let t ← Client.follow false .init maker1
      Client.follow true t (catchUp s)).toOption.map glance) = some ([[(0, 0), (0, 0)], [(5, 0)], [(0, -2)]], 1, 1, 4, [7, 8, 5, 6]) ∧
    ((do
      let s ← Client.follow false .init busy
      Client.follow true .init (catchUp s)).toOption.map glance) = some ([[(0, 0), (0, 0)], [(5, 0)], [(0, -2)]], 1, 1, 4, [2, 3, 0, 1]) := by
  refine ⟨?_, ?_, ?_⟩ <;> decide +kernel

end Ygo.Props
