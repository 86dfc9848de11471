import Verif.Spec.Hearing
import Verif.Lemmas.RoomStart
import Verif.Lemmas.NetworkRoomSends
import Verif.Props.Room

/-!
# A room says what changes, to everyone, and not much more (C136)
-/

namespace Ygo.Props
open Ygo Ygo.Room Ygo.Spec

theorem audience_eq {env : Env} {r : Room} (h : RoomOk env r) : audience r = recipients r := by
  obtain ⟨a, b, c, h0⟩ := list3 (h.team 0).2.length
  obtain ⟨a', b', c', h1⟩ := list3 (h.team 1).2.length
  simp only [audience, recipients, seat, slotAt, h0, h1, Room.teamClients]
  simp [List.filterMap_cons]
  cases a.client <;> cases b.client <;> cases c.client <;> cases a'.client <;> cases b'.client <;> cases c'.client <;> rfl

/-- What is sent is at most one private message, and at most two announcements. -/
structure Form (r : Room) (c : Room.Call) (r' : Room) (pre : List Sent) (as : List Room.Event) (post : List Sent) : Prop where
  one : pre.length + post.length ≤ 1
  two : as.length ≤ 2
  all : ∀ e ∈ as, forEveryone e = true
  private_ : ∀ m ∈ pre ++ post, forEveryone m.2 = false ∧ Present r' m.1 ∧ Meant c r' m
  quiet : as = [] → (r' = r ∧ pre ++ post = []) ∨ ∃ x d e, c = .visit x (.configuring (.updateDeck d)) ∧ SameButDeckOf x r r' ∧ pre ++ post = [(x, .deckStatus e)]

theorem present_same {r r' : Room} (h1 : r'.teams = r.teams) (h2 : r'.spectators = r.spectators) {x : ClientId} (h : Present r x) : Present r' x := by
  rw [← mem_recipients] at h ⊢
  rw [clients_same h1 h2]; exact h

theorem Move.form {env : Env} {r r' : Room} {c : Room.Call} {out : List Sent} (h : RoomOk env r) (m : Move env r c r' out)
    (hh : ∀ x s, c = .visit x s → Present r r.host) :
    ∃ pre as post, out = pre ++ as.flatMap (fun e => r'.sendAll e) ++ post ∧ Form r c r' pre as post := by
  cases m with
  | @seat peer t s hst hn hlt hs =>
    refine ⟨[(peer, enteringEvent env r)], [.duelistEnters (Room.duelist env r.host t (duelists r t) peer false)], [], by simp, by simp, by simp, by simp [forEveryone], ?_, by simp⟩
    intro m hm
    simp only [List.append_nil, List.mem_singleton] at hm
    subst hm
    refine ⟨rfl, .inl ⟨t, duelists r t, ?_⟩, rfl⟩
    rw [seat_setSlot (by have := h.cap t; have := (h.team t).2.length; omega)]
    simp
  | @spectate peer hst hn =>
    refine ⟨[(peer, enteringEvent env r)], [.spectatorCount (Room.setInsert peer r.spectators).length], [], by simp, by simp, by simp, by simp [forEveryone], ?_, by simp⟩
    intro m hm
    simp only [List.append_nil, List.mem_singleton] at hm
    subst hm
    exact ⟨rfl, .inr (mem_setInsert.mpr (.inl rfl)), rfl⟩
  | @goodDeck peer d t p s hst hs hc hk =>
    refine ⟨[(peer, .deckStatus none)], [], [], by simp, by simp, by simp, by simp, ?_, fun _ => .inr ⟨peer, d, none, rfl, ⟨t, p, s, d, true, hs, hc, rfl⟩, rfl⟩⟩
    intro m hm
    simp only [List.append_nil, List.mem_singleton] at hm
    subst hm
    have hp : Present r peer := .inl ⟨t, p, by simp [seat, hs, hc]⟩
    exact ⟨rfl, (present_setSlot_same (s' := { s with deck := d, deckValid := true }) hs rfl peer).mpr hp, ⟨d, rfl⟩⟩
  | @badDeck peer d t p s hst hs hc hk =>
    refine ⟨[(peer, .deckStatus (some (env.check r.options.banlistId d).2))], [], [], by simp, by simp, by simp, by simp, ?_, fun _ => .inr ⟨peer, d, some _, rfl, ⟨t, p, s, {}, false, hs, hc, rfl⟩, rfl⟩⟩
    intro m hm
    simp only [List.append_nil, List.mem_singleton] at hm
    subst hm
    have hp : Present r peer := .inl ⟨t, p, by simp [seat, hs, hc]⟩
    exact ⟨rfl, (present_setSlot_same (s' := { s with deck := {}, deckValid := false }) hs rfl peer).mpr hp, ⟨d, rfl⟩⟩
  | @ready peer b t p s hst hs hc hb hv =>
    exact ⟨[], [.updateDuelist (Room.duelist env r.host t p peer b)], [], by simp, by simp, by simp, by simp [forEveryone], by simp, by simp⟩
  | @start b fuel r' out hst hcs he =>
    have hp := hh _ _ rfl
    have hS := canStart_iff.mp hcs
    obtain ⟨e0, e1, e2, e3, e4, e5⟩ := h.enterDeciding hS fuel
    by_cases c0 : r.options.ftdm = 0
    · rw [e0 c0] at he
      cases he
      refine ⟨[], [.decidingEntering], [(r.host, .decideFirstTurn true)], by simp; rfl, by simp, by simp, by simp [forEveryone], ?_, by simp⟩
      intro m hm
      simp only [List.nil_append, List.mem_singleton] at hm
      subst hm
      exact ⟨rfl, present_same rfl rfl hp, rfl⟩
    by_cases c1 : r.options.ftdm = 1
    · rw [e1 c1] at he
      cases he
      exact ⟨[], [.decidingEntering], [], by simp; rfl, by simp, by simp, by simp [forEveryone], by simp, by simp⟩
    have leads : ∀ t, ∃ x, seat r t 0 = some x := fun t => let ⟨x, hx, _⟩ := h.teamLeader hS t; ⟨x, hx⟩
    by_cases c2 : r.options.ftdm = 2
    · rw [e2 c2] at he
      cases hd : Room.rollDice r.rng fuel r.used with
      | none => rw [hd] at he; cases he
      | some y =>
        obtain ⟨rolls, w, u⟩ := y
        rw [hd] at he
        cases he
        obtain ⟨x, hx⟩ := leads (if w = 0 then 0 else 1)
        refine ⟨[], [.decidingEntering, .result w (.dice rolls)], [(x, .decideFirstTurn true)], by simp [hx]; rfl, by simp, by simp, by simp [forEveryone], ?_, by simp⟩
        intro m hm
        simp only [List.nil_append, List.mem_singleton] at hm
        subst hm
        exact ⟨rfl, present_same rfl rfl (.inl ⟨_, 0, hx⟩), by simp [Meant, hx]⟩
    by_cases c3 : r.options.ftdm = 3
    · rw [e3 c3] at he
      cases he
      obtain ⟨x, hx⟩ := leads (if r.rng r.used % 2 = 0 then 0 else 1)
      refine ⟨[], [.decidingEntering, .result (r.rng r.used % 2) (.coin (r.rng r.used % 2))], [(x, .decideFirstTurn true)], by simp [hx]; rfl, by simp, by simp, by simp [forEveryone], ?_, by simp⟩
      intro m hm
      simp only [List.nil_append, List.mem_singleton] at hm
      subst hm
      exact ⟨rfl, present_same rfl rfl (.inl ⟨_, 0, hx⟩), by simp [Meant, hx]⟩
    by_cases c4 : r.options.ftdm = -2147483648 ∨ r.options.ftdm = 2147483647
    · rw [e4 c4] at he; cases he
    · rw [e5 c0 c1 c2 c3 (fun e => c4 (.inl e)) (fun e => c4 (.inr e))] at he
      cases he
      exact ⟨[], [.decidingEntering], [], by simp; rfl, by simp, by simp, by simp [forEveryone], by simp, by simp⟩
  | @announce n d hst h0 hn =>
    exact ⟨[], [.result n .unset], [], by simp, by simp, by simp, by simp [forEveryone], by simp, by simp⟩
  | nothing hx =>
    exact ⟨[], [], [], by simp, by simp, by simp, by simp, by simp, fun _ => .inl ⟨rfl, rfl⟩⟩

/-- For lives. -/
theorem lived_form {env : Env} {r r' : Room} {calls : List Room.Call} {log out : List Sent} {fuel : Nat} {c : Room.Call}
    (h : Lived env r calls log) (hs : r.step env fuel c = .ok (r', out)) :
    ∃ pre as post, out = pre ++ as.flatMap (fun e => r'.sendAll e) ++ post ∧ Form r c r' pre as post :=
  Move.form (lived_ok h) ((lived_ok h).move hs) fun _ _ _ => .inl ⟨0, 0, lived_host_seat h⟩

theorem host_present {env : Env} {r r' : Room} {calls : List Room.Call} {log out : List Sent} {fuel : Nat} {c : Room.Call}
    (h : Lived env r calls log) (hs : r.step env fuel c = .ok (r', out)) : recipients r' ≠ [] := by
  have h2 : r'.host ∈ recipients r' := mem_recipients.mpr (.inl ⟨0, 0, lived_host_seat (h.step hs)⟩)
  intro e
  rw [e] at h2; cases h2

/-- **C136.** A room that says nothing has not changed. -/
theorem C136_silent {env : Env} {r r' : Room} {calls : List Room.Call} {log : List Sent} {fuel : Nat} {c : Room.Call}
    (h : Lived env r calls log) (hs : r.step env fuel c = .ok (r', [])) : r' = r := by
  obtain ⟨pre, as, post, ho, hf⟩ := lived_form h hs
  have hn := host_present h hs
  cases as with
  | cons e as =>
    have := congrArg List.length ho
    simp [sendAll_eq] at this
    exact absurd (List.length_eq_zero_iff.mp (by omega)) hn
  | nil =>
    rcases hf.quiet rfl with ⟨h1, -⟩ | ⟨x, d, e, -, -, h3⟩
    · exact h1
    · simp at ho; simp [ho.1, ho.2] at h3

/-- **C136.** Whatever changes, everyone in the room hears something, except that a deck only concerns its owner. -/
theorem C136_heard {env : Env} {r r' : Room} {calls : List Room.Call} {log out : List Sent} {fuel : Nat} {c : Room.Call}
    (h : Lived env r calls log) (hs : r.step env fuel c = .ok (r', out)) {y : ClientId} (hy : Present r' y) (hq : inbox y out = []) :
    r' = r ∨ ∃ x d, c = .visit x (.configuring (.updateDeck d)) ∧ x ≠ y ∧ SameButDeckOf x r r' := by
  obtain ⟨pre, as, post, ho, hf⟩ := lived_form h hs
  have hc : 0 < (recipients r').count y := List.count_pos_iff.mpr (mem_recipients.mpr hy)
  cases as with
  | cons e as =>
    rw [ho, inbox_append, inbox_append, List.flatMap_cons, inbox_append, inbox_sendAll] at hq
    simp only [List.append_eq_nil_iff, List.replicate_eq_nil_iff] at hq
    omega
  | nil =>
    rcases hf.quiet rfl with ⟨h1, -⟩ | ⟨x, d, e, h1, h2, h3⟩
    · exact .inl h1
    · refine .inr ⟨x, d, h1, ?_, h2⟩
      rintro rfl
      have : out = [(x, .deckStatus e)] := by rw [ho, ← h3]; simp
      rw [this] at hq
      simp [inbox] at hq

/-- What is for everyone, of what a client gets. -/
theorem inbox_announced {r : Room} (as : List Room.Event) (y : ClientId) :
    inbox y (as.flatMap fun e => r.sendAll e) = as.flatMap fun e => List.replicate ((recipients r).count y) e := by
  induction as with
  | nil => rfl
  | cons e as ih => rw [List.flatMap_cons, inbox_append, inbox_sendAll, ih, List.flatMap_cons]

theorem inbox_private {l : List Sent} (h : ∀ m ∈ l, forEveryone m.2 = false) (y : ClientId) : (inbox y l).filter forEveryone = [] := by
  rw [List.filter_eq_nil_iff]
  intro e he
  have := h _ (mem_inbox.mp he)
  simpa using this

/-- **C136.** Everyone hears the same announcements in the same order, as often as having places in the room. -/
theorem C136_announced {env : Env} {r r' : Room} {calls : List Room.Call} {log out : List Sent} {fuel : Nat} {c : Room.Call}
    (h : Lived env r calls log) (hs : r.step env fuel c = .ok (r', out)) :
    ∃ as : List Room.Event, as.length ≤ 2 ∧ ∀ y, (inbox y out).filter forEveryone = as.flatMap fun e => List.replicate ((audience r').count y) e := by
  obtain ⟨pre, as, post, ho, hf⟩ := lived_form h hs
  refine ⟨as, hf.two, fun y => ?_⟩
  rw [audience_eq (lived_ok (h.step hs)), ho, inbox_append, inbox_append, List.filter_append, List.filter_append,
    inbox_private (fun m hm => (hf.private_ m (List.mem_append_left _ hm)).1), inbox_private (fun m hm => (hf.private_ m (List.mem_append_right _ hm)).1),
    inbox_announced]
  simp only [List.nil_append, List.append_nil]
  rw [List.filter_eq_self]
  intro e he
  obtain ⟨e', h1, h2⟩ := List.mem_flatMap.mp he
  rw [List.eq_of_mem_replicate h2]
  exact hf.all _ h1

/-- **C136.** So two clients with one place each hear the same announcements. -/
theorem C136_alike {env : Env} {r r' : Room} {calls : List Room.Call} {log out : List Sent} {fuel : Nat} {c : Room.Call}
    (h : Lived env r calls log) (hs : r.step env fuel c = .ok (r', out)) {y z : ClientId} (hc : (audience r').count y = (audience r').count z) :
    (inbox y out).filter forEveryone = (inbox z out).filter forEveryone := by
  obtain ⟨as, -, ha⟩ := C136_announced h hs
  rw [ha, ha, hc]

/-- **C136.** At most one message is not for everyone, and it is for the newcomer, for the owner of the deck, or for the one to decide. -/
theorem C136_private {env : Env} {r r' : Room} {calls : List Room.Call} {log out : List Sent} {fuel : Nat} {c : Room.Call}
    (h : Lived env r calls log) (hs : r.step env fuel c = .ok (r', out)) :
    (out.filter fun m => !forEveryone m.2).length ≤ 1 ∧ ∀ m ∈ out, forEveryone m.2 = false → Meant c r' m := by
  obtain ⟨pre, as, post, ho, hf⟩ := lived_form h hs
  have hall : ∀ m ∈ as.flatMap (fun e => r'.sendAll e), forEveryone m.2 = true := by
    intro m hm
    obtain ⟨e, h1, h2⟩ := List.mem_flatMap.mp hm
    simp only [Room.sendAll, List.mem_map] at h2
    obtain ⟨_, _, rfl⟩ := h2
    exact hf.all _ h1
  constructor
  · have h0 : (as.flatMap (fun e => r'.sendAll e)).filter (fun m => !forEveryone m.2) = [] := by
      rw [List.filter_eq_nil_iff]
      intro m hm
      simp [hall m hm]
    rw [ho, List.filter_append, List.filter_append, h0, List.length_append, List.length_append]
    have := List.length_filter_le (fun m : Sent => !forEveryone m.2) pre
    have := List.length_filter_le (fun m : Sent => !forEveryone m.2) post
    have := hf.one
    simp only [List.length_nil]
    omega
  · intro m hm hp
    rw [ho] at hm
    simp only [List.mem_append] at hm
    rcases hm with (hm | hm) | hm
    · exact (hf.private_ m (List.mem_append_left _ hm)).2.2
    · rw [hall m hm] at hp; cases hp
    · exact (hf.private_ m (List.mem_append_right _ hm)).2.2

/-- **C136.** Nobody outside the room hears anything. -/
theorem C136_inside {env : Env} {r r' : Room} {calls : List Room.Call} {log out : List Sent} {fuel : Nat} {c : Room.Call}
    (h : Lived env r calls log) (hs : r.step env fuel c = .ok (r', out)) : ∀ m ∈ out, Present r' m.1 := by
  obtain ⟨pre, as, post, ho, hf⟩ := lived_form h hs
  intro m hm
  rw [ho] at hm
  simp only [List.mem_append] at hm
  rcases hm with (hm | hm) | hm
  · exact (hf.private_ m (List.mem_append_left _ hm)).2.1
  · obtain ⟨e, -, h2⟩ := List.mem_flatMap.mp hm
    rw [sendAll_eq, List.mem_map] at h2
    obtain ⟨x, hx, rfl⟩ := h2
    exact mem_recipients.mp hx
  · exact (hf.private_ m (List.mem_append_right _ hm)).2.1

theorem Form.length {r r' : Room} {c : Room.Call} {pre post : List Sent} {as : List Room.Event} (hf : Form r c r' pre as post) :
    (pre ++ as.flatMap (fun e => r'.sendAll e) ++ post).length ≤ 2 * (recipients r').length + 1 := by
  have h1 := hf.one
  have h2 := hf.two
  match as, h2 with
  | [], _ => simp; omega
  | [a], _ => simp [sendAll_eq]; omega
  | [a, b], _ => simp [sendAll_eq]; omega

/-- **C136.** A call makes a room send at most two messages to every place in it, and one more. -/
theorem C136_little {env : Env} {r r' : Room} {calls : List Room.Call} {log out : List Sent} {fuel : Nat} {c : Room.Call}
    (h : Lived env r calls log) (hs : r.step env fuel c = .ok (r', out)) :
    out.length ≤ 2 * (audience r').length + 1 ∧ ∀ y, (inbox y out).length ≤ 2 * (audience r').count y + 1 := by
  rw [audience_eq (lived_ok (h.step hs))]
  obtain ⟨pre, as, post, ho, hf⟩ := lived_form h hs
  refine ⟨by rw [ho]; exact hf.length, fun y => ?_⟩
  rw [ho, inbox_append, inbox_append, inbox_announced]
  have h1 := hf.one
  have h2 := hf.two
  have b1 : (inbox y pre).length ≤ pre.length := by simpa [inbox] using List.length_filter_le _ _
  have b2 : (inbox y post).length ≤ post.length := by simpa [inbox] using List.length_filter_le _ _
  match as, h2 with
  | [], _ => simp; omega
  | [a], _ => simp; omega
  | [a, b], _ => simp; omega

theorem audience_length (r : Room) : (audience r).length ≤ 6 + r.spectators.length := by
  unfold audience
  rw [List.length_append]
  have := List.length_filterMap_le id [seat r 0 0, seat r 0 1, seat r 0 2, seat r 1 0, seat r 1 1, seat r 1 2]
  simp only [List.length_cons, List.length_nil] at this
  omega

theorem setInsert_longer (c : ClientId) (l : List ClientId) : l.length ≤ (Room.setInsert c l).length := by
  induction l with
  | nil => simp [Room.setInsert]
  | cons x xs ih =>
    unfold Room.setInsert
    split
    · simp
    · split
      · simpa using ih
      · simp

theorem Move.spectators {env : Env} {r r' : Room} {c : Room.Call} {out : List Sent} (m : Move env r c r' out) :
    r.spectators.length ≤ r'.spectators.length := by
  cases m with
  | spectate => exact setInsert_longer _ _
  | start _ _ h => obtain ⟨⟨d, u, rfl⟩, -⟩ := enterDeciding_ok h; exact Nat.le_refl _
  | _ => exact Nat.le_refl _

/-- **C136.** So however long a room lives: with `n` calls and `s` spectators it has sent at most `n * (2 * s + 13)` messages. -/
theorem C136_traffic {env : Env} {r : Room} {calls : List Room.Call} {log : List Sent} (h : Lived env r calls log) :
    log.length ≤ calls.length * (2 * r.spectators.length + 13) := by
  induction h with
  | @start rng host o r out hi =>
    have m := init_move hi
    obtain ⟨pre, as, post, ho, hf⟩ := Move.form (roomOk_empty env rng host o) m (by intro x s hx; cases hx)
    have h1 := hf.length
    rw [← ho, ← audience_eq (lived_ok (.start hi))] at h1
    have h2 := audience_length r
    simp only [List.length_cons, List.length_nil]
    omega
  | @step r r' calls log out fuel c hl hs ih =>
    have h1 := (C136_little hl hs).1
    have h2 := audience_length r'
    have h3 := Move.spectators ((lived_ok hl).move hs)
    rw [List.length_append, List.length_append]
    simp only [List.length_cons, List.length_nil]
    have h4 : calls.length * (2 * r.spectators.length + 13) ≤ calls.length * (2 * r'.spectators.length + 13) :=
      Nat.mul_le_mul_left _ (by omega)
    have h5 : (calls.length + (0 + 1)) * (2 * r'.spectators.length + 13) = calls.length * (2 * r'.spectators.length + 13) + (2 * r'.spectators.length + 13) := by
      rw [Nat.zero_add, Nat.add_mul, Nat.one_mul]
    omega

/-- Two duelists, both with decks and ready. -/
def bothReady : List Room.Call :=
  let deck : Deck := { main := [1, 2, 3] }
  [.enter 2, .visit 1 (.configuring (.updateDeck deck)), .visit 2 (.configuring (.updateDeck deck)),
   .visit 1 (.configuring (.readyStatus true)), .visit 2 (.configuring (.readyStatus true))]

/-- The last call: starting with a coin sends two messages to everyone and one more, as many as a call can. -/
example :
    (do
      let (r, _) ← play demoEnv (fun _ => 1) 1 { ftdm := 3 } bothReady
      let (r', out) ← r.step demoEnv 10 (.visit 1 (.configuring (.startDueling true)))
      pure (out.length, (audience r').length, (inbox 1 out).length, (inbox 2 out).length, (inbox 2 out).filter forEveryone == (inbox 1 out).filter forEveryone)).toOption =
    some (5, 2, 2, 3, true) := by decide +kernel

/-- A deck only concerns its owner; the other client hears nothing. -/
example :
    (do
      let (r, _) ← play demoEnv (fun _ => 1) 1 { ftdm := 3 } [.enter 2]
      let (r', out) ← r.step demoEnv 10 (.visit 2 (.configuring (.updateDeck { main := [7] })))
      pure (inbox 1 out, (inbox 2 out).length, (slotAt r' 1 0).map Slot.deckValid, (slotAt r 1 0).map Slot.deckValid)).toOption =
    some ([], 1, some true, some false) := by decide +kernel

end Ygo.Props
