import Verif.Spec.Pace
import Verif.Props.Handover

/-!
# Clients at their own pace (C115)
-/

namespace Ygo.Props
open Ygo Ygo.Spec Ygo.Pb

set_option linter.unusedSimpArgs false

theorem feed_append (c : BasicContext) (xs ys : List (List UInt8)) :
    feed c (xs ++ ys) = feed c xs >>= fun x => (feed x.2 ys).map fun y => (x.1 ++ y.1, y.2) := by
  induction xs generalizing c with
  | nil =>
    simp only [List.nil_append, feed, bind_ok]
    cases feed c ys <;> rfl
  | cons d xs ih =>
    simp only [List.cons_append, feed]
    cases encodeOne c d with
    | error e => rfl
    | ok x =>
      obtain ⟨r, c1⟩ := x
      have rest : ∀ c2 : BasicContext, (feed c2 (xs ++ ys) >>= fun x => (Except.ok (r :: x.1, x.2) : Res (List Encoded × BasicContext))) =
          (feed c2 xs >>= fun x => (Except.ok (r :: x.1, x.2) : Res (List Encoded × BasicContext))) >>= fun x => (feed x.2 ys).map fun y => (x.1 ++ y.1, y.2) := by
        intro c2
        rw [ih]
        cases feed c2 xs with
        | error e => rfl
        | ok z =>
          simp only [bind_ok]
          cases feed z.2 ys <;> rfl
      simp only [bind_ok]
      cases r.msg with
      | none => exact rest c1
      | some m =>
        show (c1.parse m >>= _) = (c1.parse m >>= _) >>= _
        cases c1.parse m with
        | error e => rfl
        | ok c2 => exact rest c2

/-- Looking alike step by step. -/
theorem step_look {cache : Bool} {s s' t' : Client} (hs : Sound s) (hs' : Sound s') (h : LookSame s s') {ms : List Msg}
    (hf : Client.follow false s' ms = .ok t') : ∃ t, Client.follow cache s ms = .ok t ∧ LookSame t t' := by
  have k := follow_look hs hs' h cache false ms
  rw [hf] at k
  cases he : Client.follow cache s ms with
  | error e => rw [he] at k; exact absurd k id
  | ok t => rw [he] at k; exact ⟨t, rfl, k.1⟩

theorem _root_.Ygo.Spec.LookSame.trans {a b c : Client} (h : LookSame a b) (k : LookSame b c) : LookSame a c :=
  ⟨h.cards.trans k.cards, h.chain.trans k.chain, h.turn.trans k.turn, h.turnPlayer.trans k.turnPlayer, h.lp.trans k.lp, h.phase.trans k.phase, h.blocked.trans k.blocked⟩

theorem _root_.Ygo.Spec.LookSame.symm {a b : Client} (h : LookSame a b) : LookSame b a :=
  ⟨h.cards.symm, h.chain.symm, h.turn.symm, h.turnPlayer.symm, h.lp.symm, h.phase.symm, h.blocked.symm⟩

/-- Where a client is with messages: it went through what the server went through. -/
def Behind (cache : Bool) (t : Client) (q : List Msg) (hist : List Client) : Prop :=
  ∀ j ≤ q.length, ∃ t' s, Client.follow cache t (q.take j) = .ok t' ∧ hist[q.length - j]? = some s ∧ LookSame t' s

structure PeerOk (n : Net) (p : Peer) : Prop where
  sound : Sound p.shows
  behind : ∃ t, Client.follow p.cache p.shows p.early = .ok t ∧ Behind p.cache t p.queue (clientOf n.server :: n.past)

theorem tracks_sound {ms : List Msg} {d d' : BasicContext} (hd : Sound (clientOf d)) (h : tracks d ms = .ok d') : Sound (clientOf d') := by
  induction ms generalizing d with
  | nil => cases h; exact hd
  | cons m ms ih =>
    simp only [tracks, bind_eq_ok] at h
    obtain ⟨d1, h1, h2⟩ := h
    exact ih (follow_sound hd (parse_eq d d1 m h1 false [])) h2

theorem feed_one {c c' : BasicContext} {d : List UInt8} {rs : List Encoded} (h : feed c [d] = .ok (rs, c')) : ∃ r, rs = [r] := by
  obtain ⟨r, _, _, rs', _, _, _, h4, rfl⟩ := feed_cons h
  cases h4
  exact ⟨r, rfl⟩

theorem server_sound {ds : List (List UInt8)} {n : Net} (h : NetRuns ds n) : Sound (clientOf n.server) := by
  induction h with
  | init => exact Sound.init
  | core d h hf ih => exact follow_sound ih (follow_feed false hf)
  | join cache h hs ih => exact ih
  | leave h hp ih => exact ih
  | early h hp hm hs ih => exact ih
  | take h hp he hm hs ih => exact ih
  | @handover ds n c h ht ih => exact tracks_sound (d := BasicContext.init) (d' := c) Sound.init ht

theorem handover_look {c c' : BasicContext} (hs : ∃ ms, Client.follow false Client.init ms = .ok (clientOf c)) (ht : tracks BasicContext.init (catchUp (clientOf c)) = .ok c') :
    LookSame (clientOf c') (clientOf c) := by
  obtain ⟨ms, hs⟩ := hs
  obtain ⟨_, t, h1, h2⟩ := C110_catch_up false false ms [] (clientOf c) .init hs rfl
  obtain ⟨c'', k1, k2, _⟩ := tracks_of_follow (c := BasicContext.init) h1
  rw [ht] at k1
  cases k1
  exact k2 ▸ h2

theorem tracks_follow {ms : List Msg} {d d' : BasicContext} (h : tracks d ms = .ok d') : Client.follow false (clientOf d) ms = .ok (clientOf d') := by
  induction ms generalizing d with
  | nil => cases h; rfl
  | cons m ms ih =>
    simp only [tracks, bind_eq_ok] at h
    obtain ⟨d1, h1, h2⟩ := h
    rw [clientOf, parse_eq d d1 m h1 false ms]
    exact ih h2

theorem server_reached {ds : List (List UInt8)} {n : Net} (h : NetRuns ds n) : ∃ ms, Client.follow false Client.init ms = .ok (clientOf n.server) := by
  induction h with
  | init => exact ⟨[], rfl⟩
  | core d h hf ih =>
    obtain ⟨ms, ih⟩ := ih
    exact ⟨ms ++ _, by rw [follow_append, ih]; exact follow_feed false hf⟩
  | join cache h hs ih => exact ih
  | leave h hp ih => exact ih
  | early h hp hm hs ih => exact ih
  | take h hp he hm hs ih => exact ih
  | handover h ht ih => exact ⟨_, tracks_follow ht⟩

theorem peers_ok {ds : List (List UInt8)} {n : Net} (h : NetRuns ds n) : ∀ p ∈ n.peers, PeerOk n p := by
  induction h with
  | init => intro p hp; cases hp
  | @core ds n d rs c h hf ih =>
    intro p hp
    obtain ⟨p, hp', rfl⟩ := List.mem_map.mp hp
    obtain ⟨h1, t, h2, h3⟩ := ih p hp'
    refine ⟨h1, t, h2, ?_⟩
    obtain ⟨r, rfl⟩ := feed_one hf
    have hfol := follow_feed false hf
    cases hm : r.msg with
    | none =>
      have e : messages [r] = [] := by simp [messages, hm]
      rw [e] at hfol ⊢
      have hfol : clientOf n.server = clientOf c := by injection hfol
      simp only [List.append_nil, List.map_nil, List.nil_append]
      rw [← hfol]
      exact h3
    | some m =>
      have e : messages [r] = [m] := by simp [messages, hm]
      rw [e] at hfol ⊢
      intro j hj
      simp only [List.length_append, List.length_cons, List.length_nil] at hj ⊢
      show ∃ t' s, _ ∧ (clientOf c :: clientOf n.server :: n.past)[_]? = some s ∧ _
      by_cases hj' : j ≤ p.queue.length
      · obtain ⟨t', s, k1, k2, k3⟩ := h3 j hj'
        refine ⟨t', s, ?_, ?_, k3⟩
        · rw [List.take_append_of_le_length hj']
          exact k1
        · rw [show p.queue.length + (0 + 1) - j = (p.queue.length - j) + 1 by omega, List.getElem?_cons_succ]
          exact k2
      · have hj'' : j = p.queue.length + 1 := by omega
        subst hj''
        obtain ⟨t', s, k1, k2, k3⟩ := h3 p.queue.length (Nat.le_refl _)
        rw [Nat.sub_self, List.getElem?_cons_zero] at k2
        cases k2
        rw [List.take_length] at k1
        obtain ⟨t1, i1, i2⟩ := step_look (cache := p.cache) (follow_sound (follow_sound h1 h2) k1) (server_sound h) k3 hfol
        refine ⟨t1, clientOf c, ?_, by rw [show p.queue.length + (0 + 1) - (p.queue.length + 1) = 0 by omega]; rfl, i2⟩
        rw [List.take_of_length_le (by simp), follow_append, k1]
        exact i1
  | @join ds n cache ms s h hs ih =>
    intro p hp
    rcases List.mem_cons.mp hp with rfl | hp
    · obtain ⟨ms', hr⟩ := server_reached h
      obtain ⟨_, t, h1, h2⟩ := C110_catch_up cache false ms' ms (clientOf n.server) s hr hs
      refine ⟨follow_sound .init hs, t, h1, fun j hj => ?_⟩
      cases Nat.le_zero.mp hj
      exact ⟨t, clientOf n.server, rfl, rfl, h2⟩
    · exact ⟨(ih p hp).sound, (ih p hp).behind⟩
  | leave h hp ih =>
    intro p hq
    have := ih p (by rw [hp]; rcases List.mem_append.mp hq with h | h <;> simp [h])
    exact ⟨this.sound, this.behind⟩
  | @early ds n a b p m ms s h hp hm hs ih =>
    intro p' hq
    rcases List.mem_append.mp hq with hq | hq
    · have := ih p' (by rw [hp]; simp [hq]); exact ⟨this.sound, this.behind⟩
    rcases List.mem_cons.mp hq with rfl | hq
    · obtain ⟨h1, t, h2, h3⟩ := ih p (by rw [hp]; simp)
      rw [hm, show m :: ms = [m] ++ ms from rfl, follow_append, hs] at h2
      exact ⟨follow_sound h1 hs, t, h2, h3⟩
    · have := ih p' (by rw [hp]; simp [hq]); exact ⟨this.sound, this.behind⟩
  | @take ds n a b p m ms s h hp he hm hs ih =>
    intro p' hq
    rcases List.mem_append.mp hq with hq | hq
    · have := ih p' (by rw [hp]; simp [hq]); exact ⟨this.sound, this.behind⟩
    rcases List.mem_cons.mp hq with rfl | hq
    · obtain ⟨h1, t, h2, h3⟩ := ih p (by rw [hp]; simp)
      rw [he] at h2
      cases h2
      refine ⟨follow_sound h1 hs, s, by rw [show ({ p with shows := s, queue := ms } : Peer).early = [] from he]; rfl, fun j hj => ?_⟩
      obtain ⟨t', s', k1, k2, k3⟩ := h3 (j + 1) (by rw [hm]; simpa using hj)
      refine ⟨t', s', ?_, ?_, k3⟩
      · rw [hm, List.take_succ_cons, show m :: List.take j ms = [m] ++ List.take j ms from rfl, follow_append, hs] at k1
        exact k1
      · rw [hm, List.length_cons, Nat.add_sub_add_right] at k2
        exact k2
    · have := ih p' (by rw [hp]; simp [hq]); exact ⟨this.sound, this.behind⟩
  | @handover ds n c h ht ih =>
    intro p hp
    obtain ⟨h1, t, h2, h3⟩ := ih p hp
    refine ⟨h1, t, h2, fun j hj => ?_⟩
    obtain ⟨t', s, k1, k2, k3⟩ := h3 j hj
    cases hk : p.queue.length - j with
    | zero =>
      rw [hk] at k2
      cases k2
      exact ⟨t', clientOf c, k1, rfl, k3.trans (handover_look (server_reached h) ht).symm⟩
    | succ k =>
      rw [hk] at k2
      exact ⟨t', s, k1, k2, k3⟩

/-- **C115.** Whatever has happened: what waits for a client leads it to where the server is. -/
theorem C115_in_step (ds : List (List UInt8)) (n : Net) (h : NetRuns ds n) (p : Peer) (hp : p ∈ n.peers) :
    ∃ t, Client.follow p.cache p.shows (p.early ++ p.queue) = .ok t ∧ LookSame t (clientOf n.server) := by
  obtain ⟨_, t, h2, h3⟩ := peers_ok h p hp
  obtain ⟨t', s, k1, k2, k3⟩ := h3 p.queue.length (Nat.le_refl _)
  rw [Nat.sub_self] at k2
  cases k2
  rw [List.take_length] at k1
  exact ⟨t', by rw [follow_append, h2]; exact k1, k3⟩

/-- **C115.** So all clients for which nothing waits show what the server tracks, and the same as each other. -/
theorem C115_all_alike (ds : List (List UInt8)) (n : Net) (h : NetRuns ds n) (p p' : Peer) (hp : p ∈ n.peers) (hp' : p' ∈ n.peers)
    (he : p.early = [] ∧ p.queue = []) (he' : p'.early = [] ∧ p'.queue = []) : LookSame p.shows (clientOf n.server) ∧ LookSame p.shows p'.shows := by
  obtain ⟨t, h1, h2⟩ := C115_in_step ds n h p hp
  obtain ⟨t', h1', h2'⟩ := C115_in_step ds n h p' hp'
  rw [he.1, he.2] at h1
  rw [he'.1, he'.2] at h1'
  cases h1; cases h1'
  exact ⟨h2, h2.trans h2'.symm⟩

/-- **C115.** No client ever gets stuck: it can take the next message. -/
theorem C115_never_stuck (ds : List (List UInt8)) (n : Net) (h : NetRuns ds n) (p : Peer) (hp : p ∈ n.peers) (m : Msg) (ms : List Msg)
    (hm : p.early ++ p.queue = m :: ms) : ∃ s, Client.follow p.cache p.shows [m] = .ok s := by
  obtain ⟨t, h1, _⟩ := C115_in_step ds n h p hp
  rw [hm, show m :: ms = [m] ++ ms from rfl, follow_append] at h1
  cases hs : Client.follow p.cache p.shows [m] with
  | error e => rw [hs] at h1; cases h1
  | ok s => exact ⟨s, rfl⟩

/-- **C115.** A client that has caught up shows what the server tracked as many messages ago as wait for the client. -/
theorem C115_shows_the_past (ds : List (List UInt8)) (n : Net) (h : NetRuns ds n) (p : Peer) (hp : p ∈ n.peers) (he : p.early = []) :
    ∃ s, (clientOf n.server :: n.past)[p.queue.length]? = some s ∧ LookSame p.shows s := by
  obtain ⟨_, t, h2, h3⟩ := peers_ok h p hp
  rw [he] at h2
  cases h2
  obtain ⟨t', s, k1, k2, k3⟩ := h3 0 (Nat.zero_le _)
  cases k1
  exact ⟨s, k2, k3⟩

/-- **C115.** However often servers have taken over, what has been sent is what one server would have sent, and what is tracked and noted is the same. -/
theorem C115_one_server (ds : List (List UInt8)) (n : Net) (h : NetRuns ds n) :
    ∃ rs c, feed BasicContext.init ds = .ok (rs, c) ∧ n.sent = messages rs ∧ n.past.length = n.sent.length ∧ LookSame (clientOf n.server) (clientOf c) ∧
      n.server.matchWinReason = c.matchWinReason ∧ n.server.left = c.left ∧ n.server.deferred = c.deferred := by
  induction h with
  | init => exact ⟨[], _, rfl, rfl, rfl, .refl _, rfl, rfl, rfl⟩
  | @core ds n d rs' c' h hf ih =>
    obtain ⟨rs, c, h1, h2, h3, h4, h5, h6, h7⟩ := ih
    have hs : Sound (clientOf c) := follow_sound .init (follow_feed false h1)
    have k := feed_together (ds := [d]) (c := n.server) (c' := c) (server_sound h).inv hs.inv ⟨h4.alike, h5, h6, h7⟩
    rw [hf] at k
    cases hc : feed c [d] with
    | error e => rw [hc] at k; exact absurd k id
    | ok z =>
      obtain ⟨rs2, c2⟩ := z
      rw [hc] at k
      obtain ⟨e, k⟩ := k
      have e : rs' = rs2 := e
      subst e
      obtain ⟨t, i1, i2⟩ := step_look (cache := false) (server_sound h) hs h4 (follow_feed false hc)
      rw [follow_feed false hf] at i1
      cases i1
      refine ⟨rs ++ rs', c2, ?_, ?_, ?_, i2, k.reason, k.left, k.deferred⟩
      · rw [feed_append, h1, bind_ok, hc]
        rfl
      · simp only [h2, messages, List.filterMap_append]
      · simp only [List.length_append, List.length_map, h3, Nat.add_comm]
  | join cache h hs ih => exact ih
  | leave h hp ih => exact ih
  | early h hp hm hs ih => exact ih
  | take h hp he hm hs ih => exact ih
  | handover h ht ih =>
    obtain ⟨rs, c, h1, h2, h3, h4, h5, h6, h7⟩ := ih
    exact ⟨rs, c, h1, h2, h3, (handover_look (server_reached h) ht).trans h4, h5, h6, h7⟩

/-- **C115.** A server that has taken over does not fail where the first one would not have, nor the other way round; and another one can take over. -/
theorem C115_goes_on (ds : List (List UInt8)) (n : Net) (h : NetRuns ds n) :
    (∀ d, (∃ x, feed n.server [d] = .ok x) ↔ ∃ x, feed BasicContext.init (ds ++ [d]) = .ok x) ∧
      ∃ c, tracks BasicContext.init (catchUp (clientOf n.server)) = .ok c := by
  constructor
  · intro d
    obtain ⟨rs, c, h1, _, _, h4, h5, h6, h7⟩ := C115_one_server ds n h
    have hs : Sound (clientOf c) := follow_sound .init (follow_feed false h1)
    have k := feed_together (ds := [d]) (c := n.server) (c' := c) (server_sound h).inv hs.inv ⟨h4.alike, h5, h6, h7⟩
    rw [feed_append, h1, bind_ok]
    revert k
    cases feed n.server [d] with
    | error e =>
      cases feed c [d] with
      | error e' => exact fun _ => ⟨fun hx => (by obtain ⟨x, hx⟩ := hx; cases hx), fun hx => (by obtain ⟨x, hx⟩ := hx; cases hx)⟩
      | ok y => exact False.elim
    | ok x =>
      cases feed c [d] with
      | error e' => exact False.elim
      | ok y => exact fun _ => ⟨fun _ => ⟨_, rfl⟩, fun _ => ⟨_, rfl⟩⟩
  · obtain ⟨ms, hr⟩ := server_reached h
    obtain ⟨_, t, h1, h2⟩ := C110_catch_up false false ms [] (clientOf n.server) .init hr rfl
    obtain ⟨c', k1, _, _⟩ := tracks_of_follow (c := BasicContext.init) h1
    exact ⟨c', k1⟩

/-! ## Not vacuous -/

/-- Some of what can happen, done: the last client to come takes its next message. -/
inductive Act
  | core (d : List UInt8)
  | join (cache : Bool)
  | next
  | handover

def act (n : Net) : Act → Option Net
  | .core d =>
    match feed n.server [d] with
    | .ok (rs, c) => some ⟨c, n.sent ++ messages rs, (messages rs).map (fun _ => clientOf n.server) ++ n.past, Net.send (messages rs) n.peers⟩
    | .error _ => none
  | .join cache => some { n with peers := ⟨cache, Client.init, catchUp (clientOf n.server), []⟩ :: n.peers }
  | .next =>
    match n.peers with
    | [] => none
    | p :: ps =>
      match p.early, p.queue with
      | m :: ms, _ =>
        match Client.follow p.cache p.shows [m] with
        | .ok s => some { n with peers := { p with shows := s, early := ms } :: ps }
        | .error _ => none
      | [], m :: ms =>
        match Client.follow p.cache p.shows [m] with
        | .ok s => some { n with peers := { p with shows := s, queue := ms } :: ps }
        | .error _ => none
      | [], [] => none
  | .handover =>
    match tracks BasicContext.init (catchUp (clientOf n.server)) with
    | .ok c => some { n with server := withNotes c n.server }
    | .error _ => none

theorem act_runs {ds : List (List UInt8)} {n n' : Net} (h : NetRuns ds n) (a : Act) (ha : act n a = some n') : ∃ ds', NetRuns ds' n' := by
  unfold act at ha
  split at ha
  · next d =>
    split at ha
    · next rs c hf => cases ha; exact ⟨_, .core d h hf⟩
    · cases ha
  · next cache => cases ha; exact ⟨_, .join cache (ms := []) h rfl⟩
  · split at ha
    · cases ha
    · next p ps hp =>
      split at ha
      · next m ms _ he =>
        split at ha
        · next s hs => cases ha; exact ⟨_, .early (a := []) h hp he hs⟩
        · cases ha
      · next m ms he hq =>
        split at ha
        · next s hs => cases ha; exact ⟨_, .take (a := []) h hp he hq hs⟩
        · cases ha
      · cases ha
  · split at ha
    · next c ht => cases ha; exact ⟨_, .handover h ht⟩
    · cases ha

def acts : Net → List Act → Option Net
  | n, [] => some n
  | n, a :: as => (act n a).bind fun n => acts n as

theorem acts_run {as : List Act} {ds : List (List UInt8)} {n n' : Net} (h : NetRuns ds n) (ha : acts n as = some n') : ∃ ds', NetRuns ds' n' := by
  induction as generalizing ds n with
  | nil => cases ha; exact ⟨ds, h⟩
  | cons a as ih =>
    simp only [acts, Option.bind_eq_some_iff] at ha
    obtain ⟨n1, h1, h2⟩ := ha
    obtain ⟨ds1, h3⟩ := act_runs h a h1
    exact ih h3 h2

/-- A client from the start that does not take anything; one that comes late, after another server has gone on, and is one message behind. -/
def someNet : Option Net :=
  acts Net.init [.join true, .next, .next, .next, .next, .core (CoreMsg.start 5 8000 8000 3 0 3 0).bytes, .core (CoreMsg.draw 0 [(7, 0)]).bytes, .handover,
    .join false, .core (CoreMsg.draw 1 [(7, 0)]).bytes, .core (CoreMsg.newTurn 1).bytes, .next, .next, .next, .next, .next]

/-- How many messages wait for each client, and how many cards each shows in the hands. -/
example : (someNet.map fun n => (n.past.length, n.sent.length)) = some (4, 4) ∧
    (someNet.map fun n => n.peers.map fun p => (p.early.length, p.queue.length)) = some [(0, 1), (0, 4)] ∧
    (someNet.map fun n => n.peers.map fun p => (p.shows.board.frame.layout.pile ⟨0, .hand⟩, p.shows.board.frame.layout.pile ⟨1, .hand⟩)) =
      some [([5], [4]), ([], [])] := by decide +kernel

/-- The second server calls the cards something else. -/
example : (someNet.map fun n => n.server.board.frame.layout.pile ⟨0, .hand⟩) = some [5] := by decide +kernel

example : ∃ ds n, NetRuns ds n ∧ n.peers.length = 2 := by
  cases h : someNet with
  | none => exact absurd h (by
      have : someNet.isSome = true := by decide +kernel
      intro e; rw [e] at this; cases this)
  | some n =>
    obtain ⟨ds, k⟩ := acts_run .init h
    refine ⟨ds, n, k, ?_⟩
    have : (someNet.map fun n => n.peers.length) = some 2 := by decide +kernel
    rw [h] at this
    injection this

end Ygo.Props
