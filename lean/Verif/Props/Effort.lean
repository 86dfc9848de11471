import Verif.Lemmas.Effort
import Verif.Props.Network
import Verif.Props.Conserve
import Verif.Props.Size
import Verif.Props.Noticed
import Verif.Props.Decode

/-!
# A message makes a client do no more than its bytes allow (C129)
-/

set_option linter.unusedSimpArgs false

namespace Ygo.Props
open Ygo Ygo.Spec Ygo.Pb P

/-- **C129.** Whatever bytes arrive: two times the calls, links, blocked zones, queries, targets and counters of the message that is read from
them are no more than the bytes. -/
theorem C129_parts (bs : List Nat) (m : Msg) (h : receiveMsg bs = some m) : 2 * msgParts m ≤ bs.length := by
  unfold receiveMsg at h
  obtain ⟨o, ho, rfl⟩ := Option.map_eq_some_iff.1 h
  exact Nat.le_trans (msg_nodes (d := 0) o) (read_nodes described ho 5)

theorem ops_length : ∀ ops : List FrameOp, ops.length ≤ (ops.map opParts).sum
  | [] => Nat.le_refl _
  | op :: ops => by
    have h1 := ops_length ops
    have h2 : 1 ≤ opParts op := by cases op <;> simp only [opParts] <;> omega
    simp only [List.map_cons, List.sum_cons, List.length_cons]
    omega

theorem queries_length : ∀ qs : List Query, qs.length ≤ (qs.map queryParts).sum
  | [] => Nat.le_refl _
  | q :: qs => by
    have h1 := queries_length qs
    have h2 : 1 ≤ queryParts q := by simp only [queryParts]; omega
    simp only [List.map_cons, List.sum_cons, List.length_cons]
    omega

/-- **C129.** In particular, there is at most one call or query for every two bytes. -/
theorem C129_calls (bs : List Nat) (m : Msg) (h : receiveMsg bs = some m) (e : Event) (he : Msg.event? m = some e) :
    2 * ((frameOps e).length + m.queries.length) ≤ bs.length := by
  have h1 := C129_parts bs m h
  have h2 := ops_length (frameOps e)
  have h3 := queries_length m.queries
  simp only [msgParts, he, Option.map_some, Option.getD_some, eventParts] at h1
  omega

/-! ## Clients -/

theorem asked_parts (e : Event) : asked e ≤ eventParts e + byCount e := by
  cases e with
  | board e =>
    cases e with
    | unset => exact Nat.zero_le _
    | exchange e =>
      simp only [asked, eventParts, frameOps, byCount, DuelBoard.exchangeOps, List.map_append, List.sum_append, ops_once FrameOp.add (fun _ => rfl)]
      omega
    | state s =>
      simp only [asked, eventParts, frameOps, byCount, DuelBoard.stateOps, List.cons_append, List.map_cons, List.sum_cons, List.map_append,
        List.sum_append, ops_once FrameOp.add (fun _ => rfl)]
      omega
  | card r e =>
    cases e <;> try exact Nat.zero_le _
    simp only [asked, eventParts, frameOps, byCount, DuelBoard.cardOps, ops_once FrameOp.add (fun _ => rfl)]
    omega
  | _ => exact Nat.zero_le _

/-- The links and the blocked zones after an event. -/
theorem kept_parts {b b' : PlainBoard} {e : Event} (h : b.parseEvent e = .ok b') :
    b'.chainStack.val.length ≤ b.chainStack.val.length + eventParts e ∧ b'.blockedZones.val.length ≤ b.blockedZones.val.length + eventParts e := by
  cases e with
  | board e =>
    cases e with
    | unset => cases h; omega
    | exchange e =>
      simp only [DuelBoard.parseEvent, DuelBoard.onFrame, bind_eq_ok, pure_eq_ok, Except.ok.injEq] at h
      obtain ⟨f, _, rfl⟩ := h
      exact ⟨by simp, by simp⟩
    | state s =>
      simp only [DuelBoard.parseEvent, DuelBoard.parseState, DuelBoard.onFrame, bind_eq_ok, pure_eq_ok, Except.ok.injEq] at h
      obtain ⟨_, _, _, _, f, _, rfl⟩ := h
      constructor
      · simp only [Cell.set, eventParts]
        omega
      · split <;> simp [DuelBoard.setLp]
  | card r e =>
    simp only [DuelBoard.parseEvent, DuelBoard.onFrame, bind_eq_ok, pure_eq_ok, Except.ok.injEq] at h
    obtain ⟨f, _, rfl⟩ := h
    exact ⟨by simp, by simp⟩
  | pile r e =>
    simp only [DuelBoard.parseEvent, DuelBoard.onFrame, bind_eq_ok, pure_eq_ok, Except.ok.injEq] at h
    obtain ⟨f, _, rfl⟩ := h
    exact ⟨by simp, by simp⟩
  | chainStack e =>
    cases e with
    | unset => cases h; omega
    | push c =>
      simp only [DuelBoard.parseEvent, bind_eq_ok, pure_eq_ok, Except.ok.injEq] at h
      obtain ⟨cs, hc, rfl⟩ := h
      simp [Cell.push] at hc
      subst hc
      exact ⟨by simp [eventParts, frameOps], by simp⟩
    | pop x =>
      simp only [DuelBoard.parseEvent, bind_eq_ok, pure_eq_ok, Except.ok.injEq] at h
      obtain ⟨cs, hc, rfl⟩ := h
      refine ⟨?_, by simp⟩
      simp only [Cell.pop, bind_eq_ok, pure_eq_ok, Except.ok.injEq] at hc
      obtain ⟨_, _, rfl⟩ := hc
      simp only [List.length_dropLast]
      omega
  | zoneBlock zs =>
    cases h
    exact ⟨by simp, by simp [Cell.set, eventParts, frameOps]⟩
  | lp con c =>
    simp only [DuelBoard.parseEvent, bind_eq_ok, pure_eq_ok, Except.ok.injEq] at h
    obtain ⟨_, _, _, _, rfl⟩ := h
    exact ⟨by simp [DuelBoard.setLp], by simp [DuelBoard.setLp]⟩
  | nextTurn con =>
    simp only [DuelBoard.parseEvent, bind_eq_ok, pure_eq_ok, Except.ok.injEq] at h
    obtain ⟨_, _, rfl⟩ := h
    exact ⟨by simp, by simp⟩
  | nextPhase p =>
    cases h
    exact ⟨by simp, by simp⟩
  | _ => cases h; omega

theorem kept_all_parts : ∀ {es : List Event} {b b' : PlainBoard}, b.parseEvents es = .ok b' →
    b'.chainStack.val.length ≤ b.chainStack.val.length + (es.map eventParts).sum ∧
      b'.blockedZones.val.length ≤ b.blockedZones.val.length + (es.map eventParts).sum
  | [], b, b', h => by cases h; simp
  | e :: es, b, b', h => by
    simp only [DuelBoard.parseEvents, bind_eq_ok] at h
    obtain ⟨b1, h1, h2⟩ := h
    have h3 := kept_parts h1
    have h4 := kept_all_parts h2
    simp only [List.map_cons, List.sum_cons]
    omega

theorem asked_all_parts (es : List Event) : (es.map asked).sum ≤ (es.map eventParts).sum + (es.map byCount).sum := by
  induction es with
  | nil => exact Nat.le_refl _
  | cons e es ih =>
    have := asked_parts e
    simp only [List.map_cons, List.sum_cons]
    omega

theorem received_parts : ∀ {bss : List (List Nat)} {ms : List Msg}, receiveAll bss = some ms →
    2 * ((ms.filterMap Msg.event?).map eventParts).sum ≤ (bss.map List.length).sum
  | [], ms, h => by cases h; exact Nat.le_refl _
  | bs :: bss, ms, h => by
    simp only [receiveAll, Option.bind_eq_bind, Option.bind_eq_some_iff, Option.pure_def, Option.some.injEq] at h
    obtain ⟨m, hm, ms', hms, rfl⟩ := h
    have h1 := C129_parts bs m hm
    have h2 := received_parts hms
    simp only [List.map_cons, List.sum_cons]
    cases he : Msg.event? m with
    | none =>
      simp only [List.filterMap_cons, he]
      omega
    | some e =>
      simp only [List.filterMap_cons, he, List.map_cons, List.sum_cons]
      simp only [msgParts, he, Option.map_some, Option.getD_some] at h1
      omega

/-- **C129.** So whoever sends the bytes, a client that follows what it can read keeps no more links and blocked zones than half the bytes,
and no more cards than half the bytes and the counts it was told. -/
theorem C129_clients (bss : List (List Nat)) (ms : List Msg) (hr : receiveAll bss = some ms) (cache : Bool) (s s' : Client)
    (hs : ReachablePlain s.board) (h : Client.follow cache s ms = .ok s') :
    2 * s'.board.chainStack.val.length ≤ 2 * s.board.chainStack.val.length + (bss.map List.length).sum ∧
    2 * s'.board.blockedZones.val.length ≤ 2 * s.board.blockedZones.val.length + (bss.map List.length).sum ∧
    2 * tableSize (view s'.board.frame.layout) ≤ 2 * tableSize (view s.board.frame.layout) + (bss.map List.length).sum +
      2 * ((ms.filterMap Msg.event?).map byCount).sum := by
  have he := follow_events h
  have h1 := received_parts hr
  have h2 := kept_all_parts he
  have h3 := asked_all hs.inv he
  have h4 := asked_all_parts (ms.filterMap Msg.event?)
  omega

/-- **C129.** As long as no count is told, no more than half the bytes. -/
theorem C129_cards (bss : List (List Nat)) (ms : List Msg) (hr : receiveAll bss = some ms) (cache : Bool) (s : Client)
    (h : Client.follow cache .init ms = .ok s) (hc : ∀ e ∈ ms.filterMap Msg.event?, byCount e = 0) :
    2 * tableSize (view s.board.frame.layout) ≤ (bss.map List.length).sum := by
  have h1 := (C129_clients bss ms hr cache .init s ⟨[], rfl⟩ h).2.2
  have e : tableSize (view Client.init.board.frame.layout) = 0 := by decide
  have h2 : ((ms.filterMap Msg.event?).map byCount).sum = 0 := by
    generalize ms.filterMap Msg.event? = es at hc
    induction es with
    | nil => rfl
    | cons x es ih =>
      rw [List.map_cons, List.sum_cons, hc x (by simp), ih (fun e he => hc e (by simp [he]))]
  omega

/-! ## No better bound -/

/-- A message that blocks the same zone many times. -/
def blocking (n : Nat) : Msg := saying (.zoneBlock (List.replicate n ⟨0, 0, 0, 0⟩))

theorem blocking_length (n : Nat) : (sendMsg (blocking n)).length ≤ 2 * n + 40 := by
  have h0 : (writeVal schema 1 (.msg .place) (.msg (setPlace ⟨0, 0, 0, 0⟩))).length = 2 := by decide +kernel
  have h1 : size .evZoneBlock (setPlaces (List.replicate n ⟨0, 0, 0, 0⟩)) = 2 * n := by
    fields [setPlaces]
    show (writeVals schema 1 (.msg .place) _).length = _
    rw [writeVals_length]
    simp only [objs, List.map_map]
    induction n with
    | zero => rfl
    | succ n ih =>
      rw [List.replicate_succ, List.map_cons, List.sum_cons, ih, Function.comp, h0]
      omega
  show size .msg (setMsg (blocking n)) ≤ _
  have h2 : size .event (setEvent (.zoneBlock (List.replicate n ⟨0, 0, 0, 0⟩))) ≤ 20 + 2 * n := by
    fields [setEvent]
    exact fieldSize_obj _ _ _ _ (Nat.le_of_eq h1)
  have h3 : size .msg (setMsg (blocking n)) ≤ 20 + (20 + 2 * n) := by
    fields [blocking, saying, setMsg, objs]
    exact fieldSize_obj _ _ _ _ h2
  omega

/-- **C129.** Half the bytes is what it comes to: for any number of zones there is a message of 40 bytes and two for each zone, and a client
that reads it keeps them all. -/
theorem C129_sharp (n : Nat) (hn : n < 2 ^ 29) (cache : Bool) (s : Client) : ∃ bs m s', bs.length ≤ 2 * n + 40 ∧ receiveMsg bs = some m ∧
    Client.follow cache s [m] = .ok s' ∧ s'.board.blockedZones.val.length = n := by
  have hl := blocking_length n
  refine ⟨sendMsg (blocking n), blocking n, ⟨{ s.board with blockedZones := ⟨List.replicate n ⟨0, 0, 0, 0⟩⟩ }, s.store⟩, hl, ?_, ?_, by simp⟩
  · refine C92_messages _ ⟨?_, fun who r h => (by cases h), fun q hq => (by cases hq)⟩ (by omega)
    intro e he
    cases he
    intro p hp
    rw [List.eq_of_mem_replicate hp]
    exact ⟨(by simp [I32]), (by simp [U32]), (by simp [U32]), (by simp [I32])⟩
  · rfl

/-! ## Counts are believed -/

/-- A message that says how many cards a hand has. -/
def handOf (n : Nat) : Msg := saying (.board (.exchange ⟨0, [], [], [⟨⟨0, 2, 0, -1⟩, n⟩]⟩))

theorem hand_length (n : Nat) : (sendMsg (handOf n)).length ≤ 300 := by
  show size .msg (setMsg (handOf n)) ≤ _
  have h1 := size_boardExchange ⟨0, [], [], [⟨⟨0, 2, 0, -1⟩, n⟩]⟩
  have h2 : size .evBoard (setBoard (.exchange ⟨0, [], [], [⟨⟨0, 2, 0, -1⟩, n⟩]⟩)) ≤ 240 := by
    fields [setBoard]
    exact Nat.le_trans (fieldSize_obj _ _ _ _ h1) (by simp)
  have h3 : size .event (setEvent (.board (.exchange ⟨0, [], [], [⟨⟨0, 2, 0, -1⟩, n⟩]⟩))) ≤ 260 := by
    fields [setEvent]
    exact fieldSize_obj _ _ _ _ h2
  have h4 : size .msg (setMsg (handOf n)) ≤ 280 := by
    fields [handOf, saying, setMsg, objs]
    exact fieldSize_obj _ _ _ _ h3
  omega

/-- **C129.** Counts are believed (parse_event.hpp:96-97, frame.hpp:414-418): some hundred bytes make any number of cards below 2^32. -/
theorem C129_believed (n : Nat) (hn : n < 2 ^ 32) (cache : Bool) (s : Client) (hs : ReachablePlain s.board) : ∃ bs m s', bs.length ≤ 300 ∧
    receiveMsg bs = some m ∧ Client.follow cache s [m] = .ok s' ∧ n ≤ tableSize (view s'.board.frame.layout) := by
  have ha : At ⟨0, 2, 0, -1⟩ (.pile ⟨0, .hand⟩) 0 := .pile ⟨0, .hand⟩ 0 (-1)
  obtain ⟨f, hf, _, hz⟩ := resize_sizes hs.inv ha n
  refine ⟨sendMsg (handOf n), handOf n, ⟨{ s.board with frame := f }, s.store⟩, ?_, ?_, ?_, ?_⟩
  · exact hand_length n
  · refine C92_messages _ ⟨?_, fun who r h => (by cases h), fun q hq => (by cases hq)⟩ (by have := hand_length n; omega)
    intro e he
    cases he
    refine ⟨(by simp [I32]), fun _ h => (by cases h), fun _ h => (by cases h), ?_⟩
    intro r hr
    rw [List.mem_singleton] at hr
    subst hr
    exact ⟨⟨(by simp [I32]), (by simp [U32]), (by simp [U32]), (by simp [I32])⟩, hn⟩
  · have hp : s.board.parseEvent (.board (.exchange ⟨0, [], [], [⟨⟨0, 2, 0, -1⟩, n⟩]⟩)) = .ok { s.board with frame := f } := by
      show (s.board.onFrame [.resize ⟨0, 2, 0, -1⟩ n]) = _
      simp only [DuelBoard.onFrame, runOps, FrameLike.step, hf, bind_ok, pure_eq_ok]
    rw [follow_cons]
    show (s.board.parseEvent (.board (.exchange ⟨0, [], [], [⟨⟨0, 2, 0, -1⟩, n⟩]⟩)) >>= _) = _
    rw [hp]
    rfl
  · have a : (view f.layout (.pile ⟨0, .hand⟩)).length ≤ tableSize (view f.layout) := by
      unfold tableSize placed
      obtain ⟨l, r, e⟩ := List.append_of_mem (mem_containers (.pile ⟨0, .hand⟩))
      rw [e, List.flatMap_append, List.flatMap_cons, List.length_append, List.length_append]
      omega
    have b := congrFun hz (.pile ⟨0, .hand⟩)
    rw [show (view f.layout).sizes (.pile ⟨0, .hand⟩) = (view f.layout (.pile ⟨0, .hand⟩)).length from rfl, if_pos rfl] at b
    exact b ▸ a

/-! ## Of the core's bytes -/

/-- **C129.** Unless there is a reload, each message of a server has clients do and keep no more than 550 times the bytes of the longest
buffer, and 110 times the buffers before, allow. -/
theorem C129_server (ds : List (List UInt8)) (hn : ds.length ≤ 2 ^ 22) (hr : ∀ d ∈ ds, d.head? ≠ some 162) (B : Nat) (hb : B ≤ 2 ^ 20)
    (hB : ∀ d ∈ ds, d.length ≤ B) (rs : List Encoded) (c : BasicContext) (h : feed BasicContext.init ds = .ok (rs, c)) :
    ∀ m ∈ messages rs, msgParts m ≤ 550 * B + 1800 + 110 * ds.length := by
  intro m hm
  have h1 := C96_each_partial ds (by omega) hr B hB rs c h m hm
  have h2 := C129_parts _ _ (C92_messages m ((C87_server ds (by omega) rs c h).1 m hm) (by omega))
  omega

/-! ## Answers -/

/-- What an answer lists. -/
def answerParts : Answer → Nat
  | .selectCard (.indexes is) => is.length
  | .selectZone ps => 2 * ps.length
  | .sort (.indexes is) => is.length
  | _ => 0

theorem nats_nodes {d : Nat} (o : Obj) (n : Nat) (s : Scalar) : (o.nats n).length ≤ fieldNodes schema d (.num s) (o n) := by
  rw [fieldNodes_num, Obj.nats, List.length_map]
  generalize o n = vs
  induction vs with
  | nil => exact Nat.le_refl _
  | cons v vs ih =>
    cases v <;> simp only [toInts, List.length_cons] <;> omega

theorem indexes_nodes {d : Nat} (o : Obj) : (o.nats 1).length ≤ nodes schema (d + 1) .anIndexes o :=
  Nat.le_trans (nats_nodes (d := d) o 1 .uint32) (nodes_field (S := schema) (m := .anIndexes) (f := ⟨1, .rep, .num .uint32⟩) (by simp [schema]) o)

theorem answer_nodes {d : Nat} (o : Obj) : answerParts (getAnswer o) ≤ nodes schema (d + 3) .answer o := by
  unfold getAnswer
  by_cases h1 : o.has 1 = true
  · rw [if_pos h1]; exact Nat.zero_le _
  rw [if_neg h1]
  by_cases h : o.has 2 = true
  · rw [if_pos h]
    have h1 := nodes_has (d := d + 2) (T := .answer) (T' := .anSelectCard) (n := 2) (l := .oneof 0) (by simp [schema]) h
    unfold getAnswerCard
    split
    · exact Nat.zero_le _
    split
    · exact Nat.zero_le _
    split
    · rename_i h'
      have h2 := nodes_has (d := d + 1) (T := .anSelectCard) (T' := .anIndexes) (n := 3) (l := .oneof 0) (by simp [schema]) h'
      have h3 := indexes_nodes (d := d) ((o.sub 2).sub 3)
      simp only [answerParts]
      simp only [Nat.add_assoc, Nat.reduceAdd] at *
      omega
    · exact Nat.zero_le _
  rw [if_neg h]
  clear h
  by_cases h3 : o.has 3 = true
  · rw [if_pos h3]; exact Nat.zero_le _
  rw [if_neg h3]
  by_cases h4 : o.has 4 = true
  · rw [if_pos h4]; exact Nat.zero_le _
  rw [if_neg h4]
  by_cases h5 : o.has 5 = true
  · rw [if_pos h5]; exact Nat.zero_le _
  rw [if_neg h5]
  by_cases h6 : o.has 6 = true
  · rw [if_pos h6]; exact Nat.zero_le _
  rw [if_neg h6]
  by_cases h7 : o.has 7 = true
  · rw [if_pos h7]; exact Nat.zero_le _
  rw [if_neg h7]
  by_cases h8 : o.has 8 = true
  · rw [if_pos h8]; exact Nat.zero_le _
  rw [if_neg h8]
  by_cases h9 : o.has 9 = true
  · rw [if_pos h9]; exact Nat.zero_le _
  rw [if_neg h9]
  by_cases h10 : o.has 10 = true
  · rw [if_pos h10]; exact Nat.zero_le _
  rw [if_neg h10]
  by_cases h11 : o.has 11 = true
  · rw [if_pos h11]; exact Nat.zero_le _
  rw [if_neg h11]
  by_cases h12 : o.has 12 = true
  · rw [if_pos h12]; exact Nat.zero_le _
  rw [if_neg h12]
  by_cases h : o.has 13 = true
  · rw [if_pos h]
    have h1 := nodes_has (d := d + 2) (T := .answer) (T' := .anSelectZone) (n := 13) (l := .oneof 0) (by simp [schema]) h
    have h2 := places_nodes (d := d + 1) (T := .anSelectZone) rfl (o.sub 13)
    simp only [answerParts]
    simp only [Nat.add_assoc, Nat.reduceAdd] at *
    omega
  rw [if_neg h]
  clear h
  by_cases h : o.has 14 = true
  · rw [if_pos h]
    have h1 := nodes_has (d := d + 2) (T := .answer) (T' := .anSort) (n := 14) (l := .oneof 0) (by simp [schema]) h
    unfold getAnswerSort
    split
    · exact Nat.zero_le _
    split
    · rename_i h'
      have h2 := nodes_has (d := d + 1) (T := .anSort) (T' := .anIndexes) (n := 2) (l := .oneof 0) (by simp [schema]) h'
      have h3 := indexes_nodes (d := d) ((o.sub 14).sub 2)
      simp only [answerParts]
      simp only [Nat.add_assoc, Nat.reduceAdd] at *
      omega
    · exact Nat.zero_le _
  · rw [if_neg h]; exact Nat.zero_le _

theorem flatMap_length {α : Type} (g : α → List UInt8) (k : Nat) (h : ∀ x, (g x).length = k) : ∀ xs : List α, (xs.flatMap g).length = k * xs.length
  | [] => rfl
  | x :: xs => by
    rw [List.flatMap_cons, List.length_append, h, flatMap_length g k h xs, List.length_cons, Nat.mul_add]
    omega

theorem response_parts {r : Request} {a : Answer} {out data : List UInt8} (h : decodeOneAnswer r a out = .ok data) :
    data.length ≤ out.length + 2 * answerParts a + 8 := by
  have hI : ∀ v, (responseI v).length = 4 := fun v => writeLE_length 4 v
  cases a with
  | selectCard a =>
    cases a with
    | indexes is =>
      simp only [decodeOneAnswer, bind_eq_ok] at h
      obtain ⟨_, _, h⟩ := h
      have h' : data = writeLE 4 1 ++ writeLE 4 (is.headD 0 : Nat) ∨
          data = writeLE 4 1 ++ writeLE 4 is.length ++ is.flatMap fun (i : Nat) => writeLE 2 i := by
        split at h
        · cases h; exact .inl rfl
        · cases h; exact .inr rfl
        · cases h
      rcases h' with rfl | rfl
      · simp only [List.length_append, writeLE_length]
        omega
      · simp only [answerParts, List.length_append, writeLE_length, flatMap_length _ 2 fun (i : Nat) => writeLE_length 2 i]
        omega
    | _ => cases h <;> first | (simp only [hI]; omega) | omega
  | selectZone ps =>
    cases h
    rw [flatMap_length _ 3 fun p => by simp only [List.length_append, writeLE_length]]
    simp only [answerParts]
    omega
  | sort a =>
    cases a with
    | indexes is =>
      cases h
      simp only [answerParts, List.length_append, writeLE_length, flatMap_length _ 1 fun (i : Nat) => writeLE_length 1 i]
      omega
    | _ => cases h <;> simp only [hI, writeLE_length] <;> omega
  | selectIdle a =>
    simp only [decodeOneAnswer, bind_eq_ok] at h
    obtain ⟨_, _, h⟩ := h
    cases a with
    | cardAction act i =>
      simp only [bind_eq_ok] at h
      obtain ⟨_, _, _, _, h⟩ := h
      cases h
      simp only [hI]; omega
    | phase p =>
      simp only at h
      split at h
      · cases h
        repeat' split
        all_goals first | (simp only [hI]; omega) | omega
      · split at h
        · cases h; simp only [hI]; omega
        · split at h <;> cases h <;> first | (simp only [hI]; omega) | omega
    | _ => cases h <;> first | (simp only [hI]; omega) | omega
  | selectToChain a => cases a <;> cases h <;> first | (simp only [hI]; omega) | omega
  | selectCounter _ => cases h; omega
  | unset => cases h; omega
  | _ => cases h; simp only [hI]; omega

/-- **C129.** The other way: whatever bytes a client sends as its answer, the core is given eight bytes and two for each of them at most. -/
theorem C129_answers (bs : List Nat) (a : Answer) (h : receiveAnswer bs = some a) (r : Request) (data : List UInt8)
    (hd : decodeOneAnswer r a [] = .ok data) : data.length ≤ 2 * bs.length + 8 := by
  unfold receiveAnswer at h
  obtain ⟨o, ho, rfl⟩ := Option.map_eq_some_iff.1 h
  have h1 := Nat.le_trans (answer_nodes (d := 0) o) (read_nodes described ho 3)
  have h2 := response_parts hd
  simp only [List.length_nil] at h2
  omega

/-! ## Not vacuous -/

/-- A state with three cards, a link and a count. -/
example : (receiveMsg (sendMsg (saying (.board (.state ⟨⟨false, false, false, false, false⟩, 1, [8000, 8000], [⟨⟨0, 4, 0, -1⟩, ⟨0, 4, 0, -1⟩, ⟨1, 0⟩⟩],
    [⟨0, 4, 0, -1⟩, ⟨0, 4, 0, 0⟩, ⟨1, 4, 2, -1⟩], [⟨⟨0, 2, 0, -1⟩, 5⟩]⟩))))).map (fun m => (msgParts m, m.queries.length)) = some (6, 0) := by
  decide +kernel

/-- An answer with three cards. -/
example : ((receiveAnswer (sendAnswer (.selectCard (.indexes [1, 2, 3])))).bind fun a =>
    (decodeOneAnswer (.selectCard (.uniqueRange true 1 3 [])) a []).toOption.map fun d => ((sendAnswer a).length, d.length)) = some (9, 14) := by
  decide +kernel

example : (receiveMsg (sendMsg (blocking 1000))).map (fun m => (msgParts m, (sendMsg (blocking 1000)).length)) = some (1000, 2006) := by
  decide +kernel

end Ygo.Props
