import Verif.Lemmas.SizeEncode
import Verif.Props.Network

/-!
# Messages are not much bigger than what the core sent (C96)
-/

namespace Ygo.Props
open Ygo Ygo.Spec Ygo.Pb

/-- **C96.** Bytes that a message takes are bounded by the bytes of the buffer it is made from; whatever is put off until a later
message has been paid for by this one. -/
theorem C96_one_partial (c c' : BasicContext) (data : List UInt8) (hr : data.head? ≠ some 162) (r : Encoded)
    (h : encodeOne c data = .ok (r, c')) :
    (r.msg.elim 0 fun m => (sendMsg m).length) + 220 * c'.deferred.length ≤ 1100 * data.length + 3600 + 220 * c.deferred.length := by
  obtain ⟨h1, h2⟩ := encodeOne_size h
  cases hm : r.msg with
  | none => have := h2 hm; simp only [Option.elim]; omega
  | some m => have := h1 m hm; rw [if_neg hr] at this; simp only [Option.elim]; omega

/-- Places that a message adds as part of a new state of the board. -/
def placesAdded : Msg → Nat
  | ⟨.event (.board (.state s)), _⟩ => s.add.length
  | _ => 0

/-- **C96.** In a reload only the materials are not bounded by the bytes. -/
theorem C96_reload (c c' : BasicContext) (data : List UInt8) (r : Encoded) (h : encodeOne c data = .ok (r, c')) (m : Msg)
    (hm : r.msg = some m) : (sendMsg m).length ≤ 1100 * data.length + 3600 + 220 * c.deferred.length + 100 * placesAdded m := by
  have h1 := (encodeOne_size h).1 m hm
  have e : placesAdded m = m.added := by
    obtain ⟨b, q⟩ := m
    unfold placesAdded Msg.added
    split
    · rename_i heq; cases heq; rfl
    · rename_i hno
      split
      · rename_i s heq
        dsimp only at heq
        subst heq
        exact absurd rfl (hno _ _)
      · rfl
  rw [e]
  split at h1 <;> omega

private theorem parse_deferred {c c' : BasicContext} {r : Encoded} (h : (match r.msg with | some m => c.parse m | none => .ok c) = .ok c') :
    c'.deferred = c.deferred := by
  split at h
  · rename_i m _
    unfold BasicContext.parse at h
    dsimp only at h
    split at h <;> (simp only [bind_eq_ok, pure_eq_ok, Except.ok.injEq] at h; obtain ⟨_, _, _, _, rfl⟩ := h; rfl)
  · cases h; rfl

private theorem amortised : ∀ (ds : List (List UInt8)) (c0 c : BasicContext) (rs : List Encoded), (∀ d ∈ ds, d.head? ≠ some 162) →
    feed c0 ds = .ok (rs, c) →
    ((messages rs).map fun m => (sendMsg m).length).sum + 220 * c.deferred.length ≤
      1100 * (ds.map List.length).sum + 3600 * ds.length + 220 * c0.deferred.length
  | [], c0, c, rs, _, h => by cases h; simp [messages]
  | d :: ds, c0, c, rs, hr, h => by
    obtain ⟨r, c1, c2, rs', h1, -, h2, h3, rfl⟩ := feed_cons h
    have ih := amortised ds c2 c rs' (fun x hx => hr x (by simp [hx])) h3
    have h4 := C96_one_partial c0 c1 d (hr d (by simp)) r h1
    rw [parse_deferred h2] at ih
    cases hm : r.msg with
    | none =>
      simp only [messages, List.filterMap_cons, hm, List.map_cons, List.sum_cons, List.length_cons, Option.elim] at *
      omega
    | some m =>
      simp only [messages, List.filterMap_cons, hm, List.map_cons, List.sum_cons, List.length_cons, Option.elim] at *
      omega

/-- **C96.** All messages of a duel together are bounded by all bytes that the core gave. -/
theorem C96_all_partial (ds : List (List UInt8)) (hr : ∀ d ∈ ds, d.head? ≠ some 162) (rs : List Encoded) (c : BasicContext)
    (h : feed BasicContext.init ds = .ok (rs, c)) :
    ((messages rs).map fun m => (sendMsg m).length).sum ≤ 1100 * (ds.map List.length).sum + 3600 * ds.length := by
  have := amortised ds _ c rs hr h
  simp only [BasicContext.init, List.length_nil] at this
  omega

/-- **C96.** As no buffer is empty, this is a constant factor. -/
theorem C96_factor_partial (ds : List (List UInt8)) (hr : ∀ d ∈ ds, d.head? ≠ some 162) (rs : List Encoded) (c : BasicContext)
    (h : feed BasicContext.init ds = .ok (rs, c)) :
    ((messages rs).map fun m => (sendMsg m).length).sum ≤ 4700 * (ds.map List.length).sum := by
  have h1 := C96_all_partial ds hr rs c h
  have h2 : ds.length ≤ (ds.map List.length).sum := by
    clear h1 hr
    generalize BasicContext.init = c0 at h
    induction ds generalizing c0 rs with
    | nil => simp
    | cons d ds ih =>
      obtain ⟨r, c1, c2, rs', h1, -, h2, h3, rfl⟩ := feed_cons h
      have := ih _ _ h3
      have hd : 1 ≤ d.length := by
        cases d with
        | nil => cases h1
        | cons => simp
      simp only [List.length_cons, List.map_cons, List.sum_cons]
      omega
  omega

private theorem each {B : Nat} : ∀ (ds : List (List UInt8)) (n : Nat) (c0 c : BasicContext) (rs : List Encoded), n + ds.length ≤ 2 ^ 31 + 1 →
    (∀ d ∈ ds, d.head? ≠ some 162 ∧ d.length ≤ B) → ServerHolds n c0 → feed c0 ds = .ok (rs, c) →
    ∀ m ∈ messages rs, (sendMsg m).length ≤ 1100 * B + 3600 + 220 * (n + ds.length)
  | [], n, c0, c, rs, _, _, _, h => by cases h; simp [messages]
  | d :: ds, n, c0, c, rs, hn, hr, hc, h => by
    obtain ⟨r, c1, c2, rs', h1, -, h2, h3, rfl⟩ := feed_cons h
    simp only [List.length_cons] at hn
    obtain ⟨hm, hc1⟩ := encodeOne_range (by omega) hc h1
    have hc2 : ServerHolds (n + 1) c2 := by
      split at h2
      · exact parse_range h2 (hm _ (by assumption)) hc1
      · cases h2; exact hc1
    have ih := each ds (n + 1) c2 c rs' (by omega) (fun x hx => hr x (by simp [hx])) hc2 h3
    have h4 := C96_one_partial c0 c1 d (hr d (by simp)).1 r h1
    have h5 := (hr d (by simp)).2
    have h6 := hc.count
    intro m hm'
    rw [List.length_cons]
    have : m ∈ messages rs' ∨ r.msg = some m := by
      simp only [messages, List.filterMap_cons] at hm'
      split at hm'
      · exact .inl hm'
      · rename_i m' he
        rcases List.mem_cons.1 hm' with rfl | hm'
        · exact .inr he
        · exact .inl hm'
    rcases this with hm' | he
    · have := ih m hm'
      omega
    · rw [he] at h4
      simp only [Option.elim] at h4
      omega

/-- **C96.** Each of them is bounded by the biggest buffer and the number of buffers (which bounds what can have been put off). -/
theorem C96_each_partial (ds : List (List UInt8)) (hn : ds.length ≤ 2 ^ 31) (hr : ∀ d ∈ ds, d.head? ≠ some 162) (B : Nat)
    (hB : ∀ d ∈ ds, d.length ≤ B) (rs : List Encoded) (c : BasicContext) (h : feed BasicContext.init ds = .ok (rs, c)) :
    ∀ m ∈ messages rs, (sendMsg m).length ≤ 1100 * B + 3600 + 220 * ds.length := by
  have h0 : ServerHolds 0 BasicContext.init :=
    ⟨init_range, fun _ => newCard_range, by simp [BasicContext.init], by simp [BasicContext.init], All.nil, by simp [BasicContext.init]⟩
  simpa using each (B := B) ds 0 _ c rs (by omega) (fun d hd => ⟨hr d hd, hB d hd⟩) h0 h

/-- **C96.** So messages reach clients: unless there is a reload, with buffers of up to a MiB each and up to 4 million of them, a client
that is sent the messages as bytes has the server's board and knows the same about every card. -/
theorem C96_clients_in_step_partial (ds : List (List UInt8)) (hn : ds.length ≤ 2 ^ 22) (hr : ∀ d ∈ ds, d.head? ≠ some 162)
    (hB : ∀ d ∈ ds, d.length ≤ 2 ^ 20) (rs : List Encoded) (c : BasicContext) (h : feed BasicContext.init ds = .ok (rs, c))
    (cache : Bool) : ∃ ms, receiveAll ((messages rs).map sendMsg) = some ms ∧ Client.follow cache .init ms = .ok ⟨c.board, c.store⟩ := by
  refine C92_clients_in_step ds (by omega) rs c h (fun m hm => ?_) cache
  have := C96_each_partial ds (by omega) hr (2 ^ 20) hB rs c h m hm
  omega

/-- A reload with one monster, and any four bytes for how many materials it has. -/
def reloadOf (w x y z : UInt8) : List UInt8 :=
  [162, 0, 0, 0, 0] ++ [0, 0, 0, 0, 1, 1, w, x, y, z] ++ List.replicate 38 0 ++ List.replicate 43 0 ++ [0, 0, 0, 0]

private theorem reloadOf_state (c : BasicContext) (w x y z : UInt8) : ∃ r s, encodeOne c (reloadOf w x y z) = .ok (r, c) ∧
    r.msg = some ⟨.event (.board (.state s)), []⟩ ∧ s.add.length = 1 + (w.toNat + 256 * (x.toNat + 256 * (y.toNat + 256 * z.toNat))) := by
  refine ⟨_, _, rfl, rfl, ?_⟩
  have e : P.leVal [w, x, y, z] = w.toNat + 256 * (x.toNat + 256 * (y.toNat + 256 * z.toNat)) := rfl
  dsimp only
  rw [← e]
  simp only [List.length_append, List.length_cons, List.length_map, List.length_range, List.length_nil]
  show P.leVal [w, x, y, z] + 1 + 0 + 0 + 0 = _
  omega

/-- **C96.** Counts of materials are believed (encode.cpp:901-907): these hundred bytes can ask for any number of places up to 2^32 - 1,
and the message takes two bytes or more for each. -/
theorem C96_materials (c : BasicContext) (w x y z : UInt8) : (reloadOf w x y z).length = 100 ∧
    ∃ r m, encodeOne c (reloadOf w x y z) = .ok (r, c) ∧ r.msg = some m ∧
      2 * (w.toNat + 256 * (x.toNat + 256 * (y.toNat + 256 * z.toNat))) ≤ (sendMsg m).length := by
  obtain ⟨r, s, h1, h2, h3⟩ := reloadOf_state c w x y z
  refine ⟨rfl, r, _, h1, h2, ?_⟩
  have := size_state_ge s
  have := size_msg_event (.board (.state s)) []
  omega

/-- **C96.** So no bound like that of `C96_one_partial` holds for all buffers. -/
theorem C96_unbounded : ¬ ∃ K, K < 85899345 ∧ ∀ (data : List UInt8) (r : Encoded) (c : BasicContext) (m : Msg),
    encodeOne BasicContext.init data = .ok (r, c) → r.msg = some m → (sendMsg m).length ≤ K * data.length := by
  rintro ⟨K, hK, h⟩
  obtain ⟨hl, r, m, h1, h2, h3⟩ := C96_materials BasicContext.init 255 255 255 255
  have := h _ _ _ _ h1 h2
  rw [hl] at this
  simp only [show (255 : UInt8).toNat = 255 from rfl] at h3
  omega

/-- **C96.** And such a message cannot be received by anyone: protobuf refuses it. -/
theorem C96_refused (c : BasicContext) (w x y z : UInt8) (hz : 64 ≤ z.toNat) : ∃ r m, encodeOne c (reloadOf w x y z) = .ok (r, c) ∧
    r.msg = some m ∧ receiveMsg (sendMsg m) = none := by
  obtain ⟨r, s, h1, h2, h3⟩ := reloadOf_state c w x y z
  refine ⟨r, _, h1, h2, receiveMsg_big ?_⟩
  have := size_state_ge s
  omega

example : ∀ d ∈ someBuffers, d.head? ≠ some 162 ∧ d.length ≤ 2 ^ 20 := by decide +kernel

example : (someBuffers.map List.length).sum = 67 ∧
    (feed BasicContext.init someBuffers).toOption.map (fun x => ((messages x.1).map fun m => (sendMsg m).length).sum) = some 147 := by decide +kernel

/-- With three materials, all is well. -/
example : (encodeOne BasicContext.init (reloadOf 3 0 0 0)).toOption.map (fun x => x.1.msg.map fun m =>
    ((sendMsg m).length, placesAdded m, (receiveMsg (sendMsg m)).isSome)) = some (some (142, 4, true)) := by decide +kernel

end Ygo.Props
