import Verif.Lemmas.NetworkMsg
import Verif.Lemmas.ProtobufPieces
import Verif.Props.Range
import Verif.Props.Exact

/-!
# Messages survive the wire (C92)
-/

namespace Ygo.Props
open Ygo Ygo.Spec Ygo.Pb

/-- **C92.** The `.proto` files are descriptions the protobuf compiler accepts. -/
theorem C92_described : Described schema := described

/-- **C92.** Any object of any of the classes is read back from the bytes it is written to, whichever of its parts are set. -/
theorem C92_objects (m : MsgType) (o : Obj) (ho : HasType schema (.msg m) (.msg o)) (hl : (write schema m o).length < 2 ^ 31 - 16) :
    read schema m (write schema m o) = some o :=
  read_write described (nests_max m) ho hl

/-- **C92.** A message that is sent is received as it was, if its numbers are ones its fields can hold. -/
theorem C92_messages (m : Msg) (h : MsgHolds m) (hl : (sendMsg m).length < 2 ^ 31 - 16) : receiveMsg (sendMsg m) = some m := by
  unfold receiveMsg sendMsg at *
  rw [read_write described (nests_max _) (msg_made h) hl, Option.map_some, get_msg h]

/-- **C92.** So is an answer. -/
theorem C92_answers (a : Answer) (h : AnswerHolds a) (hl : (sendAnswer a).length < 2 ^ 31 - 16) :
    receiveAnswer (sendAnswer a) = some a := by
  unfold receiveAnswer sendAnswer at *
  rw [read_write described (nests_max _) (answer_made h) hl, Option.map_some, get_answer h]

/-- **C92.** Different messages are sent as different bytes. -/
theorem C92_messages_apart (m m' : Msg) (h : MsgHolds m) (h' : MsgHolds m') (hl : (sendMsg m).length < 2 ^ 31 - 16)
    (he : sendMsg m = sendMsg m') : m = m' := by
  have h1 := C92_messages m h hl
  rw [he, C92_messages m' h' (he ▸ hl)] at h1
  exact (Option.some.inj h1).symm

/-- **C92.** Whatever bytes arrive, a message that can be read from them only has numbers that its fields can hold. -/
theorem C92_received (bs : List Nat) (hb : ∀ b ∈ bs, b < 256) (m : Msg) (h : receiveMsg bs = some m) : MsgHolds m := by
  unfold receiveMsg at h
  obtain ⟨o, ho, rfl⟩ := Option.map_eq_some_iff.1 h
  exact msg_got (read_holds described hb ho)

/-- **C92.** So does an answer. -/
theorem C92_received_answers (bs : List Nat) (hb : ∀ b ∈ bs, b < 256) (a : Answer) (h : receiveAnswer bs = some a) : AnswerHolds a := by
  unfold receiveAnswer at h
  obtain ⟨o, ho, rfl⟩ := Option.map_eq_some_iff.1 h
  exact answer_got (read_holds described hb ho)

/-- Messages as they arrive. -/
def receiveAll : List (List Nat) → Option (List Msg)
  | [] => some []
  | bs :: bss => do
    let m ← receiveMsg bs
    let ms ← receiveAll bss
    return m :: ms

/-- **C92.** Whatever arrives, a client that follows what it can read only ever has numbers that their types can hold. -/
theorem C92_any_client (bss : List (List Nat)) (hb : ∀ bs ∈ bss, ∀ b ∈ bs, b < 256) (ms : List Msg) (hr : receiveAll bss = some ms)
    (cache : Bool) (s : Client) (h : Client.follow cache .init ms = .ok s) : BoardHolds s.board ∧ ∀ x, CardHolds (s.store x) := by
  refine C87_client cache ms ?_ s h
  clear h
  induction bss generalizing ms with
  | nil => cases hr; simp
  | cons bs bss ih =>
    simp only [receiveAll, Option.bind_eq_bind, Option.bind_eq_some_iff, Option.pure_def, Option.some.injEq] at hr
    obtain ⟨m, hm, ms', hms, rfl⟩ := hr
    intro x hx
    rcases List.mem_cons.1 hx with rfl | hx
    · exact C92_received bs (hb bs (by simp)) _ hm
    · exact ih (fun b h => hb b (by simp [h])) ms' hms x hx

/-- **C92.** A client that is sent the server's messages as bytes has the server's board and knows the same about every card. -/
theorem C92_clients_in_step (ds : List (List UInt8)) (hn : ds.length ≤ 2 ^ 31) (rs : List Encoded) (c : BasicContext)
    (h : feed BasicContext.init ds = .ok (rs, c)) (hl : ∀ m ∈ messages rs, (sendMsg m).length < 2 ^ 31 - 16) (cache : Bool) :
    ∃ ms, receiveAll ((messages rs).map sendMsg) = some ms ∧ Client.follow cache .init ms = .ok ⟨c.board, c.store⟩ := by
  refine ⟨messages rs, ?_, C66_clients_in_step ds rs c h cache⟩
  have hm := (C87_server ds hn rs c h).1
  generalize messages rs = ms at hl hm
  induction ms with
  | nil => rfl
  | cons m ms ih =>
    simp only [List.map_cons, receiveAll]
    rw [C92_messages m (hm m (by simp)) (hl m (by simp)), ih (fun x hx => hl x (by simp [hx])) (fun x hx => hm x (by simp [hx]))]
    rfl

/-- **C92.** Reading two pieces together is reading the second into what the first gave: what it sets wins, what it lists comes after. -/
theorem C92_concatenation (m : MsgType) (a b : List Nat) (o : Obj) (h : read schema m a = some o) :
    read schema m (a ++ b) = merge schema b.length maxDepth m b o :=
  read_append h b

/-- **C92.** Whatever later versions add, records of any kind and groups of them, is passed over wherever it is between other records,
exactly if groups end as they began and are not nested deeper than the limit. Inside groups any numbers may be used. -/
theorem C92_later_versions (m : MsgType) (a : List Nat) (o : Obj) (h : read schema m a = some o) (ps : List Piece) (hp : ∀ p ∈ ps, p.Ok)
    (hn : ∀ n ∈ outerNumbers 0 ps, ∀ f ∈ schema m, f.num ≠ n) :
    read schema m (a ++ ps.flatMap Piece.bytes) = (if wellNested 100 [] ps then some o else none) ∧
    (wellNested 100 [] ps = true → ∀ b, read schema m (a ++ ps.flatMap Piece.bytes ++ b) = read schema m (a ++ b)) := by
  have k : ∀ o, merge schema (ps.flatMap Piece.bytes).length maxDepth m (ps.flatMap Piece.bytes) o =
      if wellNested 100 [] ps then some o else none :=
    fun o => merge_pieces o ps.length ps _ (Nat.le_refl _) hp hn (pieces_length ps)
  refine ⟨by rw [read_append h, k], fun hw b => read_insert h (fun o => ?_) b⟩
  rw [k, hw, if_pos rfl]

/-- Non-vacuity: all kinds of records, in two groups, one in the other, around the number 1 that an answer knows, and the same with the
ends exchanged; and groups as they are refused. -/
example : let ps : List Piece := [.number 200 300, .begins 77, .fixed32 1 [1, 2, 3, 4], .begins 1, .sized 2 [9, 9], .ends 1, .ends 77,
      .fixed64 536870911 [0, 0, 0, 0, 0, 0, 0, 0]]
    (∀ p ∈ ps, p.Ok) ∧ (outerNumbers 0 ps = [200, 77, 536870911]) ∧ (∀ n ∈ outerNumbers 0 ps, ∀ f ∈ schema .answer, f.num ≠ n) ∧
    wellNested 100 [] ps = true ∧ wellNested 1 [] ps = false ∧ receiveAnswer (ps.flatMap Piece.bytes) = some .unset ∧
    wellNested 100 [] [.begins 77, .begins 1, .ends 77, .ends 1] = false ∧
    receiveAnswer ([Piece.begins 77, .begins 1, .ends 77, .ends 1].flatMap Piece.bytes) = none := by
  refine ⟨?_, by decide +kernel, by decide +kernel, by decide +kernel, by decide +kernel, by decide +kernel, by decide +kernel, by decide +kernel⟩
  simp [Piece.Ok, Piece.num]

/-- **C92.** Messages nest at most nine deep, far from the hundred the library reads. -/
theorem C92_depth : (∀ m, nestsIn schema 9 m = true) ∧ nestsIn schema 8 .replay = false :=
  ⟨nests, by decide +kernel⟩

/-- **C92.** So the limit does not matter for what is written: with any limit from nine on the same is read. Nor does it matter for bytes
that are too few to reach it. What is read with a limit is what is read without. -/
theorem C92_limit (m : MsgType) (d : Nat) :
    (∀ o, HasType schema (.msg m) (.msg o) → (write schema m o).length < 2 ^ 31 - 16 → 9 ≤ d →
      merge schema (write schema m o).length d m (write schema m o) Obj.empty = some o) ∧
    (∀ bs, bs.length ≤ 201 → 100 ≤ d → merge schema bs.length d m bs Obj.empty = read schema m bs) ∧
    (∀ bs o, read schema m bs = some o → 100 ≤ d → merge schema bs.length d m bs Obj.empty = some o) := by
  refine ⟨?_, ?_, ?_⟩
  · intro o ho hl hd
    refine merge_write described (nests_le hd (nests m)) ho ?_ hl (Nat.le_refl _)
    intro f hf v hv
    cases ho with
    | msg c1 c2 c3 c4 => exact readsBack described (c1 f hf v hv)
  · intro bs hb hd
    unfold Pb.read
    cases h : merge schema bs.length d m bs Obj.empty with
    | some o => exact (merge_depth h (.inr (by simp only [maxDepth]; omega))).symm
    | none =>
      cases h' : merge schema bs.length maxDepth m bs Obj.empty with
      | none => rfl
      | some o => rw [merge_depth h' (.inl hd)] at h; cases h
  · intro bs o h hd
    exact merge_depth h (.inl hd)

/-- **C92.** Groups that a later version might have are passed over if they nest no deeper than the limit; otherwise everything is refused. -/
theorem C92_groups (m : MsgType) (num : Nat) (h0 : 0 < num) (h1 : num < 2 ^ 29) (hn : ∀ f ∈ schema m, f.num ≠ num) (k : Nat) :
    read schema m (groups num k) = if k ≤ 100 then some Obj.empty else none :=
  merge_groups h0 h1 hn Obj.empty

/-- From 202 bytes on the limit can be reached. -/
example : (groups 15 101).length = 202 ∧ groups 15 2 = [123, 123, 124, 124] ∧ receiveAnswer (groups 15 100) = some .unset ∧
    receiveAnswer (groups 15 101) = none ∧ (merge schema 202 101 .answer (groups 15 101) Obj.empty).map getAnswer = some .unset := by
  decide +kernel

/-- A card moves. -/
def aMove : Msg := ⟨.event (.card 5 (.move [⟨⟨0, 1, 2, -1⟩, ⟨1, 4, 0, -1⟩⟩])), []⟩

example : MsgHolds aMove := by
  refine ⟨?_, ?_, ?_⟩
  · intro e he
    cases he
    refine ⟨by simp [U64], ?_⟩
    intro p hp
    simp only [List.mem_singleton] at hp
    subst hp
    exact ⟨⟨by simp [I32], by simp [U32], by simp [U32], by simp [I32]⟩, ⟨by simp [I32], by simp [U32], by simp [U32], by simp [I32]⟩⟩
  · intro who r hr; cases hr
  · intro q hq; cases hq

example : sendMsg aMove = [10, 24, 18, 22, 8, 5, 34, 18, 10, 16, 10, 6, 16, 1, 24, 2, 32, 1, 18, 6, 8, 1, 16, 4, 32, 1] := by decide +kernel

/-- Negative numbers take ten bytes, except where the type is `sint32`. -/
example : sendMsg ⟨.event (.nextTurn (-1)), []⟩ = [10, 11, 32, 255, 255, 255, 255, 255, 255, 255, 255, 255, 1] := by decide +kernel

/-- A message cut short may still be read, as another one: the length has to be known otherwise. -/
example : (receiveMsg []).map (·.body) = some .unset ∧ (receiveMsg ((sendMsg aMove).take 1)).map (·.body) = none ∧
    (receiveAnswer (sendAnswer (.selectEffect 300))) = some (.selectEffect 300) ∧
    (receiveAnswer ((sendAnswer (.selectEffect 300)).take 2)) = none ∧ receiveAnswer [] = some .unset := by decide +kernel

/-- The later of two answers wins; a number too long for the field keeps its low bits; bytes that are no message are refused. -/
example : receiveAnswer (sendAnswer (.selectEffect 3) ++ sendAnswer (.selectYesNo true)) = some (.selectYesNo true) ∧
    receiveAnswer [40, 128, 128, 128, 128, 16] = some (.selectEffect 0) ∧ receiveAnswer [7] = none ∧
    receiveAnswer [90, 2, 16, 7, 250, 1, 1, 65] = some (.selectToChain (.index 7)) := by decide +kernel

/-- A status that is none of the enumerators arrives. -/
example : (receiveMsg (sendMsg ⟨.event (.metaInfo (.chainStatus (.other 7))), []⟩)).map (·.body) =
    some (.event (.metaInfo (.chainStatus (.other 7)))) := by decide +kernel

/-- Numbers that a field cannot hold do not arrive. -/
example : receiveAnswer (sendAnswer (.selectEffect (2 ^ 32 + 1))) = some (.selectEffect 1) := by decide +kernel

/-- The server's messages for some buffers, as bytes. -/
example : (feed BasicContext.init someBuffers).toOption.map (fun x => (messages x.1).map fun m => (sendMsg m).length) = some [60, 10, 31, 4, 35, 7] := by
  decide +kernel

end Ygo.Props
