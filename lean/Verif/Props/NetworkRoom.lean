import Verif.Lemmas.NetworkRoomSends
import Verif.Lemmas.NetworkReplay
import Verif.Props.Room
import Verif.Props.Network

/-!
# Rooms over the wire (C93), replays (C94)
-/

namespace Ygo.Props
open Ygo Ygo.Spec Ygo.Pb Ygo.Room

/-! ## C93 -/

/-- **C93.** What a client sends is received as it was. -/
theorem C93_client_messages (m : ClientMsg) (h : ∀ s, m = .room s → SignalHolds s) (hl : (sendClient m).length < 2 ^ 31 - 16) :
    receiveClient (sendClient m) = some m := by
  unfold receiveClient sendClient at *
  rw [read_write described (nests_max _) (clientMsg_made h) hl, Option.map_some, get_clientMsg]

/-- **C93.** So is what a server sends. -/
theorem C93_server_messages (m : ServerMsg) (h : ∀ e, m = .room e → RoomEventHolds e) (h' : ∀ b, m = .identified b → ∀ x ∈ b, x < 256)
    (hl : (sendServer m).length < 2 ^ 31 - 16) : receiveServer (sendServer m) = some m := by
  unfold receiveServer sendServer at *
  rw [read_write described (nests_max _) (serverMsg_made h h') hl, Option.bind_some, get_serverMsg]

/-- **C93.** Whatever bytes arrive at a server, a signal read from them only has numbers that its fields can hold. -/
theorem C93_received_signals (bs : List Nat) (hb : ∀ b ∈ bs, b < 256) (s : Signal) (h : receiveClient bs = some (.room s)) :
    SignalHolds s := by
  unfold receiveClient at h
  obtain ⟨o, ho, he⟩ := Option.map_eq_some_iff.1 h
  exact clientMsg_got (read_holds described hb ho) he

/-- **C93.** Whatever bytes arrive at a client, an event read from them only has numbers that its fields can hold. -/
theorem C93_received_events (bs : List Nat) (hb : ∀ b ∈ bs, b < 256) (e : Room.Event) (h : receiveServer bs = some (.room e)) :
    RoomEventHolds e := by
  unfold receiveServer at h
  obtain ⟨o, ho, he⟩ := Option.bind_eq_some_iff.1 h
  exact serverMsg_got (read_holds described hb ho) he

/-- **C93.** A room only sends numbers that the fields can hold: whatever the clients signal, if the identities of users are
bytes, the options and the errors of the validator only have such numbers, and there are fewer than 2^32 calls. -/
theorem C93_room_sends {env : Env} (hu : ∀ x, UserHolds (env.user x)) (hv : ∀ b d, DeckErrorHolds (env.check b d).2)
    {r : Room} {calls : List Room.Call} {log : List Sent} (h : Lived env r calls log) (hf : RulesHold r.options)
    (hc : calls.length < 2 ^ 32) : ∀ m ∈ log, RoomEventHolds m.2 :=
  lived_sends ⟨hu, hv⟩ h hf hc

/-- What a client gets from the bytes it is sent, in order. -/
def receiveEvents : List (List Nat) → Option (List Room.Event)
  | [] => some []
  | bs :: bss => do
    let m ← receiveServer bs
    let es ← receiveEvents bss
    match m with
    | .room e => return e :: es
    | _ => return es

/-- **C93.** Everyone in a room knows the options, every duelist and the number of spectators, by following the bytes it is sent. -/
theorem C93_views_in_sync {env : Env} (hu : ∀ x, UserHolds (env.user x)) (hv : ∀ b d, DeckErrorHolds (env.check b d).2)
    {r : Room} {calls : List Room.Call} {log : List Sent} (h : Lived env r calls log) (hf : RulesHold r.options)
    (hc : calls.length < 2 ^ 32) (hl : ∀ m ∈ log, (sendServer (.room m.2)).length < 2 ^ 31 - 16) {x : ClientId} (hx : Present r x) :
    ∃ es, receiveEvents ((inbox x log).map fun e => sendServer (.room e)) = some es ∧
      (es.foldl ClientView.learn .empty).options = some r.options ∧ (es.foldl ClientView.learn .empty).spectators = r.spectators.length ∧
      ∀ (t : Fin 2) p, (es.foldl ClientView.learn .empty).duelist t.val p =
        (slotAt r t p).bind fun s => s.client.map fun c => ⟨t.val, p, env.user c, decide (c = r.host), s.ready⟩ := by
  refine ⟨inbox x log, ?_, C54_views_in_sync h hx⟩
  have hs := C93_room_sends hu hv h hf hc
  have key : ∀ e ∈ inbox x log, receiveServer (sendServer (.room e)) = some (.room e) := by
    intro e he
    simp only [inbox, List.mem_map, List.mem_filter] at he
    obtain ⟨m, ⟨hm, _⟩, rfl⟩ := he
    exact C93_server_messages _ (fun e he => by cases he; exact hs m hm) (fun b hb => by cases hb) (hl m hm)
  generalize inbox x log = es at key
  induction es with
  | nil => rfl
  | cons e es ih =>
    simp only [List.map_cons, receiveEvents]
    rw [key e (by simp), ih fun e he => key e (by simp [he])]
    rfl

/-- Calls that bytes from clients lead to. -/
inductive FromBytes : Room.Call → Prop
  | enter {x : ClientId} : FromBytes (.enter x)
  | visit {x : ClientId} {bs : List Nat} {s : Signal} (hb : ∀ b ∈ bs, b < 256) (h : receiveClient bs = some (.room s)) :
    FromBytes (.visit x s)

/-- **C93.** Whatever bytes clients send, the decks in a room only have card codes that their fields can hold. -/
theorem C93_decks {env : Env} {r : Room} {calls : List Room.Call} {log : List Sent} (h : Lived env r calls log)
    (hc : ∀ c ∈ calls, FromBytes c) (t : Fin 2) (p : Nat) (s : Slot) (hs : slotAt r t p = some s) : DeckHolds s.deck := by
  refine lived_decks h (fun c h => ?_) t p s hs
  cases hc c h with
  | enter => trivial
  | visit hb hr => exact C93_received_signals _ hb _ hr

/-! ### Examples -/

example : sendClient (.room (.configuring (.updateDeck { main := [89631139, 46986414, 46986414], title := "Blue" }))) =
    [18, 26, 10, 24, 10, 22, 10, 14, 10, 12, 163, 211, 222, 42, 174, 233, 179, 22, 174, 233, 179, 22, 26, 4, 66, 108, 117, 101] := by
  decide +kernel

/-- What a newcomer is told, as bytes. -/
example : sendServer (.room (.entering { maxDuelists := [1, 1], banlist := .id "TCG", ftdm := 2 } [⟨0, 0, ⟨[1, 255], "A"⟩, true, false⟩] 3)) =
    [18, 32, 10, 30, 10, 28, 10, 11, 10, 2, 1, 1, 26, 3, 84, 67, 71, 40, 2, 18, 11, 26, 7, 10, 2, 1, 255, 18, 1, 65, 32, 1, 24, 3] := by
  decide +kernel

/-- Limits for decks and a custom banlist, as bytes; an error about a deck, as bytes; and both read again. The maximum is negative. -/
def strictOptions : Options :=
  { maxDuelists := [1, 2], deckLimits := some { main := some ⟨40, -1⟩, side := some ⟨0, 15⟩ }, banlist := .custom { forbidden := [9, 300], title := "T" } }

example : OptionsHold strictOptions ∧ sendServer (.room (.entering strictOptions [] 0)) =
      [18, 41, 10, 39, 10, 37, 10, 35, 10, 2, 1, 2, 18, 19, 10, 13, 8, 40, 16, 255, 255, 255, 255, 255, 255, 255, 255, 255, 1, 26, 2, 16, 15,
        34, 8, 18, 3, 9, 172, 2, 50, 1, 84] ∧
    receiveServer (sendServer (.room (.entering strictOptions [] 0))) = some (.room (.entering strictOptions [] 0)) ∧
    receiveServer (sendServer (.room (.deckStatus (some { banlisted := some [(3, 9)], mixedCards := some ([], []) })))) =
      some (.room (.deckStatus (some { banlisted := some [(3, 9)], mixedCards := some ([], []) }))) := by
  refine ⟨?_, by decide +kernel, by decide +kernel, by decide +kernel⟩
  simp [OptionsHold, RulesHold, strictOptions, LimitsHold, LimitHolds, BanlistHolds, All, U32, I32]

/-- The later of two signals in the same message wins; text that is not UTF-8 is refused; no signal at all is one that does nothing. -/
example : receiveClient [18, 6, 10, 2, 16, 1, 18, 0] = some (.room (.deciding .unset)) ∧ receiveClient [10, 3, 10, 1, 255] = none ∧
    receiveClient [18, 0] = some (.room .unset) := by decide +kernel

/-- A room where the second client watches, and what all of it is as bytes. -/
def wireEnv : Env := ⟨fun x => ⟨[x % 256, 1], "U"⟩, fun _ d => (d.main.length == 40, { invalidCards := some d.main })⟩

example : ∀ x, UserHolds (wireEnv.user x) := by
  intro x b hb
  simp only [wireEnv, List.mem_cons, List.not_mem_nil, or_false] at hb
  rcases hb with rfl | rfl <;> omega

/-- Everything a room sends while the host and another client take their seats. -/
example : ((Room.init wireEnv (fun n => n) 5 { maxDuelists := [1, 1] }).toOption.bind fun (r, out) =>
      ((r.step wireEnv 0 (.enter 7)).toOption.map fun (_, out') => (out ++ out').map fun m => (m.1, sendServer (.room m.2)))) =
    some [(5, [18, 10, 10, 8, 10, 6, 10, 4, 10, 2, 1, 1]), (5, [18, 15, 10, 13, 18, 11, 26, 7, 10, 2, 5, 1, 18, 1, 85, 32, 1]),
      (7, [18, 23, 10, 21, 10, 19, 10, 4, 10, 2, 1, 1, 18, 11, 26, 7, 10, 2, 5, 1, 18, 1, 85, 32, 1]),
      (5, [18, 15, 10, 13, 18, 11, 8, 1, 26, 7, 10, 2, 7, 1, 18, 1, 85]),
      (7, [18, 15, 10, 13, 18, 11, 8, 1, 26, 7, 10, 2, 7, 1, 18, 1, 85])] := by decide +kernel

/-! ## C94 -/

/-- **C94.** A replay that is saved is loaded as it was. -/
theorem C94_replays (bs : List Block) (h : ∀ b ∈ bs, U32 b.offset ∧ MsgHolds b.msg) (hl : (saveReplay bs).length < 2 ^ 31 - 16) :
    loadReplay (saveReplay bs) = some bs := by
  unfold loadReplay saveReplay at *
  rw [read_write described (nests_max _) (replay_made h) hl, Option.bind_some, get_replay fun b hb => (h b hb).2]

/-- **C94.** Whatever bytes a file has, a replay loaded from it only has numbers that its fields can hold. -/
theorem C94_loaded (bytes : List Nat) (hb : ∀ b ∈ bytes, b < 256) (bs : List Block) (h : loadReplay bytes = some bs) :
    ∀ b ∈ bs, U32 b.offset ∧ MsgHolds b.msg := by
  unfold loadReplay at h
  obtain ⟨o, ho, he⟩ := Option.bind_eq_some_iff.1 h
  exact replay_got (read_holds described hb ho) he

/-- **C94.** So whatever is loaded, a client that follows it only ever has numbers that their types can hold. -/
theorem C94_any_replay (bytes : List Nat) (hb : ∀ b ∈ bytes, b < 256) (bs : List Block) (h : loadReplay bytes = some bs) (cache : Bool)
    (s : Client) (hs : Client.follow cache .init (bs.map (·.msg)) = .ok s) : BoardHolds s.board ∧ ∀ x, CardHolds (s.store x) := by
  refine C87_client cache _ ?_ s hs
  intro m hm
  obtain ⟨b, hb', rfl⟩ := List.mem_map.1 hm
  exact (C94_loaded bytes hb bs h b hb').2

/-- **C94.** Following a replay of the server's messages ends with the server's board and the same knowledge of every card. -/
theorem C94_replays_the_duel (ds : List (List UInt8)) (hn : ds.length ≤ 2 ^ 31) (rs : List Encoded) (c : BasicContext)
    (h : feed BasicContext.init ds = .ok (rs, c)) (bs : List Block) (hb : bs.map (·.msg) = messages rs) (ho : ∀ b ∈ bs, U32 b.offset)
    (hl : (saveReplay bs).length < 2 ^ 31 - 16) (cache : Bool) :
    ∃ bs', loadReplay (saveReplay bs) = some bs' ∧ Client.follow cache .init (bs'.map (·.msg)) = .ok ⟨c.board, c.store⟩ := by
  refine ⟨bs, C94_replays bs ?_ hl, ?_⟩
  · intro b hb'
    exact ⟨ho b hb', (C87_server ds hn rs c h).1 b.msg (by rw [← hb]; exact List.mem_map_of_mem hb')⟩
  · rw [hb]
    exact C66_clients_in_step ds rs c h cache

/-- Saved pieces of a replay, one after the other. -/
def savePieces (ps : List (List Block)) : List Nat := (ps.map saveReplay).flatten

/-- **C94.** A replay can be saved piece by piece, each written after the ones before: all together load as one replay. -/
theorem C94_pieces (p : List Block) (ps : List (List Block)) (h : ∀ q ∈ p :: ps, ∀ b ∈ q, U32 b.offset ∧ MsgHolds b.msg)
    (hl : (savePieces (p :: ps)).length < 2 ^ 31 - 16) : loadReplay (savePieces (p :: ps)) = some (p :: ps).flatten := by
  have key : ∀ (ps : List (List Block)) (bytes : List Nat) (a : List Block), Pb.read schema .replay bytes = some (setReplay a) →
      (∀ q ∈ ps, ∀ b ∈ q, U32 b.offset ∧ MsgHolds b.msg) → (savePieces ps).length < 2 ^ 31 - 16 →
      Pb.read schema .replay (bytes ++ savePieces ps) = some (setReplay (a ++ ps.flatten)) := by
    intro ps
    induction ps with
    | nil => intro bytes a hr _ _; simpa [savePieces] using hr
    | cons q ps ih =>
      intro bytes a hr h hl
      simp only [savePieces, List.map_cons, List.flatten_cons, List.length_append] at hl
      have h1 : Pb.read schema .replay (bytes ++ saveReplay q) = some (setReplay (a ++ q)) := by
        rw [read_append hr, merge_replay (h q (by simp)) (by omega)]
      have := ih (bytes ++ saveReplay q) (a ++ q) h1 (fun q hq => h q (by simp [hq])) (by simp only [savePieces]; omega)
      simpa [savePieces, List.append_assoc] using this
  have h0 : (saveReplay p).length < 2 ^ 31 - 16 ∧ (savePieces ps).length < 2 ^ 31 - 16 := by
    simp only [savePieces, List.map_cons, List.flatten_cons, List.length_append] at hl ⊢
    omega
  have hp : Pb.read schema .replay (saveReplay p) = some (setReplay p) :=
    read_write described (nests_max _) (replay_made (h p (by simp))) h0.1
  have := key ps (saveReplay p) p hp (fun q hq => h q (by simp [hq])) h0.2
  unfold loadReplay
  have e : savePieces (p :: ps) = saveReplay p ++ savePieces ps := by simp [savePieces]
  rw [e, this, Option.bind_some, get_replay]
  · rfl
  · intro b hb
    rcases List.mem_append.1 hb with hb | hb
    · exact (h p (by simp) b hb).2
    · obtain ⟨q, hq, hb⟩ := List.mem_flatten.1 hb
      exact (h q (by simp [hq]) b hb).2

example : saveReplay [⟨1500, aMove⟩] =
    [10, 33, 10, 31, 8, 220, 11, 18, 26, 10, 24, 18, 22, 8, 5, 34, 18, 10, 16, 10, 6, 16, 1, 24, 2, 32, 1, 18, 6, 8, 1, 16, 4, 32, 1] := by
  decide +kernel

/-- Two pieces, and the file cut in the middle of the second. -/
example : (loadReplay (savePieces [[⟨1500, aMove⟩], [⟨1600, aMove⟩, ⟨1700, aMove⟩]])).map (·.map (·.offset)) = some [1500, 1600, 1700] ∧
    (loadReplay ((savePieces [[⟨1500, aMove⟩], [⟨1600, aMove⟩, ⟨1700, aMove⟩]]).take 60)).isNone := by decide +kernel

end Ygo.Props
