import Verif.Lemmas.Recoded
import Verif.Spec.Screen

/-! C138: a duel with other cards is the same duel. -/

namespace Ygo.Props
open Ygo Ygo.Spec

/-- **C138.** A message of the core about other cards is translated to the same message about other cards: as many bytes are read, the same
is remembered, and failures are the same, whatever the context. -/
theorem C138_messages (f : Recoding) {C : Type} [EncodeContext C] (c : C) (m : CoreMsg) (hf : m.Fits) (more : List UInt8) :
    encodeOne c ((m.recoded f).bytes ++ more) = (encodeOne c (m.bytes ++ more)).map fun x => (x.1.recoded f, x.2) :=
  encode_recoded f c m hf more

/-- **C138.** A server that has got this far makes of a duel with other cards the same messages about other cards, and tracks the same with
other cards. -/
theorem C138_server (f : Recoding) (c : BasicContext) (ms : List CoreMsg) (hf : ∀ m ∈ ms, m.Fits) :
    feed (c.recoded f) ((ms.map (CoreMsg.recoded f)).map (·.bytes)) =
      (feed c (ms.map (·.bytes))).map fun x => (x.1.map (Encoded.recoded f), x.2.recoded f) :=
  feed_recoded f ms hf c

/-- **C138.** What queries say about other cards, with the same values found unchanged; also for cards whose values can be undone. -/
theorem C138_queries (f : Recoding) {V : Type → Type} [Cell V] [Inside V] [InsideLaws V] (uc : Bool) (l : Layout) (st : CardId → Card V) (q : Query) :
    parseQuery uc l (fun x => (st x).recoded f) (q.recoded f) = (parseQuery uc l st q).map fun x => (x.1, fun y => (x.2 y).recoded f) :=
  parseQuery_recoded f uc l st q

/-- **C138.** A client that has got this far gets the messages about other cards as it gets these, whether or not they come from a server. -/
theorem C138_clients (f : Recoding) (cache : Bool) (s : Client) (ms : List Msg) :
    Client.follow cache (s.recoded f) (ms.map (Msg.recoded f)) = (Client.follow cache s ms).map (Client.recoded f) :=
  follow_recoded f cache ms s

/-- **C138.** A new server and a new client know no cards. -/
theorem C138_new (f : Recoding) : BasicContext.init.recoded f = BasicContext.init ∧ Client.init.recoded f = Client.init := by
  constructor
  · simp only [BasicContext.recoded, BasicContext.init, BasicContext.mk.injEq, true_and, and_true]
    funext x
    exact newCard_recoded f
  · simp only [Client.recoded, Client.init, Client.mk.injEq, true_and]
    funext x
    exact newCard_recoded f

/-- **C138.** So the duel with other cards ends in the same way for the server and for all clients: with the same board, on which the other
cards lie where the cards lay. -/
theorem C138_duel (f : Recoding) (ms : List CoreMsg) (hf : ∀ m ∈ ms, m.Fits) (rs : List Encoded) (c : BasicContext)
    (h : feed BasicContext.init (ms.map (·.bytes)) = .ok (rs, c)) (cache : Bool) (s : Client)
    (hs : Client.follow cache Client.init (messages rs) = .ok s) :
    ∃ rs' c' s', feed BasicContext.init ((ms.map (CoreMsg.recoded f)).map (·.bytes)) = .ok (rs', c') ∧
      Client.follow cache Client.init (messages rs') = .ok s' ∧ c'.board = c.board ∧ s'.board = s.board ∧
      ∀ C, s'.screen C = (s.screen C).map (Card.recoded f) := by
  have e := C138_server f BasicContext.init ms hf
  rw [(C138_new f).1, h] at e
  have e2 := C138_clients f cache Client.init (messages rs)
  rw [(C138_new f).2, hs] at e2
  refine ⟨_, _, s.recoded f, e, ?_, rfl, rfl, ?_⟩
  · rw [messages_recoded]; exact e2
  · intro C
    rw [Client.screen, Client.screen, List.map_map]
    rfl

/-- **C138.** Answers mean the same to the core whatever cards the question was about. -/
theorem C138_answers (f : Recoding) (r : Request) (a : Answer) (out : List UInt8) : decodeOneAnswer (r.recoded f) a out = decodeOneAnswer r a out := by
  cases a <;> first | rfl | skip
  case selectCard a =>
    cases a <;> first | rfl | skip
    case indexes is =>
      cases r <;> first | rfl | skip
      case selectCard s => cases s <;> rfl
  case selectIdle a => cases r <;> rfl

/-- Cards 10 and 20 change places. -/
def tenForTwenty : Recoding where
  of v := if v = 10 then 20 else if v = 20 then 10 else v
  injective a b h := by
    split at h <;> split at h <;> (try split at h) <;> (try split at h) <;> simp_all
  zero := rfl

/-- Two cards are drawn, looked at, and one is played. -/
def tenDrawn : List CoreMsg :=
  [.start 5 8000 8000 3 0 3 0, .draw 0 [(10, 0), (20, 0)], .updateData 0 2 [some [.code 10, .attack 10], some [.code 20]],
   .move 10 ⟨0, 2, 0, 0⟩ ⟨0, 4, 2, 8⟩ 0x80, .selectPosition 0 20 5]

example : ∀ m ∈ tenDrawn, m.Fits := by
  intro m hm
  simp only [tenDrawn, List.mem_cons, List.not_mem_nil, or_false] at hm
  rcases hm with rfl | rfl | rfl | rfl | rfl <;>
    simp [CoreMsg.Fits, QueryItem.Fits, QueryItem.slotBytes, QueryItem.blob, QueryItem.bytes, QueryItem.payload, b32, le]

/-- What a client shows of the hand: codes and attack values. -/
def handShown (ms : List CoreMsg) : Option (List (Nat × Int)) :=
  (feed BasicContext.init (ms.map (·.bytes))).toOption.bind fun x =>
    (Client.follow true Client.init (messages x.1)).toOption.map fun s =>
      (s.screen (.pile ⟨0, .hand⟩)).map fun y => ((y.single .code).val, (y.single .atk).val)

example : handShown (tenDrawn.take 3) = some [(10, 10), (20, 0)] ∧
    handShown ((tenDrawn.take 3).map (CoreMsg.recoded tenForTwenty)) = some [(20, 10), (10, 0)] ∧ handShown tenDrawn = some [(20, 0)] := by
  decide +kernel

end Ygo.Props
