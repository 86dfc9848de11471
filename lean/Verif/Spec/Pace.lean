import Verif.Spec.Handover

/-!
# Clients at their own pace

A server, told by the core what happens, and any number of clients that come and go. What the server sends waits for each client until it takes it.
Another server may go on in the place of the server at any time.
-/

namespace Ygo.Spec
open Ygo

/-- A client on the other end of a connection: what it shows, and what waits for it. First it has to catch up. -/
structure Peer where
  cache : Bool
  shows : Client
  early : List Msg
  queue : List Msg

/-- The server, what it has sent, what it tracked before each of these messages (latest first), and the clients. -/
structure Net where
  server : BasicContext
  sent : List Msg
  past : List Client
  peers : List Peer

/-- Nothing has happened. -/
def Net.init : Net := ⟨BasicContext.init, [], [], []⟩

/-- Messages are put in every queue. -/
def Net.send (ms : List Msg) (ps : List Peer) : List Peer := ps.map fun p => { p with queue := p.queue ++ ms }

/-- What can come about when the core has given these buffers. -/
inductive NetRuns : List (List UInt8) → Net → Prop
  | init : NetRuns [] Net.init
  /-- The core gives another buffer. -/
  | core {ds n} (d : List UInt8) {rs : List Encoded} {c : BasicContext} (h : NetRuns ds n) (hf : feed n.server [d] = .ok (rs, c)) :
      NetRuns (ds ++ [d]) ⟨c, n.sent ++ messages rs, (messages rs).map (fun _ => clientOf n.server) ++ n.past, Net.send (messages rs) n.peers⟩
  /-- A client comes, who may have followed something else before. -/
  | join {ds n} (cache : Bool) {ms : List Msg} {s : Client} (h : NetRuns ds n) (hs : Client.follow cache Client.init ms = .ok s) :
      NetRuns ds { n with peers := ⟨cache, s, catchUp (clientOf n.server), []⟩ :: n.peers }
  /-- A client goes. -/
  | leave {ds n} {a b : List Peer} {p : Peer} (h : NetRuns ds n) (hp : n.peers = a ++ p :: b) : NetRuns ds { n with peers := a ++ b }
  /-- A client takes the next message, still catching up. -/
  | early {ds n} {a b : List Peer} {p : Peer} {m : Msg} {ms : List Msg} {s : Client} (h : NetRuns ds n) (hp : n.peers = a ++ p :: b)
      (hm : p.early = m :: ms) (hs : Client.follow p.cache p.shows [m] = .ok s) :
      NetRuns ds { n with peers := a ++ { p with shows := s, early := ms } :: b }
  /-- A client takes the next message. -/
  | take {ds n} {a b : List Peer} {p : Peer} {m : Msg} {ms : List Msg} {s : Client} (h : NetRuns ds n) (hp : n.peers = a ++ p :: b)
      (he : p.early = []) (hm : p.queue = m :: ms) (hs : Client.follow p.cache p.shows [m] = .ok s) :
      NetRuns ds { n with peers := a ++ { p with shows := s, queue := ms } :: b }
  /-- Another server goes on. -/
  | handover {ds n} {c : BasicContext} (h : NetRuns ds n) (ht : tracks BasicContext.init (catchUp (clientOf n.server)) = .ok c) :
      NetRuns ds { n with server := withNotes c n.server }

end Ygo.Spec
