import Verif.Model.Network
import Verif.Model.Room

/-!
# Messages between clients and rooms, and replays, as objects of the generated classes

As in `Model/Network.lean`.  The events of rooms have cases that no
room sends (`dueling`, `rps`, and nothing at all): reading these gives nothing.
-/

namespace Ygo.Pb
open Obj (with_)
open Ygo.Room

/-! ## Text and bytes -/

def text (s : String) : List Val := if s = "" then [] else [.text s]
/-- Text of a `oneof`. -/
def text1 (s : String) : List Val := [.text s]
def blob (b : List Nat) : List Val := if b = [] then [] else [.blob b]

def toText : List Val → String
  | .text s :: _ => s
  | _ => ""
def toBlob : List Val → List Nat
  | .blob b :: _ => b
  | _ => []

namespace Obj

def text (o : Obj) (n : Nat) : String := toText (o n)
def blob (o : Obj) (n : Nat) : List Nat := toBlob (o n)

end Obj

/-! ## user.proto and deck.proto -/

def setUser (u : User) : Obj := with_ [(1, blob u.id), (2, text u.name)]
def getUser (o : Obj) : User := ⟨o.blob 1, o.text 2⟩

def setDeck (d : Deck) : Obj :=
  with_ [(1, obj (with_ [(1, nats d.main), (2, nats d.extra), (3, nats d.side)])), (2, nats d.useful), (3, text d.title),
    (4, text d.banlistId), (5, text d.notes)]
def getDeck (o : Obj) : Deck :=
  ⟨(o.sub 1).nats 1, (o.sub 1).nats 2, (o.sub 1).nats 3, o.nats 2, o.text 3, o.text 4, o.text 5⟩

/-- A message that may be present or not. -/
def opt {α : Type} (g : α → Obj) : Option α → List Val
  | none => []
  | some x => obj (g x)
def Obj.opt {α : Type} (o : Obj) (n : Nat) (g : Obj → α) : Option α := if o.has n then some (g (o.sub n)) else none

def setReason (r : Int × Nat) : Obj := with_ [(1, int r.1), (2, nat r.2)]
def getReason (o : Obj) : Int × Nat := (o.int 1, o.nat 2)
def setReasons (rs : List (Int × Nat)) : Obj := with_ [(1, objs setReason rs)]
def getReasons (o : Obj) : List (Int × Nat) := o.subs 1 getReason
def setCards (cs : List Nat) : Obj := with_ [(1, nats cs)]
def getCards (o : Obj) : List Nat := o.nats 1
def setMixed (cs : List Nat × List Nat) : Obj := with_ [(1, nats cs.1), (2, nats cs.2)]
def getMixed (o : Obj) : List Nat × List Nat := (o.nats 1, o.nats 2)
def setOutOfLimit (e : (Int × Int) × (Nat × Nat)) : Obj := with_ [(1, int e.1.1), (2, int e.1.2), (3, nat e.2.1), (4, nat e.2.2)]
def getOutOfLimit (o : Obj) : (Int × Int) × (Nat × Nat) := ((o.int 1, o.int 2), (o.nat 3, o.nat 4))

def setDeckError (e : DeckError) : Obj :=
  with_ [(1, opt setReasons e.banlisted), (2, opt setCards e.excessiveCopies), (3, opt setCards e.invalidCards),
    (4, opt setMixed e.mixedCards), (5, opt setOutOfLimit e.outOfLimit)]
def getDeckError (o : Obj) : DeckError :=
  ⟨o.opt 1 getReasons, o.opt 2 getCards, o.opt 3 getCards, o.opt 4 getMixed, o.opt 5 getOutOfLimit⟩

def setLimit (l : DeckLimit) : Obj := with_ [(1, nat l.min), (2, int l.max)]
def getLimit (o : Obj) : DeckLimit := ⟨o.nat 1, o.int 2⟩
def setLimits (l : DeckLimits) : Obj := with_ [(1, opt setLimit l.main), (2, opt setLimit l.extra), (3, opt setLimit l.side)]
def getLimits (o : Obj) : DeckLimits := ⟨o.opt 1 getLimit, o.opt 2 getLimit, o.opt 3 getLimit⟩

/-! ## banlist.proto -/

def setBanlist (b : Banlist) : Obj :=
  with_ [(1, text b.id), (2, nats b.forbidden), (3, nats b.limited), (4, nats b.semilimited), (5, nats b.whitelist), (6, text b.title),
    (7, text b.notes)]
def getBanlist (o : Obj) : Banlist := ⟨o.text 1, o.nats 2, o.nats 3, o.nats 4, o.nats 5, o.text 6, o.text 7⟩

/-! ## room.proto -/

def setOptions (p : Options) : Obj :=
  match p.banlist with
  | .unset => with_ [(1, nats p.maxDuelists), (2, opt setLimits p.deckLimits), (5, int p.ftdm)]
  | .id s => with_ [(1, nats p.maxDuelists), (2, opt setLimits p.deckLimits), (3, text1 s), (5, int p.ftdm)]
  | .custom b => with_ [(1, nats p.maxDuelists), (2, opt setLimits p.deckLimits), (4, obj (setBanlist b)), (5, int p.ftdm)]
def getChoice (o : Obj) : BanlistChoice :=
  if o.has 3 then .id (o.text 3) else if o.has 4 then .custom (getBanlist (o.sub 4)) else .unset
def getOptions (o : Obj) : Options := ⟨o.nats 1, o.opt 2 getLimits, getChoice o, o.int 5⟩

def setDuelist (d : Duelist) : Obj :=
  with_ [(1, nat d.team), (2, nat d.pos), (3, obj (setUser d.user)), (4, bool d.isHost), (5, bool d.isReady)]
def getDuelist (o : Obj) : Duelist := ⟨o.nat 1, o.nat 2, getUser (o.sub 3), o.bool 4, o.bool 5⟩

def setDice (d : Nat × Nat) : Obj := with_ [(1, nat d.1), (2, nat d.2)]
def getDice (o : Obj) : Nat × Nat := (o.nat 1, o.nat 2)

def setTold (first : Nat) : Tool → Obj
  | .unset => with_ [(1, nat first)]
  | .dice rs => with_ [(1, nat first), (3, obj (with_ [(1, objs setDice rs)]))]
  | .coin f => with_ [(1, nat first), (4, nat1 f)]
def getTold (o : Obj) : Option Tool :=
  if o.has 2 then none
  else if o.has 3 then some (.dice ((o.sub 3).subs 1 getDice))
  else if o.has 4 then (if o.int 4 < 0 then none else some (.coin (o.nat 4)))
  else some .unset

def setRoomEvent : Room.Event → Obj
  | .entering p ds n => with_ [(1, obj (with_ [(1, obj (with_ [(1, obj (setOptions p)), (2, objs setDuelist ds), (3, nat n)]))]))]
  | .duelistEnters d => with_ [(1, obj (with_ [(2, obj (setDuelist d))]))]
  | .updateDuelist d => with_ [(1, obj (with_ [(3, obj (setDuelist d))]))]
  | .deckStatus none => with_ [(1, obj (with_ [(4, obj (with_ []))]))]
  | .deckStatus (some e) => with_ [(1, obj (with_ [(4, obj (with_ [(1, obj (setDeckError e))]))]))]
  | .decidingEntering => with_ [(2, obj (with_ [(1, obj (with_ []))]))]
  | .decideFirstTurn b => with_ [(2, obj (with_ [(2, bool1 b)]))]
  | .result n t => with_ [(2, obj (with_ [(3, obj (setTold n t))]))]
  | .spectatorCount n => with_ [(4, nat1 n)]
def getConfiguring (o : Obj) : Option Room.Event :=
  if o.has 1 then some (.entering (getOptions ((o.sub 1).sub 1)) ((o.sub 1).subs 2 getDuelist) ((o.sub 1).nat 3))
  else if o.has 2 then some (.duelistEnters (getDuelist (o.sub 2)))
  else if o.has 3 then some (.updateDuelist (getDuelist (o.sub 3)))
  else if o.has 4 then some (.deckStatus (if (o.sub 4).has 1 then some (getDeckError ((o.sub 4).sub 1)) else none))
  else none
def getDeciding (o : Obj) : Option Room.Event :=
  if o.has 1 then some .decidingEntering
  else if o.has 2 then some (.decideFirstTurn (o.bool 2))
  else if o.has 3 then (getTold (o.sub 3)).map fun t => .result ((o.sub 3).nat 1) t
  else none
def getRoomEvent (o : Obj) : Option Room.Event :=
  if o.has 1 then getConfiguring (o.sub 1)
  else if o.has 2 then getDeciding (o.sub 2)
  else if o.has 4 then some (.spectatorCount (o.nat 4))
  else none

def setSignal : Signal → Obj
  | .unset => with_ []
  | .configuring .unset => with_ [(1, obj (with_ []))]
  | .configuring (.updateDeck d) => with_ [(1, obj (with_ [(1, obj (setDeck d))]))]
  | .configuring (.readyStatus b) => with_ [(1, obj (with_ [(2, bool1 b)]))]
  | .configuring (.startDueling b) => with_ [(1, obj (with_ [(3, bool1 b)]))]
  | .deciding .unset => with_ [(2, obj (with_ []))]
  | .deciding (.teamGoingFirst n) => with_ [(2, obj (with_ [(1, nat1 n)]))]
def getConfSignal (o : Obj) : ConfSignal :=
  if o.has 1 then .updateDeck (getDeck (o.sub 1))
  else if o.has 2 then .readyStatus (o.bool 2)
  else if o.has 3 then .startDueling (o.bool 3)
  else .unset
def getDecSignal (o : Obj) : DecSignal := if o.has 1 then .teamGoingFirst (o.nat 1) else .unset
def getSignal (o : Obj) : Signal :=
  if o.has 1 then .configuring (getConfSignal (o.sub 1))
  else if o.has 2 then .deciding (getDecSignal (o.sub 2))
  else .unset

/-! ## client_msg.proto and server_msg.proto -/

/-- `ClientMsg` (client_msg.proto:16-29). -/
inductive ClientMsg where
  | unset
  | identify (name : String)
  | room (s : Signal)
  deriving DecidableEq, Repr

/-- `ServerMsg` (server_msg.proto:16-29). -/
inductive ServerMsg where
  | unset
  | identified (id : List Nat)
  | room (e : Room.Event)
  deriving DecidableEq, Repr

def setClientMsg : ClientMsg → Obj
  | .unset => with_ []
  | .identify s => with_ [(1, obj (with_ [(1, text s)]))]
  | .room s => with_ [(2, obj (setSignal s))]
def getClientMsg (o : Obj) : ClientMsg :=
  if o.has 1 then .identify ((o.sub 1).text 1)
  else if o.has 2 then .room (getSignal (o.sub 2))
  else .unset

def setServerMsg : ServerMsg → Obj
  | .unset => with_ []
  | .identified b => with_ [(1, obj (with_ [(1, blob b)]))]
  | .room e => with_ [(2, obj (setRoomEvent e))]
def getServerMsg (o : Obj) : Option ServerMsg :=
  if o.has 1 then some (.identified ((o.sub 1).blob 1))
  else if o.has 2 then (getRoomEvent (o.sub 2)).map .room
  else some .unset

/-! ## replay.proto -/

/-- `Replay.Stream.Block` (replay.proto:23-31): milliseconds and a message. -/
structure Block where
  offset : Nat
  msg : Msg

def setBlock (b : Block) : Obj := with_ [(1, nat b.offset), (2, obj (setMsg b.msg))]
def getBlock (o : Obj) : Block := ⟨o.nat 1, getMsg (o.sub 2)⟩

/-- A replay that is not compressed. -/
def setReplay (bs : List Block) : Obj := with_ [(1, obj (with_ [(1, objs setBlock bs)]))]
def getReplay (o : Obj) : Option (List Block) := if o.has 1 then some ((o.sub 1).subs 1 getBlock) else none

/-! ## Sending and receiving -/

def sendClient (m : ClientMsg) : List Nat := write schema .clientMsg (setClientMsg m)
def receiveClient (bs : List Nat) : Option ClientMsg := (read schema .clientMsg bs).map getClientMsg

def sendServer (m : ServerMsg) : List Nat := write schema .serverMsg (setServerMsg m)
def receiveServer (bs : List Nat) : Option ServerMsg := (read schema .serverMsg bs).bind getServerMsg

def saveReplay (bs : List Block) : List Nat := write schema .replay (setReplay bs)
def loadReplay (bs : List Nat) : Option (List Block) := (read schema .replay bs).bind getReplay

end Ygo.Pb
