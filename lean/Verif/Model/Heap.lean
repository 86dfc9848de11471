import Verif.Model.Query
import Verif.Model.Event
import Verif.Model.Encode

/-!
# `BasicFrame` with real addresses (`include/ygopen/client/frame.hpp`)

`Model/Frame.lean` gives every card a name that was never used before, and forgets what is left in `pile_splice_cache_` (frame.hpp:609). Here
cards are objects at addresses that an allocator picks, which may be addresses of cards that are gone, and the scratch vector keeps its old
contents, pointers to such cards among them.
-/

namespace Ygo

/-- The address of the next list node: any rule that knows how many were asked for before and which are in use. -/
abbrev Allocator := Nat → List CardId → CardId

/-- Layout, addresses of the list nodes of `cards_.m` (newest first), what is in the cards, `pile_splice_cache_` and the number of addresses
asked for so far. -/
structure HeapFrame (pick : Allocator) where
  layout : Layout
  owned : List CardId
  contents : CardId → Option (Card Plain)
  scratch : List (Option CardId)
  asked : Nat

/-- `verify_pile_` (frame.hpp:583-587) on what was inserted. -/
def noneNull : List (Option CardId) → Res (List CardId)
  | [] => .ok []
  | c :: cs => do
    let c ← orAssert c
    let cs ← noneNull cs
    return c :: cs

/-- `pile_splice` (frame.hpp:430-457) with the scratch vector it works through: `resize` keeps old entries and adds null pointers, the
copy overwrites from the front, everything in the vector is inserted. -/
def Layout.spliceThrough (l : Layout) (scratch : List (Option CardId)) (src : Place) (count : Nat) (dst : Place) (reverse : Bool) :
    Res (Layout × List (Option CardId)) := do
  massert (src.isPile = true)
  massert (dst.isPile = true)
  let scratch := scratch.take count ++ List.replicate (count - scratch.length) none
  let k1 ← src.pileKey
  let p1 := l.pile k1
  massert (count + src.seq ≤ p1.length)
  let slice := (p1.drop src.seq).take count
  let copied := if reverse then slice.reverse else slice
  let scratch := copied.map some ++ scratch.drop copied.length
  let l := l.setPile k1 (p1.take src.seq ++ p1.drop (src.seq + count))
  let k2 ← dst.pileKey
  let p2 := l.pile k2
  guardUb (dst.seq ≤ p2.length)
  let inserted ← noneNull scratch
  return (l.setPile k2 (p2.take dst.seq ++ inserted ++ p2.drop dst.seq), scratch)

namespace HeapFrame
variable {pick : Allocator}

/-- Constructor (frame.hpp:126-129); nothing is known about memory no card is in. -/
def init (pick : Allocator) : HeapFrame pick := ⟨Layout.empty, [], fun _ => none, [], 0⟩

/-- A call that makes at most one card: as in `Model/Frame.lean`, with the address picked. A card that is made is as the builder makes it,
whatever was at its address before (frame.hpp:556-559); a card that is destroyed is gone. -/
def call (g : HeapFrame pick) (op : FrameOp) : Res (HeapFrame pick) := do
  let a := pick g.asked g.owned
  let f ← (⟨g.layout, g.owned, a⟩ : Frame).step op
  return { g with
    layout := f.layout
    owned := f.owned
    contents := fun c => if c ∈ f.owned then (if c ∈ g.owned then g.contents c else some BasicContext.newCard) else none
    asked := g.asked + 1 }

/-- Growing loop of `pile_resize` (frame.hpp:416-417). -/
def growPile (k : PileKey) : Nat → HeapFrame pick → HeapFrame pick
  | 0, g => g
  | n + 1, g =>
    let a := pick g.asked g.owned
    growPile k n { g with
      layout := g.layout.setPile k (g.layout.pile k ++ [a])
      owned := a :: g.owned
      contents := fun c => if c = a then some BasicContext.newCard else g.contents c
      asked := g.asked + 1 }

/-- Effect of one call. -/
def step (g : HeapFrame pick) : FrameOp → Res (HeapFrame pick)
  | .resize p n => do
    massert (p.isPile = true)
    let k ← p.pileKey
    if (g.layout.pile k).length < n then return growPile k (n - (g.layout.pile k).length) g
    else g.call (.resize p n)
  | .splice a n b r => do
    let (l, s) ← g.layout.spliceThrough g.scratch a n b r
    return { g with layout := l, scratch := s }
  | op => g.call op

/-- A history of calls, stopping at the first failure. -/
def run (g : HeapFrame pick) : List FrameOp → Res (HeapFrame pick)
  | [] => .ok g
  | op :: ops => do
    let g ← g.step op
    g.run ops

instance : FrameLike (HeapFrame pick) := ⟨step⟩

/-- What is in the card at a place (frame.hpp:152-156, 633-644): the pointer is followed. Following one to a card that is gone is undefined. -/
def read (g : HeapFrame pick) (p : Place) : Res (Card Plain) := do
  let c ← g.layout.card p
  orUb (g.contents c)

/-- `parse_query` (parse_query.hpp:77-126) on the card a pointer leads to. -/
def parseQuery (useCache : Bool) (g : HeapFrame pick) (q : Query) : Res (Nat × HeapFrame pick) := do
  massert ((← g.layout.hasCard q.place) = true)
  let c ← g.layout.card q.place
  let (hits, card) ← (← orUb (g.contents c)).parseData useCache q.data
  return (hits, { g with contents := fun x => if x = c then some card else g.contents x })

end HeapFrame

/-- A client whose cards are at addresses: what is known about a card is in the card. -/
abbrev HeapClient (pick : Allocator) := DuelBoard (HeapFrame pick) Plain

namespace HeapClient
variable {pick : Allocator}

/-- A new client. -/
def init (pick : Allocator) : HeapClient pick := ⟨HeapFrame.init pick, ⟨[]⟩, ⟨0⟩, ⟨0⟩, fun _ => ⟨0⟩, ⟨0⟩, ⟨[]⟩⟩

/-- Queries in order. -/
def answer (cache : Bool) : List Query → HeapFrame pick → Res (HeapFrame pick)
  | [], g => .ok g
  | q :: qs, g => do
    let (_, g) ← g.parseQuery cache q
    answer cache qs g

/-- A message: the event first, then what is said about cards. -/
def take (cache : Bool) (b : HeapClient pick) (m : Msg) : Res (HeapClient pick) := do
  let b ← match m.body with
    | .event e => b.parseEvent e
    | _ => pure b
  return { b with frame := ← answer cache m.queries b.frame }

/-- Messages in order. -/
def follow (cache : Bool) (b : HeapClient pick) : List Msg → Res (HeapClient pick)
  | [] => .ok b
  | m :: ms => do
    let b ← b.take cache m
    follow cache b ms

end HeapClient
end Ygo
