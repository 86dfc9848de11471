import Verif.Model.Event
import Verif.Spec.Frame

/-!
# A duel as a table with piles of cards

What the frame and the board do, told without the program: a table is a family of lists of cards and the number of cards handed out so far; a game is a table
and the values beside it.  Each call and each event is a relation between what was before and what is afterwards.  What is not related
to anything cannot be played.
-/

namespace Ygo.Spec
open Ygo

/-- What lies on the table, and the identity the next new card gets. -/
structure Table where
  board : Board
  next : CardId

/-- Exchange all that lies in two zones: cards and materials. -/
def Board.swapZones (B : Board) (k1 k2 : ZoneKey) : Board := (B.swapAll (.slot k1) (.slot k2)).swapAll (.mats k1) (.mats k2)

/-- Where the contents of a zone are after the contents of two zones changed places. -/
def exchanged (k1 k2 k : ZoneKey) : ZoneKey := if k = k2 then k1 else if k = k1 then k2 else k

/-- Deal the contents of zones out to other zones, one after the other: what lay in the first zone at the beginning changes places with what lies in the second
zone by now.  `now` says where the contents of a zone have gone so far. -/
def Board.deal (B : Board) (now : ZoneKey → ZoneKey) : List (ZoneKey × Option ZoneKey) → Board
  | [] => B
  | (_, none) :: rest => B.deal now rest
  | (k, some t) :: rest => (B.swapZones (now k) t).deal (fun x => exchanged (now k) t (now x)) rest

/-- `p` names the zone `k` and there is a card at it. -/
def Shows1 (B : Board) (p : Place) (k : ZoneKey) : Prop := Names p k ∧ ∃ C i, At p C i ∧ i < (B C).length

/-- `q` names the zone, or nothing. -/
def NamesOr (q : Place) : Option ZoneKey → Prop
  | none => q.isEmpty = true
  | some t => Names q t

/-- Which zones a shuffle names: each previous place a zone with a card, each current place a zone or nothing. -/
def Dealt (B : Board) : List Place → List Place → Nat → List (ZoneKey × Option ZoneKey) → Prop
  | _, _, 0, zs => zs = []
  | p :: ps, q :: qs, n + 1, zs => ∃ k t rest, zs = (k, t) :: rest ∧ Shows1 B p k ∧ NamesOr q t ∧ Dealt B ps qs n rest
  | _, _, _ + 1, _ => False

/-- Whether a call can be made on a table, and what it makes of it. -/
def Table.Step (T : Table) : FrameOp → Table → Prop
  | .add p, T' => ∃ C i, At p C i ∧ Fits T.board C i ∧ T' = ⟨T.board.put C i T.next, T.next + 1⟩
  | .remove p, T' => ∃ C i, At p C i ∧ i < (T.board C).length ∧ T' = ⟨T.board.take C i, T.next⟩
  | .move a b, T' => ∃ C1 i C2 j c, At a C1 i ∧ At b C2 j ∧ PlainPile a C1 ∧ PlainPile b C2 ∧ (T.board C1)[i]? = some c ∧
      (∀ k, C2 = .slot k → T.board C2 = []) ∧ j ≤ (T.board.take C1 i C2).length ∧ CarryOk T.board C1 C2 ∧
      T' = ⟨((T.board.take C1 i).put C2 j c).carry C1 C2, T.next⟩
  | .shuffle prev cur n, T' => prev ≠ [] ∧ n ≤ 7 ∧ ∃ zs, Dealt T.board prev cur n zs ∧ T' = ⟨T.board.deal id zs, T.next⟩
  | .swap a b, T' => ∃ C1 i C2 j c1 c2, At a C1 i ∧ At b C2 j ∧ PlainPile a C1 ∧ PlainPile b C2 ∧ SwapOk T.board C1 C2 ∧
      i < (T.board C1).length ∧ (T.board C1)[swappedIndex C1 C2 i]? = some c1 ∧ (T.board C2)[j]? = some c2 ∧
      T' = ⟨(T.board.exchange C1 (swappedIndex C1 C2 i) C2 j c1 c2).swapMats C1 C2, T.next⟩
  | .resize p n, T' => ∃ k i, At p (.pile k) i ∧
      T' = ⟨T.board.upd (.pile k) ((T.board (.pile k)).take n ++ List.range' T.next (n - (T.board (.pile k)).length)),
        T.next + (n - (T.board (.pile k)).length)⟩
  | .splice a n b rev, T' => ∃ k1 i k2 j, At a (.pile k1) i ∧ At b (.pile k2) j ∧ i + n ≤ (T.board (.pile k1)).length ∧
      j ≤ (T.board.cut (.pile k1) i n (.pile k2)).length ∧
      T' = ⟨(T.board.cut (.pile k1) i n).paste (.pile k2) j (T.board.block (.pile k1) i n rev), T.next⟩
  | .pswap a b, T' => ∃ k1 i k2 j, At a (.pile k1) i ∧ At b (.pile k2) j ∧ T' = ⟨T.board.swapAll (.pile k1) (.pile k2), T.next⟩
  | .clear, T' => T' = ⟨fun _ => [], T.next⟩

/-- Several calls in order. -/
inductive Table.Steps : Table → List FrameOp → Table → Prop
  | nil (T : Table) : Table.Steps T [] T
  | cons {T T1 T2 : Table} {op : FrameOp} {ops : List FrameOp} (h : T.Step op T1) (t : Table.Steps T1 ops T2) : Table.Steps T (op :: ops) T2

/-- A shuffle within one row of zones, of different zones; any other call. -/
def Tidy : FrameOp → Prop
  | .shuffle prev cur n => ∃ (c : Fin 2) (loc : ZoneLoc), (∀ p ∈ prev, p.con = c.val ∧ p.loc = loc.code) ∧
      (∀ q ∈ cur, q.isEmpty = false → q.con = c.val ∧ q.loc = loc.code) ∧ ((prev.take n).map Place.seq).Nodup
  | _ => True

/-- A game: the table and the values beside it. -/
structure Game where
  table : Table
  chain : List Chain
  turn : Nat
  turnPlayer : Int
  lp : Fin 2 → Nat
  phase : Nat
  blocked : List Place

/-- The event's calls: an exchange first makes piles longer or shorter, then takes cards away, then puts new ones down; a state clears the table first. -/
def callsOf : Event → List FrameOp
  | .board (.exchange e) => (e.resize.map fun r => .resize r.place r.count) ++ e.remove.map .remove ++ e.add.map .add
  | .board (.state s) => .clear :: (s.add.map .add ++ s.resize.map fun r => .resize r.place r.count)
  | .card _ (.add ps) => ps.map .add
  | .card _ (.remove ps) => ps.map .remove
  | .card _ (.move ms) => ms.map fun o => .move o.fst o.snd
  | .card _ (.exchange ms) => ms.map fun o => .swap o.fst o.snd
  | .card _ (.shuffle prev cur) => [.shuffle prev cur prev.length]
  | .pile _ (.exchange ms) => ms.map fun o => .pswap o.fst o.snd
  | .pile _ (.splice ms) => ms.map fun o => .splice o.src o.count o.dst o.reverse
  | _ => []

/-- Life points after a change: nobody has less than nothing, and they are counted modulo 2³². -/
def lpChanged (n : Nat) : LPChange → Nat
  | .unset => n
  | .become m => m
  | .damage m => n - m
  | .pay m => n - m
  | .recover m => (n + m) % 2 ^ 32

/-- What an event changes beside the table; `none` if the event cannot be. -/
def Game.beside (G : Game) : Event → Option Game
  | .board (.state s) =>
    match s.lps with
    | l0 :: l1 :: _ => some { G with
        turn := if 0 ≤ s.turnCounter then s.turnCounter.toNat else G.turn
        lp := fun i => if i = 0 then l0 else l1
        chain := s.chains }
    | _ => none
  | .chainStack (.push c) => some { G with chain := G.chain ++ [c] }
  | .chainStack (.pop _) => if G.chain = [] then none else some { G with chain := G.chain.dropLast }
  | .nextTurn con => some { G with turn := (G.turn + 1) % 2 ^ 32, turnPlayer := con }
  | .lp con c =>
    if con = 0 then some { G with lp := fun i => if i = 0 then lpChanged (G.lp 0) c else G.lp i }
    else if con = 1 then some { G with lp := fun i => if i = 1 then lpChanged (G.lp 1) c else G.lp i }
    else none
  | .nextPhase p => some { G with phase := p }
  | .zoneBlock zs => some { G with blocked := zs }
  | _ => some G

/-- Whether an event can happen in a game, and what becomes of the game. -/
def Game.Happens (G : Game) (e : Event) (G' : Game) : Prop :=
  ∃ H T, G.beside e = some H ∧ G.table.Steps (callsOf e) T ∧ G' = { H with table := T }

/-- Several events in order. -/
inductive Game.Story : Game → List Event → Game → Prop
  | nil (G : Game) : Game.Story G [] G
  | cons {G G1 G2 : Game} {e : Event} {es : List Event} (h : G.Happens e G1) (t : Game.Story G1 es G2) : Game.Story G (e :: es) G2

/-- All shuffles of the event are tidy. -/
def TidyEvent (e : Event) : Prop := ∀ op ∈ callsOf e, Tidy op

/-- The table a frame shows. -/
def tableOf (f : Frame) : Table := ⟨view f.layout, f.next⟩

/-- The game a board shows. -/
def gameOf (b : PlainBoard) : Game :=
  ⟨tableOf b.frame, b.chainStack.val, b.turn.val, b.turnController.val, fun i => (b.lp i).val, b.phase.val, b.blockedZones.val⟩

/-- The empty table before anything happened. -/
def Game.new : Game := ⟨⟨fun _ => [], 0⟩, [], 0, 0, fun _ => 0, 0, []⟩

end Ygo.Spec
