import Verif.Model.Release
import Verif.Spec.Table

/-!
# What calls do in a build without asserts

As `Spec/Table.lean`, but with pointers in the lists: the slot of a zone always holds one pointer, which may be null, and the lists of piles
and materials may hold null pointers.
-/

namespace Ygo.Spec
open Ygo

/-- Which pointers lie where. -/
abbrev PtrBoard := Container → List Ptr

def rawView (l : RawLayout) : PtrBoard
  | .pile k => l.pile k
  | .slot k => [(l.zone k).card]
  | .mats k => (l.zone k).materials

def PtrBoard.upd (B : PtrBoard) (C : Container) (v : List Ptr) : PtrBoard := fun C' => if C' = C then v else B C'

/-- Put a pointer somewhere: the pointer of a slot is replaced, the others make room. -/
def PtrBoard.put (B : PtrBoard) (C : Container) (i : Nat) (c : Ptr) : PtrBoard :=
  match C with
  | .slot k => B.upd (.slot k) [c]
  | C => B.upd C ((B C).insertIdx i c)

/-- Take a pointer away: a slot keeps a null pointer, the others close up. -/
def PtrBoard.take (B : PtrBoard) (C : Container) (i : Nat) : PtrBoard :=
  match C with
  | .slot k => B.upd (.slot k) [none]
  | C => B.upd C ((B C).eraseIdx i)

/-- There is no gap before the position. -/
def PtrBoard.Room (B : PtrBoard) (C : Container) (i : Nat) : Prop :=
  match C with
  | .slot _ => True
  | C => i ≤ (B C).length

/-- Two slots exchange what lies under them. -/
def PtrBoard.swapMats (B : PtrBoard) : Container → Container → PtrBoard
  | .slot k1, .slot k2 => (B.upd (.mats k1) (B (.mats k2))).upd (.mats k2) (B (.mats k1))
  | _, _ => B

/-- Exchange the pointers at two positions. -/
def PtrBoard.exchange (B : PtrBoard) (C1 : Container) (i : Nat) (C2 : Container) (j : Nat) (c1 c2 : Ptr) : PtrBoard :=
  let B' := B.upd C1 ((B C1).set i c2)
  B'.upd C2 ((B' C2).set j c1)

def PtrBoard.cut (B : PtrBoard) (C : Container) (i n : Nat) : PtrBoard := B.upd C ((B C).take i ++ (B C).drop (i + n))

def PtrBoard.paste (B : PtrBoard) (C : Container) (i : Nat) (v : List Ptr) : PtrBoard :=
  B.upd C ((B C).take i ++ v ++ (B C).drop i)

def PtrBoard.block (B : PtrBoard) (C : Container) (i n : Nat) (rev : Bool) : List Ptr :=
  if rev then (((B C).drop i).take n).reverse else ((B C).drop i).take n

def PtrBoard.swapAll (B : PtrBoard) (C1 C2 : Container) : PtrBoard := (B.upd C1 (B C2)).upd C2 (B C1)

/-- Nothing lies anywhere. -/
def noCards : PtrBoard
  | .slot _ => [none]
  | _ => []

/-- Pointers and the identity of the next new card. -/
structure PtrTable where
  board : PtrBoard
  next : CardId

def rawTable (f : RawFrame) : PtrTable := ⟨rawView f.layout, f.next⟩

/-- Which calls return without asserts, and what they do; shuffles are apart. -/
def PtrTable.Step (T : PtrTable) : FrameOp → PtrTable → Prop
  | .add p, T' => ∃ C i, At p C i ∧ T.board.Room C i ∧ T' = ⟨T.board.put C i (some T.next), T.next + 1⟩
  | .remove p, T' => ∃ C i c, At p C i ∧ (T.board C)[i]? = some (some c) ∧ T' = ⟨T.board.take C i, T.next⟩
  | .move a b, T' => ∃ C1 i C2 j c, At a C1 i ∧ At b C2 j ∧ (T.board C1)[i]? = some (some c) ∧ (T.board.take C1 i).Room C2 j ∧
      T' = ⟨((T.board.take C1 i).put C2 j (some c)).swapMats C1 C2, T.next⟩
  | .swap a b, T' => ∃ C1 i C2 j c1 c2, At a C1 i ∧ At b C2 j ∧ (T.board C1)[swappedIndex C1 C2 i]? = some c1 ∧ (T.board C2)[j]? = some c2 ∧
      T' = ⟨(T.board.exchange C1 (swappedIndex C1 C2 i) C2 j c1 c2).swapMats C1 C2, T.next⟩
  | .resize p n, T' => ∃ k i, At p (.pile k) i ∧ (∀ c ∈ (T.board (.pile k)).drop n, c ≠ none) ∧
      T' = ⟨T.board.upd (.pile k) ((T.board (.pile k)).take n ++ (List.range' T.next (n - (T.board (.pile k)).length)).map some),
        T.next + (n - (T.board (.pile k)).length)⟩
  | .splice a n b rev, T' => ∃ k1 i k2 j, At a (.pile k1) i ∧ At b (.pile k2) j ∧ i + n ≤ (T.board (.pile k1)).length ∧
      j ≤ (T.board.cut (.pile k1) i n (.pile k2)).length ∧
      T' = ⟨(T.board.cut (.pile k1) i n).paste (.pile k2) j (T.board.block (.pile k1) i n rev), T.next⟩
  | .pswap a b, T' => ∃ k1 i k2 j, At a (.pile k1) i ∧ At b (.pile k2) j ∧ T' = ⟨T.board.swapAll (.pile k1) (.pile k2), T.next⟩
  | .clear, T' => (∀ k, none ∉ T.board (.pile k)) ∧ (∀ k, none ∉ T.board (.mats k)) ∧
      T' = ⟨noCards, T.next⟩
  | .shuffle _ _ _, _ => False

/-- A shuffle. -/
def IsShuffle : FrameOp → Prop
  | .shuffle _ _ _ => True
  | _ => False

/-- All that lies somewhere. -/
def cardsOn (B : PtrBoard) : List CardId := containers.flatMap fun C => (B C).filterMap id

/-- A new or moved card is written over the card of a zone. -/
def Overwrites (B : PtrBoard) (op : FrameOp) (x : CardId) : Prop :=
  match op with
  | .add p => ∃ k i, At p (.slot k) i ∧ B (.slot k) = [some x]
  | .move a b => ∃ k i, At b (.slot k) i ∧ B (.slot k) = [some x] ∧ ∀ j, ¬ At a (.slot k) j
  | _ => False

/-- The calls that may destroy cards. -/
def Destroys : FrameOp → Prop
  | .remove _ | .resize _ _ | .clear => True
  | _ => False

/-- No null pointer lies in a pile or among materials. -/
def Full (B : PtrBoard) : Prop := ∀ C, (∀ k, C ≠ .slot k) → none ∉ B C

/-- The card slot of a zone without a card is swapped with a place in a pile or among materials. -/
def SwapsNull (B : PtrBoard) : FrameOp → Prop
  | .swap a b => ∃ k i C j, B (.slot k) = [none] ∧ (∀ k', C ≠ .slot k') ∧ ((At a (.slot k) i ∧ At b C j) ∨ (At a C j ∧ At b (.slot k) i))
  | _ => False

/-- A frame with asserts, as one without. -/
def asRaw (f : Frame) : RawFrame :=
  ⟨⟨fun k => (f.layout.pile k).map some, fun k => ⟨(f.layout.zone k).card, (f.layout.zone k).materials.map some⟩⟩, f.owned, f.next⟩

/-- A board with asserts, as one without. -/
def asRawBoard (b : PlainBoard) : RawBoard := ⟨asRaw b.frame, b.chainStack, b.turn, b.turnController, b.lp, b.phase, b.blockedZones⟩

/-- The calls an assert would stop and that return without asserts, on a frame `f` that asserts have kept in order. -/
def Tolerated (B : Board) : FrameOp → Prop
  /- onto a card -/
  | .add p => ∃ k c, At p (.slot k) 0 ∧ B (.slot k) = [c]
  /- a material index with a pile; onto a card; with materials onto materials -/
  | .move a b => ∃ C1 i C2 j, At a C1 i ∧ At b C2 j ∧ i < (B C1).length ∧ ((∀ k, C2 ≠ .slot k) → j ≤ (B.take C1 i C2).length) ∧
      (¬ PlainPile a C1 ∨ ¬ PlainPile b C2 ∨ (∃ k, C2 = .slot k ∧ B C2 ≠ []) ∨ ¬ CarryOk B C1 C2)
  /- no card in a zone; a material index with a pile; a card with materials and a pile; a wrong material index that is not used -/
  | .swap a b => ∃ C1 i C2 j, At a C1 i ∧ At b C2 j ∧ ((∀ k, C1 ≠ .slot k) → swappedIndex C1 C2 i < (B C1).length) ∧
      ((∀ k, C2 ≠ .slot k) → j < (B C2).length) ∧
      (¬ PlainPile a C1 ∨ ¬ PlainPile b C2 ∨ ¬ SwapOk B C1 C2 ∨ ¬ i < (B C1).length ∨ ¬ j < (B C2).length)
  | _ => False

end Ygo.Spec
