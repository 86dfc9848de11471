import Verif.Model.Protobuf
import Verif.Spec.Range

/-!
# What a message may hold
-/

namespace Ygo.Spec
open Ygo Ygo.Pb

/-- Numbers of a type. -/
def ScalarHolds : Scalar → Int → Prop
  | .int32, z | .sint32, z | .enum, z => I32 z
  | .uint32, z => 0 ≤ z ∧ z < 2 ^ 32
  | .uint64, z => 0 ≤ z ∧ z < 2 ^ 64
  | .bool, z => z = 0 ∨ z = 1

/-- How many values a field may have. Without explicit presence, zero is not stored. -/
def LabelHolds : Label → List Val → Prop
  | .plain, vs => vs = [] ∨ ∃ v, vs = [v] ∧ v.isZero = false
  | .oneof _, vs => vs = [] ∨ ∃ v, vs = [v]
  | .rep, _ => True

variable {M : Type}

/-- Values as described: numbers within their types, and messages with known fields, at most one for each `oneof`. -/
inductive HasType (S : M → List (Field M)) : Ty M → Val → Prop
  | num {s : Scalar} {z : Int} : ScalarHolds s z → HasType S (.num s) (.num z)
  | text {s : String} : HasType S .text (.text s)
  | blob {b : List Nat} : (∀ x ∈ b, x < 256) → HasType S .blob (.blob b)
  | msg {m : M} {o : Obj} :
    (∀ f ∈ S m, ∀ v ∈ o f.num, HasType S f.ty v) →
    (∀ f ∈ S m, LabelHolds f.label (o f.num)) →
    (∀ f ∈ S m, ∀ f' ∈ S m, ∀ g, f.label = .oneof g → f'.label = .oneof g → o f.num ≠ [] → o f'.num ≠ [] → f.num = f'.num) →
    (∀ n, (∀ f ∈ S m, f.num ≠ n) → o n = []) →
    HasType S (.msg m) (.msg o)

/-- Descriptions the protobuf compiler accepts: field numbers are positive, below 2^29, and those of one message differ; here they are
in order. -/
def Described (S : M → List (Field M)) : Prop :=
  ∀ m, (S m).Pairwise (fun f f' => f.num < f'.num) ∧ ∀ f ∈ S m, 0 < f.num ∧ f.num < 2 ^ 29

/-- Messages of the type nest at most `d` deep. -/
def nestsIn (S : M → List (Field M)) : Nat → M → Bool
  | 0, m => (S m).all fun f => match f.ty with | .msg _ => false | _ => true
  | d + 1, m => (S m).all fun f => match f.ty with | .msg m' => nestsIn S d m' | _ => true

/-! ## What later versions may add -/

/-- A record of any kind, or the beginning or the end of a group. -/
inductive Piece where
  | number (num n : Nat)
  | fixed64 (num : Nat) (bs : List Nat)
  | sized (num : Nat) (bs : List Nat)
  | fixed32 (num : Nat) (bs : List Nat)
  | begins (num : Nat)
  | ends (num : Nat)

namespace Piece

def num : Piece → Nat
  | number n _ | fixed64 n _ | sized n _ | fixed32 n _ | begins n | ends n => n

def bytes : Piece → List Nat
  | number k n => varint (8 * k) ++ varint n
  | fixed64 k bs => varint (8 * k + 1) ++ bs
  | sized k bs => varint (8 * k + 2) ++ varint bs.length ++ bs
  | begins k => varint (8 * k + 3)
  | ends k => varint (8 * k + 4)
  | fixed32 k bs => varint (8 * k + 5) ++ bs

/-- Pieces the format has. -/
def Ok (p : Piece) : Prop :=
  (0 < p.num ∧ p.num < 2 ^ 29) ∧
  match p with
  | number _ n => n < 2 ^ 64
  | fixed64 _ bs => bs.length = 8
  | sized _ bs => bs.length < 2 ^ 31 - 16
  | fixed32 _ bs => bs.length = 4
  | _ => True

end Piece

/-- Every group that begins ends, with the same number, before those around it, and no more than `d` are open at once. -/
def wellNested (d : Nat) : List Nat → List Piece → Bool
  | open_, [] => open_.isEmpty
  | open_, .begins k :: ps => decide (open_.length < d) && wellNested d (k :: open_) ps
  | [], .ends _ :: _ => false
  | k :: open_, .ends k' :: ps => decide (k = k') && wellNested d open_ ps
  | open_, _ :: ps => wellNested d open_ ps

/-- The numbers of what is not inside a group, where `n` groups are open. -/
def outerNumbers : Nat → List Piece → List Nat
  | _, [] => []
  | n, p :: ps =>
    (if n = 0 then [p.num] else []) ++ outerNumbers (match p with | .begins _ => n + 1 | .ends _ => n - 1 | _ => n) ps

end Ygo.Spec
