/-!
# Messages on the wire

The project describes all messages it exchanges in `include/ygopen/proto/*.proto`, from which the protobuf compiler makes classes
that write messages as bytes and read them.  Here is how these classes do it, for any description: the proto3 encoding as written by
`SerializeToString` and read by `ParseFromString`.

A description gives each message type a list of fields.  The content of a message is a function from field numbers to values: a list
of one value if the field is set, and of any number of values for repeated fields.  Numbers and bytes without explicit presence that
are zero or empty are not set.
-/

namespace Ygo.Pb

/-- Types of numbers used in the `.proto` files. Enumerations are open: any 32-bit value may arrive. -/
inductive Scalar where
  | int32 | uint32 | uint64 | sint32 | bool | enum
  deriving DecidableEq, Repr

/-- Types of fields; `M` are the names of the message types. -/
inductive Ty (M : Type) where
  | num (s : Scalar)
  | text
  | blob
  | msg (m : M)

/-- A field has at most one value, excludes others of the same `oneof`, or is repeated. -/
inductive Label where
  | plain
  | oneof (group : Nat)
  | rep
  deriving DecidableEq, Repr

structure Field (M : Type) where
  num : Nat
  label : Label
  ty : Ty M

/-- Values. -/
inductive Val where
  | num (z : Int)
  | text (s : String)
  | blob (b : List Nat)
  | msg (o : Nat → List Val)

/-- Content of a message. -/
abbrev Obj := Nat → List Val

/-- A new message. -/
def Obj.empty : Obj := fun _ => []

/-! ## Numbers -/

/-- Seven bits per byte, lowest first; the high bit tells that more follow. A 64-bit number takes at most ten bytes. -/
def varintIn : Nat → Nat → List Nat
  | 0, _ => []
  | k + 1, n => if n < 128 then [n] else (n % 128 + 128) :: varintIn k (n / 128)

def varint (n : Nat) : List Nat := varintIn 10 n

/-- Reads at most `k` bytes. -/
def readVarint : Nat → List Nat → Option (Nat × List Nat)
  | 0, _ => none
  | _ + 1, [] => none
  | k + 1, b :: bs =>
    if b < 128 then some (b, bs)
    else do
      let (n, bs) ← readVarint k bs
      return (b % 128 + 128 * n, bs)

/-- Bits beyond the 64th are dropped. -/
def readU64 (bs : List Nat) : Option (Nat × List Nat) := do
  let (n, bs) ← readVarint 10 bs
  return (n % 2 ^ 64, bs)

/-- Bits beyond the 32nd are dropped. -/
def readTag (bs : List Nat) : Option (Nat × List Nat) := do
  let (n, bs) ← readVarint 5 bs
  return (n % 2 ^ 32, bs)

/-- Sizes are at most `INT_MAX - 16`. -/
def readBlock (bs : List Nat) : Option (List Nat × List Nat) := do
  let (n, bs) ← readVarint 5 bs
  if n < 2 ^ 31 - 16 ∧ n ≤ bs.length then return (bs.take n, bs.drop n) else none

/-- Low 32 bits as a signed number. -/
def signed32 (n : Nat) : Int := if n % 2 ^ 32 < 2 ^ 31 then (n % 2 ^ 32 : Nat) else (n % 2 ^ 32 : Nat) - 2 ^ 32

namespace Scalar

/-- Negative `int32` are sent as 64-bit numbers; `sint32` alternates between signs. -/
def encode : Scalar → Int → Nat
  | int32, z | enum, z => (z % 2 ^ 64).toNat
  | sint32, z => if 0 ≤ z then (2 * z).toNat else (-2 * z - 1).toNat
  | uint32, z | uint64, z | bool, z => z.toNat

def decode : Scalar → Nat → Int
  | int32, n | enum, n => signed32 n
  | sint32, n => if n % 2 = 0 then (n % 2 ^ 32 / 2 : Nat) else -(n % 2 ^ 32 / 2 : Nat) - 1
  | uint32, n => (n % 2 ^ 32 : Nat)
  | uint64, n => (n : Nat)
  | bool, n => if n = 0 then 0 else 1

end Scalar

/-! ## Writing -/

variable {M : Type}

/-- The number written for fields that have a size (2) and those that do not (0). -/
def Ty.wire : Ty M → Nat
  | .num _ => 0
  | _ => 2

/-- Tag and payload of a record with a size. -/
def block (num : Nat) (payload : List Nat) : List Nat := varint (8 * num + 2) ++ varint payload.length ++ payload

def utf8 (s : String) : List Nat := s.toUTF8.data.toList.map UInt8.toNat

/-- Repeated numbers in one record. -/
def packed (s : Scalar) : List Val → List Nat
  | [] => []
  | .num z :: vs => varint (s.encode z) ++ packed s vs
  | _ :: vs => packed s vs

mutual

/-- One value with its tag. -/
def writeVal (S : M → List (Field M)) (num : Nat) : Ty M → Val → List Nat
  | .num s, .num z => varint (8 * num) ++ varint (s.encode z)
  | .text, .text s => block num (utf8 s)
  | .blob, .blob b => block num b
  | .msg m, .msg o => block num ((S m).flatMap fun f =>
      match f.label, f.ty with
      | .rep, .num s => if (o f.num).isEmpty then [] else block f.num (packed s (o f.num))
      | _, t => writeVals S f.num t (o f.num))
  | _, _ => []

def writeVals (S : M → List (Field M)) (num : Nat) (t : Ty M) : List Val → List Nat
  | [] => []
  | v :: vs => writeVal S num t v ++ writeVals S num t vs

end

def writeField (S : M → List (Field M)) (f : Field M) (vs : List Val) : List Nat :=
  match f.label, f.ty with
  | .rep, .num s => if vs.isEmpty then [] else block f.num (packed s vs)
  | _, t => writeVals S f.num t vs

/-- `SerializeToString`: the fields in order. -/
def write (S : M → List (Field M)) (m : M) (o : Obj) : List Nat := (S m).flatMap fun f => writeField S f (o f.num)

/-! ## Reading -/

/-- Skips groups that are open, innermost first; no more than `d` may be open. -/
def skipGroups (d : Nat) : Nat → List Nat → List Nat → Option (List Nat)
  | _, [], bs => some bs
  | 0, _ :: _, _ => none
  | fuel + 1, num :: open_, bs => do
    let (t, bs) ← readTag bs
    if t / 8 = 0 then none
    match t % 8 with
    | 0 => let (_, bs) ← readVarint 10 bs; skipGroups d fuel (num :: open_) bs
    | 1 => if 8 ≤ bs.length then skipGroups d fuel (num :: open_) (bs.drop 8) else none
    | 2 => let (_, bs) ← readBlock bs; skipGroups d fuel (num :: open_) bs
    | 3 => if open_.length + 1 < d then skipGroups d fuel (t / 8 :: num :: open_) bs else none
    | 4 => if t / 8 = num then skipGroups d fuel open_ bs else none
    | 5 => if 4 ≤ bs.length then skipGroups d fuel (num :: open_) (bs.drop 4) else none
    | _ => none

/-- Records that are not known are skipped. -/
def skip (d num wire : Nat) (bs : List Nat) : Option (List Nat) :=
  match wire with
  | 0 => do let (_, bs) ← readVarint 10 bs; return bs
  | 1 => if 8 ≤ bs.length then some (bs.drop 8) else none
  | 2 => do let (_, bs) ← readBlock bs; return bs
  | 3 => if 0 < d then skipGroups d bs.length [num] bs else none
  | 5 => if 4 ≤ bs.length then some (bs.drop 4) else none
  | _ => none

/-- Numbers of a packed record. -/
def readPacked (s : Scalar) : Nat → List Nat → Option (List Val)
  | _, [] => some []
  | 0, _ :: _ => none
  | fuel + 1, bs => do
    let (n, bs) ← readU64 bs
    let vs ← readPacked s fuel bs
    return .num (s.decode n) :: vs

/-- Text must be UTF-8. -/
def readText (bs : List Nat) : Option String := String.fromUTF8? ⟨(bs.map fun b => UInt8.ofNat b).toArray⟩

/-- Values that are not stored without explicit presence. -/
def Val.isZero : Val → Bool
  | .num z => z == 0
  | .text s => s == ""
  | .blob b => b == []
  | .msg _ => false

/-- A value arrives: the last one counts, repeated ones are added, and others of the same `oneof` are dropped. -/
def Obj.put (fs : List (Field M)) (f : Field M) (v : Val) (o : Obj) : Obj := fun n =>
  match f.label with
  | .plain => if n = f.num then (if v.isZero then [] else [v]) else o n
  | .rep => if n = f.num then o n ++ [v] else o n
  | .oneof g =>
    if n = f.num then [v]
    else if fs.any fun f' => f'.num == n && f'.label == .oneof g then []
    else o n

/-- Several values of a repeated field arrive. -/
def Obj.putAll (f : Field M) (vs : List Val) (o : Obj) : Obj := fun n => if n = f.num then o n ++ vs else o n

/-- What a message that arrives is merged into. -/
def Obj.within (f : Field M) (o : Obj) : Obj :=
  match f.label, o f.num with
  | .rep, _ => Obj.empty
  | _, [.msg o'] => o'
  | _, _ => Obj.empty

/-- One record. Groups may be nested `d` deep. -/
def record (S : M → List (Field M)) (d : Nat) (inner : M → List Nat → Obj → Option Obj) (m : M) (bs : List Nat) (o : Obj) :
    Option (List Nat × Obj) := do
  let (t, bs) ← readTag bs
  if t / 8 = 0 then none
  match (S m).find? fun f => f.num == t / 8 with
  | none => do let bs ← skip d (t / 8) (t % 8) bs; return (bs, o)
  | some f =>
    match f.ty, t % 8 with
    | .num s, 0 => do
      let (n, bs) ← readU64 bs
      return (bs, o.put (S m) f (.num (s.decode n)))
    | .num s, 2 =>
      if f.label = .rep then do
        let (p, bs) ← readBlock bs
        let vs ← readPacked s p.length p
        return (bs, o.putAll f vs)
      else do let bs ← skip d (t / 8) (t % 8) bs; return (bs, o)
    | .text, 2 => do
      let (p, bs) ← readBlock bs
      let s ← readText p
      return (bs, o.put (S m) f (.text s))
    | .blob, 2 => do
      let (p, bs) ← readBlock bs
      return (bs, o.put (S m) f (.blob p))
    | .msg m', 2 => do
      let (p, bs) ← readBlock bs
      let o' ← inner m' p (o.within f)
      return (bs, o.put (S m) f (.msg o'))
    | _, _ => do let bs ← skip d (t / 8) (t % 8) bs; return (bs, o)

/-- All records, into a message that may have content already. Messages and groups may be nested `d` deep. -/
def merge (S : M → List (Field M)) : Nat → Nat → M → List Nat → Obj → Option Obj
  | _, _, _, [], o => some o
  | 0, _, _, _ :: _, _ => none
  | fuel + 1, d, m, bs, o => do
    let (bs, o) ← record S d (fun m bs o => if 0 < d then merge S fuel (d - 1) m bs o else none) m bs o
    merge S fuel d m bs o

/-- How deep messages and groups may be nested: the recursion limit of the library. -/
def maxDepth : Nat := 100

/-- `ParseFromString`. -/
def read (S : M → List (Field M)) (m : M) (bs : List Nat) : Option Obj := merge S bs.length maxDepth m bs Obj.empty

end Ygo.Pb
