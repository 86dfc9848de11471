import Verif.Model.Request

/-!
# Reading core messages: cursor and small readers (`src/codec/edo9300_ocgcore_encode.cpp:76-316`)

The cursor `data` is the list of bytes from it to the end of the supplied buffer.  Reading or moving past that end is undefined.
The machine is little endian (the code copies bytes with `memcpy`).
-/

namespace Ygo

/-- Code that reads through the cursor: the value computed and the bytes left. -/
def P (α : Type) : Type := List UInt8 → Res (α × List UInt8)

namespace P
variable {α β : Type}

instance : Monad P where
  pure a := fun s => .ok (a, s)
  bind p f := fun s => match p s with
    | .ok (a, r) => f a r
    | .error e => .error e

/-- Code that does not touch the cursor. -/
def lift (r : Res α) : P α := fun s => match r with
  | .ok a => .ok (a, s)
  | .error e => .error e

/-- Little-endian value of some bytes. -/
def leVal : List UInt8 → Nat
  | [] => 0
  | b :: bs => b.toNat + 256 * leVal bs

/-- `read<T>` for an unsigned `T` of `n` bytes (encode.cpp:94-103). -/
def read (n : Nat) : P Nat := fun s => if n ≤ s.length then .ok (leVal (s.take n), s.drop n) else .error .ub

/-- `skip` (encode.cpp:78-92). -/
def skip (n : Nat) : P Unit := fun s => if n ≤ s.length then .ok ((), s.drop n) else .error .ub

/-- Reading something and going `back` to where it began (encode.cpp:266-272). -/
def peek (p : P α) : P α := fun s => match p s with
  | .ok (a, _) => .ok (a, s)
  | .error e => .error e

/-- `data[i]` without moving the cursor. -/
def byteAt (i : Nat) : P Nat := fun s => match s[i]? with
  | some b => .ok (b.toNat, s)
  | none => .error .ub

/-- `for(i = 0; i < n; i++)` around a reader, collecting what is read. -/
def many (p : P α) : Nat → P (List α)
  | 0 => pure []
  | n + 1 => do
    let a ← p
    let as ← many p n
    return a :: as

/-- `for(i = 0; i < n; i++)` around a `skip`. -/
def skipMany (p : P Unit) : Nat → P Unit
  | 0 => pure ()
  | n + 1 => do
    p
    skipMany p n

/-- A reader run over a list of values, concatenating the results. -/
def forEach (f : α → P (List β)) : List α → P (List β)
  | [] => pure []
  | x :: xs => do
    let a ← f x
    let as ← forEach f xs
    return a ++ as

/-- A reader together with the number of bytes it moved the cursor by. -/
def counted (p : P α) : P (α × Nat) := fun s => match p s with
  | .ok (a, r) => .ok ((a, s.length - r.length), r)
  | .error e => .error e

end P

open P

/-- Conversion from `uint32_t` to `int32_t`. -/
def toInt32 (n : Nat) : Int := if n < 2 ^ 31 then n else n - 2 ^ 32

/-- `read_bool` (encode.cpp:111-116). -/
def readBool : P Bool := do return (← read 1) != 0

/-- `read_con` (encode.cpp:118-121). -/
def readCon : P Int := do return ((← read 1 : Nat) : Int)

/-- `read_counter` (encode.cpp:161-167). -/
def readCounter : P Counter := do
  let c ← read 4
  return ⟨c &&& 0xFFFF, c >>> 16⟩

/-- `read_effect` (encode.cpp:169-175); `set_code` takes 32 bits. -/
def readEffect : P Effect := do
  let ed ← read 8
  return ⟨(ed >>> 20) % 2 ^ 32, ed &&& 0xFFFFF⟩

/-- `fix_spell_loc_seq` (encode.cpp:177-198). -/
def fixSpell (loc seq : Nat) : Nat × Nat :=
  if (loc &&& Loc.spellZone) ≠ 0 ∧ seq > 4 then
    if seq = 5 then (Loc.fieldZone, seq - 5) else (Loc.pendulumZone, seq - 1 - 5)
  else (loc, seq)

/-- `read_loc_info<Loc, Seq, Pos>` with a non-void `Seq` (encode.cpp:200-228); the arguments are the sizes in bytes of the three
types, `none` for a void `Pos`. -/
def readLoc (locW seqW : Nat) (posW : Option Nat) : P Place := do
  let con ← readCon
  let loc ← read locW
  let seq ← read seqW
  let ls := fixSpell (loc &&& 0xFFFFFF7F) seq
  match posW with
  | some w => do
    let pos ← read w
    return ⟨con, ls.1, ls.2, if (loc &&& 0x80) ≠ 0 then toInt32 pos else OSEQ_INVALID⟩
  | none => return ⟨con, ls.1, ls.2, OSEQ_INVALID⟩

/-- `read_loc_info` with its default arguments: location of 1 byte, sequence and position of 4. -/
def readLocInfo : P Place := readLoc 1 4 (some 4)

/-- `read_loc_info<CSLoc, CSeq, void>`. -/
def readLocSeq : P Place := readLoc 1 4 none

/-- `read_loc_info<CSLoc, CSSeq, void>`. -/
def readLocSSeq : P Place := readLoc 1 1 none

/-- A card code that is skipped, then a location (the body of the loops over card lists, encode.cpp:231-264). -/
def coded {α : Type} (p : P α) : P α := do
  skip 4
  p

/-- `read<CCount>` and a loop over that many elements. -/
def listOf {α : Type} (p : P α) : P (List α) := do many p (← read 4)

/-- `read<CSCount>` and a loop over that many elements. -/
def slistOf {α : Type} (p : P α) : P (List α) := do many p (← read 1)

/-- One half of `unpack_zones` (encode.cpp:291-312). -/
def unpackHalf (half : Nat) (con : Int) : List Place :=
  let row (loc n base : Nat) : List Place :=
    (List.range n).filterMap fun seq => if half.testBit (base + seq) then none else some ⟨con, loc, seq, OSEQ_INVALID⟩
  row Loc.monsterZone 7 0 ++ row Loc.spellZone 5 8 ++ row Loc.fieldZone 1 13 ++ row Loc.pendulumZone 2 14

/-- `unpack_zones` (encode.cpp:274-315); `1U - invert` is converted to `uint8_t`. -/
def unpackZones (zones invert : Nat) : List Place :=
  unpackHalf (zones % 2 ^ 16) (invert : Nat) ++ unpackHalf ((zones >>> 16) % 2 ^ 16) ((257 - invert) % 256 : Nat)

/-! ## Queries (`encode_one_query`, encode.cpp:319-488) -/

/-- How the value of a single-valued query is read (encode.cpp:344-467). The two link fields are read together and have no
flag of their own on the wire. -/
def readField : (f : QField) → P f.Val
  | .code => read 4
  | .position => read 4
  | .«alias» => read 4
  | .type => read 4
  | .level => do return toInt32 (← read 4)
  | .xyzRank => read 4
  | .«attribute» => read 4
  | .race => read 8
  | .atk => do return toInt32 (← read 4)
  | .def_ => do return toInt32 (← read 4)
  | .baseAtk => do return toInt32 (← read 4)
  | .baseDef => do return toInt32 (← read 4)
  | .equippedTo => readLocInfo
  | .owner => readCon
  | .status => read 4
  | .isPublic => readBool
  | .pendLScale => read 4
  | .pendRScale => read 4
  | .isHidden => readBool
  | .cover => read 4
  | .linkRate => read 4
  | .linkArrow => read 4

/-- `EncodeOneQueryResult` with the data filled in. The view `overlays_count`, `overlays_ptr` is modelled by the codes it shows;
`bytes_read` is how far the cursor moved. -/
structure QueryRead where
  data : QueryData
  overlays : List Nat := []

/-- The `switch` of `encode_one_query` for anything but the end marker. For `size < 4` the number of bytes to skip wraps to almost
2^64, which leaves any buffer. -/
def queryField (size flag : Nat) (v : QueryRead) : P QueryRead :=
  if flag = 0x8000 then do
    let places ← listOf readLocInfo
    return { v with data := { v.data with targets := some (v.data.targets.getD [] ++ places) } }
  else if flag = 0x20000 then do
    let counters ← listOf readCounter
    return { v with data := { v.data with counters := some (v.data.counters.getD [] ++ counters) } }
  else if flag = 0x800000 then do
    let rate ← read 4
    let arrow ← read 4
    return { v with data := (v.data.setSingle .linkRate rate).setSingle .linkArrow arrow }
  else if flag = 0x10000 then do
    return { v with overlays := ← listOf (read 4) }
  else match QField.all.find? (fun f => f.flag = flag) with
    | some f => do
      let x ← readField f
      return { v with data := v.data.setSingle f x }
    | none => do
      lift (guardUb (4 ≤ size))
      skip (size - 4)
      return v

/-- The `for(;;)` of `encode_one_query`; the first argument bounds the number of iterations, each of which moves the cursor. -/
def queryLoop : Nat → QueryRead → P QueryRead
  | 0, _ => lift ub
  | n + 1, v => do
    let size ← read 2
    let flag ← read 4
    if flag = 0x80000000 then return v
    let v ← queryField size flag v
    queryLoop n v

/-- `encode_one_query` (encode.cpp:319-488) into fresh data. -/
def encodeOneQuery : P QueryRead := fun s => queryLoop (s.length + 1) { data := .empty } s

/-- The query for a card and one for each of its materials (encode.cpp:976-995, 1004-1019). -/
def withOverlays (place : Place) (v : QueryRead) : List Query :=
  ⟨place, v.data⟩ ::
    v.overlays.mapIdx fun i code => ⟨{ place with oseq := toInt32 i }, QueryData.empty.setSingle .code code⟩

/-- Loop of `MSG_UPDATE_DATA` (encode.cpp:966-998); the first argument bounds the number of iterations. -/
def updateLoop (con : Int) (loc total : Nat) : (fuel i readSize : Nat) → P (List Query)
  | 0, _, _ => lift ub
  | n + 1, i, readSize =>
    if readSize < total then do
      let size ← peek (read 2)
      if size = 0 then
        skip 2
        updateLoop con loc total n ((i + 1) % 2 ^ 32) ((readSize + 2) % 2 ^ 32)
      else
        let ls := fixSpell loc i
        let (v, used) ← counted encodeOneQuery
        let rest ← updateLoop con loc total n ((i + 1) % 2 ^ 32) ((readSize + used) % 2 ^ 32)
        return withOverlays ⟨con, ls.1, ls.2, OSEQ_INVALID⟩ v ++ rest
    else pure []

/-- The loop from its start. -/
def updateAll (con : Int) (loc total : Nat) : P (List Query) := fun s => updateLoop con loc total (s.length + 1) 0 0 s

end Ygo
