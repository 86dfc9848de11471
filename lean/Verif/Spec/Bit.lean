/-!
# What it means to count and to choose bits

Independent of the code: bits are read with `Nat.testBit`.
-/

namespace Ygo.Spec

/-- Number of 1 bits of `x` among the lowest `w` bit positions. -/
def ones (w x : Nat) : Nat := ((List.range w).filter (fun i => x.testBit i)).length

/-- `r` consists of bits of `x`. -/
def SubMask (r x : Nat) : Prop := ∀ i, r.testBit i = true → x.testBit i = true

/-- `r` is made of the `min count (ones w x)` lowest 1 bits of the `w`-bit value `x`. -/
structure LowestBits (w count x r : Nat) : Prop where
  sub : SubMask r x
  card : ones w r = min count (ones w x)
  /-- Every 1 bit of `x` below a chosen bit is chosen too. -/
  lowest : ∀ i j, i < j → r.testBit j = true → x.testBit i = true → r.testBit i = true

/-- `r` is made of the `min count (ones w x)` highest 1 bits of the `w`-bit value `x`. -/
structure HighestBits (w count x r : Nat) : Prop where
  sub : SubMask r x
  card : ones w r = min count (ones w x)
  /-- Every 1 bit of `x` above a chosen bit is chosen too. -/
  highest : ∀ i j, i < j → r.testBit i = true → x.testBit j = true → r.testBit j = true

end Ygo.Spec
