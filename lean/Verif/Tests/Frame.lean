import Verif.Model.Limbo
import Verif.Tests.Basic

/-!
# The unit tests of the repository, run on the model: `test/frame.cpp`

The tests are typed over `BasicFrame` and `LimboFrame`; so they are here.
-/

namespace Ygo.Tests
open Ygo

/-- What the typed tests call. -/
class Tested (F : Type) where
  init : F
  layout : F → Layout
  add : F → Place → Res (F × CardId)
  remove : F → Place → Res F
  move : F → Place → Place → Res (F × CardId)
  swap : F → Place → Place → Res F
  resize : F → Place → Nat → Res F
  splice : F → Place → Nat → Place → Bool → Res F
  pswap : F → Place → Place → Res F
  clear : F → Res F

instance : Tested Frame where
  init := Frame.init
  layout := Frame.layout
  add := Frame.cardAdd
  remove := Frame.cardRemove
  move := Frame.cardMove
  swap := Frame.cardSwap
  resize := Frame.pileResize
  splice := Frame.pileSplice
  pswap := Frame.pileSwap
  clear := Frame.clear

instance : Tested Limbo where
  init := Limbo.init
  layout f := f.base.layout
  add := Limbo.cardAdd
  remove := Limbo.cardRemove
  move := Limbo.cardMove
  swap := Limbo.cardSwap
  resize := Limbo.pileResize
  splice := Limbo.pileSplice
  pswap := Limbo.pileSwap
  clear := Limbo.clear

variable {F : Type} [Tested F]

/-- `frame.has_card(p)`. -/
def hasCard (f : F) (p : Place) : Res Bool := (Tested.layout f).hasCard p
/-- `&frame.card(p)`. -/
def card (f : F) (p : Place) : Res CardId := (Tested.layout f).card p
/-- `frame.pile(p)`. -/
def pile (f : F) (p : Place) : Res (List CardId) := do return (Tested.layout f).pile (← p.pileKey)
/-- `frame.zone(p)`. -/
def zone (f : F) (p : Place) : Res Zone := do return (Tested.layout f).zone (← p.zoneKey)

/-- `LOC_ALL`. -/
def locAll : List Nat :=
  [Loc.mainDeck, Loc.hand, Loc.monsterZone, Loc.spellZone, Loc.graveyard, Loc.banished, Loc.extraDeck, Loc.fieldZone, Loc.pendulumZone,
   Loc.skillZone]

/-- `expect_empty`. -/
def expectEmpty (f : F) : Res Unit := do
  for con in [0, 1] do
    for loc in locAll do
      if locIsPile loc then expect ((← hasCard f ⟨con, loc, 0, 0⟩) = false)
      else
        for seq in List.range (← zoneSeqLim loc) do
          if 1 ≤ seq then
            for oseq in [-1, 0] do
              expect ((← hasCard f ⟨con, loc, seq, oseq⟩) = false)

/-- `IsInitializedEmpty`. -/
example : passes (expectEmpty (Tested.init : Frame)) = true := by decide +kernel
example : passes (expectEmpty (Tested.init : Limbo)) = true := by decide +kernel

variable (F) in
/-- `AddingAndClearingCardsWork`. -/
def addingAndClearingCardsWork : Res Unit := do
  let mut f : F := Tested.init
  for loc in locAll do
    let p : Place := ⟨0, loc, 0, -1⟩
    expect ((← hasCard f p) = false)
    let (f', c) ← Tested.add f p
    f := f'
    expect ((← hasCard f p) = true)
    expect ((← card f p) = c)
  f ← Tested.clear f
  expectEmpty f
example : passes (addingAndClearingCardsWork Frame) = true := by decide +kernel
example : passes (addingAndClearingCardsWork Limbo) = true := by decide +kernel

variable (F) in
/-- `AccessThroughPileObjectWorks`. -/
def accessThroughPileObjectWorks : Res Unit := do
  let p : Place := ⟨0, Loc.hand, 0, -1⟩
  let (f, c) ← Tested.add (Tested.init : F) p
  expect ((← card f p) = c)
  expect ((← pile f p)[p.seq]? = some c)
example : passes (accessThroughPileObjectWorks Frame) = true := by decide +kernel
example : passes (accessThroughPileObjectWorks Limbo) = true := by decide +kernel

variable (F) in
/-- `AccessThroughZoneObjectWorks`. -/
def accessThroughZoneObjectWorks : Res Unit := do
  let p : Place := ⟨0, Loc.monsterZone, 0, -1⟩
  let f : F := Tested.init
  expect ((← zone f p).card = none)
  let (f, c1) ← Tested.add f p
  expect ((← card f p) = c1)
  expect ((← zone f p).card = some c1)
  let p := { p with oseq := 0 }
  expect ((← zone f p).materials = [])
  let (f, c2) ← Tested.add f p
  expect ((← zone f p).materials ≠ [])
  expect ((← card f p) = c2)
  expect ((← zone f p).materials[p.oseq.toNat]? = some c2)
example : passes (accessThroughZoneObjectWorks Frame) = true := by decide +kernel
example : passes (accessThroughZoneObjectWorks Limbo) = true := by decide +kernel

variable (F) in
/-- `RemovingCardsWork`. -/
def removingCardsWork : Res Unit := do
  let mut f : F := Tested.init
  for oseq in [-1, 0] do
    for loc in locAll do
      let p : Place := ⟨0, loc, 0, oseq⟩
      let (f', _) ← Tested.add f p
      f := f'
      expect ((← hasCard f p) = true)
      f ← Tested.remove f p
      expect ((← hasCard f p) = false)
  expectEmpty f
example : passes (removingCardsWork Frame) = true := by decide +kernel
example : passes (removingCardsWork Limbo) = true := by decide +kernel

variable (F) in
/-- `TrivialCardMovesWork`. -/
def trivialCardMovesWork : Res Unit := do
  let mut p : Place := ⟨0, Loc.mainDeck, 0, -1⟩
  let (f', c) ← Tested.add (Tested.init : F) p
  let mut f := f'
  for i in List.range 20 do
    let prev := p
    expect ((← hasCard f prev) = true)
    let loc := locAll[(i + 1) % 10]?.getD 0
    p := { p with loc := loc, oseq := if 10 ≤ i ∧ locIsPile loc = false then 0 else -1 }
    let (f', mc) ← Tested.move f prev p
    f := f'
    expect ((← hasCard f p) = true)
    expect (c = mc)
    expect ((← card f p) = c)
    expect ((← hasCard f prev) = false)
example : passes (trivialCardMovesWork Frame) = true := by decide +kernel
example : passes (trivialCardMovesWork Limbo) = true := by decide +kernel

variable (F) in
/-- `OverlayCardMovesWork`. -/
def overlayCardMovesWork : Res Unit := do
  let p1 : Place := ⟨0, Loc.spellZone, 0, 0⟩
  let (f', c) ← Tested.add (Tested.init : F) p1
  let mut f := f'
  for p in [(⟨0, Loc.spellZone, 1, 0⟩ : Place), ⟨0, Loc.graveyard, 0, -1⟩, ⟨0, Loc.pendulumZone, 0, -1⟩] do
    let (f', mc) ← Tested.move f p1 p
    f := f'
    expect ((← hasCard f p1) = false)
    expect ((← hasCard f p) = true)
    expect (c = mc)
    expect ((← card f p) = c)
    let (f', mc) ← Tested.move f p p1
    f := f'
    expect ((← hasCard f p1) = true)
    expect ((← hasCard f p) = false)
    expect (c = mc)
    expect ((← card f p1) = c)
example : passes (overlayCardMovesWork Frame) = true := by decide +kernel
example : passes (overlayCardMovesWork Limbo) = true := by decide +kernel

variable (F) in
/-- `basic_swap_test`. -/
def basicSwapTest (loc1 : Nat) (mat1 : Bool) (loc2 : Nat) (mat2 : Bool) : Res Unit := do
  let p1 : Place := ⟨0, loc1, 0, if mat1 then 0 else -1⟩
  let p2 : Place := ⟨1, loc2, 0, if mat2 then 0 else -1⟩
  let (f, c1) ← Tested.add (Tested.init : F) p1
  let (f, c2) ← Tested.add f p2
  expect (c1 ≠ c2)
  let f ← Tested.swap f p1 p2
  expect ((← card f p2) = c1)
  expect ((← card f p1) = c2)
  let f ← Tested.swap f p2 p1
  expect ((← card f p1) = c1)
  expect ((← card f p2) = c2)

variable (F) in
/-- `PileToPileSwapWorks` to `OverlayToOverlaySwapWorks`. -/
def swapsWork : Res Unit := do
  basicSwapTest F Loc.mainDeck false Loc.hand false
  basicSwapTest F Loc.extraDeck false Loc.monsterZone false
  basicSwapTest F Loc.monsterZone false Loc.spellZone false
  basicSwapTest F Loc.monsterZone true Loc.spellZone false
  basicSwapTest F Loc.pendulumZone true Loc.graveyard false
  basicSwapTest F Loc.skillZone true Loc.fieldZone true
example : passes (swapsWork Frame) = true := by decide +kernel
example : passes (swapsWork Limbo) = true := by decide +kernel

variable (F) in
/-- `ZoneWithOverlaySwapWorks`. -/
def zoneWithOverlaySwapWorks : Res Unit := do
  let p1 : Place := ⟨0, Loc.monsterZone, 0, -1⟩
  let po1 := { p1 with oseq := 0 }
  let po2 := { po1 with con := 1 }
  let p2 := { po2 with oseq := -1 }
  let (f, c1) ← Tested.add (Tested.init : F) p1
  let (f, co1) ← Tested.add f po1
  let (f, c2) ← Tested.add f p2
  let (f, co2) ← Tested.add f po2
  let f ← Tested.swap f p1 p2
  expect ((← card f p2) = c1)
  expect ((← card f po2) = co1)
  expect ((← card f p1) = c2)
  expect ((← card f po1) = co2)
  let f ← Tested.swap f p2 p1
  expect ((← card f p1) = c1)
  expect ((← card f po1) = co1)
  expect ((← card f p2) = c2)
  expect ((← card f po2) = co2)
example : passes (zoneWithOverlaySwapWorks Frame) = true := by decide +kernel
example : passes (zoneWithOverlaySwapWorks Limbo) = true := by decide +kernel

variable (F) in
/-- `PileResizingWorks`. -/
def pileResizingWorks : Res Unit := do
  let place : Place := ⟨0, Loc.banished, 0, 0⟩
  let f : F := Tested.init
  expect ((← pile f place) = [])
  let f ← Tested.resize f place 8
  expect ((← pile f place).length = 8)
  for i in List.range 8 do
    expect ((← hasCard f { place with seq := i }) = true)
  let f ← Tested.resize f { place with seq := 7 } 0
  expect ((← pile f place) = [])
  expectEmpty f
example : passes (pileResizingWorks Frame) = true := by decide +kernel
example : passes (pileResizingWorks Limbo) = true := by decide +kernel

variable (F) in
/-- `PileSplicingWorks`. -/
def pileSplicingWorks : Res Unit := do
  let place1 : Place := ⟨0, Loc.mainDeck, 0, -1⟩
  let place2 : Place := ⟨0, Loc.graveyard, 0, -1⟩
  let f ← Tested.resize (Tested.init : F) place1 8
  let copy ← pile f place1
  let f ← Tested.splice f place1 4 place1 false
  expect ((← pile f place1) = copy)
  let f ← Tested.splice f place1 4 place1 true
  expect ((← pile f place1).length = 8)
  expect ((← pile f place1).take 4 = (copy.reverse.drop 4).take 4)
  let f ← Tested.splice f place1 8 place2 true
  expect ((← pile f place1) = [])
  expect ((← pile f place2).length = 8)
  expect ((← pile f place2).take 4 = copy.reverse.take 4)
  expect ((← pile f place2).drop 4 = copy.take 4)
  let f ← Tested.splice f place2 4 { place2 with seq := 4 } true
  expect ((← pile f place2) = copy)
example : passes (pileSplicingWorks Frame) = true := by decide +kernel
example : passes (pileSplicingWorks Limbo) = true := by decide +kernel

variable (F) in
/-- `PileSwapWorks`. -/
def pileSwapWorks : Res Unit := do
  let place1 : Place := ⟨0, Loc.extraDeck, 0, -1⟩
  let place2 : Place := ⟨0, Loc.banished, 0, -1⟩
  let f ← Tested.resize (Tested.init : F) place1 4
  let f ← Tested.resize f place2 8
  let copy1 ← pile f place1
  let copy2 ← pile f place2
  let f ← Tested.pswap f place1 place2
  expect ((← pile f place1) = copy2)
  expect ((← pile f place2) = copy1)
  let f ← Tested.pswap f place2 place1
  expect ((← pile f place1) = copy1)
  expect ((← pile f place2) = copy2)
example : passes (pileSwapWorks Frame) = true := by decide +kernel
example : passes (pileSwapWorks Limbo) = true := by decide +kernel

variable (F) in
/-- `BadAccessViaCardDies`. -/
def badAccessViaCardDies : Res Unit := do
  let (f, _) ← Tested.add (Tested.init : F) ⟨0, Loc.monsterZone, 0, 0⟩
  let (f, _) ← Tested.add f ⟨0, Loc.mainDeck, 0, 0⟩
  dies (card f ⟨2, Loc.mainDeck, 0, 0⟩)
  dies (card f ⟨2, Loc.monsterZone, 0, 0⟩)
  dies (card f ⟨0, Loc.monsterZone, 0, 1⟩)
  dies (card f ⟨0, Loc.monsterZone, 0, -1⟩)
  dies (card f ⟨0, Loc.monsterZone, 8, -1⟩)
  dies (card f ⟨0, 0, 0, -1⟩)
  dies (card f ⟨0, 0b11, 0, -1⟩)
  dies (card f ⟨0, Loc.mainDeck, 1, -1⟩)
example : passes (badAccessViaCardDies Frame) = true := by decide +kernel
example : passes (badAccessViaCardDies Limbo) = true := by decide +kernel

/-- `UndoCardAddWorks`. -/
def undoCardAddWorks : Res Unit := do
  let p : Place := ⟨0, Loc.hand, 0, -1⟩
  let (f, c) ← Limbo.init.cardAdd p
  expect ((← card f p) = c)
  let (f, c2) ← f.undoCardAdd p
  expect (c = c2)
  let (_, c3) ← f.cardAdd p
  expect (c2 = c3)
example : passes undoCardAddWorks = true := by decide +kernel

/-- `UndoCardRemoveWorks`. -/
def undoCardRemoveWorks : Res Unit := do
  let p : Place := ⟨0, Loc.hand, 0, -1⟩
  let (f, c) ← Limbo.init.cardAdd p
  expect ((← card f p) = c)
  let f ← f.cardRemove p
  expect ((← hasCard f p) = false)
  let (_, c2) ← f.undoCardRemove p
  expect (c = c2)
example : passes undoCardRemoveWorks = true := by decide +kernel

end Ygo.Tests
