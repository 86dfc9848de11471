import Verif.Spec.Answer
import Verif.Spec.Core

/-!
# Questions of the core and their answers

A decision is what a player settles on, said in terms of places, codes and effects. `clientMeans` says which decision a client makes with an
answer to the request it was shown; `coreReads` says which decision the core takes from a response to the question it asked, looking into its
own lists.
-/

namespace Ygo.Spec
open Ygo

/-- What a player settles on. -/
inductive Decision where
  | act (action : IdleAction) (place : Place) (effect : Option Effect)
  | phase (p : Nat)
  | shuffle
  | cards (cs : List (Place × Nat))
  | codes (cs : List Nat)
  | decline
  | yes (b : Bool)
  | effect (e : Effect)
  | chain (place : Place) (effect : Effect)
  | zones (ps : List Place)
  | position (p : Nat)
  | race (r : Nat)
  | attribute_ (a : Nat)
  | number (n : Nat)
  | order (ps : List Place)
  | hand (h : Int)
  deriving DecidableEq

/-- The items with the given indexes; nothing if one of them does not exist. -/
def pick {α : Type} (xs : List α) : List Nat → Option (List α)
  | [] => some []
  | i :: is =>
    match xs[i]?, pick xs is with
    | some x, some ys => some (x :: ys)
    | _, _ => none

/-- Every bit of `v` is one of `offered`, and there is one. -/
def Offered (offered v : Nat) : Prop := v ≠ 0 ∧ v &&& offered = v

instance (offered v : Nat) : Decidable (Offered offered v) := by unfold Offered; infer_instance

/-! ## The client -/

/-- What an answer to a request to act means. -/
def idleMeans (s : SelectIdle) : AnswerIdle → Option Decision
  | .unset => none
  | .shuffle _ => if s.canShuffle then some .shuffle else none
  | .phase p => if (p = 0x80 ∨ p = 0x100 ∨ p = 0x200) ∧ Offered s.availablePhase p then some (.phase p) else none
  | .cardAction .activate i => s.activable[i]?.map fun a => .act .activate a.place (some a.effect)
  | .cardAction .summon i => s.summonable[i]?.map fun p => .act .summon p none
  | .cardAction .spsummon i => s.spsummonable[i]?.map fun p => .act .spsummon p none
  | .cardAction .reposition i => s.repositionable[i]?.map fun p => .act .reposition p none
  | .cardAction .mset i => s.msetable[i]?.map fun p => .act .mset p none
  | .cardAction .sset i => s.ssetable[i]?.map fun p => .act .sset p none
  | .cardAction .attack i => s.canAttack[i]?.map fun a => .act .attack a.place none
  | .cardAction _ _ => none

/-- What an answer to a request for cards means. Selecting one by one, the cards that can be taken back are counted after those that can be
selected. -/
def cardMeans : SelectCard → AnswerCard → Option Decision
  | .limbo c _ _ codes, a =>
    match a with
    | .cancel _ => if c then some .decline else none
    | .indexes is => if is = [] then none else (pick codes is).map .codes
    | _ => none
  | .recursive f _ _ _ ss us, a =>
    match a with
    | .cancel _ | .finish _ => if f then some .decline else none
    | .indexes [i] => ((ss ++ us)[i]?).map fun x => .cards [(x.place, x.code)]
    | _ => none
  | .uniqueRange c _ _ cs, a =>
    match a with
    | .cancel _ => if c then some .decline else none
    | .indexes is => if is = [] then none else (pick cs is).map fun xs => .cards (xs.map fun x => (x.place, x.code))
    | _ => none
  | .uniqueTributes c _ _ cs, a =>
    match a with
    | .cancel _ => if c then some .decline else none
    | .indexes is => if is = [] then none else (pick cs is).map fun xs => .cards (xs.map fun x => (x.place, x.code))
    | _ => none
  | _, _ => none

/-- What a client decides with an answer to a request; nothing if that was not offered. -/
def clientMeans : Request → Answer → Option Decision
  | .selectIdle s, .selectIdle a => idleMeans s a
  | .selectCard s, .selectCard a => cardMeans s a
  | .selectYesNo .., .selectYesNo b => some (.yes b)
  | .selectEffect _ es, .selectEffect i => es[i]?.map .effect
  | .selectToChain forced _ cs, .selectToChain a =>
    match a with
    | .noOp _ => if forced then none else some .decline
    | .index i => cs[i]?.map fun x => .chain x.place x.effect
    | .unset => none
  | .selectZone _ _ ps, .selectZone qs => if ∀ q ∈ qs, q ∈ ps then some (.zones qs) else none
  | .selectPosition _ _ p, .selectPosition v => if Offered p v then some (.position v) else none
  | .selectRace _ r, .selectRace v => if Offered r v then some (.race v) else none
  | .selectAttribute _ r, .selectAttribute v => if Offered r v then some (.attribute_ v) else none
  | .selectNumber _ ns, .selectNumber i => ns[i]?.map .number
  | .selectRockPaperScissors _, .selectRockPaperScissors v => if v = 1 ∨ v = 2 ∨ v = 3 then some (.hand v) else none
  | .sort ps, .sort a =>
    match a with
    | .skip _ => some .decline
    | .indexes is => (pick ps is).map .order
    | .unset => none
  | _, _ => none

/-! ## The core -/

/-- The place of a zone the core names. -/
def CoreZone.place (z : CoreZone) : Place :=
  if z.row = 8 ∧ z.slot = 5 then ⟨z.player, 0x100, 0, -1⟩
  else if z.row = 8 ∧ 5 < z.slot then ⟨z.player, 0x200, z.slot - 6, -1⟩
  else ⟨z.player, z.row, z.slot, -1⟩

/-- An index into one of the core's lists. -/
def indexed {α : Type} (xs : List α) (bs : List UInt8) : Option α := if bs.length = 4 then xs[num bs]? else none

/-- A selection of cards, or its refusal. -/
def readCards {α : Type} (cancelable : Bool) (xs : List α) (f : List α → Decision) (bs : List UInt8) : Option Decision :=
  if oneNumber bs = some (-1) then (if cancelable then some .decline else none)
  else
    match selectedCards bs with
    | some is => (pick xs is).map f
    | none => none

/-- Bits that are all offered. -/
def readBits (offered : Nat) (f : Nat → Decision) (bs : List UInt8) : Option Decision :=
  if bs.length = 4 ∧ Offered offered (num bs) then some (f (num bs)) else none

/-- An order of cards, or none. -/
def readOrder (cs : List (UInt32 × CardLocL)) (bs : List UInt8) : Option Decision :=
  if oneNumber bs = some (-1) then some .decline
  else
    match sortedCards bs with
    | some is => (pick cs is).map fun xs => .order (xs.map (·.2.place))
    | none => none

/-- Zones all of which are offered. -/
def readZones (mask : UInt32) (player : UInt8) (bs : List UInt8) : Option Decision :=
  match selectedZones bs with
  | some zs => if ∀ z ∈ zs, z.place ∈ clearBits mask player then some (.zones (zs.map CoreZone.place)) else none
  | none => none

/-- A yes or no. -/
def readYes (bs : List UInt8) : Option Decision :=
  match oneNumber bs with
  | some 0 => some (.yes false)
  | some 1 => some (.yes true)
  | _ => none

/-- What the core takes a response to a question to be. -/
def coreReads : CoreMsg → List UInt8 → Option Decision
  | .selectBattlecmd _ acts atks m e, bs =>
    match readBattle bs with
    | some (.activate i) => acts[i]?.map fun a => .act .activate a.loc.place (some (effectOf a.effect))
    | some (.attack i) => atks[i]?.map fun a => .act .attack a.2.1.place none
    | some .toMain2 => if m ≠ 0 then some (.phase 0x100) else none
    | some .toEnd => if e ≠ 0 then some (.phase 0x200) else none
    | none => none
  | .selectIdlecmd _ s sp r ms ss acts b e sh, bs =>
    match readIdle bs with
    | some (.summon i) => s[i]?.map fun x => .act .summon x.2.place none
    | some (.spsummon i) => sp[i]?.map fun x => .act .spsummon x.2.place none
    | some (.reposition i) => r[i]?.map fun x => .act .reposition x.2.place none
    | some (.mset i) => ms[i]?.map fun x => .act .mset x.2.place none
    | some (.sset i) => ss[i]?.map fun x => .act .sset x.2.place none
    | some (.activate i) => acts[i]?.map fun a => .act .activate a.loc.place (some (effectOf a.effect))
    | some .toBattle => if b ≠ 0 then some (.phase 0x80) else none
    | some .toEnd => if e ≠ 0 then some (.phase 0x200) else none
    | some .shuffle => if sh ≠ 0 then some .shuffle else none
    | none => none
  | .selectEffectyn .., bs | .selectYesno .., bs => readYes bs
  | .selectOption _ os, bs => (indexed os bs).map fun e => .effect (effectOf e)
  | .selectCard _ c _ _ cs, bs =>
    if cs.head?.any (fun x => x.2.loc = 0) then readCards (c ≠ 0) cs (fun xs => .codes (xs.map (·.1.toNat))) bs
    else readCards (c ≠ 0) cs (fun xs => .cards (xs.map fun x => (x.2.place, x.1.toNat))) bs
  | .selectTribute _ c _ _ cs, bs => readCards (c ≠ 0) cs (fun xs => .cards (xs.map fun x => (x.2.1.place, x.1.toNat))) bs
  | .selectUnselectCard _ f c _ _ ss us, bs =>
    if oneNumber bs = some (-1) then (if f ≠ 0 ∨ c ≠ 0 then some .decline else none)
    else
      match steppedCard bs with
      | some i => ((ss ++ us)[i]?).map fun x => .cards [(x.2.place, x.1.toNat)]
      | none => none
  | .selectChain _ _ f _ acts, bs =>
    if oneNumber bs = some (-1) then (if f ≠ 0 then none else some .decline)
    else (indexed acts bs).map fun a => .chain a.loc.place (effectOf a.effect)
  | .selectPlace p _ m, bs | .selectDisfield p _ m, bs => readZones m p bs
  | .selectPosition _ _ p, bs => readBits p.toNat .position bs
  | .sortChain _ cs, bs | .sortCard _ cs, bs => readOrder cs bs
  | .rockPaperScissors _, bs =>
    match oneNumber bs with
    | some v => if v = 1 ∨ v = 2 ∨ v = 3 then some (.hand v) else none
    | none => none
  | .announceRace _ _ r, bs => readBits r.toNat .race bs
  | .announceAttrib _ _ a, bs => readBits a.toNat .attribute_ bs
  | .announceNumber _ ns, bs => (indexed ns bs).map fun n => .number n.toNat
  | _, _ => none

/-- Answers that fit the format of responses: indexes of 16 bits (8 for an order, 32 for a single one), races of 32 bits, and zones
that the format can tell. -/
def Writable : Request → Answer → Prop
  | _, .selectIdle (.cardAction _ i) => i < 2 ^ 16
  | .selectCard (.recursive ..), .selectCard (.indexes is) => ∀ i ∈ is, i < 2 ^ 32
  | _, .selectCard (.indexes is) => is.length < 2 ^ 32 ∧ ∀ i ∈ is, i < 2 ^ 16
  | _, .selectRace v => v < 2 ^ 32
  | _, .selectZone ps => ∀ p ∈ ps, p.loc = 4 ∨ p.loc = 8
  | _, .sort (.indexes is) => is.length < 2 ^ 8 ∧ ∀ i ∈ is, i < 2 ^ 8
  | _, _ => True

/-- Decisions that clients can tell: they select at least one card, do not refuse to go on selecting when only that is possible, and
name no field or pendulum zones. -/
def Sayable : CoreMsg → Decision → Prop
  | _, .cards [] | _, .codes [] => False
  | .selectUnselectCard _ f .., .decline => f ≠ 0
  | _, .zones ps => ∀ p ∈ ps, p.loc = 4 ∨ p.loc = 8
  | _, _ => True

end Ygo.Spec
