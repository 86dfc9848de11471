import Verif.Model.Event

/-!
# Model of `BasicCard` and `parse_query` (`client/card.hpp`, `client/parse_query.hpp`, `client/queries.inl`)

The X-macro list of queries.inl is the enumeration `QField` of single-valued fields together with the two array-like fields
`targets` and `counters`; code generated by expanding the list is code that runs over `QField.all`.
-/

namespace Ygo

/-- Single-valued entries of queries.inl:13-50 with `EXPAND_SEPARATE_LINK_DATA_QUERIES`. -/
inductive QField where
  | code | position | «alias» | type | level | xyzRank | «attribute» | race | atk | def_ | baseAtk | baseDef | equippedTo | owner
  | status | isPublic | pendLScale | pendRScale | isHidden | cover | linkRate | linkArrow
  deriving DecidableEq, Repr

namespace QField

/-- Value types (default_card_traits.hpp:15-170; duel_msg.proto:581-722). The brace initialisation of parse_query.hpp:94 does not
change values, since the message and card types have the same range. -/
abbrev Val : QField → Type
  | level | atk | def_ | baseAtk | baseDef | owner => Int
  | equippedTo => Place
  | isPublic | isHidden => Bool
  | _ => Nat

instance (f : QField) : DecidableEq f.Val := by cases f <;> (unfold Val; infer_instance)

/-- Value-initialised member (card.hpp:41). -/
def zero : (f : QField) → f.Val
  | level | atk | def_ | baseAtk | baseDef | owner => (0 : Int)
  | equippedTo => (⟨0, 0, 0, 0⟩ : Place)
  | isPublic | isHidden => false
  | code | position | «alias» | type | xyzRank | «attribute» | race | status | pendLScale | pendRScale | cover | linkRate
  | linkArrow => (0 : Nat)

/-- `card.name() == qv` (parse_query.hpp:97): places are compared with `operator==` of proto/duel/data.hpp:47-51. -/
def same : (f : QField) → f.Val → f.Val → Bool
  | equippedTo, x, y => Place.eqv x y
  | code, x, y | position, x, y | «alias», x, y | type, x, y | level, x, y | xyzRank, x, y | «attribute», x, y | race, x, y | atk, x, y
  | def_, x, y | baseAtk, x, y | baseDef, x, y | owner, x, y | status, x, y | isPublic, x, y | pendLScale, x, y | pendRScale, x, y
  | isHidden, x, y | cover, x, y | linkRate, x, y | linkArrow, x, y => decide (x = y)

/-- Flag values (queries.inl:13-50). -/
def flag : QField → Nat
  | code => 0x1
  | position => 0x2
  | «alias» => 0x4
  | type => 0x8
  | level => 0x10
  | xyzRank => 0x20
  | «attribute» => 0x40
  | race => 0x80
  | atk => 0x100
  | def_ => 0x200
  | baseAtk => 0x400
  | baseDef => 0x800
  | equippedTo => 0x4000
  | owner => 0x40000
  | status => 0x80000
  | isPublic => 0x100000
  | pendLScale => 0x200000
  | pendRScale => 0x400000
  | isHidden => 0x1000000
  | cover => 0x2000000
  | linkRate => 0x100000000
  | linkArrow => 0x200000000

/-- Order of the list. -/
def all : List QField :=
  [code, position, «alias», type, level, xyzRank, «attribute», race, atk, def_, baseAtk, baseDef, equippedTo, owner, status, isPublic,
   pendLScale, pendRScale, isHidden, cover, linkRate, linkArrow]

end QField

/-- `Msg.Query.Data` (duel_msg.proto:577-727): every field may be present or not. -/
structure QueryData where
  single : (f : QField) → Option f.Val
  targets : Option (List Place)
  counters : Option (List Counter)

/-- `Msg.Query` (duel_msg.proto:577-730). -/
structure Query where
  place : Place
  data : QueryData

/-- `BasicCard` members (card.hpp:28-49); `V` is how a value is held (plain or undoable). -/
structure Card (V : Type → Type) where
  single : (f : QField) → V f.Val
  targets : V (List Place)
  counters : V (List Counter)

namespace Card
variable {V : Type → Type}

/-- Write to one member. -/
def setSingle (c : Card V) (f : QField) (v : V f.Val) : Card V :=
  { c with single := fun g => if h : g = f then h ▸ v else c.single g }

variable [Cell V]

/-- Body of the macro `X` in parse_query.hpp:88-109 for one field; also returns the updated `hits`. -/
def parseSingle (useCache : Bool) (d : QueryData) (f : QField) (hits : Nat) (c : Card V) : Res (Nat × Card V) :=
  match d.single f with
  | none => .ok (hits, c)
  | some qv =>
    if useCache then do
      let cur ← Cell.get (c.single f)
      if f.same cur qv then return (hits ||| f.flag, c)
      else return (hits, c.setSingle f (Cell.set (c.single f) qv))
    else .ok (hits, c.setSingle f (Cell.set (c.single f) qv))

/-- The expansion of the list (parse_query.hpp:110-112). -/
def parseSingles (useCache : Bool) (d : QueryData) : List QField → Nat → Card V → Res (Nat × Card V)
  | [], hits, c => .ok (hits, c)
  | f :: fs, hits, c => do
    let (hits, c) ← c.parseSingle useCache d f hits
    parseSingles useCache d fs hits c

/-- The part of `parse_query` that works on one card (parse_query.hpp:83, 88-125). -/
def parseData (useCache : Bool) (d : QueryData) (c : Card V) : Res (Nat × Card V) := do
  let (hits, c) ← parseSingles useCache d QField.all 0 c
  let c := match d.counters with
    | none => c
    | some cs => { c with counters := Cell.set c.counters cs }
  let c := match d.targets with
    | none => c
    | some ts => { c with targets := Cell.set c.targets ts }
  return (hits, c)

end Card

/-- `parse_query` (parse_query.hpp:77-126). `store` gives the contents of every card object. -/
def parseQuery {V : Type → Type} [Cell V] (useCache : Bool) (l : Layout) (store : CardId → Card V) (q : Query) :
    Res (Nat × (CardId → Card V)) := do
  massert ((← l.hasCard q.place) = true)
  let c ← l.card q.place
  let (hits, card) ← (store c).parseData useCache q.data
  return (hits, fun x => if x = c then card else store x)

end Ygo
