import Verif.Spec.Score
import Verif.Spec.Inert
import Verif.Spec.Single
import Verif.Spec.Overlay
import Verif.Spec.Setup
import Verif.Spec.Update
import Verif.Spec.System

/-!
# Whole duels

A duel as the core plays it, with the core's own cards, and the messages the core sends about it.
-/

namespace Ygo.Spec
open Ygo

/-- A duel as the core sees it. -/
structure Duel where
  /-- The cards, by the core's own identities. -/
  cards : Board
  /-- What the core has said about each card so far. -/
  known : CardId → Card Plain
  /-- Cards that are or have been in the duel. -/
  born : CardId → Prop
  score : Score
  /-- Whether the core has said what ends the match. -/
  announced : Bool
  /-- `trail q k`: the card that is now called by the place `q` in a pile left materials in zone `k`. -/
  trail : Place → ZoneKey → Prop

/-- The card is on the board. -/
def Board.Has (B : Board) (x : CardId) : Prop := ∃ C, x ∈ B C

/-- Cards of a kind are nowhere twice. -/
def Board.Once (B : Board) (P : CardId → Prop) : Prop :=
  ∀ C D (i j : Nat) x, P x → (B C)[i]? = some x → (B D)[j]? = some x → C = D ∧ i = j

/-- A card not seen before. -/
def Duel.Unseen (d : Duel) (x : CardId) : Prop := ¬ d.born x

/-- A board with other contents of piles. -/
def Board.setPile (B : Board) (k : PileKey) (v : List CardId) : Board := B.upd (.pile k) v

/-- Messages that neither move cards nor tell values make sense: players exist, a link that is resolved was there, and what ends the match
was said before someone wins. -/
def Duel.Allows (d : Duel) : CoreMsg → Prop
  | .damage p _ | .payLpcost p _ | .recover p _ | .lpupdate p _ => p.toNat < 2
  | .chainSolved _ => d.score.chain ≠ []
  | .win .. => d.announced = true
  | .deckTop p .. => p.toNat < 2
  | _ => True

/-- What can happen in a duel: the messages the core sends, where the cards are then, and what has been said about them. -/
inductive Happens (d : Duel) : List CoreMsg → Board → (CardId → Card Plain) → Prop
  /-- A duel starts with new cards in two decks each. -/
  | start (rule : UInt8) (lp0 lp1 : UInt32) (m0 e0 m1 e1 : UInt16) (B : Board) (hn : ∀ x, B.Has x → d.Unseen x) (ho : B.Once d.Unseen)
      (hs : B.sizes = startSizes (fun i => if i = 0 then m0.toNat else m1.toNat) (fun i => if i = 0 then e0.toNat else e1.toNat)) :
      Happens d [.start rule lp0 lp1 m0 e0 m1 e1] B d.known
  /-- The field is loaded anew, with new cards. -/
  | reload (flags : UInt32) (s : Fin 2 → FieldSide) (chains : List Link) (ho : ∀ i, NoOddMaterials (s i)) (B : Board)
      (hn : ∀ x, B.Has x → d.Unseen x) (hb : B.Once d.Unseen) (hs : B.sizes = reloadSizes s) :
      Happens d [.reloadField flags (s 0) (s 1) chains] B d.known
  /-- Another player takes over, with other cards. -/
  | tagSwap (p : Fin 2) (main extraP top : UInt32) (extra hand : List (UInt32 × UInt32)) (B : Board) (hb : B.Once d.Unseen)
      (hm : Resized d.Unseen (d.cards (.pile ⟨p, .mainDeck⟩)) main.toNat (B (.pile ⟨p, .mainDeck⟩)))
      (he : Resized d.Unseen (d.cards (.pile ⟨p, .extraDeck⟩)) extra.length (B (.pile ⟨p, .extraDeck⟩)))
      (hh : Resized d.Unseen (d.cards (.pile ⟨p, .hand⟩)) hand.length (B (.pile ⟨p, .hand⟩)))
      (hr : ∀ C, C ≠ .pile ⟨p, .mainDeck⟩ → C ≠ .pile ⟨p, .extraDeck⟩ → C ≠ .pile ⟨p, .hand⟩ → B C = d.cards C) :
      Happens d [.tagSwap (playerByte p) main extraP top extra hand] B d.known
  /-- Cards are drawn from the top of the deck, one after the other. -/
  | draw (p : Fin 2) (cs : List (UInt32 × UInt32)) (hn : cs.length ≤ (d.cards (.pile ⟨p, .mainDeck⟩)).length)
      (hd : (d.cards (.pile ⟨p, .mainDeck⟩)).length < 2 ^ 32) (hh : (d.cards (.pile ⟨p, .hand⟩)).length < 2 ^ 32) :
      Happens d [.draw (playerByte p) cs]
        ((d.cards.setPile ⟨p, .mainDeck⟩ ((d.cards (.pile ⟨p, .mainDeck⟩)).take ((d.cards (.pile ⟨p, .mainDeck⟩)).length - cs.length))).setPile
          ⟨p, .hand⟩ (d.cards (.pile ⟨p, .hand⟩) ++ (d.cards (.pile ⟨p, .mainDeck⟩)).reverse.take cs.length)) d.known
  /-- Graveyard and deck are exchanged; marked cards go to the extra deck. -/
  | swapGraveDeck (p : Fin 2) (pos : UInt32) (mask : List UInt8) (hm : (d.cards (.pile ⟨p, .graveyard⟩)).length ≤ 8 * mask.length)
      (hp : pos.toNat ≤ (d.cards (.pile ⟨p, .extraDeck⟩)).length) (hd : (d.cards (.pile ⟨p, .mainDeck⟩)).length < 2 ^ 32)
      (hg : pos.toNat + (d.cards (.pile ⟨p, .graveyard⟩)).length < 2 ^ 32) :
      Happens d [.swapGraveDeck (playerByte p) pos mask]
        (((d.cards.setPile ⟨p, .graveyard⟩ (d.cards (.pile ⟨p, .mainDeck⟩))).setPile
          ⟨p, .mainDeck⟩ (marked mask false (d.cards (.pile ⟨p, .graveyard⟩)))).setPile
          ⟨p, .extraDeck⟩ ((d.cards (.pile ⟨p, .extraDeck⟩)).take pos.toNat ++ marked mask true (d.cards (.pile ⟨p, .graveyard⟩)) ++
            (d.cards (.pile ⟨p, .extraDeck⟩)).drop pos.toNat)) d.known
  /-- Both decks are turned over. -/
  | reverseDecks (h0 : (d.cards (.pile ⟨0, .mainDeck⟩)).length < 2 ^ 32) (h1 : (d.cards (.pile ⟨1, .mainDeck⟩)).length < 2 ^ 32) :
      Happens d [.reverseDeck] ((d.cards.setPile ⟨0, .mainDeck⟩ (d.cards (.pile ⟨0, .mainDeck⟩)).reverse).setPile
        ⟨1, .mainDeck⟩ (d.cards (.pile ⟨1, .mainDeck⟩)).reverse) d.known
  /-- A new card comes. -/
  | appears (m : MoveMsg) (C : Container) (i : Nat) (x : CardId) (hx : d.Unseen x) (hs : m.src.place.loc = 0) (hd : At m.dst.place C i)
      (hf : Spec.Fits d.cards C i) : Happens d [m.msg] (d.cards.put C i x) d.known
  /-- A card leaves the duel. -/
  | vanishes (m : MoveMsg) (C : Container) (i : Nat) (x : CardId) (hs : At m.src.place C i) (hd : m.dst.place.loc = 0)
      (hx : (d.cards C)[i]? = some x) : Happens d [m.msg] (d.cards.take C i) d.known
  /-- A card goes somewhere. -/
  | goes (m : MoveMsg) (C1 C2 : Container) (i j : Nat) (x : CardId) (hs : At m.src.place C1 i) (hd : At m.dst.place C2 j)
      (ps : PlainPile m.src.place C1) (pd : PlainPile m.dst.place C2) (hg : CanGo d.cards C1 i C2 j x) :
      Happens d [m.msg] (gone d.cards C1 i C2 j x) d.known
  /-- Two cards change places. -/
  | swap (ca cb : UInt32) (a b : LocInfo) (C1 C2 : Container) (i j : Nat) (x y : CardId) (ha : At a.place C1 i) (hb : At b.place C2 j)
      (pa : PlainPile a.place C1) (pb : PlainPile b.place C2) (hok : SwapIndexOk a.place C1 C2 i) (hs : SwapOk d.cards C1 C2)
      (hx : (d.cards C1)[i]? = some x) (hy : (d.cards C2)[j]? = some y) :
      Happens d [.swap ca a cb b] ((d.cards.exchange C1 i C2 j x y).swapMats C1 C2) d.known
  /-- Set cards are shuffled, and the core tells where each one goes. -/
  | shuffle (loc : UInt8) (cs : List (LocInfo × LocInfo)) (con : Fin 2) (row : ZoneLoc) (hne : cs ≠ []) (hn : cs.length ≤ 7)
      (olds news : List ZoneKey) (hfrom : cs.map (·.1.place) = olds.map zonePlace) (hto : cs.map (·.2.place) = news.map zonePlace)
      (hp : news.Perm olds) (hd : olds.Nodup) (hcards : ∀ k ∈ olds, k.con = con ∧ k.loc = row ∧ d.cards (.slot k) ≠ [])
      (B : Board) (h1 : ∀ p, B (.pile p) = d.cards (.pile p))
      (h2 : ∀ k, k ∉ olds → B (.slot k) = d.cards (.slot k) ∧ B (.mats k) = d.cards (.mats k))
      (h3 : ∀ (i : Nat) a b, olds[i]? = some a → news[i]? = some b → B (.slot b) = d.cards (.slot a) ∧ B (.mats b) = d.cards (.mats a)) :
      Happens d [.shuffleSetCard loc cs] B d.known
  /-- Cards from anywhere become materials of a monster that arrives; things can be said or asked in between. -/
  | overlay (k : ZoneKey) (ms : List CoreMsg) (xs : List CardId) (B : Board) (ho : Gathered k 0 d.cards ms xs B) (m : MoveMsg) (C : Container)
      (e : Nat) (x : CardId) (hs : At m.src.place C e) (ps : PlainPile m.src.place C) (hd : m.dst.place = zonePlace k)
      (hC : ∀ k', C ≠ .slot k') (hCk : C ≠ .mats k) (hx : (B C)[e]? = some x) (hk : B (.slot k) = []) :
      Happens d (ms ++ [m.msg]) (summoned B xs C e x k) d.known
  /-- A material that a monster left behind, and that the core calls by the place where the monster is now, goes to a pile or under another
  monster. -/
  | drops (m : MoveMsg) (q : Place) (k : ZoneKey) (i : Nat) (C : Container) (j : Nat) (x : CardId) (hq : d.trail q k) (hqo : q.oseq = -1)
      (hs : m.src.place = { q with oseq := (i : Int) }) (hd : At m.dst.place C j) (pd : PlainPile m.dst.place C) (hC : ∀ k', C ≠ .slot k')
      (hg : CanGo d.cards (.mats k) i C j x) : Happens d [m.msg] (gone d.cards (.mats k) i C j x) d.known
  /-- The core says what the cards of a location are like. -/
  | updateData (r : Row) (slots : List (Option (List QueryItem)))
      (hp : ∀ (i : Nat) is, slots[i]? = some (some is) → RowOnBoard d.cards r i is) (st : CardId → Card Plain)
      (h1 : ∀ (i : Nat) is x q, slots[i]? = some (some is) → Told d.cards r i is x q → Answered Cell.get q (d.known x) (st x))
      (h2 : ∀ x, (∀ (i : Nat) is q, slots[i]? = some (some is) → ¬ Told d.cards r i is x q) → st x = d.known x) :
      Happens d [.updateData r.con r.loc slots] d.cards st
  /-- The core says what a card is like. -/
  | updateCard (r : Row) (seq : UInt8) (is : List QueryItem) (hp : RowOnBoard d.cards r seq.toNat is) (st : CardId → Card Plain)
      (h1 : ∀ x q, Told d.cards r seq.toNat is x q → Answered Cell.get q (d.known x) (st x))
      (h2 : ∀ x, (∀ q, ¬ Told d.cards r seq.toNat is x q) → st x = d.known x) :
      Happens d [.updateCard ⟨r.con, r.loc, seq⟩ is] d.cards st
  /-- Anything else. -/
  | calm (m : CoreMsg) (hm : ¬ MovesCards m) (ht : ¬ TellsData m) (ha : d.Allows m) : Happens d [m] d.cards d.known

/-- A message that says what ends the match. -/
def isMatchKill : CoreMsg → Bool
  | .matchKill _ => true
  | _ => false

/-- Which materials are left behind where: a card that goes from a zone with materials to a pile leaves the rest there. -/
def Duel.trails (d : Duel) (ms : List CoreMsg) (q : Place) (k : ZoneKey) : Prop :=
  match ms with
  | [.move _ a b _] => (q = b.place ∧ InPile q.loc ∧ Names a.place k ∧ d.cards (.mats k) ≠ []) ∨
      (d.trail q k ∧ ¬ (q = b.place ∧ ∃ k', Names a.place k' ∧ d.cards (.mats k') ≠ []))
  | _ => d.trail q k

/-- The duel after something happened. -/
def Duel.next (d : Duel) (ms : List CoreMsg) (B : Board) (st : CardId → Card Plain) : Duel where
  cards := B
  known := st
  born x := d.born x ∨ B.Has x
  score := ms.foldl Score.after d.score
  announced := d.announced || ms.any isMatchKill
  trail := d.trails ms

/-- Duels: any number of things happen one after the other. -/
inductive Plays : Duel → List CoreMsg → Duel → Prop
  | stop (d : Duel) : Plays d [] d
  | step {d d' : Duel} {ms ns : List CoreMsg} {B : Board} {st : CardId → Card Plain} (h : Happens d ms B st) (hf : ∀ m ∈ ms, m.Fits)
      (hn : Plays (d.next ms B st) ns d') : Plays d (ms ++ ns) d'

/-- Before anything happened. -/
def Duel.empty : Duel := ⟨fun _ => [], fun _ => BasicContext.newCard, fun _ => False, scoreOf BasicContext.init, false, fun _ _ => False⟩

/-- The same board with other names of cards. -/
def Board.rename (B : Board) (ρ : CardId → CardId) : Board := fun C => (B C).map ρ

/-- A board and what is recorded about its cards show a duel: every pile, zone and material list has the duel's cards in order, `ρ` giving the
card each one is shown as, everything said about them is recorded, and turn, phase, life points and chain are those of the duel. -/
structure Shown (ρ : CardId → CardId) (d : Duel) (b : PlainBoard) (store : CardId → Card Plain) : Prop where
  cards : view b.frame.layout = d.cards.rename ρ
  apart : ∀ x y, d.cards.Has x → d.cards.Has y → ρ x = ρ y → x = y
  known : ∀ x, d.cards.Has x → store (ρ x) = d.known x
  turn : b.turn.val = d.score.turn
  player : b.turnController.val = d.score.player
  phase : b.phase.val = d.score.phase
  lp : ∀ i, (b.lp i).val = d.score.lp i
  chain : b.chainStack.val = d.score.chain

end Ygo.Spec
