import Verif.Spec.Screen
import Verif.Spec.Range

/-!
# Catching up

What to send to a client that comes late, or that followed another duel before: who the turn player is, the state of the board, the phase, the blocked
zones and everything that is known about every card.
-/

namespace Ygo.Spec
open Ygo

/-- How a message names a position of a container. -/
def placeAt : Container → Nat → Place
  | .pile k, i => ⟨k.con.val, k.loc.code, i, -1⟩
  | .slot k, _ => ⟨k.con.val, k.loc.code, k.seq, -1⟩
  | .mats k, i => ⟨k.con.val, k.loc.code, k.seq, i⟩

/-- All that is known about a card. -/
def everything (c : Card Plain) : QueryData := ⟨fun f => some (c.single f).val, some c.targets.val, some c.counters.val⟩

/-- All that is known about the cards of one container. -/
def telling (s : Client) (C : Container) : List Query := (Client.screen s C).zipIdx.map fun x => ⟨placeAt C x.2, everything x.1⟩

/-- Zones and materials one card at a time, and the sizes of piles. -/
def tableau (s : Client) : BoardState :=
  { turnCounter := s.board.turn.val
    lps := [(s.board.lp 0).val, (s.board.lp 1).val]
    chains := s.board.chainStack.val
    add := (allZones.map Container.slot ++ allZones.map Container.mats).flatMap fun C => (List.range (view s.board.frame.layout C).length).map (placeAt C)
    resize := allPiles.map fun k => ⟨placeAt (.pile k) 0, (view s.board.frame.layout (.pile k)).length⟩ }

/-- Four messages from which a client learns all that another one shows. -/
def catchUp (s : Client) : List Msg :=
  [{ body := .event (.nextTurn s.board.turnController.val) },
   { body := .event (.board (.state (tableau s))) },
   { body := .event (.nextPhase s.board.phase.val) },
   { body := .event (.zoneBlock s.board.blockedZones.val), queries := containers.flatMap (telling s) }]

end Ygo.Spec
