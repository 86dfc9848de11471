import Verif.Model.Room
import Verif.Tests.Basic

/-!
# The unit tests of the repository, run on the model: `test/room.cpp`

Client `i` of a test is the number `i` and has the name "Client`i`".  A test calls the room and compares what every client received
with what it expects, in order.
-/

namespace Ygo.Tests
open Ygo Ygo.Room

/-- The clients of the tests and the deck validator of the tests. -/
def env (check : Bool) : Env := ⟨fun c => ⟨[], s!"Client{c}"⟩, fun _ _ => (check, {})⟩

/-- `RandomNumberGenerator`. -/
def rng (results : List Nat) : Nat → Nat := fun i => results[i]?.getD 0

/-- Expectations on one message. -/
inductive Expected where
  | enteringState
  | duelistEnters
  | updateDuelist
  | deckStatus
  | decidingEntering
  | decideFirstTurn
  | such (p : Event → Bool)

/-- `expect(EvConfCase)`, `expect(EvDFTCase)` and `expect(Expectation)`. -/
def Expected.meets : Expected → Event → Bool
  | .enteringState, .entering .. => true
  | .duelistEnters, .duelistEnters .. => true
  | .updateDuelist, .updateDuelist .. => true
  | .deckStatus, .deckStatus .. => true
  | .decidingEntering, .decidingEntering => true
  | .decideFirstTurn, .decideFirstTurn _ => true
  | .such p, e => p e
  | _, _ => false

/-- `~Client`: as many messages as expected, each as expected. -/
def received (log : List Sent) (c : ClientId) (es : List Expected) : Res Unit := do
  let got := (log.filter fun m => m.1 = c).map (·.2)
  expect (got.length = es.length)
  expect ((List.zipWith Expected.meets es got).all id = true)

/-- Construct a room and make some calls. -/
def play (check : Bool) (rolls : List Nat) (options : Options) (calls : List Room.Call) : Res (List Sent) := do
  let (r, out) ← Room.init (env check) (rng rolls) 1 options
  let (_, out') ← r.run (env check) 10 calls
  return out ++ out'

/-- `ConstructionWithHostWorks`. -/
def constructionWithHostWorks : Res Unit := do
  let log ← play true [] {} []
  received log 1 [.enteringState, .such fun
    | .duelistEnters d => d.team = 0 ∧ d.pos = 0 ∧ d.isHost = true
    | _ => false]
example : passes constructionWithHostWorks = true := by decide +kernel

/-- `ConstructionOptionsClampingWorks`. -/
def constructionOptionsClampingWorks : Res Unit := do
  let log ← play true [] { maxDuelists := [99] } []
  received log 1 [.such fun
    | .entering o _ _ => o.maxDuelists = [3, 1] ∧ o.ftdm = 0
    | _ => false, .duelistEnters]
example : passes constructionOptionsClampingWorks = true := by decide +kernel

/-- `ConfiguringStateJoining1V1Works`. -/
def joining1V1Works : Res Unit := do
  let log ← play true [] { maxDuelists := [1, 1] } [.enter 2]
  let second : Expected := .such fun
    | .duelistEnters d => d.team = 1 ∧ d.pos = 0 ∧ d.user.name = "Client2" ∧ d.isHost = false
    | _ => false
  received log 1 [.enteringState, .duelistEnters, second]
  received log 2 [.such fun
    | .entering _ [d] _ => d.team = 0 ∧ d.pos = 0 ∧ d.user.name = "Client1" ∧ d.isHost = true
    | _ => false, second]
example : passes joining1V1Works = true := by decide +kernel

/-- The seats taken when `dc` duelists are present, in the order they are told. -/
def slots : Nat → List (Nat × Nat)
  | 1 => [(0, 0)]
  | 2 => [(0, 0), (1, 0)]
  | 3 => [(0, 0), (0, 1), (1, 0)]
  | 4 => [(0, 0), (0, 1), (1, 0), (1, 1)]
  | _ => [(0, 0), (0, 1), (0, 2), (1, 0), (1, 1)]

/-- `ConfiguringStateJoining3V3Works`. -/
def joining3V3Works : Res Unit := do
  let log ← play true [] { maxDuelists := [3, 3] } ([2, 3, 4, 5, 6].map .enter)
  let newcomer (i : Nat) : Expected := .such fun
    | .duelistEnters d => d.team = (if i % 2 = 0 then 1 else 0) ∧ d.pos = (i - 1) / 2 ∧ d.user.name = s!"Client{i}" ∧ d.isHost = false
    | _ => false
  received log 1 (.enteringState :: .duelistEnters :: [2, 3, 4, 5, 6].map newcomer)
  for i in [2, 3, 4, 5, 6] do
    received log i ((.such fun
      | .entering _ ds _ => ds.map (fun d => (d.team, d.pos)) = slots (i - 1)
      | _ => false) :: ([2, 3, 4, 5, 6].filter (i ≤ ·)).map newcomer)
example : passes joining3V3Works = true := by decide +kernel

/-- `ConfiguringStateJoiningFullWorks`. -/
def joiningFullWorks : Res Unit := do
  let log ← play true [] { maxDuelists := [1, 1] } [.enter 2, .enter 3, .enter 4]
  let watching (n : Nat) : Expected := .such fun e => e = .spectatorCount n
  received log 1 [.enteringState, .duelistEnters, .duelistEnters, watching 1, watching 2]
  received log 2 [.enteringState, .duelistEnters, watching 1, watching 2]
  received log 3 [.enteringState, watching 1, watching 2]
  received log 4 [.enteringState, watching 2]
example : passes joiningFullWorks = true := by decide +kernel

/-- The three signals of the tests. -/
def s1 : Signal := .configuring (.updateDeck {})
def s2 : Signal := .configuring (.readyStatus true)
def s3 : Signal := .configuring (.startDueling true)

/-- `ConfiguringUpdatingInvalidDeckWorks` and `ConfiguringUpdatingValidDeckWorks`. -/
def updatingDeckWorks : Res Unit := do
  let log ← play false [] {} [.visit 1 s1]
  received log 1 [.enteringState, .duelistEnters, .such fun
    | .deckStatus e => e.isSome
    | _ => false]
  let log ← play true [] {} [.visit 1 s1]
  received log 1 [.enteringState, .duelistEnters, .such fun
    | .deckStatus e => e.isNone
    | _ => false]
example : passes updatingDeckWorks = true := by decide +kernel

/-- `ConfiguringReadyingWithValidDeckWorks`. -/
def readyingWithValidDeckWorks : Res Unit := do
  let log ← play true [] {} [.visit 1 s1, .visit 1 s2, .visit 1 (.configuring (.readyStatus false))]
  received log 1 [.enteringState, .duelistEnters, .deckStatus,
    .such fun
    | .updateDuelist d => d.team = 0 ∧ d.pos = 0 ∧ d.isReady = true
    | _ => false,
    .such fun
    | .updateDuelist d => d.isReady = false
    | _ => false]
example : passes readyingWithValidDeckWorks = true := by decide +kernel

/-- `ConfiguringNonHostReadyingWorks`. -/
def nonHostReadyingWorks : Res Unit := do
  let log ← play true [] {} [.visit 1 s1, .visit 1 s2, .enter 2, .visit 2 s1, .visit 2 s2]
  let second : Expected := .such fun
    | .updateDuelist d => d.user.name = "Client2" ∧ d.isReady = true
    | _ => false
  received log 1 [.enteringState, .duelistEnters, .deckStatus, .updateDuelist, .duelistEnters, second]
  received log 2 [.such fun
    | .entering _ [d] _ => d.team = 0 ∧ d.pos = 0 ∧ d.user.name = "Client1" ∧ d.isReady = true
    | _ => false, .duelistEnters, .deckStatus, second]
example : passes nonHostReadyingWorks = true := by decide +kernel

/-- The calls of `emplace_room`, which are those of `ConfiguringStartDuelWorks`. -/
def starting : List Room.Call := [.visit 1 s1, .visit 1 s2, .enter 2, .visit 2 s1, .visit 2 s2, .visit 1 s3]

/-- Expectations of `emplace_room`. -/
def started1 : List Expected :=
  [.enteringState, .duelistEnters, .deckStatus, .updateDuelist, .duelistEnters, .updateDuelist, .decidingEntering]
def started2 : List Expected := [.enteringState, .duelistEnters, .deckStatus, .updateDuelist, .decidingEntering]

/-- `ConfiguringStartDuelWorks`. -/
def startDuelWorks : Res Unit := do
  let log ← play true [] {} starting
  received log 1 (started1 ++ [.decideFirstTurn])
  received log 2 started2
example : passes startDuelWorks = true := by decide +kernel

/-- `HostDecidingWorks`. -/
def hostDecidingWorks : Res Unit := do
  let log ← play true [] {} (starting ++ [.visit 1 (.deciding (.teamGoingFirst 1))])
  let result : Expected := .such fun
    | .result t _ => t = 1
    | _ => false
  received log 1 (started1 ++ [.decideFirstTurn, result])
  received log 2 (started2 ++ [result])
example : passes hostDecidingWorks = true := by decide +kernel

/-- `RPSWorks`. -/
def rpsWorks : Res Unit := do
  let log ← play true [] { ftdm := 1 } starting
  received log 1 started1
  received log 2 started2
example : passes rpsWorks = true := by decide +kernel

/-- `DiceRollWorks`. -/
def diceRollWorks : Res Unit := do
  let log ← play true [0, 0, 5, 5, 9, 9, 0, 1] { ftdm := 2 } starting
  let result : Expected := .such fun e => e = .result 1 (.dice [(1, 1), (6, 6), (4, 4), (1, 2)])
  received log 1 (started1 ++ [result])
  received log 2 (started2 ++ [result, .decideFirstTurn])
example : passes diceRollWorks = true := by decide +kernel

/-- `CoinTossWorks`. -/
def coinTossWorks : Res Unit := do
  let log ← play true [1] { ftdm := 3 } starting
  let result : Expected := .such fun e => e = .result 1 (.coin 1)
  received log 1 (started1 ++ [result])
  received log 2 (started2 ++ [result, .decideFirstTurn])
example : passes coinTossWorks = true := by decide +kernel

end Ygo.Tests
