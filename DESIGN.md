# Formal model of DyXel/ygopen in Lean 4: design

This file says what is modelled, how each property of `properties.jsonl` is stated and
proved, what is trusted, and where the code was found to disagree with the property a
user would expect. It was written before the proofs and is kept current.

## 1. Layout

```
lean/Verif/Core/      outcome monad, byte strings, list lemmas
lean/Verif/Model/     the code, function by function; every definition cites file:lines
lean/Verif/Spec/      small independent specifications (no reference to model helpers)
lean/Verif/Lemmas/    helper lemmas
lean/Verif/Props/     the property theorems, each with a non-vacuity `example`
lean/Verif/Tests/     the repository's own unit tests, run on the model
seeded/LOG.jsonl      mutation log
MANIFEST.json         property -> theorem names
```

## 2. Modelling decisions

* **Outcomes.** Code that can abort or be undefined returns `Res a = Except Err a`, where
  `Err.assert` is a failed `assert` (abort of a debug build) and `Err.ub` is undefined
  behaviour: out-of-bounds index, dereference of null or `end()`, `YGOPEN_UNREACHABLE`,
  read past the supplied buffer, read of an uninitialised member. Asserts are modelled
  as enabled. `Err.hang` is a loop that does not end: the dice loop of the room within the given
  number of rounds, and `MSG_SWAP_GRAVE_DECK` with 2^32 or more cards in the graveyard. `NDEBUG` builds, where asserts are not evaluated, have a model of
  their own for the frame and the plain board, with pointers that may be null (`Model/Release.lean`, C88), and for the board
  that can be undone (`Model/ReleaseUndo.lean`, C89), and for the encoder's context, the encoder's one assert and the decoder
  (`Model/ReleaseServer.lean`, C90), and for the room (`Model/ReleaseRoom.lean`, C91). There, functions that consist of `assert(false)` do nothing, a counter that goes below
  zero wraps, and `std::get` of another alternative in a `noexcept` function stops the program. Theorems say which of these outcomes occur.
* **Integers.** Unsigned fields are `Nat`, signed fields are `Int`; every narrowing or
  wrapping conversion in the C++ (uint32 addition, `static_cast<int8_t>`, ...) is an explicit
  `% 2^k` or two's complement conversion in the model. Theorems about frames hold for all
  `Nat`/`Int` field values, hence for all 32-bit ones. C87 shows that no modelled number ever leaves the range of its type
  (messages, tracked boards and cards), so no conversion was forgotten where a number is stored or sent.
* **Cards and pointers.** A `Card*` is a natural-number identity handed out by a counter; a
  freed identity is not reused (the allocator may reuse addresses; that it makes no difference for frames
  and clients, nor what is left in `pile_splice_cache_`, is C130). The forward_list that owns the cards is a list of identities, newest
  first.
* **Vectors/arrays** are lists / functions from in-range keys. Two references to the same vector are
  modelled by sequential read-modify-write on the same key, so aliasing is respected.
* **Templates.** `parse_event` and `undo_parse_event` are generic in the board in C++ and generic in
  Lean (a class of board operations), then instantiated for the plain board (BasicFrame, plain
  values) and for the undoable board (LimboFrame, BasicUndoable).
* **protobuf** messages are Lean structures and inductive types with the same fields. Unset message fields
  read as defaults, as in proto3. The wire format is modelled separately (`Model/Protobuf.lean`): objects are
  functions from field numbers to values, described by a transcription of the `.proto` files
  (`Model/Schema.lean`); `Model/Network.lean` has the setters and getters between the two. Written from the
  proto3 encoding rules and the C++ library's behaviour: fields in the order of their numbers, numbers without
  presence left out when zero, repeated numbers packed, unpacked ones accepted, unknown fields passed over
  (and not kept), sub-messages read twice merged, the last of a `oneof` wins, text has to be UTF-8.
* **Bytes.** Encoder input is a list of bytes; reading past the end is `Err.ub`. Integers are little
  endian (the code uses memcpy on a little-endian host; big-endian hosts are not modelled).
* **Randomness** (room dice and coin) is an arbitrary infinite stream of numbers; the unbounded dice
  loop is run with fuel and theorems state for which streams and fuels it ends.
* **Agreement with the code.** The C++ is not built here. Two checks stand in: every definition was compared with the
  lines it cites a second time after the proofs were done, and the repository's own unit tests (`test/bit.cpp`, `place.cpp`,
  `undoable.cpp`, `frame.cpp`, `parse_query.cpp`, `parse_event.cpp`, `room.cpp`) are transcribed in `Verif/Tests` and pass on
  the model by evaluation in the kernel. `board.cpp` and `card.cpp` only test getters.

## 3. Properties: what is modelled and how it is proved

| id | modelled code | statement and proof method |
|----|---------------|----------------------------|
| C01 | popcnt fallback loop | equals the number of set bits; strong induction on x via x &&& (x-1) |
| C02 | chooser loop for digits 8/16/32 | sub-mask, popcount = min, lowest-first; loop invariant by induction. 64-bit shift is modelled as ub |
| C03 | choosel loop | same from the top; false for count 0 with the top bit set: negation proved with a witness, `_partial` for count > 0, and `C03_exactly` says that nothing else is wrong |
| C04 | PlaceLess, operator== | order laws by case analysis on the four fields |
| C05 | is_empty/is_pile/is_zone/zone_seq_lim | for all naturals / all ten constants |
| C06 | all of BasicFrame | invariant by induction on operation lists: placed cards are a permutation of owned cards and have no duplicates |
| C07-C09 | card_add/remove/move | refinement to a container specification (pile, zone slot, material stack = three kinds of lists) |
| C10 | card_move twice | inverse law by case analysis on container kinds |
| C11 | card_swap | refinement for all places (`C11_card_swap_exactly`); the right cards change places exactly outside the wrong-index case (`C11_right_cards_iff`), a witness for which is given |
| C12 | card_shuffle | loop invariant "seqs[j] is where the j-th zone is now" |
| C13-C16 | pile_resize/splice/swap | refinement to list operations; inverse laws |
| C17 | clear | from the C06 invariant |
| C18 | all access paths | no ub from well-formed places in reachable states, exceptions proved with witnesses; `C18_ub_exactly` characterises the undefined calls completely |
| C19 | BasicUndoable | refinement to (history, cursor) |
| C20-C23 | LimboFrame | inverse laws on the exact op log; negation with witnesses for shrinking resize |
| C24-C26 | parse_event | frame conditions and exact effect per event kind |
| C27-C29 | parse_event + undo_parse_event on the undoable board | induction over event sequences; log-prefix invariant for redo; the supported events are exactly those that can be undone (the last offending operation is reached with its log entry intact, `Lemmas/UndoExact`) |
| C30-C31 | parse_query | per-field specification, all subsets of present fields |
| C32-C35 | encode_one, encode_one_query | parser-combinator laws (suffix independence) and round trip against an independent serialiser of the core's wire format |
| C36-C38 | fix_spell_loc_seq, unpack_zones, read_effect, read_counter | exact characterisation |
| C39-C40 | MSG_MOVE | case-by-case theorems over the location kinds |
| C41-C44 | encoder + BasicEncodeContext + frame | composition theorems |
| C45 | MSG_RELOAD_FIELD | negation with a witness, `_partial` without materials on spell slots above 4 |
| C46 | MSG_MATCH_KILL/MSG_WIN | uninitialised member modelled as `none` (reading it is ub) |
| C47-C49 | decode_one_answer | round trip against the core's reader; truncation witnesses |
| C50-C57 | BasicRoom | invariants by induction over enter/visit histories, client-view refinement |
| C58 | LimboFrame against BasicFrame, undoable against plain board | step-by-step refinement, both directions |
| C59 | BasicRoom | exact characterisation of the failing calls on reachable rooms |
| C60 | decode_one_answer | round trip against the core's reader for answers that are one number |
| C61 | MSG_FIELD_DISABLED + parse_event | negation with a witness, `_partial` says what is listed instead |
| C62-C63 | MSG_MOVE + BasicEncodeContext + card_move over several messages | induction over the list of materials, on the container specification |
| C64 | MSG_START, MSG_RELOAD_FIELD, MSG_TAG_SWAP + parse_event | number of cards in every container, induction over the operations of the event |
| C65 | encode_one + parse for arbitrary buffers | invariant by induction over the buffers |
| C66 | server against clients (plain with and without query cache, undoable) | simulation by induction over the buffers; negation with witnesses for chains and tag swaps; exact set of events an undoable client gets through |
| C67 | MSG_UPDATE_DATA, MSG_UPDATE_CARD + parse_query | queries of one message speak about different cards (from the C06 invariant), then per-card specification |
| C68 | server against an undoable client that goes back and forth | C66 and C28 combined, in both directions; negation with a witness for shuffled set cards |
| C69 | what is shown besides cards against a fold over the messages | `Score.after` gives the effect of each message on a record of plain numbers; simulation by induction, with all other messages leaving it alone |
| C70 | one message against everything it is not about | frame rule: for each part of the state the messages that can change it are listed, for all others equality is proved |
| C71 | MSG_MOVE, MSG_SWAP, MSG_SHUFFLE_SET_CARD + frame | C39 gives the event, C07-C09, C11 and C12 the board; the calls are shown to return |
| C72 | `encode_one` and `decode_one_answer` together | `clientMeans` looks into the request, `coreReads` into the core's own lists; one case per question, index lemmas of C47-C49 and C60; which decisions can be said is proved exactly (`C72_expressible_exactly`) |
| C73 | all of the above together | simulation: `Happens` lists what the core can do to a duel with its own card identities, `Tracks` relates duel and server by a renaming that only ever grows; one case per action from C41-C43, C63, C64, C67, C69-C71, C85, clients by C66 |
| C74 | encode.cpp:490-1731 | `Cut p`: on a first part of an input on which `p` succeeds, `p` does the same or is `.ub`; closed under the combinators, then every case |
| C75 | encode.cpp:319-1731 | `Shape p B F`: what `p` has moved past are the bytes of some fitting value; closed under the combinators, then every case gives its message; the lenient five against `Spec/Loose.lean`, in both directions |
| C76 | room.hpp:442-517 | the seat found is the first; the slot as a fold over the duelist's own calls (`record`) by induction over histories; also C53_exactly and C55_exactly |
| C77 | room.hpp:188-581 | erasing deck contents commutes with every call (`step_hide`), then two histories side by side |
| C78 | room.hpp:336-552 | seats behind an earlier one of the same client never change (only if); induction on the number of seats not ready, with a newcomer if a team is empty (if) |
| C79 | encode.cpp, parse_event.hpp, undo_parse_event.hpp, limbo frame | C73 for the messages up to the point, C68 for the client's way there |
| C80 | decode.cpp | one case per answer; phases by bits |
| C81 | encode.cpp, basic_encode_context.hpp | C34 for the messages that need no state; for the others what each call on the state needs |
| C82 | frame.hpp | iff theorems of C07–C17 put together; for shuffles the loop invariant "the i-th sequence number is where the contents of the i-th zone are now" |
| C83 | parse_event.hpp, board.hpp | `parse_event` is split into its calls on the frame and its effect beside it; induction over the events with C82 |
| C84 | frame.hpp, frame_limbo.hpp, parse_event.hpp, board.hpp | case analysis of the access paths `pile_`, `zone_` and `has_card` for arbitrary fields, then of every operation; the shuffle by induction over its loop; events by the calls they make |
| C85 | encode.cpp, basic_encode_context.hpp, frame.hpp | `Gathered` says what the core takes from a board that shrinks; induction over the attachments with the invariant that the first materials of the zone are the cards taken so far; the failures by the same runs with other numbers |
| C86 | duel/constants/*.hpp, queries.inl, bit.hpp | the lists of named values (`Model/Constants.lean`, taken from the headers) are checked by evaluation to be distinct powers of two; everything else follows bit by bit; choices among races by C72 |
| C87 | encode.cpp, basic_encode_context.hpp, parse_event.hpp, parse_query.hpp, duel_msg.proto, duel_data.proto | ranges written from the proto files (`Spec/Range.lean`); a Hoare-style predicate `Post` on the encoder's reader monad, one lemma per message kind; an invariant of the context (departures, deferred materials, match win reason) by induction over the buffers |
| C88 | frame.hpp, board.hpp, parse_event.hpp | a second model without asserts and with null pointers (`Model/Release.lean`), specified by relations on families of lists of pointers (`Spec/Release.lean`); agreement by simulation; counting cards, place by place, for what is alive and what lies somewhere |
| C89 | frame_limbo.hpp, undoable.hpp, undo_parse_event.hpp, parse_event.hpp | the model without asserts simulates the one with them; events without their chain links reduce the rest to C28, C66 and C68; an invariant about pointers on the board and in the log, whatever is done or undone |
| C90 | encode.cpp, decode.cpp, basic_encode_context.hpp, parse_event.hpp, parse_query.hpp, frame.hpp | readers that agree up to how they fail (`Alike`), readers that fail in given ways only (`Fails`), both closed under everything the encoder is made of; clients by the argument of C66; the first difference by induction over the buffers with C88's exact list of tolerated calls; responses read by the core's reader of C47 and C48 |
| C91 | room.hpp | a model without asserts; invariants of rooms (C50–C59) do not need the failing assert, so both models share one relation of moves (`Moved`); a simulation that forgets who watches gives the history with asserts that leads to the same seats |
| C92 | *.proto | reading after writing is the identity, by induction on the type of an object; each record read consumes its bytes, so reading distributes over concatenation; per class: getters after setters, and objects are as described exactly when numbers are within the types of C87; each level of nesting takes two bytes |
| C93 | room.proto, room.hpp | as C92 for rooms; what a room sends is within the types by induction over its moves (C54's induction) |
| C94 | replay.proto | as C92 for replays; a second piece is merged into the stream of the first, where the blocks are repeated |
| C95 | undoable.hpp | objects as nodes at addresses and an iterator; shown to be editors (C19) as long as nothing is copied; no node leaks either way. With copies a ledger (Spec/UndoableCopies) notes of every object which list it has and into which its iterator points, which decides what is defined and what is read |
| C96 | encode.cpp, duel_msg.proto | amortised cost of each reader (1100 bytes of message per byte read) and size of each message type; the rest by induction over histories |
| C97 | frame.hpp | frames as lists of cards at addresses and pointers; no call looks at addresses (`C97_any_cards`), so each frame in memory is a frame alone with its cards renamed; that no card leaks holds for copies and moved frames too (Spec/FrameNames, Props/FrameLeaks); a copy is related to a frame of its own some of whose cards it shows without owning them, which gives exactly when calls on it succeed (`Lent`, `Borrows`, Props/FrameCopies) |
| C98 | parse_event, encode.cpp, frame.hpp | multiset of the cards of all containers (`placed`); for messages that set up piles, an account of how many come and go (`coming`, `going`) that reads only the message and the piles before |
| C99 | encode.cpp, decode.cpp, *.proto | composition of C72, C80 and C92; numbers and sizes of the request from C87 and C96 |
| C100 | decode.cpp | `ToThePoint` says which answers fit the question, whether offered or not; for these the response is read as what `clientMeans` says, case by case; for all others `takenFor` is the complete table of what an answer is taken for, and C100_taken shows that the core decides that |
| C101 | parse_query, undoable card members | the client that undoes by reports is `Spec/UndoQuery.lean` (the code has none); queries are put into the run of C28 as events without effect; per member the simulation of C28 |
| C102 | room.hpp, proto/deck.hpp | what the options ask of decks is `Spec/RoomRules.lean`; that they are ignored is a bisimulation between rooms with different options; the negation holds for every validator |
| C103 | encode.cpp, basic_encode_context.hpp | `Spec/Blind.lean` takes the cards out of the core's and the server's messages; results of a message and of its blind version are compared through C34, and the server's cards are shown not to influence anything it does |
| C104 | encode.cpp | `Spec/Gist.lean` gives for each message one that only has what is passed on; a function back from what is told shows that the translation determines it; `Props/GistQuery.lean` does the same for messages with queries |
| C105 | parse_event.hpp, frame.hpp | `Props/Apart.lean`: `C105_calls` (frame calls that name different piles and zones commute), `C105_parsed`, `C105_events`, `C105_same`, `C105_shape`, `C105_undoable` (reordering events that are apart, `Spec/Apart.lean`: the same game up to a renaming of the cards created on the way), `C105_only_apart` (a witness that events about the same pile do not commute). Proved through the exact description of C82 and C83 (`story_iff`): each step is local to the containers it names and does not depend on the names of cards. |
| C106 | frame.hpp, limbo frame, parse_event.hpp, undo_parse_event.hpp, parse_query.hpp, encode.cpp, decode.cpp | `Spec/Mirror.lean` says what exchanging the players means for places, boards, events, queries, requests, messages of the core and answers. `Props/Mirror.lean`: `C106_calls`, `C106_undoable_calls`, `C106_look`, `C106_events`, `C106_undo_boards`, `C106_queries`, `C106_client`, `C106_messages`, `C106_duel`, `C106_both_sides`, `C106_answers`: everything commutes with the exchange, failures included; starts, reloads, deck reversals and blocked zones list the two sides in the other order. `Props/MirrorDuel.lean` puts this together for whole duels: `C106_whole_duel` (every message sent is the mirror image, `EncodedImage`), `C106_as_far` (one duel can be followed exactly if the other can; `C106_twice`) and `C106_whole_client`; that the order of the sides does not matter for counts is `parse_sides`, from C105 and C107. |
| C107 | frame.hpp, parse_event.hpp, parse_query.hpp, encode.cpp, basic_encode_context.hpp | `Spec/Counts.lean` says when tables, boards and servers are alike: as many cards in each place, the same beside them. `Props/Counts.lean`: `C107_calls`, `C107_look`, `C107_events`, `C107_queries`, `C107_server` (arbitrary buffers) and `C107_client`: those that are alike fail in the same way or stay alike, and servers send the same. The proof makes a table on which only the number of cards is known (`Lemmas/Counts.lean`) and shows that forgetting the rest commutes with every call; `Lemmas/CountsServer.lean` does the same for the translation. |
| C108 | encode.cpp, encode_common.hpp, basic_encode_context.hpp | (`Spec/AnyContext.lean`, `Props/AnyContext.lean`) `encode_one` with two contexts of arbitrary types: a relation `AnswerAlike` (equal answers to the questions that are asked, preserved by what is noted) gives equal results on arbitrary buffers and histories; outside the seven kinds in `consulting` no relation is needed; `Tally` is a context without a board |
| C109 | Spec/Screen, Lemmas/Screen, Props/Screen | `LookSame` is a bisimulation of clients: cards are labelled by their place on the table before an event, and events act on labels (`step_labelled`); queries are functions of the card they are about (`parseQuery_told`) |
| C110 | Spec/CatchUp(Size), Lemmas/CatchUp, Props/CatchUp(Size) | `catchUp s` is four messages; `tableau_counts` shows that the state event gives each container as many cards, `queries_catch` that the queries give each card everything; with C109 for what follows, C66 for servers and C92 for the wire; Lemmas/Size bounds the bytes |
| C111 | Spec/Handover, Props/Handover | `catchUp` parsed by a new `BasicContext`, with the three members beside the board copied (`withNotes`); C107 for equal results, C109 for equal looks afterwards |
| C112 | Spec/Telling, Props/Telling | a list of queries is a fold of `told`, a total function on cards; `over` merges data, `lastSome` is the closed form of a fold |
| C113 | Spec/Branch, Props/Branch | `Walk` and `BoardWalk` let anything follow an undo; the invariant keeps the log behind the cursor tied to a plain run and the tables saved ahead of it empty; `Careful` erases first and is compared by renaming cards |
| C114 | Spec/NextDuel, Props/NextDuel | `LookSameSince ms` compares turn player, phase and blocked zones only if `ms` tells them; `Aside` carries other values for these along a run; `MoreNotes` compares servers of which one has noted more |
| C115 | Spec/Pace, Props/Pace | `NetRuns ds n`: the nets that can come about when the core has given `ds`; queues are lists of messages (C92 has the bytes), every client gets every message; `Behind` ties each prefix of a queue to what the server tracked then |
| C116 | Spec/RoomOrder, Lemmas/RoomOrder, Props/RoomOrder | Orders with the same calls for each client; swaps of neighbours (`prepares_swap`, `enter_swap`) are lifted to whole histories |
| C117 | Spec/Trackable, Lemmas/Trackable, Lemmas/TrackableRead, Props/Trackable | Numbers of cards per pile, zone and set of materials. Places read from bytes are shown to lie below location 0x400 (`EventNear`) by going through every message's reader; what is left is built up card by card |
| C118 | Spec/Rearrange, Lemmas/Rearrange, Props/Rearrange | All cards are gathered in one pile and dealt out from there (`moves_between`); moves of boards (`Moves`) become calls of the frame and messages of the core |
| C119 | Spec/RoomStates, Lemmas/RoomStates, Props/RoomStates | Invariant kept by every call (`peopled_step`); conversely the room is taken apart in the order in which it was filled: spectators, then the seat taken last (`Peopled.unsit`), each brought back by at most four calls |
| C120 | Spec/Shown, Lemmas/Shown, Props/Shown | A server is the client of its own messages, so only clients need be looked at; what each reader returns has the form in which the core wrote it (`PostFits`), which events and queries keep. Conversely cards appear one by one and are described at once by an update of every field; a material is described in the hand and then moved below its zone |
| C121 | Model/RoomArena, Spec/RoomArena, Lemmas/RoomArena, Props/RoomArena | The room is modelled a second time with one `Letter` for each call of `event_()`: the event and who got it. Forgetting who got which object gives the first model, with equality of outcomes (`C121_sent`). Sending the same deck twice finds the same seat, so the room is the same from the first time on |
| C122 | Spec/Notes, Lemmas/Notes, Props/Notes | `Notes` says from the board and the message alone when the server writes something down; `LastNoted` picks the last such message of a history. `left_` is a function from places to optional places, as `PlaceLess` tells apart exactly different places (C04) |
| C123 | Spec/Orphans, Props/Orphans | `Orphaned` is the form of the core's place (a pile and an index of a material), `Arrives` and `PassesOn` are kinds of messages; results are compared on the view of the tracked board |
| C124 | Spec/Piled, Props/Piled | `saidInPile` is what the items of a query come to mean for a card in a pile; `Row`, `Told` and `Answered` are those of C67 |
| C125 | Spec/Stale, Props/Stale | What is shown of a pile after a shuffle or a change of players. A shuffle changes nothing of the tracked state, so the codes shown are right for every order the core may have made iff each shown code is that of all cards of the pile; after a change of players the codes of the previous player are shown for as many cards as there are; set cards shuffled in secret change nothing either; after a start nothing is shown. Violated: shuffled hand, then a summon from it shows the wrong card; a hand of the next player shows that of the previous. |
| C126 | Spec/Noticed, Lemmas/Noticed, Props/Noticed | Which clients that have lost track can be found out. A client gets through everything that the right one gets through iff it has as many cards in and beneath each zone, at least as many in each pile and at least as many chain links (both directions, for all reachable clients and all later messages with queries). Hence a missed or repeated change of life points, turn, phase or blocked zones is never noticed; a missed or repeated move between containers or draw always can be. |
| C127 | Spec/Parts, Props/Parts | Events taken apart into single operations: the same board or the same failure, for every frame and value type, with and without asserts, forward and back; hence any regrouping of events with the same parts is the same for every board and client. |
| C128 | Spec/Unnoticed, Lemmas/Unnoticed, Props/Unnoticed | The same question without asserts: which clients that have lost track never do anything undefined. Exactly those without null pointers in piles and beneath zones that have a card in each zone where there is one, no fewer beneath each zone and in each pile, and no fewer chain links; the client need not be reachable. Clients that asserts never find out are safe; a missed disappearance is always safe, a missed move between containers never; a whole state heals exactly the clients without null pointers and is undefined for others; no client is ever stopped. |
| C129 | Spec/Effort, Lemmas/Effort, Props/Effort | Any bytes: what is read from them has at most one nested message for two bytes and one number for each, so calls, links, blocked zones, queries, targets and counters are at most half the bytes; the bound is sharp; counts in resizes are believed; answers give the core at most two bytes for each and eight more. |
| C130 | Model/Heap, Spec/Heap, Lemmas/Heap, Props/Heap | A second model of frames and clients: an arbitrary allocator picks addresses, cards hold what is known about them, `pile_splice` works through its scratch vector with old entries in it. Simulation by a renaming that is one to one on the cards that live; frame operations are natural in it (FrameRename). |
| C131 | Spec/Fair, Lemmas/Fair, Props/Fair | Chances are counts over all sequences of `n` draws from a list of values. `starts` gives the room a generator about to give a sequence and lets the host start; the race of the two dice is a fold over pairs (`race`), turned round by swapping each pair. |
| C132 | Spec/RoomNames, Lemmas/RoomNames, Props/RoomNames | Renaming of clients as a relation between rooms (seats renamed, spectators a permutation) and between logs (the inboxes of every client equal). Every call keeps it; insertion into the sorted set commutes with renamings up to a permutation, and exactly if they keep the order. |
| C133 | Spec/Remembered, Props/Remembered(Odd) | How much memory a server needs besides the frame. Notes about cards that left with materials are only ever about places at which, with so many cards, a card can be: at most 42 times their number plus 32, although no note is ever dropped. What is put off has no bound, even with no card on the board; it is exactly what came since the last card that came to a zone. |
| C134 | Spec/Kept, Lemmas/Kept, Props/Kept | How much an undoable board keeps, exactly, after any walk: log entries and values are those of the events up to the farthest position, and no card is made before that is passed. Nothing is assumed about the events: it also holds for walks on which something was undone wrongly (C27, C28), as long as they get through. |
| C135 | Spec/Variants, Props/Variants | Which of the paths through the `oneof`s of `Msg` servers take, exactly, and that `parse_event` has a case that does something for every event among them that is about the board. `Pile.resize` is the one event about the board it ignores (§5, 14); no server sends it. |
| C136 | Spec/Hearing, Props/Hearing | The form of what any call makes a room send: a private message, announcements to everyone, or both. From it that nothing changes silently, that all hear alike, and how much is sent at most. A client with several seats (C55) hears announcements once for each. |
| C137 | Spec/RoomReach, Lemmas/RoomReach, Props/RoomReach | `Grown` says what no call ever undoes; it is kept by every call. Conversely a room that has grown is reached by going back in time: newest spectators leave, then the last to sit down, until the people are those of the first room, whose duelists then do what is left to do (`Arises.adapt`: from any state of a seat to any other that fits). |
| C138 | Spec/Recoded, Lemmas/Recoded, Props/Recoded, Spec/RecodedDesk, Props/RecodedDesk | `Recoding` is a one-to-one function on codes that keeps 0; `recoded` applies it to messages of the core, messages of the server, cards, servers and clients. `C138_messages` goes through C34 as C106 does; `C138_server`, `C138_queries`, `C138_clients` and `C138_answers` say that everything commutes with it, and `C138_duel` puts them together; `C138_desks` is about clients that go back and forth (C101). Unlike C103, which forgets the cards, this says that each code arrives where it belongs. |
| C139 | Spec/Revalued, Props/Revalued | `Revaluing` is any function on the values of each member; `revalued` applies it to queries and cards, with all their history. `C139_queries` and `C139_desks` need that no two values become one (`Faithful`), since the cache compares values, and `C139_reports_exactly` says that the reports need it; `C139_clients`, `C139_screens` and `C139_server` hold for all functions. C138 is about codes in all messages including the core's, this about all values in messages of the server. |
| C140 | Spec/Sealed, Props/Sealed | `Sealing` is a function on each of the things that a room passes on (decks, users, reasons, limits, its own banlist), `SealedEnv` says that the validator judges the other decks like the decks. Unlike C77, which compares what one client receives when others' decks are exchanged, this is an equation for the whole room and all that is sent. That limits and the own banlist make no difference is the defect of C102 again. |
| C141 | Spec/QuestionKind, Props/QuestionKind | `questionKind` maps questions to five kinds; `C141_kinds_exactly` says that they are what can be told from the responses, `C141_buffer_exactly` when the old contents of the buffer show. That answers about counters say nothing is the defect known from C80 and C100. |

The end-to-end theorems (C41-C44, C61-C64, C67, C69-C73, C85) go from the bytes the core writes, through `encode_one`, to the board of
`BasicEncodeContext` after `parse`. `Spec/Stream.lean` has the small driver around both: the repository has no loop that feeds a
buffer of several messages to `encode_one`.

## 4. Trusted base

* Lean 4.33.0 kernel; axioms `propext`, `Classical.choice`, `Quot.sound` only (per-theorem list in
  section 6, produced with `#print axioms`).
* The reading of the C++ into the model. Every definition cites its source lines.
* The core's side of the wire: the serialiser of core messages in `Spec/Core.lean` and the reader of responses in
  `Spec/Answer.lean` are written from the comments in the code and from knowledge of the duel core (edo9300/ygopro-core), which is not in
  the repository. In particular: a response to a sort request starts with a count byte, a set bit in `MSG_FIELD_DISABLED` is a
  disabled zone, spell slots 5 to 7 are the field and pendulum zones, and a material index is only present with the overlay bit.
* The protobuf library: the wire format is the model's reading of its specification, since its source is not in the repository.
  Its default limit of 100 on nested messages and groups is in the model. Left out: arenas (but for which events a room keeps in its own, C121), keeping unknown fields.
* Not modelled: memory exhaustion, what a deck validator does (the room takes any; the project's own are stubs), `server/duel.hpp` (an abstract interface), the duel
  core itself, logging, threads (the code is single-threaded), and big-endian hosts.

## 5. Disagreements found while reading

1. `BasicFrame::card_swap` (frame.hpp:400,404) indexes `materials` with `a.seq()` instead of `a.oseq()`.
2. `choosel(0, x)` returns the top bit if it is set (bit.hpp:42-56 adds before checking); both functions shift
   `1U` by up to 63 for 64-bit types, which is undefined from 32 on.
3. `LimboFrame::pile_resize` (frame_limbo.hpp:102) saves the wrong slice when shrinking: it starts at `diff` instead
   of `count`; overflow when `count > diff`, null cards when `count < diff`.
4. `assert(con <= 1)` accepts negative controllers; `BasicBoard::lp` asserts `who <= size`, so 2 passes.
5. `pile_splice` does not check the target index.
6. Field reload: materials use the unmapped spell slot (encode.cpp:903).
7. `decode_one_answer` truncates the location of a chosen zone to 8 bits, so field/pendulum/skill zones become 0, and
   never maps field/pendulum zones back to the core's spell slots.
8. Room: the ready flag survives an invalid deck update; a client may take several seats; the host entering a full
   room again aborts; with dice or coin the chosen decider's answer is ignored. Signals of a client with several seats reach
   only the first one, so a room where a client entered twice may be impossible to start (C78_never).
9. `BasicEncodeContext::match_win_reason_` has no initialiser; `get_xyz_left` dereferences `find()` unchecked.
10. `encode_one_query` skips unknown fields by `size - 4`, which underflows for sizes below 4.
11. `is_pile` accepts locations with several bits set; the accessors then reach `YGOPEN_UNREACHABLE`.
12. `card_shuffle` dereferences `*previous` even for count 0, and reaches `YGOPEN_UNREACHABLE` when `current` names a pile.
13. Undoing LimboFrame operations in the wrong order can put a card on the board twice.
14. `parse_event` ignores `Pile.resize`; a state event needs at least two life point values; recovering wraps at 2^32.
15. Chain links cannot be pushed to or popped from an undoable board (`assert(false)`), so a client with such a board stops
    at the first `MSG_CHAINING` (C66_exceptions_real). A tag swap that shrinks a deck by less than half is undefined for it (item 3).
16. `BasicUndoable::operator=` records a value only at the end of the history; otherwise it replays and ignores its argument.
17. `fix_spell_loc_seq` maps slots above 7 to places that do not exist.
18. `encode_one` leaves a default result (state UNKNOWN, one byte read) for `SELECT_COUNTER`, `SELECT_SUM`, `ANNOUNCE_CARD` and
    `ANNOUNCE_CARD_FILTER`, so a buffer cannot be followed past them; `SELECT_CARD` asserts a non-zero count.
19. `MSG_SWAP_GRAVE_DECK` reads mask bytes regardless of the announced mask size (C33) and does not end for 2^32 cards.
20. `unpack_zones` lists clear bits, also for `MSG_FIELD_DISABLED` where a set bit means disabled (C61).
21. Shuffle events of `MSG_SHUFFLE_DECK/HAND/EXTRA` name a pile with material index 0 instead of -1.
22. `PLAYER_HINT` with any type but 1 is treated as removal.
23. Detaching a material from the field to a pile records an entry in `left_` that nothing removes.
24. Effect codes above 32 bits are cut; races above 32 bits are cut in answers (C60_race_cut); indexes in answers are cut to 16 or 8 bits;
    an unset answer leaves the old contents of the output buffer; a sort answer with neither case set writes one 0 byte.
25. A query for a material of a card in a pile overwrites the data of the card itself (the frame ignores the material index there).
26. Room: the value of the start signal is ignored; reserved enum values as first-turn method reach `YGOPEN_UNREACHABLE`, unknown ones and
    rock-paper-scissors ask nobody; entering while the first turn is decided does nothing; nobody can leave.
27. Selecting card by card: `can_finish` is set from the core's "finishable" byte and `accept` from its "cancelable" byte (encode.cpp:1082-1083),
    while the proto comments say `can_finish` means "can be cancelled or accepted" and `accept` tells the two apart. A selection that can be
    cancelled but not finished is announced as one that cannot be ended (C72_cannot_cancel). A selection of no cards aborts in
    `decode_one_answer` even where the minimum is zero (C47_none, C72_cannot_select_none).
28. Some of what the core writes is not looked at, so that more than its messages is accepted: the size in front of a known query field
    and of the end marker (encode.cpp:339-341), the total size of a location except as a lower bound, the byte behind an AI name, and the
    carry when the two counts of a tag swap are added. C75_size_not_message, C75_total_not_message, C75_name_not_message and
    C75_swap_not_message show that what is accepted there need not be a message.
29. `card_shuffle` takes player and row from the new place only and the old place's sequence (frame.hpp:331): a shuffle across rows exchanges two
    zones of the new row instead of bringing the card there (C82_shuffle_across_rows). The encoder never makes such shuffles.
30. Nothing between the network and the frame checks places: `card_add` at location 0, a negative controller, two location bits at once, the
    life points of controller 2 or an empty shuffle in an event are undefined behaviour on the client, not an abort (C84_call, C84_event).
31. Attachments that are no moves are skipped while the others still shift positions (encode.cpp:1428-1442). If each material is named by the
    number it has when it goes (as for materials left behind), a monster that takes the zone of one with two or more materials gets them in a
    wrong order; if by the numbers they had before, one that takes them to another zone aborts the encoder (C85).
32. With `NDEBUG`, `push_back`, `pop_back` and `undo_card_shuffle` (undoable.hpp:68-88, frame_limbo.hpp:184-189) do nothing. So clients that can go
    back show chains only from states, and after going back over `MSG_SHUFFLE_SET_CARD` the cards stay exchanged; going forward exchanges them again.
33. With `NDEBUG`, `MSG_SELECT_CARD` with no cards (encode.cpp:1046) looks at the sixth byte behind the message to find out which kind of request it
    is: past the end of the buffer, or in the next message (C90_empty_selection). An answer that names no card, where one is to be named, reads
    past the end of an empty list (decode.cpp:60,72; C90_decode_undefined_iff).
34. With `NDEBUG`, a host that enters again when all seats are taken (room.hpp:428) becomes a spectator of the own duel; it is counted as one and
    from then on gets everything that is sent to all twice (C91_call, C91_told_twice).
35. `BasicUndoable` (undoable.hpp:91-92) has the implicit copy constructor, which copies the iterator: it still points into the list of the other
    object. Assigning to a copy compares iterators of different lists, and the copy dangles when the other object dies (C95_copy). The code of
    the repository copies none, but values of boards can be copied. Frames have the same weakness (item 37).
36. The counts of materials in `MSG_RELOAD_FIELD` (encode.cpp:901-907) are not backed by bytes of the message: a place is added for each of up
    to 2^32 - 1, so a hundred bytes of the core become a message of gigabytes, more than protobuf can carry (C96_materials, C96_refused). All
    other lists have at least a byte of the buffer for each element (C96_one_partial, C96_reload).
37. `BasicFrame` (frame.hpp:602-607) has the implicit copy and move operations. A copy has cards of its own, but its piles and zones point to the
    cards of the other frame, so removing a card from it or clearing it stops at an assertion and it dangles when the other frame dies
    (C97_copy). A moved frame still shows the cards of its zones, which are the other frame's now (C97_moved); clearing it, as a state
    event does, stops at an assertion (C97_moved_clear). The code of the repository neither copies nor moves frames, and frames of `BasicCard`
    (card.hpp:53-55) cannot be copied: copying is for card types that can be.
38. `decode_one_answer` does not compare the kind of an answer with the kind of the request, except for card selections and idle actions, where it
    asserts: anyone who may answer can abort the server with four bytes (C99_abort), and an answer to another question is taken for one to this
    (C100_other_question). Actions that do not exist in the current phase get the code of another one: attacking in the main phase is a special
    summon, summoning in the battle phase an activation (decode.cpp:140-158; C100_attack_idle, C100_summon_in_battle); in the battle phase, changing
    a position goes to the second main phase and setting a monster ends the turn (C100_leaves_battle).
39. Undoable members take what was undone for what comes next, whatever is assigned (undoable.hpp:33-36). So a client that parses another query in
    place of one it took back, or the same one with the cache on instead of off, shows wrong values without notice (C101_other_query,
    C101_same_cache).
40. The room gives a validator only the name of a banlist (room.hpp:36-46, 480). The limits on decks and a custom banlist are told to newcomers
    and otherwise have no effect (C102_ignored): any deck that is accepted without a banlist can be played whatever they say (C102_violated).
    The validators of proto/deck.hpp are stubs that refuse everything, so with them no duel starts (C102_stubs).
41. Events tell that a card became a target and that it is no longer one alike (encode.cpp, `MSG_CARD_TARGET`/`MSG_CANCEL_TARGET`, with a
    `TODO: Maybe ignore?`), and so that counters were put on a card, that they were removed, that its position changed and that it was set (C104);
    a client only learns these from queries.
42. (C113) After an undo, `BasicUndoable::operator=` and the logged operations of `LimboFrame` repeat what was undone, whatever they are told: another value is lost, and a card recorded for a removal may be added a second time, so that one card object lies in two places. `LimboFrame::erase_history` prevents this for frames; the board has no such call, and `BasicUndoable::erase_history` is `assert(false)`.
43. (C114) A context or board that is used for a second duel keeps parts of the first: the event made of `MSG_START` does not reset the turn's player, the phase and the blocked zones, and `deferred_` of `BasicEncodeContext` is not emptied, so that material put off in one duel is put beneath the first card that enters a zone in the next.
44. (C117) The board has skill zones (`LOCATION_SKILL_ZONE`, 0x400), but the encoder never puts a card there: the places it moves cards to are read from one byte, so that these zones stay empty with every server and every client that follows one.
45. (C121) `BasicRoom` makes every event in its `arena_` (room.hpp:188-193), which nothing resets. A room keeps each event it ever sent until it is destroyed, and a seated client can make it grow at will by sending the same deck again and again.
46. (C122) `left_` is keyed by the place in a pile to which a monster went (encode.cpp:1461, 1476; basic_encode_context.hpp:48-51, 68-72), and not corrected when the pile changes. If two monsters with materials return to the extra deck and the second is put beneath the first (a face-up pendulum monster, say), a material of the first reported afterwards is looked up under a place without a note, and `find()->second` is undefined behaviour. Notes made when a monster is removed (encode.cpp:1413) have a zone as key and are never looked up.
47. (C123) Of the branches of `MSG_MOVE`, only "Deattaching outside field" (encode.cpp:1452-1465) corrects the place of a material whose monster is in a pile. The branches before it use the place as it is: moved into a zone, or passed on to a monster in a pile and attached when that arrives (1419-1451), it meets the assertion of `card_move` (frame.hpp:246); removed (1409-1418), `card_erase` (frame.hpp:539-544) ignores the index and takes the monster.
48. (C124) The queries that the encoder makes for the codes of materials (encode.cpp:983-994, 1007-1018) have the place of the card with a material index, also if that place is in a pile. `has_card` and `card_` (frame.hpp:634-644) ignore the index there, so that the codes of the materials are shown one after the other as the code of the monster. This concerns monsters to which materials were attached before they were summoned, and monsters that left the field before their materials.
49. (C125) `MSG_SHUFFLE_HAND` and `MSG_SHUFFLE_EXTRA` carry the codes in the new order, but the encoder skips them (encode.cpp:563-573, 594-604) and the event is one on which neither servers nor clients act; the cards keep their places with all data known of them. A card moved out of the hand afterwards is then shown with the data of the card that was at its index before, until a query says otherwise. `MSG_TAG_SWAP` (encode.cpp:826-856) only resizes the piles and so keeps the cards of the previous player with their data; the codes told for the hand and extra deck of the next player are skipped. `MSG_SHUFFLE_SET_CARD` without new places (set cards shuffled in secret) leaves all zones as they are (frame.hpp:326-330), with the data known of the cards before.
50. (C126) Duel messages carry no number or check, so a client that did not get one, or got one twice, can only be found out when it fails at a later one (an assert fails or something undefined is done). By C126_exactly this never happens if the message only changed values beside the table (life points, turn, phase, blocked zones), if it ended a link of the chain and was missed, or began one and was repeated, or took cards from a pile and was missed. Witness: 1000 damage missed or repeated shows 8000 or 6000 life points instead of 7000 until a whole state comes.
51. (C128) In builds without asserts nothing stops a client that has lost track: the places in an event are used as indices as they are. Witness: a client that missed that five cards were drawn reads past the end of its hand when the fifth is played. By C128_exactly the same can happen to every client with fewer cards somewhere, or fewer links, than there are. A new card in a zone whose old card was missed to leave replaces that one silently (its object then lies nowhere and is never destroyed before the frame is, see C88).
52. (C133) A message that a card becomes material of a monster that is in a pile is put off whether or not the card or the monster exist, and the list is only emptied when a card next comes to a zone. Repeating such a message lets the list grow without bound while the board stays empty (C133_violated). The notes about cards that left are bounded only if materials are numbered from 0: a number of 2^31 or more is read as negative, taken for no material, and makes for a further key about the same place; with two cards a message stream can make it keep 2^31 - 1 notes about one position of a pile (C133_violated_notes).

## 6. Axioms per theorem

Output of `#print axioms` for every theorem of `MANIFEST.json`, grouped.

* **none** (3): C31_bits_differ, C38_effect_cut, C92_described.

* **`propext`** (29): C05_constants_classified, C23_misordered_undo_duplicates, C24_inert_events, C29_chain_events_abort, C29_undo_shuffle_aborts, C36_slots, C36_one_to_one, C47_none, C48_index_cut, C49_confused, C60_race_cut, C60_declining, C72_field_zone, C86_widths, C86_location_kinds, C89_chain_ignored, C89_shuffle_not_undone, C90_decode_action, C92_depth, C100_no_order, C101_reports_needed, C101_same_cache, C102_violated, C108_needed, C127_calls, C135_bystanders, C135_bystanders_undo, C137_started, C138_answers.

* **`Quot.sound`, `propext`** (136): C01_popcnt_counts_ones, C02_chooser_picks_lowest, C02_chooser64_ub_iff, C03_choosel_picks_highest_partial, C03_choosel_zero_exact, C03_choosel_zero_not_empty, C03_choosel64_always_ub, C03_exactly, C05_empty_iff, C11_card_swap_wrong_material, C14_pile_splice, C16_pile_swap, C16_pile_swap_twice, C18_card_swap_ub, C18_pile_splice_ub, C18_card_shuffle_ub, C18_ill_formed_place_ub, C19_undo_and_replay, C19_reads_defined, C19_append_after_replay, C19_undo_past_first, C21_shrink_below_half_undo_aborts, C21_shrink_above_half_ub, C23_owned_never_shrinks, C24_values, C24_push_pop, C25_recover_wraps, C25_lp_in_range, C25_bad_controller, C30_no_card, C36_valid, C36_other_locations, C36_beyond, C37_clear_bits, C37_nodup, C37_valid, C37_sides_swapped, C40_attachments, C45_invalid_place, C46_parse_keeps, C48_other_phase, C48_idle_phases, C48_battle_phases, C49_bytes, C49_zones_partial, C49_offered, C49_exactly, C53_ready_without_deck, C55_two_seats, C61_all_blocked, C66_exceptions_real, C68_shuffle_is_final, C72_cannot_cancel, C72_cannot_select_none, C75_name_not_message, C75_size_not_message, C75_total_not_message, C75_swap_not_message, C77_call, C80_fresh, C82_one_outcome, C82_shuffle_across_rows, C86_single_bits, C86_test, C86_determined, C86_part, C86_in_use, C88_no_stop, C88_shuffle_returns, C88_shuffle_permutes, C88_no_stop_event, C89_undo_undefined, C89_chain_not_shown, C89_shuffle_wrong, C89_shrink_wrong, C91_same, C95_swap, C95_growing_vector, C95_no_leaks, C96_materials, C96_unbounded, C97_swap, C97_any_cards, C97_copies_are_no_values, C100_no_cards, C100_highest_link, C101_other_query, C102_broken, C105_only_apart, C106_answers, C106_twice, C107_look, C108_any_context, C108_histories, C108_tally, C109_coarsest, C110_size, C111_notes_needed, C113_others_exactly, C113_write_exactly, C113_value_wrong, C113_card_twice, C114_stays, C114_violated_shown, C114_violated_material, C116_newcomers_matter, C116_start_matters, C117_clients_can, C121_sent, C121_rooms, C121_answers, C122_lost, C122_mistaken, C123_violated, C124_violated, C125_violated, C125_set_cards_violated, C127_parts, C127_regroup, C127_undo, C127_regroup_undo, C127_message, C127_single, C130_scratch, C131_bits, C133_places, C135_well_made, C135_exactly, C135_heard, C135_unheard, C135_nothing_missed, C138_new, C140_calls, C140_rooms, C140_same_course, C141_kinds_exactly.

* **`Classical.choice`, `Quot.sound`, `propext`** (561): C02_lowest_unique, C04_less_is_lexicographic, C04_eq_is_field_equality, C04_less_strict_total_order, C05_classification_bits, C05_zone_limits, C06_owned_exactly_once, C07_card_add, C07_added_card_is_new, C08_card_remove, C08_removed_card_is_gone, C09_card_move, C09_same_card, C10_card_move_back, C11_card_swap_partial, C11_cards_exchanged_partial, C11_card_swap_exactly, C11_right_cards_iff, C11_card_swap_twice, C12_card_shuffle, C12_returns, C13_pile_resize, C15_pile_splice_back, C17_clear, C18_has_card_total, C18_card_iff_has_card, C18_card_reads_board, C18_no_ub_partial, C18_ub_exactly, C19_is_an_editor, C20_card_add, C20_card_remove, C21_pile_resize_partial, C21_pile_resize_exactly, C22_clear, C23_cards_kept, C23_undo_redo_return, C24_only_named_parts, C25_lp_event, C26_state_event, C26_same_shape, C27_undo_events_partial, C27_undo_event_partial, C27_undo_exactly, C28_scrub_partial, C28_replay_allocates_nothing, C28_replay_partial, C28_scrub_exactly, C30_parse_query, C30_returns, C30_undoable, C31_hits, C31_no_cache_no_hits, C31_cache_harmless, C31_repeat_hits_all, C32_result_contract, C33_appended_bytes, C33_only_bytes_read_matter_partial, C33_short_mask_reads_next_message, C33_only_bytes_read_matter_exactly, C34_translation, C34_translation_in_context, C34_consumed, C34_stream, C34_stream_of_meanings, C34_unknown, C35_blob, C35_fields, C36_onto, C38_effect, C38_counter, C39_kinds, C39_nothing, C39_added, C39_removed, C39_deferred, C39_arrival, C39_left_behind, C39_plain, C40_defer, C40_arrival, C40_list_of_history, C40_between_arrivals, C41_draw, C42_swap_grave_deck, C43_reverse_decks, C44_deck_top, C44_confirm, C45_reload_places_partial, C46_last_announced, C46_win_reports, C46_win_without_announcement, C47_selected_mod, C47_selected, C47_stepped, C47_sorted_mod, C47_sorted, C48_idle, C48_battle, C48_idle_distinct, C48_battle_distinct, C50_capacity, C50_maximums, C50_options_kept, C50_construction, C51_seating, C51_balance, C52_start, C52_starts, C52_never_back, C53_ready_has_deck_partial, C53_becoming_ready, C53_exactly, C54_views_in_sync, C54_agree, C54_present, C55_seats_le_enters, C55_one_seat_partial, C55_exactly, C56_dice, C56_dice_terminates, C56_coin, C56_host_asked, C56_host_answer, C57_answers_ignored, C57_decider_ignored, C57_stuck, C57_host_decides_partial, C57_exactly, C58_same_as_plain, C58_accepts_what_plain_accepts, C59_abort_iff, C59_undefined_iff, C59_hang_iff, C60_single, C60_single_mod, C61_blocked_partial, C62_xyz_summon, C63_material_anywhere, C63_monster_leaves, C63_material, C63_xyz_leaves, C64_start, C64_reload, C64_tag_swap, C65_always_consistent, C65_new_cards_blank, C66_clients_in_step, C66_undoable_clients_in_step, C66_undoable_clients_get_through, C66_undoable_clients_exactly, C66_undoable_clients_partial, C67_update_data, C67_update_card, C68_rewind, C68_rewind_exactly, C68_rewind_partial, C69_score, C69_score_of_history, C69_score_returns, C70_positions, C70_data, C70_zones, C70_left, C71_appears, C71_disappears, C71_moves, C71_swap, C71_shuffle, C72_understood, C72_expressible_partial, C72_expressible_exactly, C72_distinct, C73_duel_shown, C73_names_kept, C73_one_buffer, C74_same_or_past_end, C74_cut, C74_incomplete_message, C74_no_prefix, C74_buffer, C75_message, C75_accepted, C75_taken, C75_sizes_ignored, C76_own_seat, C76_record, C77_private, C78_can_start, C78_never, C79_replay, C79_same_card, C80_aborts_iff, C80_taken, C80_stale, C81_encodes_iff, C82_call, C82_calls, C82_call_fails, C83_event, C83_story, C83_undoable, C84_call, C84_event, C84_events, C84_checked, C84_undoable_call, C84_undoable_event, C84_undoable_events, C84_undoable_checked, C85_overlay_partial, C85_in_place_wrong_order, C85_in_place_exactly, C85_in_place_old_numbers, C85_elsewhere_old_numbers, C86_count, C86_fit, C86_races_chosen, C86_locations, C87_server, C87_client, C87_followed, C88_same, C88_same_history, C88_call, C88_no_dangling, C88_lost, C88_lost_forever, C88_destroyed, C88_null, C88_tolerated, C88_same_event, C88_same_duel, C88_no_dangling_duel, C89_same, C89_same_undo, C89_same_event, C89_same_undo_event, C89_same_walk, C89_follow, C89_follow_exactly, C89_walk_events, C89_walk, C89_walk_partial, C89_follow_partial, C89_no_dangling, C89_erase_defined, C89_no_dangling_board, C90_empty_selection, C90_encode_more, C90_event_more, C90_differences, C90_decode_same, C90_decode_undefined_iff, C90_decode_cards, C90_decode_no_action, C90_no_dangling, C90_new_cards_blank, C90_no_stop, C90_clients, C90_clients_with_asserts, C90_clients_of_asserting, C90_query, C90_same, C91_same_history, C91_call, C91_no_stop, C91_fails_iff, C91_as_if, C91_capacity, C91_start, C91_views_in_sync, C91_told_twice, C92_objects, C92_messages, C92_answers, C92_messages_apart, C92_received, C92_received_answers, C92_any_client, C92_clients_in_step, C92_concatenation, C92_later_versions, C92_limit, C92_groups, C93_client_messages, C93_server_messages, C93_received_signals, C93_received_events, C93_room_sends, C93_views_in_sync, C93_decks, C94_replays, C94_loaded, C94_any_replay, C94_replays_the_duel, C94_pieces, C95_exactly, C95_reads_exactly, C95_objects_partial, C95_copy, C95_copies_are_no_values, C96_one_partial, C96_reload, C96_all_partial, C96_factor_partial, C96_each_partial, C96_clients_in_step_partial, C96_refused, C97_copy_exactly, C97_moved_exactly, C97_no_leaks, C97_frames_partial, C97_no_leaks_partial, C97_moved, C97_moved_clear, C97_copy, C97_moved_are_not_empty, C98_events, C98_events_undoable, C98_undone, C98_messages, C98_appears, C98_disappears, C98_asked, C98_clients, C98_account, C98_duel, C98_since_start, C98_believed, C99_understood, C99_any_bytes, C99_abort, C99_abort_release, C99_silent, C99_hostile_server, C100_any_response, C100_taken, C100_exactly, C100_leaves_battle, C100_as_meant_partial, C100_attack_idle, C100_summon_in_battle, C100_first_only, C100_cut, C100_finish, C100_other_question, C100_two_phases, C100_misunderstood, C101_scrub, C101_exactly, C101_one_card, C102_ignored, C102_named_partial, C102_stubs, C103_same, C103_same_but_cards, C103_duel, C103_events, C103_shown, C104_fits, C104_exactly, C104_enough, C104_once, C104_in_context, C104_targets, C104_counters, C104_updates, C104_updates_apart, C105_calls, C105_parsed, C105_events, C105_same, C105_shape, C105_undoable, C106_calls, C106_undoable_calls, C106_look, C106_events, C106_undo_boards, C106_queries, C106_client, C106_messages, C106_duel, C106_both_sides, C106_whole_duel, C106_as_far, C106_whole_client, C107_calls, C107_events, C107_queries, C107_server, C107_client, C108_no_questions, C109_shown, C109_told, C110_catch_up, C110_late, C110_server, C110_every_table, C110_sent, C110_arrives, C110_least, C111_alike, C111_handover, C111_nothing_noted, C112_merged, C112_any_order, C112_last_value, C112_again, C113_counts, C113_erased, C113_add_exactly, C113_remove_exactly, C113_clear_exactly, C113_resize_exactly, C113_board_partial, C114_client_partial, C114_server_partial, C114_reused_partial, C114_reused_exactly, C115_in_step, C115_all_alike, C115_never_stuck, C115_shows_the_past, C115_one_server, C115_goes_on, C116_order, C116_newcomers, C116_views, C116_next, C117_tracked, C117_from_anywhere, C117_no_skill, C117_no_skill_client, C118_moves, C118_few, C118_client, C118_server, C118_instead, C119_rooms, C119_kept, C119_alone, C119_late, C120_server, C120_client, C120_from_anywhere, C121_call, C121_quiet, C121_unsent, C121_kept_partial, C121_decks, C121_silent, C121_exactly, C121_unbounded, C122_note, C122_history, C122_exactly, C122_stays_partial, C122_detached, C122_unread, C123_summoned, C123_passed_on, C123_removed, C123_exactly, C123_moves_partial, C124_piles_exactly, C124_card_exactly, C124_code, C124_rest_partial, C124_zones_partial, C124_accepted, C125_shuffle, C125_shuffle_exactly, C125_set_cards, C125_set_cards_exactly, C125_hand_exactly, C125_tag_swap_exactly, C125_tag_swap_hand, C125_start_partial, C126_exactly, C126_missed, C126_twice, C126_values, C126_move_partial, C126_splice_partial, C126_appears, C126_disappears, C126_link, C126_unlink, C126_twice_state, C126_state_heals, C126_violated, C127_release, C127_release_undoable, C128_exactly, C128_counts, C128_of_unnoticed, C128_disappears, C128_move_partial, C128_state_heals, C128_never_stopped, C128_violated, C129_parts, C129_calls, C129_clients, C129_cards, C129_sharp, C129_believed, C129_server, C129_answers, C130_frames, C130_no_dangling, C130_clients, C130_shown, C130_two, C131_dice, C131_dice_ends, C131_sixth, C131_faces, C131_faces_exactly, C131_coin, C131_coin_exactly, C132_rooms, C132_received, C132_fails, C132_order_exactly, C133_notes_partial, C133_entries_partial, C133_again, C133_violated, C133_exactly, C133_violated_notes, C134_kept, C134_undoable, C134_nothing_new, C134_straight, C136_silent, C136_heard, C136_announced, C136_alike, C136_private, C136_inside, C136_little, C136_traffic, C137_exactly, C137_back, C137_alone, C138_messages, C138_server, C138_queries, C138_clients, C138_duel, C138_desks, C139_queries, C139_clients, C139_screens, C139_server, C139_desks, C139_reports_exactly, C141_buffer_exactly.
