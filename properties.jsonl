{"id": "C01", "title": "popcnt counts set bits", "statement": "The portable popcnt loop terminates and returns exactly the number of 1 bits of its argument.", "quantifier": "every unsigned value of every width", "why_tests_cant": "A unit test samples a handful of the 2^32 or 2^64 values.", "anchors": [{"file": "include/ygopen/bit.hpp", "symbols": ["popcnt"]}]}
{"id": "C02", "title": "chooser picks the lowest bits", "statement": "chooser(count, x) returns a sub-mask of x holding exactly min(count, number of set bits of x) bits, and these are the lowest set bits: no set bit of x left out is below a chosen one.", "quantifier": "every count and every value x of an 8, 16 or 32-bit type", "why_tests_cant": "The claim is about every pair (count, x); tests check literal pairs only.", "anchors": [{"file": "include/ygopen/bit.hpp", "symbols": ["chooser"]}]}
{"id": "C03", "title": "choosel picks the highest bits", "statement": "choosel(count, x) returns a sub-mask of x holding exactly min(count, number of set bits of x) bits, and these are the highest set bits. (Expected to fail for count = 0; see DESIGN.md.)", "quantifier": "every count and every value x of an 8, 16 or 32-bit type", "why_tests_cant": "The existing test for count 0 uses an argument whose top bit is clear, which hides the failing case.", "anchors": [{"file": "include/ygopen/bit.hpp", "symbols": ["choosel"]}]}
{"id": "C04", "title": "Place ordering is a strict total order", "statement": "The comparison used for places is irreflexive, transitive and total, and two places are equivalent under it exactly when all four fields are equal, so ordered containers keyed by places (such as the encode context's maps) never merge different places; operator== is field equality.", "quantifier": "every pair and triple of places, including negative controllers and overlay sequences", "why_tests_cant": "Ordering laws quantify over triples from a 2^128-element domain.", "anchors": [{"file": "include/ygopen/proto/duel/data.hpp", "symbols": ["PlaceLess", "operator=="]}]}
{"id": "C05", "title": "Location classification", "statement": "Each of the ten location constants is classified as exactly one of pile or zone and never as empty; a location is empty iff it is 0; the per-location sequence limit is defined exactly for the five zone constants, where it is 7, 5, 1, 2 and 1.", "quantifier": "every 32-bit location value", "why_tests_cant": "Bit-mask predicates must be right on all 2^32 values, including combined bits.", "anchors": [{"file": "include/ygopen/duel/constants/location.hpp", "symbols": ["is_empty", "is_pile", "is_zone"]}, {"file": "include/ygopen/client/frame.hpp", "symbols": ["zone_seq_lim"]}]}
{"id": "C06", "title": "Frame owns every card exactly once", "statement": "After any sequence of frame operations that did not abort, the cards reachable from piles, zones and materials are pairwise different, and they are exactly the cards the frame owns: nothing is leaked, duplicated or dangling.", "quantifier": "every finite sequence of the nine public mutating operations of BasicFrame with arbitrary arguments", "why_tests_cant": "It is an invariant over unbounded operation histories.", "anchors": [{"file": "include/ygopen/client/frame.hpp", "symbols": ["BasicFrame", "card_add", "card_remove", "card_move", "card_shuffle", "card_swap", "pile_resize", "pile_splice", "pile_swap", "clear"]}]}
{"id": "C07", "title": "card_add puts one new card at the place", "statement": "card_add(p) creates a card that was not on the board, makes it the card found at p, shifts later cards of the same pile or stack by one, and changes no other place.", "quantifier": "every reachable frame and place on which the call returns", "why_tests_cant": "Needs every pile length, index and aliasing case.", "anchors": [{"file": "include/ygopen/client/frame.hpp", "symbols": ["card_add", "card_insert", "card"]}]}
{"id": "C08", "title": "card_remove takes exactly one card away", "statement": "card_remove(p) destroys exactly the card that card(p) returned, closes the gap in its container, leaves a zone's materials in place, and changes no other place.", "quantifier": "every reachable frame and place on which the call returns", "why_tests_cant": "Needs every pile length, index and aliasing case.", "anchors": [{"file": "include/ygopen/client/frame.hpp", "symbols": ["card_remove", "card_erase"]}]}
{"id": "C09", "title": "card_move moves the same card", "statement": "card_move(a, b) takes the card found at a out of its container and puts that same card at b; a zone card moved to another zone takes its materials along; everything else keeps its contents and order.", "quantifier": "every frame and every pair of places (pile, zone or material, including the same container twice) on which the call returns", "why_tests_cant": "There are nine container combinations with unbounded lengths and aliasing.", "anchors": [{"file": "include/ygopen/client/frame.hpp", "symbols": ["card_move"]}]}
{"id": "C10", "title": "card_move is undone by moving back", "statement": "Whenever card_move(a, b) returns, card_move(b, a) on the result also returns and restores the layout exactly, with the same card.", "quantifier": "every frame and pair of places on which the first call returns", "why_tests_cant": "An inverse law over all states; undo of move events relies on it.", "anchors": [{"file": "include/ygopen/client/frame.hpp", "symbols": ["card_move"]}, {"file": "include/ygopen/client/undo_parse_event.hpp", "symbols": ["undo_parse_event"]}]}
{"id": "C11", "title": "card_swap exchanges two cards", "statement": "card_swap(a, b) exchanges the cards found at a and b (with their materials when both are zone cards), changes nothing else, and doing it twice restores the layout. (Expected to fail when a is a material; see DESIGN.md.)", "quantifier": "every frame and pair of places holding cards", "why_tests_cant": "Needs materials at an index different from the zone sequence, which no test builds.", "anchors": [{"file": "include/ygopen/client/frame.hpp", "symbols": ["card_swap"]}]}
{"id": "C12", "title": "card_shuffle permutes zones", "statement": "card_shuffle(previous, current) moves the whole zone (card and materials) at previous[i] to current[i] for every non-empty current[i], only permutes zones among the named ones, and touches no pile.", "quantifier": "every count, every list of distinct previous places and distinct current places over the same zone row, and every frame", "why_tests_cant": "Correctness depends on an index-tracking loop over arbitrary permutations.", "anchors": [{"file": "include/ygopen/client/frame.hpp", "symbols": ["card_shuffle"]}]}
{"id": "C13", "title": "pile_resize keeps the front of the pile", "statement": "pile_resize(p, n) gives the pile exactly n cards; the first min(n, old size) cards are the old ones in order, added cards are new and distinct, dropped cards are destroyed, no other container changes.", "quantifier": "every frame, pile and n", "why_tests_cant": "Unbounded sizes.", "anchors": [{"file": "include/ygopen/client/frame.hpp", "symbols": ["pile_resize"]}]}
{"id": "C14", "title": "pile_splice moves a block", "statement": "pile_splice(from, n, to, rev) removes the n cards starting at from and inserts them, reversed iff rev, at to (index in the pile after removal), including when both are the same pile; no card is lost.", "quantifier": "every frame, piles (equal or different), indices, counts and rev on which the call returns", "why_tests_cant": "Unbounded lengths and same-pile aliasing.", "anchors": [{"file": "include/ygopen/client/frame.hpp", "symbols": ["pile_splice"]}]}
{"id": "C15", "title": "pile_splice is undone by the mirrored splice", "statement": "Whenever pile_splice(from, n, to, rev) returns, pile_splice(to, n, from, rev) on the result returns and restores the layout exactly.", "quantifier": "every frame and arguments on which the first call returns", "why_tests_cant": "An inverse law over all states; undo of splice events relies on it.", "anchors": [{"file": "include/ygopen/client/frame.hpp", "symbols": ["pile_splice"]}, {"file": "include/ygopen/client/undo_parse_event.hpp", "symbols": ["undo_parse_event"]}]}
{"id": "C16", "title": "pile_swap exchanges two piles and is an involution", "statement": "pile_swap(a, b) exchanges the full contents of two piles, changes nothing else, and calling it again restores the layout.", "quantifier": "every frame and pair of pile places", "why_tests_cant": "Unbounded lengths, aliasing a = b.", "anchors": [{"file": "include/ygopen/client/frame.hpp", "symbols": ["pile_swap"]}]}
{"id": "C17", "title": "clear empties the frame", "statement": "After clear no place has a card and the frame owns no card.", "quantifier": "every reachable frame", "why_tests_cant": "Quantifies over all reachable frames.", "anchors": [{"file": "include/ygopen/client/frame.hpp", "symbols": ["clear"]}]}
{"id": "C18", "title": "Frame access is memory safe", "statement": "On every reachable frame, for every well-formed place (controller 0 or 1, one location constant, sequence in range) has_card never aborts, card(p) succeeds exactly when has_card(p), and no operation with well-formed places reaches undefined behaviour. (Expected to fail for card_swap on materials and pile_splice with an out-of-range target; negative controllers bypass the checks; see DESIGN.md.)", "quantifier": "every reachable frame and every well-formed place", "why_tests_cant": "Absence of undefined behaviour over all states cannot be sampled.", "anchors": [{"file": "include/ygopen/client/frame.hpp", "symbols": ["has_card", "card", "pile_", "zone_", "card_"]}]}
{"id": "C19", "title": "Undoable is a cursor over a history", "statement": "After any sequence of assignments made live followed by k undos (k at most the number of assignments), the value read is the one before the last k assignments; assignments made after undoing replay the recorded values in order, whatever argument they are given; undoing past the first value aborts.", "quantifier": "every value type and every sequence of assign and undo", "why_tests_cant": "Unbounded histories.", "anchors": [{"file": "include/ygopen/client/undoable.hpp", "symbols": ["BasicUndoable", "operator=", "undo", "assign"]}]}
{"id": "C20", "title": "LimboFrame card_add and card_remove can be undone and redone", "statement": "On a live LimboFrame, card_add(p) then undo_card_add(p), and card_remove(p) then undo_card_remove(p), restore the layout exactly; repeating the operation afterwards gives exactly the first result, with the same card object.", "quantifier": "every LimboFrame state reachable at the live end and every place on which the call returns", "why_tests_cant": "Unbounded states and histories.", "anchors": [{"file": "include/ygopen/client/frame_limbo.hpp", "symbols": ["card_add", "card_remove", "undo_card_add", "undo_card_remove"]}]}
{"id": "C21", "title": "LimboFrame pile_resize can be undone and redone", "statement": "pile_resize(p, n) then undo_pile_resize(p, n) restores the pile with the same cards, and redoing gives the same cards again. (Expected to fail for most shrinking resizes; see DESIGN.md.)", "quantifier": "every live LimboFrame, pile and n", "why_tests_cant": "The shrinking path is not covered by any test and fails for almost every size.", "anchors": [{"file": "include/ygopen/client/frame_limbo.hpp", "symbols": ["pile_resize", "undo_pile_resize"]}]}
{"id": "C22", "title": "LimboFrame clear can be undone and redone", "statement": "clear then undo_clear restores the exact layout, and redoing clear empties it again.", "quantifier": "every live LimboFrame", "why_tests_cant": "All states.", "anchors": [{"file": "include/ygopen/client/frame_limbo.hpp", "symbols": ["clear", "undo_clear", "swap_clear_op_"]}]}
{"id": "C23", "title": "LimboFrame never destroys or duplicates cards", "statement": "In every history that does not abort and consists of new operations, undos of the last operation, redos of the next undone one and erasures of the undone part, every card on the layout is owned by the frame, appears at most once, and ownership never shrinks.", "quantifier": "every finite interleaving of LimboFrame operations, undos, redos and erase_history calls", "why_tests_cant": "Invariant over unbounded interleavings.", "anchors": [{"file": "include/ygopen/client/frame_limbo.hpp", "symbols": ["LimboFrame"]}]}
{"id": "C24", "title": "Events touch only what they describe", "statement": "parse_event changes only the part of the board the event kind names: card and pile events only the frame, LP events only one player's LP, turn events only turn and turn player, phase events only the phase, chain events only the chain stack, zone-block events only the blocked zones; result, finish, meta and unset events change nothing.", "quantifier": "every board and every event", "why_tests_cant": "Frame conditions over all events and boards.", "anchors": [{"file": "include/ygopen/client/parse_event.hpp", "symbols": ["parse_event"]}]}
{"id": "C25", "title": "Life point arithmetic", "statement": "Damage and payment subtract and stop at 0 instead of wrapping; become sets the value; recover adds (exactly, as long as the sum fits in 32 bits); the other player's LP never changes.", "quantifier": "every LP value, amount and controller 0 or 1", "why_tests_cant": "Boundary behaviour over all 32-bit pairs.", "anchors": [{"file": "include/ygopen/client/parse_event.hpp", "symbols": ["parse_event"]}, {"file": "include/ygopen/client/board.hpp", "symbols": ["lp"]}]}
{"id": "C26", "title": "A board state event forgets the past", "statement": "After a board state event the life points, chain stack and the whole layout are determined by the event alone, whatever the board was before (up to card identity); the turn counter is too when it is non-negative.", "quantifier": "every pair of boards and every state event", "why_tests_cant": "Determinism over all prior states.", "anchors": [{"file": "include/ygopen/client/parse_event.hpp", "symbols": ["parse_event"]}, {"file": "include/ygopen/client/frame.hpp", "symbols": ["clear"]}]}
{"id": "C27", "title": "undo_parse_event reverts parse_event", "statement": "On a live undoable board, parsing an event and then undoing it restores layout, LPs, turn, turn player, phase, chain stack and blocked zones; hence undoing a whole parsed sequence in reverse order restores the starting board. (Shuffles, chain push/pop, most shrinking resizes and the exchanges hit by the card_swap index error are expected to fail; see DESIGN.md.)", "quantifier": "every board at the live end, and every finite sequence of events of the supported kinds that parses", "why_tests_cant": "Histories are unbounded and every event kind interacts with every board.", "anchors": [{"file": "include/ygopen/client/parse_event.hpp", "symbols": ["parse_event"]}, {"file": "include/ygopen/client/undo_parse_event.hpp", "symbols": ["undo_parse_event"]}, {"file": "include/ygopen/client/frame_limbo.hpp", "symbols": ["LimboFrame"]}, {"file": "include/ygopen/client/undoable.hpp", "symbols": ["BasicUndoable"]}]}
{"id": "C28", "title": "Replaying undone events gives the same board", "statement": "After parsing a sequence and undoing it (fully or partly), parsing the same events again reproduces exactly the board reached the first time, including card identities.", "quantifier": "every board at the live end and every supported event sequence", "why_tests_cant": "Scrubbing a replay back and forth must be loss free for all histories.", "anchors": [{"file": "include/ygopen/client/parse_event.hpp", "symbols": ["parse_event"]}, {"file": "include/ygopen/client/undo_parse_event.hpp", "symbols": ["undo_parse_event"]}, {"file": "include/ygopen/client/frame_limbo.hpp", "symbols": ["LimboFrame"]}, {"file": "include/ygopen/client/undoable.hpp", "symbols": ["BasicUndoable"]}]}
{"id": "C29", "title": "Unsupported undo aborts rather than corrupts", "statement": "Chain push and pop on an undoable board, and undoing a shuffle event, always abort; they never return with a wrong board.", "quantifier": "every undoable board", "why_tests_cant": "Quantifies over all boards.", "anchors": [{"file": "include/ygopen/client/undoable.hpp", "symbols": ["push_back", "pop_back"]}, {"file": "include/ygopen/client/frame_limbo.hpp", "symbols": ["undo_card_shuffle"]}]}
{"id": "C30", "title": "Card queries set exactly the given fields", "statement": "parse_query sets exactly the fields present in the query to the given values, only on the card found at the query's place, and leaves every other field and card unchanged.", "quantifier": "every frame, card state and query (all 2^24 combinations of present fields)", "why_tests_cant": "Combinations of present fields are too many to sample.", "anchors": [{"file": "include/ygopen/client/parse_query.hpp", "symbols": ["parse_query"]}]}
{"id": "C31", "title": "Query cache hits are exact and harmless", "statement": "With caching, the reported hits are exactly the present single-valued fields whose value was already equal; without caching no hit is reported; the resulting card is the same either way, and repeating a query hits every present single-valued field.", "quantifier": "every card state and query", "why_tests_cant": "All combinations of present fields and values.", "anchors": [{"file": "include/ygopen/client/parse_query.hpp", "symbols": ["parse_query"]}, {"file": "include/ygopen/client/queries.inl", "symbols": ["X"]}]}
{"id": "C32", "title": "Encoder result contract", "statement": "Whatever the bytes and context, if encode_one returns then: state OK comes with a message and at least one byte read; UNKNOWN and SWALLOWED come without a message; bytes read never exceeds what was supplied.", "quantifier": "every byte string and every context", "why_tests_cant": "All byte strings.", "anchors": [{"file": "src/codec/edo9300_ocgcore_encode.cpp", "symbols": ["encode_one"]}, {"file": "include/ygopen/codec/encode_common.hpp", "symbols": ["EncodeOneResult"]}]}
{"id": "C33", "title": "Encoder ignores what follows the message", "statement": "encode_one gives the same result and context when any bytes are appended after the buffer, so a message's translation never depends on the next one.", "quantifier": "every byte string, suffix and context", "why_tests_cant": "All byte strings and suffixes.", "anchors": [{"file": "src/codec/edo9300_ocgcore_encode.cpp", "symbols": ["encode_one", "encode_one_query"]}]}
{"id": "C34", "title": "Encoder translates every core message faithfully", "statement": "For each core message kind, with the core's documented field layout, encode_one consumes exactly the message's bytes and produces the event or request carrying exactly those field values (controllers, codes, positions, places, counts in order); hence a concatenation of core messages is split back into the same messages.", "quantifier": "every message value of every supported kind, any trailing bytes", "why_tests_cant": "About 80 message kinds with unbounded lists; a wrong width anywhere desynchronises the stream.", "anchors": [{"file": "src/codec/edo9300_ocgcore_encode.cpp", "symbols": ["encode_one"]}, {"file": "src/codec/ocgcore_messages.inl", "symbols": ["OCGCoreMsgValue"]}]}
{"id": "C35", "title": "Query blobs decode to the fields written", "statement": "encode_one_query applied to a query blob (size-prefixed fields in any order, unknown fields allowed, closed by the end marker) returns exactly the fields written and consumes exactly the blob.", "quantifier": "every list of fields with every value, any trailing bytes", "why_tests_cant": "Unbounded lists of fields.", "anchors": [{"file": "src/codec/edo9300_ocgcore_encode.cpp", "symbols": ["encode_one_query"]}]}
{"id": "C36", "title": "Spell zone coordinates are mapped one to one", "statement": "The core's spell-zone slots 0..7 map one-to-one onto spell zones 0..4, the field zone and the two pendulum zones, each a valid zone; other locations are unchanged. (Slots above 7 map to invalid places; see DESIGN.md.)", "quantifier": "every location and slot", "why_tests_cant": "All slots and locations.", "anchors": [{"file": "src/codec/edo9300_ocgcore_encode.cpp", "symbols": ["fix_spell_loc_seq"]}]}
{"id": "C37", "title": "Zone bit fields list exactly the clear bits", "statement": "The zone list made from a core bit field contains exactly the zones whose bit is 0, each once, all valid places, with sides swapped iff asked.", "quantifier": "every 32-bit field and both orientations", "why_tests_cant": "2^32 inputs.", "anchors": [{"file": "src/codec/edo9300_ocgcore_encode.cpp", "symbols": ["unpack_zones"]}]}
{"id": "C38", "title": "Packed effect and counter values are split losslessly", "statement": "The 64-bit effect value is recoverable from (code, index) when the code fits 32 bits, and the 32-bit counter value is always recoverable from (type, count).", "quantifier": "every packed value", "why_tests_cant": "2^64 inputs.", "anchors": [{"file": "src/codec/edo9300_ocgcore_encode.cpp", "symbols": ["read_effect", "read_counter"]}]}
{"id": "C39", "title": "Card movement is classified completely", "statement": "For every pair of previous and current location in a move message exactly one of these happens: nothing (neither exists), card added, card removed, material attachment deferred, move with deferred attachments emitted first, or plain move; the event moves the card the core moved.", "quantifier": "every move message and context", "why_tests_cant": "Combination of location kinds, overlay flags and context state.", "anchors": [{"file": "src/codec/edo9300_ocgcore_encode.cpp", "symbols": ["encode_one", "MSG_MOVE"]}]}
{"id": "C40", "title": "Deferred materials are attached before their monster arrives", "statement": "Materials whose attachment was deferred are emitted exactly once, in order, with material index 0,1,2,..., before the move of the monster, and the deferred list is then empty.", "quantifier": "every list of deferred materials", "why_tests_cant": "Unbounded lists and histories.", "anchors": [{"file": "src/codec/edo9300_ocgcore_encode.cpp", "symbols": ["MSG_MOVE"]}, {"file": "include/ygopen/server/basic_encode_context.hpp", "symbols": ["xyz_mat_defer", "take_deferred_xyz_mat"]}]}
{"id": "C41", "title": "Drawing end to end", "statement": "Encoding a draw message of n cards against the tracked board and applying the event moves the top n cards of that player's deck to the end of their hand, top card first, and changes nothing else.", "quantifier": "every tracked board with at least n cards in the deck, both players, every n", "why_tests_cant": "Composition of encoder and frame over unbounded piles.", "anchors": [{"file": "src/codec/edo9300_ocgcore_encode.cpp", "symbols": ["MSG_DRAW"]}, {"file": "include/ygopen/server/basic_encode_context.hpp", "symbols": ["pile_size", "parse"]}, {"file": "include/ygopen/client/frame.hpp", "symbols": ["pile_splice"]}]}
{"id": "C42", "title": "Swapping graveyard and deck end to end", "statement": "Encoding the swap-graveyard-with-deck message and applying it leaves the old deck in the graveyard, the graveyard cards without their extra-deck bit in the deck in order, and those with the bit inserted in order at the given extra deck position.", "quantifier": "every tracked board, bit mask long enough and position within the extra deck", "why_tests_cant": "A run-length loop over arbitrary bit masks.", "anchors": [{"file": "src/codec/edo9300_ocgcore_encode.cpp", "symbols": ["MSG_SWAP_GRAVE_DECK"]}, {"file": "include/ygopen/client/frame.hpp", "symbols": ["pile_splice"]}]}
{"id": "C43", "title": "Reversing decks end to end", "statement": "Encoding the reverse-deck message and applying it reverses both main decks and changes nothing else.", "quantifier": "every tracked board", "why_tests_cant": "Unbounded piles.", "anchors": [{"file": "src/codec/edo9300_ocgcore_encode.cpp", "symbols": ["MSG_REVERSE_DECK"]}, {"file": "include/ygopen/client/frame.hpp", "symbols": ["pile_splice"]}]}
{"id": "C44", "title": "Deck top lookups name the right card", "statement": "The place put in deck-top and confirm-deck-top events is the n-th card from the top of the tracked deck whenever the deck has more than n cards.", "quantifier": "every tracked board and n", "why_tests_cant": "Unbounded piles.", "anchors": [{"file": "src/codec/edo9300_ocgcore_encode.cpp", "symbols": ["MSG_DECK_TOP", "MSG_CONFIRM_DECKTOP"]}]}
{"id": "C45", "title": "Reloaded fields name only valid places", "statement": "Every place in the event produced from a field reload message is a valid place. (Expected to fail for materials on field and pendulum zones; see DESIGN.md.)", "quantifier": "every reload message", "why_tests_cant": "All combinations of occupied zones and material counts.", "anchors": [{"file": "src/codec/edo9300_ocgcore_encode.cpp", "symbols": ["MSG_RELOAD_FIELD"]}]}
{"id": "C46", "title": "Match win reasons are remembered", "statement": "A win message reports the match win reason most recently announced by a match-kill message. (Reading it before any was announced is undefined; see DESIGN.md.)", "quantifier": "every history of messages", "why_tests_cant": "Histories.", "anchors": [{"file": "src/codec/edo9300_ocgcore_encode.cpp", "symbols": ["MSG_MATCH_KILL", "MSG_WIN"]}, {"file": "include/ygopen/server/basic_encode_context.hpp", "symbols": ["match_win_reason"]}]}
{"id": "C47", "title": "Index answers reach the core unchanged", "statement": "Answers that select cards or sort by index are written so that the core's reader gets back exactly the list of indices. (Indices beyond 16 bits, or 8 bits for sorting, are truncated; see DESIGN.md.)", "quantifier": "every list of in-range indices", "why_tests_cant": "Unbounded lists.", "anchors": [{"file": "src/codec/edo9300_ocgcore_decode.cpp", "symbols": ["decode_one_answer"]}]}
{"id": "C48", "title": "Different answers to one request are distinguishable", "statement": "For idle and battle requests, distinct legal answers give distinct responses, each decoding to the chosen action kind and index.", "quantifier": "every legal answer with index below 2^16", "why_tests_cant": "All pairs of answers.", "anchors": [{"file": "src/codec/edo9300_ocgcore_decode.cpp", "symbols": ["decode_one_answer"]}]}
{"id": "C49", "title": "Zone answers name the chosen zone", "statement": "The response for a zone selection identifies the chosen controller, location and sequence in the core's coordinates. (Expected to fail for field, pendulum and skill zones; see DESIGN.md.)", "quantifier": "every place offered by the encoder", "why_tests_cant": "Round trip over all offered places.", "anchors": [{"file": "src/codec/edo9300_ocgcore_decode.cpp", "symbols": ["decode_one_answer"]}, {"file": "src/codec/edo9300_ocgcore_encode.cpp", "symbols": ["unpack_zones"]}]}
{"id": "C50", "title": "Rooms respect capacity", "statement": "A room always has exactly two teams whose maximum is between 1 and 3 and never seats more duelists than the maximum; duelists fill positions from 0 without gaps and the host holds team 0 position 0.", "quantifier": "every host, options and every finite sequence of enter and signal calls", "why_tests_cant": "Unbounded histories of clients.", "anchors": [{"file": "include/ygopen/server/room.hpp", "symbols": ["BasicRoom", "enter"]}]}
{"id": "C51", "title": "Seating is balanced", "statement": "A client entering while configuring is seated in the team with fewer duelists that still has room (team 0 on ties), and becomes a spectator exactly when both teams are full.", "quantifier": "every reachable room", "why_tests_cant": "All reachable rooms.", "anchors": [{"file": "include/ygopen/server/room.hpp", "symbols": ["enter"]}]}
{"id": "C52", "title": "Only the host starts, and only when everyone is ready", "statement": "The room leaves configuring only when the host asks, both teams have a duelist, and every duelist is ready with a deck the validator accepted; it never goes back.", "quantifier": "every reachable room, client and signal", "why_tests_cant": "All histories.", "anchors": [{"file": "include/ygopen/server/room.hpp", "symbols": ["visit", "can_start"]}]}
{"id": "C53", "title": "Ready implies valid deck", "statement": "A duelist shown as ready has a valid deck. (Expected to fail: a later invalid deck leaves the ready flag; see DESIGN.md.)", "quantifier": "every reachable room", "why_tests_cant": "Needs the history ready-then-invalid-deck, which tests do not build.", "anchors": [{"file": "include/ygopen/server/room.hpp", "symbols": ["update_deck", "ready_status"]}]}
{"id": "C54", "title": "Clients' views stay in sync", "statement": "Folding the events a client received since its entering-state event gives exactly the room's duelists (team, position, user, host and ready flags) and spectator count, at every moment and for every client in the room.", "quantifier": "every history of enter and signal calls, every client", "why_tests_cant": "Refinement over unbounded histories.", "anchors": [{"file": "include/ygopen/server/room.hpp", "symbols": ["send_all_", "send", "enter"]}]}
{"id": "C55", "title": "A client has at most one seat", "statement": "No client occupies two seats. (Expected to fail if a client enters twice; see DESIGN.md.)", "quantifier": "every history", "why_tests_cant": "Histories with repeated enters.", "anchors": [{"file": "include/ygopen/server/room.hpp", "symbols": ["enter"]}]}
{"id": "C56", "title": "First turn decisions are sound", "statement": "The announced result matches the method: dice results are all ties except the last, values lie in 1..6 and the higher roll wins; a coin decides by its face; with the host method exactly the host's valid choice is announced. The dice loop ends iff the generator eventually yields different rolls.", "quantifier": "every random stream, room and signal", "why_tests_cant": "Random streams are unbounded.", "anchors": [{"file": "include/ygopen/server/room.hpp", "symbols": ["DecidingFirstTurn", "visit"]}]}
{"id": "C57", "title": "First turn answers are honoured", "statement": "The client asked to decide who goes first can decide it. (Expected to fail for dice and coin; see DESIGN.md.)", "quantifier": "every room in the deciding state", "why_tests_cant": "All histories.", "anchors": [{"file": "include/ygopen/server/room.hpp", "symbols": ["visit"]}]}
{"id": "C58", "title": "The undoable frame shows what the plain frame shows", "statement": "For every operation that returns on a live undoable frame, the plain frame returns on the same arguments and produces the same layout; conversely the undoable frame returns whenever the plain one does, except for the shrinking resizes of C21.", "quantifier": "every live LimboFrame and every operation", "why_tests_cant": "Refinement over all states of two implementations.", "anchors": [{"file": "include/ygopen/client/frame_limbo.hpp", "symbols": ["LimboFrame"]}, {"file": "include/ygopen/client/frame.hpp", "symbols": ["BasicFrame"]}]}
{"id": "C59", "title": "Room calls fail only in known cases", "statement": "On a reachable room every call returns, except: it aborts exactly when the host enters a full room again, it is undefined exactly when starting with a reserved enum value as first-turn method, and it runs on exactly while dice keep tying.", "quantifier": "every reachable room, every call", "why_tests_cant": "All reachable rooms and calls.", "anchors": [{"file": "include/ygopen/server/room.hpp", "symbols": ["BasicRoom", "enter", "visit"]}]}
{"id": "C60", "title": "Single-number answers reach the core unchanged", "statement": "Answers that are one number (attribute, card code, option, number, position, chain index, yes or no, rock-paper-scissors) and refusals (decline to chain, cancel, finish, skip sorting: -1) are read by the core as that number. (Races above 32 bits are cut; see DESIGN.md.)", "quantifier": "every answer and every 32-bit value, every old content of the buffer", "why_tests_cant": "2^32 values of each kind, and reuse of the buffer.", "anchors": [{"file": "src/codec/edo9300_ocgcore_decode.cpp", "symbols": ["decode_one_answer"]}]}
{"id": "C61", "title": "Blocked zones are the disabled ones", "statement": "After a field-disabled message the zones tracked as blocked are the zones whose bit the core set, none twice, all existing. (Expected to fail: the clear bits are listed; see DESIGN.md.)", "quantifier": "every tracked board and every 32-bit mask", "why_tests_cant": "2^32 masks.", "anchors": [{"file": "src/codec/edo9300_ocgcore_encode.cpp", "symbols": ["MSG_FIELD_DISABLED", "unpack_zones"]}, {"file": "include/ygopen/client/parse_event.hpp", "symbols": ["parse_event"]}]}
{"id": "C62", "title": "Xyz summons end to end", "statement": "When the core announces cards on the field one by one as materials of a monster still in a pile and then the monster's move to a zone, the tracked board ends with the monster in the zone, exactly those cards as its materials in the order announced, their zones empty, and everything else unchanged.", "quantifier": "every tracked board, number of materials, pile position and zone", "why_tests_cant": "Unbounded lists of materials, spread over several messages.", "anchors": [{"file": "src/codec/edo9300_ocgcore_encode.cpp", "symbols": ["MSG_MOVE"]}, {"file": "include/ygopen/server/basic_encode_context.hpp", "symbols": ["xyz_mat_defer", "take_deferred_xyz_mat", "parse"]}, {"file": "include/ygopen/client/frame.hpp", "symbols": ["card_move"]}]}
{"id": "C63", "title": "Xyz monsters leave with their materials", "statement": "When a monster with materials moves to a pile, its materials stay in the zone; messages naming them by the monster's new place move exactly those materials; after all of them have gone on top of piles the zone is empty and every pile got its materials in order.", "quantifier": "every tracked board, number of materials and target piles", "why_tests_cant": "Unbounded lists of materials, spread over several messages.", "anchors": [{"file": "src/codec/edo9300_ocgcore_encode.cpp", "symbols": ["MSG_MOVE"]}, {"file": "include/ygopen/server/basic_encode_context.hpp", "symbols": ["has_xyz_mat", "xyz_left", "get_xyz_left", "parse"]}, {"file": "include/ygopen/client/frame.hpp", "symbols": ["card_move"]}]}
{"id": "C64", "title": "Board setup end to end", "statement": "After a start, reload or tag-swap message is encoded and applied, every pile and zone holds exactly the number of cards the message announces (with the core's spell slots 5 to 7 being the field and pendulum zones), life points and chain are as announced; all cards are new; a tag swap keeps the fronts of the three resized piles and everything else, the rest of the piles being new cards.", "quantifier": "every tracked board and every such message (for reloads: no materials on field and pendulum zones)", "why_tests_cant": "All combinations of occupied zones, material counts and pile sizes.", "anchors": [{"file": "src/codec/edo9300_ocgcore_encode.cpp", "symbols": ["MSG_START", "MSG_RELOAD_FIELD", "MSG_TAG_SWAP"]}, {"file": "include/ygopen/client/parse_event.hpp", "symbols": ["parse_event"]}, {"file": "include/ygopen/client/frame.hpp", "symbols": ["clear", "card_add", "pile_resize"]}]}
{"id": "C65", "title": "The tracked board is always consistent", "statement": "Whatever buffers are encoded and applied one after the other, even ones that are no messages, as long as nothing aborts the tracked frame is one that public operations lead to, each card on it exists once and is owned, and cards not yet made have no recorded data.", "quantifier": "every finite sequence of arbitrary byte buffers", "why_tests_cant": "Unbounded histories of arbitrary bytes.", "anchors": [{"file": "src/codec/edo9300_ocgcore_encode.cpp", "symbols": ["encode_one"]}, {"file": "include/ygopen/server/basic_encode_context.hpp", "symbols": ["parse"]}, {"file": "include/ygopen/client/parse_event.hpp", "symbols": ["parse_event"]}, {"file": "include/ygopen/client/parse_query.hpp", "symbols": ["parse_query"]}, {"file": "include/ygopen/client/frame.hpp", "symbols": ["BasicFrame"]}]}
{"id": "C66", "title": "Clients that follow show the server's board", "statement": "A client that applies the messages the server emitted has the same board and the same card data as the server, with and without query caching; a client with an undoable board gets through and shows the same as well. (Expected to fail when chain links come and go or a tag swap shrinks a pile; see DESIGN.md.)", "quantifier": "every finite sequence of arbitrary byte buffers (for undoable clients: without chaining, chain-solved and tag-swap messages)", "why_tests_cant": "Refinement between two implementations over unbounded histories.", "anchors": [{"file": "src/codec/edo9300_ocgcore_encode.cpp", "symbols": ["encode_one"]}, {"file": "include/ygopen/server/basic_encode_context.hpp", "symbols": ["parse"]}, {"file": "include/ygopen/client/parse_event.hpp", "symbols": ["parse_event"]}, {"file": "include/ygopen/client/parse_query.hpp", "symbols": ["parse_query"]}, {"file": "include/ygopen/client/frame_limbo.hpp", "symbols": ["LimboFrame"]}, {"file": "include/ygopen/client/undoable.hpp", "symbols": ["BasicUndoable"]}]}
{"id": "C67", "title": "Card data end to end", "statement": "After a message with data about a location or about one card is encoded and applied, the card in every described slot has the values given and its old ones otherwise, its materials have the codes listed in order, and no other card and nothing on the board changed.", "quantifier": "every tracked board, location, and every list of described and empty slots with the described cards present", "why_tests_cant": "All combinations of slots, fields and material counts.", "anchors": [{"file": "src/codec/edo9300_ocgcore_encode.cpp", "symbols": ["MSG_UPDATE_DATA", "MSG_UPDATE_CARD", "encode_one_query"]}, {"file": "include/ygopen/server/basic_encode_context.hpp", "symbols": ["parse"]}, {"file": "include/ygopen/client/parse_query.hpp", "symbols": ["parse_query"]}]}
{"id": "C68", "title": "Going back and forth in a duel", "statement": "A client with an undoable board may go back and forth over the events of a duel in any way; it always gets through and shows exactly the board the server had after the buffers whose events it has seen. (Expected to fail with shuffled set cards, chain links and tag swaps; see DESIGN.md.)", "quantifier": "every finite sequence of arbitrary byte buffers that are not one of these four kinds, every walk", "why_tests_cant": "Unbounded histories and walks over them.", "anchors": [{"file": "src/codec/edo9300_ocgcore_encode.cpp", "symbols": ["encode_one"]}, {"file": "include/ygopen/server/basic_encode_context.hpp", "symbols": ["parse"]}, {"file": "include/ygopen/client/parse_event.hpp", "symbols": ["parse_event"]}, {"file": "include/ygopen/client/undo_parse_event.hpp", "symbols": ["undo_parse_event"]}, {"file": "include/ygopen/client/frame_limbo.hpp", "symbols": ["LimboFrame"]}, {"file": "include/ygopen/client/undoable.hpp", "symbols": ["BasicUndoable"]}]}
{"id": "C69", "title": "Turn, phase, life points and chain end to end", "statement": "After any messages from the core the tracked turn number, turn player, phase, life points and chain are the ones the messages tell (32-bit numbers, losses stop at zero, resolved links go away last first), whatever other messages come in between; sensible messages about them always get through and change nothing else.", "quantifier": "every tracked state and every finite sequence of core messages", "why_tests_cant": "Unbounded histories with all kinds of messages in between.", "anchors": [{"file": "src/codec/edo9300_ocgcore_encode.cpp", "symbols": ["MSG_NEW_TURN", "MSG_NEW_PHASE", "MSG_DAMAGE", "MSG_RECOVER", "MSG_LPUPDATE", "MSG_PAY_LPCOST", "MSG_CHAINING", "MSG_CHAIN_SOLVED"]}, {"file": "include/ygopen/server/basic_encode_context.hpp", "symbols": ["parse"]}, {"file": "include/ygopen/client/parse_event.hpp", "symbols": ["parse_event"]}]}
{"id": "C70", "title": "Messages change only what they are about", "statement": "Cards change place only by the nine kinds of messages about positions, recorded card values only by the two kinds of messages with data, unusable zones only by field-disabled messages, and remembered departures only by move messages; every other message leaves these as they were.", "quantifier": "every tracked state and every core message", "why_tests_cant": "About 80 message kinds times all states.", "anchors": [{"file": "src/codec/edo9300_ocgcore_encode.cpp", "symbols": ["encode_one"]}, {"file": "include/ygopen/server/basic_encode_context.hpp", "symbols": ["parse"]}, {"file": "include/ygopen/client/parse_event.hpp", "symbols": ["parse_event"]}, {"file": "include/ygopen/client/parse_query.hpp", "symbols": ["parse_query"]}]}
{"id": "C71", "title": "Single cards end to end", "statement": "After a message that a card appears, disappears, goes from any pile, zone or material position to any other, changes places with another, or that set cards of a row are shuffled is encoded and applied, the tracked board differs from before by exactly that.", "quantifier": "every tracked board and every such message about cards that are there and places that are free", "why_tests_cant": "All pairs of places times all boards.", "anchors": [{"file": "src/codec/edo9300_ocgcore_encode.cpp", "symbols": ["MSG_MOVE", "MSG_SWAP", "MSG_SHUFFLE_SET_CARD"]}, {"file": "include/ygopen/server/basic_encode_context.hpp", "symbols": ["parse"]}, {"file": "include/ygopen/client/frame.hpp", "symbols": ["card_add", "card_remove", "card_move", "card_swap", "card_shuffle"]}]}
{"id": "C72", "title": "Questions and answers end to end", "statement": "When the core asks a question and a client answers the request made from it with something that was offered, the response made from the answer is read by the core, looking into its own lists, as the decision the client made: the same action, card, place, effect, phase, order, number or refusal; different decisions give different responses, and every decision the core would accept can be made by some answer. (Expected to fail for field and pendulum zones, for selecting no card, and for cancelling card by card selections that cannot be finished; see DESIGN.md.)", "quantifier": "every core question, every answer to it within the number formats, every response of the core's format", "why_tests_cant": "Round trip through two formats over unbounded lists of options.", "anchors": [{"file": "src/codec/edo9300_ocgcore_encode.cpp", "symbols": ["encode_one"]}, {"file": "src/codec/edo9300_ocgcore_decode.cpp", "symbols": ["decode_one_answer"]}]}
{"id": "C73", "title": "A whole duel reaches the clients", "statement": "Whatever duel the core plays (starts, reloads, tag swaps, draws, cards that come, go, move, change places, are openly shuffled, become materials or fall with their monster, data about cards, and all other messages in any order), the server gets through all its messages, one by one or in one buffer, and in the end the server and every following client show that duel: each pile, zone and material list holds the duel's cards in the duel's order, what the core said about a card is recorded for that very card and nothing else is, turn, phase, life points and chain are the duel's, and cards keep their identity wherever they went.", "quantifier": "every finite duel, every set of cards, every message content within the core's number formats", "why_tests_cant": "A simulation over unbounded histories of all kinds of messages.", "anchors": [{"file": "src/codec/edo9300_ocgcore_encode.cpp", "symbols": ["encode_one"]}, {"file": "include/ygopen/server/basic_encode_context.hpp", "symbols": ["parse"]}, {"file": "include/ygopen/client/parse_event.hpp", "symbols": ["parse_event"]}, {"file": "include/ygopen/client/parse_query.hpp", "symbols": ["parse_query"]}, {"file": "include/ygopen/client/frame.hpp", "symbols": ["BasicFrame"]}]}
{"id": "C74", "title": "Incomplete messages are never understood", "statement": "When bytes at the end of a message that would be understood are missing, the encoder reads past the end; it never reports success, another message or an unknown one. On any first part of a buffer it does the same as on the whole buffer or reads past the end; of two different messages that are understood neither begins the other.", "quantifier": "every message, context, buffer and cut position", "why_tests_cant": "All cuts of all messages of about 80 kinds.", "anchors": [{"file": "src/codec/edo9300_ocgcore_encode.cpp", "symbols": ["encode_one"]}]}
{"id": "C75", "title": "What is accepted is a message", "statement": "Bytes that are accepted (reported other than as unknown) are exactly the bytes of a message of the core, with these exceptions: sizes in front of query fields that are known are not looked at, the last query of a location may be longer than the total size, the numbers of cards of a tag swap count modulo 2^32, a reloaded zone may have 2^31 or more materials, and a name need not end with 0. The exceptions are all accepted, by every context.", "quantifier": "every buffer of arbitrary bytes and every context", "why_tests_cant": "All byte strings.", "anchors": [{"file": "src/codec/edo9300_ocgcore_encode.cpp", "symbols": ["encode_one", "encode_one_query"]}]}
{"id": "C76", "title": "A client's signals touch only the own seat", "statement": "A client's signals change nothing but the first seat of that client (in team and position order) and the room's phase; before the start, the one seat of a duelist is exactly what that duelist's own calls since entering made it: the last accepted deck, whether the last deck was accepted, and readiness.", "quantifier": "every reachable room, client and signal; every history for clients with one seat", "why_tests_cant": "Interference between clients over unbounded histories.", "anchors": [{"file": "include/ygopen/server/room.hpp", "symbols": ["visit", "update_deck", "ready_status", "find_peer_duelist_slot"]}]}
{"id": "C77", "title": "Decks stay private", "statement": "What a client receives does not depend on the contents of other clients' decks, only on whether each was accepted: exchanging those decks in a history for others that are judged alike gives the very same messages for this client, the same failures, and rooms that differ in those decks only.", "quantifier": "every history of calls, every client, every exchange of decks", "why_tests_cant": "Noninterference compares pairs of unbounded histories.", "anchors": [{"file": "include/ygopen/server/room.hpp", "symbols": ["visit", "update_deck", "send", "send_all_"]}]}
{"id": "C78", "title": "Which rooms can still start", "statement": "A room that is being configured can still be started by some future calls exactly when some deck is accepted by the validator, every seat whose client also has an earlier seat is already ready with an accepted deck (such a seat can never change again), the first-turn method is not a reserved enum value and the dice do not tie for ever. In particular a host that enters twice can make a room impossible to start.", "quantifier": "every reachable room being configured, all futures", "why_tests_cant": "Existence and impossibility over all futures of a room.", "anchors": [{"file": "include/ygopen/server/room.hpp", "symbols": ["enter", "visit", "can_start"]}]}
{"id": "C79", "title": "Watching a duel again", "statement": "A client with an undoable board that goes back and forth over what the server sent during a duel gets through whatever it does, and at every point of the duel it comes to it shows the duel as it was at that point: each pile, zone and material list, turn, phase, life points and chain. A card that is in the duel at two points is the same card on the client's board at both.", "quantifier": "every finite duel without shuffled set cards, chain links and tag swaps (these cannot be undone, see C68), every walk", "why_tests_cant": "Walks over unbounded histories compared with the duel itself.", "anchors": [{"file": "src/codec/edo9300_ocgcore_encode.cpp", "symbols": ["encode_one"]}, {"file": "include/ygopen/server/basic_encode_context.hpp", "symbols": ["parse"]}, {"file": "include/ygopen/client/parse_event.hpp", "symbols": ["parse_event"]}, {"file": "include/ygopen/client/undo_parse_event.hpp", "symbols": ["undo_parse_event"]}, {"file": "include/ygopen/client/frame_limbo.hpp", "symbols": ["LimboFrame"]}, {"file": "include/ygopen/client/undoable.hpp", "symbols": ["BasicUndoable"]}]}
{"id": "C80", "title": "Answers fail only in known cases", "statement": "Turning an answer into a response aborts exactly when the answer does not belong to the request or names no card, or no action with a card, where there should be one; nothing else fails. Answers that say nothing to the core (unset values, counters, phases that cannot be entered) leave the old response in the buffer; every other answer determines the response whatever was in the buffer.", "quantifier": "every request, answer and old content of the buffer", "why_tests_cant": "All combinations of requests, answers and buffer contents.", "anchors": [{"file": "src/codec/edo9300_ocgcore_decode.cpp", "symbols": ["decode_one_answer"]}]}
{"id": "C81", "title": "Which messages the server can translate", "statement": "The server's encoder gets through a message of the core exactly if it knows what it needs: the reason for a win was announced, players that draw or show their deck's top exist, the mask of a graveyard swapped with the deck has a bit for each tracked card, a material left behind belongs to a monster seen leaving, and cards that go away or into a pile come from a pile or a zone that exists.", "quantifier": "every server state and every message of the core", "why_tests_cant": "All states times all messages of about 80 kinds.", "anchors": [{"file": "src/codec/edo9300_ocgcore_encode.cpp", "symbols": ["encode_one"]}, {"file": "include/ygopen/server/basic_encode_context.hpp", "symbols": ["get_match_win_reason", "pile_size", "has_xyz_mat", "get_xyz_left"]}]}
{"id": "C82", "title": "The frame plays with lists", "statement": "A frame is a family of lists of cards and a counter: every call of its operations returns exactly when it can be made on such a table (places that exist, cards that are there, room for them, materials that do not get lost), and then leaves the table that list operations give; every call has at most one outcome. Shuffles stay within a row of zones. (Across rows the wrong zones are exchanged; see DESIGN.md.)", "quantifier": "every sequence of calls on a new frame, every reachable frame and call", "why_tests_cant": "Unbounded histories of calls with all arguments, exact success conditions.", "anchors": [{"file": "include/ygopen/client/frame.hpp", "symbols": ["BasicFrame", "card_add", "card_remove", "card_move", "card_shuffle", "card_swap", "pile_resize", "pile_splice", "pile_swap", "clear"]}]}
{"id": "C83", "title": "Events tell a story", "statement": "A sequence of events can be parsed by a new board exactly when it is a story that can be told on a table with cards: every call of every event can be made, a chain link resolves only if there is one, life points belong to one of two players and a state has life points for both. The board then shows how the story ends: cards, chain, turn, life points, phase and blocked zones; a board that can be undone shows the same.", "quantifier": "every finite sequence of events whose shuffles stay within a row", "why_tests_cant": "Unbounded histories of events, exact success conditions.", "anchors": [{"file": "include/ygopen/client/parse_event.hpp", "symbols": ["parse_event"]}, {"file": "include/ygopen/client/board.hpp", "symbols": ["BasicBoard"]}, {"file": "include/ygopen/client/frame.hpp", "symbols": ["BasicFrame"]}, {"file": "include/ygopen/client/frame_limbo.hpp", "symbols": ["LimboFrame"]}, {"file": "include/ygopen/client/undoable.hpp", "symbols": ["BasicUndoable"]}]}
{"id": "C84", "title": "Events from a server nobody trusts", "statement": "For arbitrary places (any controller, location and sequence number) it is known exactly which calls of the frame and which events are undefined behaviour rather than an abort: locations that are no pile and no row, players before the first, the known splices, swaps and shuffles, and beside the frame the life points of a third player, missing life points and resolving an empty chain. Checking that the places of an event exist is enough to be safe.", "quantifier": "every board, every event and every sequence of events with arbitrary contents; for undoable boards and frames every live one", "why_tests_cant": "All 32-bit values in all fields of all events.", "anchors": [{"file": "include/ygopen/client/parse_event.hpp", "symbols": ["parse_event"]}, {"file": "include/ygopen/client/frame.hpp", "symbols": ["has_card", "pile_", "zone_", "card_add", "card_remove", "card_move", "card_shuffle", "card_swap", "pile_resize", "pile_splice", "pile_swap"]}, {"file": "include/ygopen/client/frame_limbo.hpp", "symbols": ["pile_resize"]}, {"file": "include/ygopen/client/board.hpp", "symbols": ["lp"]}]}
{"id": "C85", "title": "Materials from anywhere", "statement": "When the core takes cards from anywhere, from piles, zones or under other monsters, as materials of a monster that then goes to a zone, asking and telling other things in between, the tracked board ends with the monster in the zone on exactly these cards in this order, the cards gone from where they were and everything else unchanged. (Expected to fail when the monster takes the zone of one with several materials; see DESIGN.md.)", "quantifier": "every tracked board, every number and mixture of sources, every message in between that concerns neither places nor values of cards", "why_tests_cant": "Unbounded lists of materials with positions that shift, spread over many messages.", "anchors": [{"file": "src/codec/edo9300_ocgcore_encode.cpp", "symbols": ["MSG_MOVE"]}, {"file": "include/ygopen/server/basic_encode_context.hpp", "symbols": ["xyz_mat_defer", "take_deferred_xyz_mat", "parse"]}, {"file": "include/ygopen/client/frame.hpp", "symbols": ["card_move"]}]}
{"id": "C86", "title": "The constants are flags", "statement": "Every named value of the flag enumerations (attribute, link arrow, location, phase, position, race, reason, status, type, query) is a single bit of its type and no two names of one enumeration share a bit. So values made of different names are different, testing for a name tells whether it is there, popcnt counts the names, any bits taken from such a value are names again, no named value is cut by the numbers the core sends and reads, and any choice among named races reaches the core.", "quantifier": "every list of names of every enumeration", "why_tests_cant": "2^32 combinations of names.", "anchors": [{"file": "include/ygopen/duel/constants/attribute.hpp", "symbols": ["Attribute"]}, {"file": "include/ygopen/duel/constants/link_arrow.hpp", "symbols": ["LinkArrow"]}, {"file": "include/ygopen/duel/constants/location.hpp", "symbols": ["Location", "is_pile", "is_zone"]}, {"file": "include/ygopen/duel/constants/phase.hpp", "symbols": ["Phase"]}, {"file": "include/ygopen/duel/constants/position.hpp", "symbols": ["Position"]}, {"file": "include/ygopen/duel/constants/race.hpp", "symbols": ["Race"]}, {"file": "include/ygopen/duel/constants/reason.hpp", "symbols": ["Reason"]}, {"file": "include/ygopen/duel/constants/status.hpp", "symbols": ["Status"]}, {"file": "include/ygopen/duel/constants/type.hpp", "symbols": ["Type"]}, {"file": "include/ygopen/client/queries.inl", "symbols": ["X"]}, {"file": "include/ygopen/bit.hpp", "symbols": ["popcnt"]}]}
{"id": "C87", "title": "Numbers stay within their types", "statement": "Whatever bytes the server is fed with, every number in every message it sends is one that the protobuf field can hold, and so is every number of the tracked board and of the recorded card values; differences that would be negative and sums that would be too big wrap around, nothing else is ever out of range. The same holds for a client that is sent such messages by anyone, in any order, with and without query caching.", "quantifier": "every finite sequence of up to 2^31 arbitrary byte buffers; every sequence of messages", "why_tests_cant": "Unbounded histories of arbitrary bytes, dozens of numeric fields.", "anchors": [{"file": "src/codec/edo9300_ocgcore_encode.cpp", "symbols": ["encode_one", "encode_one_query"]}, {"file": "include/ygopen/server/basic_encode_context.hpp", "symbols": ["parse"]}, {"file": "include/ygopen/client/parse_event.hpp", "symbols": ["parse_event"]}, {"file": "include/ygopen/client/parse_query.hpp", "symbols": ["parse_query"]}, {"file": "include/ygopen/proto/duel_msg.proto", "symbols": ["Msg"]}, {"file": "include/ygopen/proto/duel_data.proto", "symbols": ["Place"]}]}
{"id": "C88", "title": "Frames in builds without asserts", "statement": "With NDEBUG, calls and events that asserts let pass do the same as with them, and no call or event stops any more: it returns or is undefined, and it is known exactly which. Of the calls asserts stop, exactly those that write over a card, carry materials onto materials, swap an empty zone or ignore a material index return. Whatever is called, no card lies in two places and every card that lies somewhere is alive; cards that are written over are alive without lying anywhere for ever, even after clear; null pointers get into piles and materials exactly by swapping an empty zone with such a place.", "quantifier": "every sequence of calls and events, every reachable frame", "why_tests_cant": "Tests run with asserts; histories and boards are unbounded.", "anchors": [{"file": "include/ygopen/client/frame.hpp", "symbols": ["card_add", "card_remove", "card_move", "card_shuffle", "card_swap", "pile_resize", "pile_splice", "pile_swap", "clear", "destruct_card"]}, {"file": "include/ygopen/client/board.hpp", "symbols": ["lp"]}, {"file": "include/ygopen/client/parse_event.hpp", "symbols": ["parse_event"]}]}
{"id": "C89", "title": "Undoable boards in builds without asserts", "statement": "With NDEBUG, a board that can be undone does what it does with asserts wherever these hold. It follows the events of a duel exactly if piles shrink by at least half and then shows the server's board; going back and forth in any way shows the server's earlier boards. Whatever is parsed or undone in any order, every card on the board and in the log is alive and every value can be read; undoing values is undefined exactly when more was undone than assigned. (Expected to fail for chains, for going back over shuffles and over piles that shrink; see DESIGN.md.)", "quantifier": "every sequence of events and of moves back and forth, every sequence of calls on the frame", "why_tests_cant": "Tests run with asserts and there are none for undoing; histories are unbounded.", "anchors": [{"file": "include/ygopen/client/frame_limbo.hpp", "symbols": ["advance_op_", "regress_op_", "card_add", "card_remove", "pile_resize", "clear", "undo_card_add", "undo_card_remove", "undo_pile_resize", "undo_clear", "undo_card_shuffle", "erase_history"]}, {"file": "include/ygopen/client/undoable.hpp", "symbols": ["BasicUndoable", "undo"]}, {"file": "include/ygopen/client/undo_parse_event.hpp", "symbols": ["undo_parse_event"]}, {"file": "include/ygopen/client/parse_event.hpp", "symbols": ["parse_event"]}]}
{"id": "C90", "title": "Servers, clients and answers in builds without asserts", "statement": "With NDEBUG, a server does what one with asserts does wherever that gets on. Whatever bytes the core sends, it never stops: it goes on, is undefined, or hangs with 2^32 cards in a graveyard; its cards lie in one place each, are alive, and new ones are blank. Clients, with or without asserts, that get through its messages show its board and what it knows about each card. It gets further than one with asserts only by a selection that offers no cards, which becomes a request whose kind is decided by unrelated bytes, or by one of the calls that frames tolerate. Answers are undefined exactly if no card is named in a selection card by card; misplaced answers become responses the core reads as something nobody chose.", "quantifier": "every finite sequence of arbitrary byte buffers; every request and answer", "why_tests_cant": "Tests run with asserts; all byte strings and unbounded histories.", "anchors": [{"file": "src/codec/edo9300_ocgcore_encode.cpp", "symbols": ["encode_one", "encode_one_query"]}, {"file": "src/codec/edo9300_ocgcore_decode.cpp", "symbols": ["decode_one_answer"]}, {"file": "include/ygopen/server/basic_encode_context.hpp", "symbols": ["parse", "pile_size", "has_xyz_mat", "get_xyz_left", "get_match_win_reason"]}, {"file": "include/ygopen/client/parse_event.hpp", "symbols": ["parse_event"]}, {"file": "include/ygopen/client/parse_query.hpp", "symbols": ["parse_query"]}, {"file": "include/ygopen/client/frame.hpp", "symbols": ["card_", "pile_", "zone_"]}]}
{"id": "C91", "title": "Rooms in builds without asserts", "statement": "With NDEBUG, calls that asserts let pass do the same, and no call stops. The only call on which the builds differ is the host entering again when no seat is left: the host then watches as well, everyone is told so, and the host gets all later messages at least twice. Every history leads to the seats, options and phase of a history with asserts that leaves out such calls, so nobody gets a seat or starts a duel that would not otherwise; everyone present, a watching host too, knows the room by following the messages.", "quantifier": "every history of calls by any clients, every validator and random source", "why_tests_cant": "Tests run with asserts; unbounded histories.", "anchors": [{"file": "include/ygopen/server/room.hpp", "symbols": ["enter", "on_client_enter_", "visit", "BasicRoom", "send_all_"]}]}
{"id": "C92", "title": "Messages survive the wire", "statement": "Any message that fits the classes generated from the .proto files is read back from the bytes it is written to; in particular every message the server sends and every answer of a client arrives as it was, so a client that gets the server's messages as bytes has the server's board. Whatever bytes arrive, what can be read from them only has numbers that the fields can hold. Fields of later versions, of any kind and in groups, are passed over exactly if groups end as they began and nest no deeper than the library allows, and reading two pieces together is reading the second into what the first gave. The limit on how deep messages nest never matters for what was written, nor for fewer than 202 bytes.", "quantifier": "every object of every message type below 2 GiB, every byte string, every history of the server", "why_tests_cant": "All messages and all byte strings.", "anchors": [{"file": "include/ygopen/proto/duel_data.proto", "symbols": ["Place", "Chain", "FieldShape", "ChainStatus"]}, {"file": "include/ygopen/proto/duel_msg.proto", "symbols": ["Msg"]}, {"file": "include/ygopen/proto/duel_answer.proto", "symbols": ["Answer"]}, {"file": "src/codec/edo9300_ocgcore_encode.cpp", "symbols": ["encode_one"]}, {"file": "include/ygopen/server/basic_encode_context.hpp", "symbols": ["parse"]}]}
{"id": "C93", "title": "Rooms over the wire", "statement": "Every signal of a client to a room and every event of a room arrives as it was when sent as protobuf bytes, if its numbers fit its fields; and whatever the clients do, a room only sends numbers that do. So everyone in a room knows the options, every duelist and the number of spectators by following the bytes it is sent. Whatever bytes clients and servers are sent, the signals and events read from them, and the decks the room keeps, only have numbers that their fields can hold.", "quantifier": "every history of fewer than 2^32 calls by any clients, every validator and random source, every byte string", "why_tests_cant": "Unbounded histories and all byte strings.", "anchors": [{"file": "include/ygopen/proto/room.proto", "symbols": ["Event", "Signal", "Options", "Duelist"]}, {"file": "include/ygopen/proto/deck.proto", "symbols": ["Deck", "DeckError"]}, {"file": "include/ygopen/proto/user.proto", "symbols": ["User"]}, {"file": "include/ygopen/proto/client_msg.proto", "symbols": ["ClientMsg"]}, {"file": "include/ygopen/proto/server_msg.proto", "symbols": ["ServerMsg"]}, {"file": "include/ygopen/server/room.hpp", "symbols": ["enter", "visit", "send_all_", "on_client_enter_", "on_client_signal_"]}]}
{"id": "C94", "title": "Replays replay the duel", "statement": "A replay of the server's messages, saved as protobuf bytes and loaded, is what was saved, and following it ends with the server's board and knowledge. It can be saved in pieces written one after the other, which load as one replay. Whatever a file contains, a replay loaded from it only has numbers that the fields can hold, and so has a client that follows it.", "quantifier": "every history of the server, every division into pieces, every byte string", "why_tests_cant": "Unbounded histories and all byte strings.", "anchors": [{"file": "include/ygopen/proto/replay.proto", "symbols": ["Replay", "Stream", "Block"]}, {"file": "include/ygopen/proto/duel_msg.proto", "symbols": ["Msg"]}, {"file": "src/codec/edo9300_ocgcore_encode.cpp", "symbols": ["encode_one"]}, {"file": "include/ygopen/server/basic_encode_context.hpp", "symbols": ["parse"]}]}
{"id": "C95", "title": "Undoable objects are values", "statement": "Whatever a program does with undoable objects, constructing, assigning, undoing, copying, moving, swapping and destroying them in any order, each object behaves as a value of its own with a past and a future; moving, swapping and growing vectors keep both, and no node of a list leaks. (Expected to fail for copies, whose iterator points into the list of the other object; see DESIGN.md.)", "quantifier": "every program over any number of objects, every value type", "why_tests_cant": "Unbounded programs; tests have one object; dangling iterators need not crash.", "anchors": [{"file": "include/ygopen/client/undoable.hpp", "symbols": ["BasicUndoable", "values_", "current_", "operator=", "undo"]}]}
{"id": "C96", "title": "Messages are not much bigger than what the core sent", "statement": "The protobuf bytes of the messages the server makes are bounded by a constant factor times the bytes the core gave, each message by its own buffer and what was put off before; so, with buffers of up to a MiB, every message arrives and clients have the server's board. (Expected to fail for reloads, whose counts of materials are believed: a hundred bytes can ask for a message of 8 GiB, which nobody can receive; see DESIGN.md.)", "quantifier": "every finite sequence of arbitrary byte buffers", "why_tests_cant": "All byte strings and unbounded histories; tests do not measure sizes.", "anchors": [{"file": "src/codec/edo9300_ocgcore_encode.cpp", "symbols": ["encode_one", "encode_one_query", "MSG_RELOAD_FIELD"]}, {"file": "include/ygopen/server/basic_encode_context.hpp", "symbols": ["xyz_mat_defer", "take_deferred_xyz_mat", "parse"]}, {"file": "include/ygopen/proto/duel_msg.proto", "symbols": ["Msg"]}]}
{"id": "C97", "title": "Frames are values", "statement": "Whatever a program does with any number of frames, constructing, calling, writing to cards, copying, moving, swapping and destroying them in any order, each frame behaves as a value of its own: every place reads what it would on a frame that is alone, every call fails as it would, no card belongs to two frames or outlives its frame, and a moved frame is empty. (Expected to fail for copies, which show the cards of the other frame, and for moved frames, whose zones keep pointing to their cards; see DESIGN.md.)", "quantifier": "every program over any number of frames, every card type", "why_tests_cant": "Unbounded programs; tests have one frame; dangling pointers need not crash.", "anchors": [{"file": "include/ygopen/client/frame.hpp", "symbols": ["BasicFrame", "cards_", "Zone", "card_", "construct_card", "destruct_card", "clear", "card_remove"]}]}
{"id": "C98", "title": "No card is lost and none is made twice", "statement": "Events other than board states, board exchanges, additions and removals leave the same cards on a board, on plain and on undoable boards and when undone. So do all messages of the core other than the start, a reloaded field, a change of players, and moves from or to nowhere. The account of the others is exact: the cards on the table and those the message takes away are as many as those before and those it brings. So after the start of a duel the cards are those of the four decks until one of the others comes, and no client ever has more cards than were named to it. Counts are believed: 22 bytes make any number of cards below 2^32.", "quantifier": "every reachable board, every message that can be followed, every sequence of them", "why_tests_cant": "Counts over whole duels with unbounded piles.", "anchors": [{"file": "include/ygopen/client/parse_event.hpp", "symbols": ["parse_event"]}, {"file": "include/ygopen/client/undo_parse_event.hpp", "symbols": ["undo_parse_event"]}, {"file": "src/codec/edo9300_ocgcore_encode.cpp", "symbols": ["encode_one"]}, {"file": "include/ygopen/client/frame.hpp", "symbols": ["card_move", "card_swap", "card_shuffle", "pile_splice", "pile_swap", "pile_resize", "clear"]}]}
{"id": "C99", "title": "Questions and answers over the wire", "statement": "A client that gets a question of the core as protobuf bytes and sends its answer as protobuf bytes decides what the core understands. Whatever bytes a client sends for an answer, to whatever question: they cannot be read, or make a response, or abort the server, and it is known exactly which; nothing is undefined. Four bytes abort a server with asserts whatever it asked for (without asserts they are undefined exactly where cards are selected one by one), no bytes leave the last response in the buffer, and six bytes from a server are undefined behaviour for a new client.", "quantifier": "every question, every answer, every byte string", "why_tests_cant": "All byte strings and all questions.", "anchors": [{"file": "src/codec/edo9300_ocgcore_encode.cpp", "symbols": ["encode_one"]}, {"file": "src/codec/edo9300_ocgcore_decode.cpp", "symbols": ["decode_one_answer"]}, {"file": "include/ygopen/proto/duel_answer.proto", "symbols": ["Answer"]}, {"file": "include/ygopen/proto/duel_msg.proto", "symbols": ["Msg"]}]}
{"id": "C100", "title": "The core takes no decision the client did not make", "statement": "From the response made of a client's answer the core takes the very decision that the client made, and none if what the client answered was not offered. (Expected to fail for answers that are not to the point: answers to another question, actions of another phase, which are taken for other actions, several phases at once, indexes beyond 16 bits, more than one card where one is to be named, an order that is not set, and finishing what can only be cancelled; see DESIGN.md.)", "quantifier": "every question and every answer, offered or not", "why_tests_cant": "All combinations of questions and answers with all numbers.", "anchors": [{"file": "src/codec/edo9300_ocgcore_decode.cpp", "symbols": ["decode_one_answer"]}, {"file": "src/codec/edo9300_ocgcore_encode.cpp", "symbols": ["encode_one"]}]}
{"id": "C101", "title": "Card data can be undone and repeated", "statement": "A client whose cards have undoable members and that keeps what parse_query reported can go back and forth over events and queries as it likes: undoing, for each query, the given members that were not reported as hits shows the board and all card data as they were at every position, and parsing again reports and shows the same as before; queries never add an obstacle to those of the events.", "quantifier": "every finite mixture of queries, cached or not, and of events, every way of moving over it", "why_tests_cant": "The report is only useful together with undo; tests look at the report of one query on a plain card, not at what can be done with it.", "anchors": [{"file": "include/ygopen/client/parse_query.hpp", "symbols": ["parse_query", "QueryCacheHit"]}, {"file": "include/ygopen/client/undoable.hpp", "symbols": ["operator=", "operator==", "undo", "assign"]}, {"file": "include/ygopen/client/card.hpp", "symbols": ["BasicCard"]}, {"file": "include/ygopen/client/undo_parse_event.hpp", "symbols": ["undo_parse_event"]}]}
{"id": "C102", "title": "The room's rules about decks are enforced", "statement": "Every deck in a started duel keeps what the options of the room ask of decks: the limits on the number of cards, and the named or custom banlist. (Expected to fail: the validator is only given the name of a banlist, so limits and custom banlists make no difference to anything but what newcomers are told; see DESIGN.md.)", "quantifier": "every history of calls by any clients, all options and every validator", "why_tests_cant": "That something has no influence compares pairs of unbounded histories.", "anchors": [{"file": "include/ygopen/server/room.hpp", "symbols": ["DeckValidator", "check", "on_client_signal_", "options_"]}, {"file": "include/ygopen/proto/room.proto", "symbols": ["Options"]}, {"file": "include/ygopen/proto/deck.proto", "symbols": ["DeckLimits", "DeckError"]}, {"file": "include/ygopen/proto/banlist.proto", "symbols": ["Banlist"]}, {"file": "include/ygopen/proto/deck.hpp", "symbols": ["validate_deck_limits", "validate_deck_excessive_copies"]}]}
{"id": "C103", "title": "Events do not tell which cards they are about", "statement": "What the server tells about a duel in events, and the board it tracks, are the same whatever cards the duel is played with: exchanging the codes in the core's messages and what its queries say about cards changes nothing else than codes in questions to the player asked and the contents of queries. The same players are asked, queries are about the same places, and failures are the same. (Descriptions of effects name cards and are passed on as they are.)", "quantifier": "every finite sequence of messages of the core and every exchange of the cards in it", "why_tests_cant": "Noninterference compares pairs of unbounded histories.", "anchors": [{"file": "src/codec/edo9300_ocgcore_encode.cpp", "symbols": ["encode_one", "encode_one_query", "skip"]}, {"file": "include/ygopen/server/basic_encode_context.hpp", "symbols": ["parse"]}, {"file": "include/ygopen/client/parse_event.hpp", "symbols": ["parse_event"]}, {"file": "include/ygopen/client/parse_query.hpp", "symbols": ["parse_query"]}]}
{"id": "C104", "title": "What is passed on of the core's messages", "statement": "Two messages of the core are translated to the same message exactly if they only differ in what is listed as lost: codes in prompts about actions and in what is shown or drawn, positions, links of the chain by number, hints, the twelve highest bits of descriptions, mask bits 7 and 23, who chose, and the kinds of message that are told alike. What is left is itself a message with that translation, and nothing more can be taken away from it. In particular setting and cancelling a target are told alike, and so are adding and removing counters of any kind and number and changes of position. Of a query the last value of each field, all targets, all counters and the last list of materials are left, in whatever order and with whatever other fields they came; empty slots are not told but count for the places of the others.", "quantifier": "every pair of messages that the core can write and that are translated on their own, every pair of contexts; messages that need the sizes of decks in one context", "why_tests_cant": "All pairs of messages with all contents: that nothing else gets lost is injectivity of the translation.", "anchors": [{"file": "src/codec/edo9300_ocgcore_encode.cpp", "symbols": ["encode_one", "encode_one_query", "MSG_CARD_TARGET", "MSG_CANCEL_TARGET", "MSG_ADD_COUNTER", "MSG_REMOVE_COUNTER"]}]}
{"id": "C105", "title": "The order of events that have nothing to do with each other", "statement": "If two sequences of events differ only in the order of events that name different piles and zones and are about different values, a board parses the one exactly if it parses the other, and ends in the same game: the same cards in the same places, except that cards created on the way may have their names exchanged. Events about the same pile cannot be exchanged in general.", "quantifier": "every reachable board, every sequence of tidy events and every reordering by exchanging neighbours that are apart", "why_tests_cant": "All pairs of events times all boards times all reorderings.", "anchors": [{"file": "include/ygopen/client/parse_event.hpp", "symbols": ["parse_event"]}, {"file": "include/ygopen/client/frame.hpp", "symbols": ["card_add", "card_remove", "card_move", "card_swap", "card_shuffle", "pile_resize", "pile_splice", "pile_swap"]}]}
{"id": "C106", "title": "Both players are treated alike", "statement": "Exchanging the two players in everything that goes in exchanges them in everything that comes out and changes nothing else: calls of frames, events and their undoing, queries, messages of the core and answers to it have the same outcome and the same failures with the players exchanged. Messages about both sides of the field at once list the same changes, with the sides in the other order. So of two duels that are each other's mirror image, either both can be followed or none, and everything told about the one is the mirror image of what is told about the other.", "quantifier": "every reachable table, board, client and server, every undoable one, every call, event, query, message and answer", "why_tests_cant": "All states times all inputs in pairs; tests are written for one of the players.", "anchors": [{"file": "include/ygopen/client/frame.hpp", "symbols": ["BasicFrame", "pile_", "zone_"]}, {"file": "include/ygopen/client/frame_limbo.hpp", "symbols": ["LimboFrame"]}, {"file": "include/ygopen/client/parse_event.hpp", "symbols": ["parse_event"]}, {"file": "include/ygopen/client/undo_parse_event.hpp", "symbols": ["undo_parse_event"]}, {"file": "include/ygopen/client/parse_query.hpp", "symbols": ["parse_query"]}, {"file": "src/codec/edo9300_ocgcore_encode.cpp", "symbols": ["encode_one", "encode_one_query"]}, {"file": "include/ygopen/server/basic_encode_context.hpp", "symbols": ["parse", "get_xyz_left", "pile_size"]}, {"file": "src/codec/edo9300_ocgcore_decode.cpp", "symbols": ["decode_one_answer"]}]}
{"id": "C107", "title": "Only the number of cards matters", "statement": "What a server sends, whether and how anything fails, and how many cards lie where do not depend on which cards lie where, on what is known about them, on whose turn it is thought to be or on which zones are thought to be blocked: tables, boards, servers and clients that may have mixed up all of this, but have as many cards in each place, the same chain, turn, phase and life points and the same notes about materials, do the same for ever. So a client that mixes up cards is never found out by a failure.", "quantifier": "every pair of reachable tables, boards, servers and clients that are alike, every sequence of calls, events, queries and arbitrary byte buffers", "why_tests_cant": "Noninterference compares pairs of unbounded histories.", "anchors": [{"file": "include/ygopen/client/frame.hpp", "symbols": ["BasicFrame"]}, {"file": "include/ygopen/client/parse_event.hpp", "symbols": ["parse_event"]}, {"file": "include/ygopen/client/parse_query.hpp", "symbols": ["parse_query"]}, {"file": "src/codec/edo9300_ocgcore_encode.cpp", "symbols": ["encode_one"]}, {"file": "include/ygopen/server/basic_encode_context.hpp", "symbols": ["pile_size", "has_xyz_mat", "get_xyz_left", "parse"]}]}
{"id": "C108", "title": "Any context that answers alike will do", "statement": "encode_one knows the duel only through IEncodeContext: for arbitrary buffers, contexts of any two classes that give the same answers (sizes of decks, hands and graveyards, whether something in a zone has materials, where something came from, the reason for winning the match, the deferred materials) lead to the same failure or the same result and still answer alike afterwards, also over whole histories; for every first byte but seven the context is neither asked nor told anything, and each of these seven kinds does need it.", "quantifier": "all context implementations, all buffers, all histories", "why_tests_cant": "Test doubles for a context sample a few implementations; independence from everything else a context knows needs a relation between arbitrary ones.", "anchors": [{"file": "src/codec/edo9300_ocgcore_encode.cpp", "symbols": ["encode_one"]}, {"file": "include/ygopen/codec/encode_common.hpp", "symbols": ["IEncodeContext"]}, {"file": "include/ygopen/server/basic_encode_context.hpp", "symbols": ["BasicEncodeContext"]}]}
{"id": "C109", "title": "What a client shows depends only on what it showed before", "statement": "Two clients that look alike (the same data for the card in each place, the same chain, turn, turn player, life points, phase and blocked zones) look alike after any further messages, or fail in the same way, whatever they followed before: neither the identities of card objects, nor leftovers about cards that are gone, nor looking values up before writing them ever becomes visible.", "quantifier": "all histories of both clients, all further messages, both cache settings", "why_tests_cant": "Leaks of identities or stale data show only after particular histories; that none exists is a bisimulation over all histories.", "anchors": [{"file": "include/ygopen/client/parse_event.hpp", "symbols": ["parse_event"]}, {"file": "include/ygopen/client/parse_query.hpp", "symbols": ["parse_query"]}, {"file": "include/ygopen/client/frame.hpp", "symbols": ["BasicFrame"]}, {"file": "include/ygopen/client/card.hpp", "symbols": ["BasicCard"]}]}
{"id": "C110", "title": "A late client can catch up in four messages", "statement": "For every state a client can reach there are four messages (turn player, board state, phase, blocked zones with everything known about each card) that bring any other client, whatever it followed before, to look like it; from then on both look alike whatever follows, in particular a spectator who comes late to a duel that is encoded sees in the end what the server tracks. Conversely the tables clients can show are exactly those with at most one card per zone slot, with any data and any values beside the table, and four messages suffice for each. In general no fewer than four will do. The messages fit their classes and survive the wire unless there were 2^31 turns or 2^31 cards in a place.", "quantifier": "all reachable client states, all prior histories of the late client, all continuations", "why_tests_cant": "Whether the event vocabulary can express every reachable state is a statement about all states; tests would try a few boards.", "anchors": [{"file": "include/ygopen/client/parse_event.hpp", "symbols": ["parse_event"]}, {"file": "include/ygopen/client/parse_query.hpp", "symbols": ["parse_query"]}, {"file": "include/ygopen/client/frame.hpp", "symbols": ["BasicFrame"]}, {"file": "include/ygopen/proto/duel_msg.proto", "symbols": ["State", "Query"]}]}
{"id": "C111", "title": "A server can hand over to another one", "statement": "A second server that is told four messages made from what a first one tracks, and given the three things noted beside the board (reason for the end of the match, where overlays came from, deferred materials), sends exactly what the first would send for any further buffers, or fails in the same way, and goes on showing the same; if nothing was noted the messages alone are enough, otherwise they are not.", "quantifier": "all buffers before and after, all reachable contexts", "why_tests_cant": "Equality of all future output needs a bisimulation between contexts; tests compare a few continuations.", "anchors": [{"file": "include/ygopen/server/basic_encode_context.hpp", "symbols": ["BasicEncodeContext"]}, {"file": "src/codec/edo9300_ocgcore_encode.cpp", "symbols": ["encode_one"]}, {"file": "include/ygopen/client/parse_event.hpp", "symbols": ["parse_event"]}, {"file": "include/ygopen/client/parse_query.hpp", "symbols": ["parse_query"]}]}
{"id": "C112", "title": "What is told about cards adds up", "statement": "Queries for one card do what one query does that gives every value either gives, the later where both do; queries may come in any order unless two give the same field of the same card; after any queries each field of each card has the value given last or the one it had; repeating queries changes nothing.", "quantifier": "all tables, stores, query lists and permutations, both cache settings", "why_tests_cant": "Order dependence shows only for particular pairs of fields and cards; tests fix one order.", "anchors": [{"file": "include/ygopen/client/parse_query.hpp", "symbols": ["parse_query"]}, {"file": "include/ygopen/client/queries.inl", "symbols": ["X"]}, {"file": "include/ygopen/client/card.hpp", "symbols": ["BasicCard"]}]}
{"id": "C113", "title": "Another way after going back", "statement": "A client that keeps its game undoable shows what a plain client shows that was only told what was not undone, also when it goes back and is then told something else than what it undid.", "quantifier": "all walks of parsing any event and undoing the last one; all walks of frame calls, undos and erase_history", "why_tests_cant": "The log ahead of the cursor depends on everything undone before; a test tries one branch after one undo.", "anchors": [{"file": "include/ygopen/client/frame_limbo.hpp", "symbols": ["LimboFrame", "erase_history", "card_add", "card_remove", "pile_resize", "clear"]}, {"file": "include/ygopen/client/undoable.hpp", "symbols": ["BasicUndoable"]}, {"file": "include/ygopen/client/parse_event.hpp", "symbols": ["parse_event"]}, {"file": "include/ygopen/client/undo_parse_event.hpp", "symbols": ["undo_parse_event"]}]}
{"id": "C114", "title": "The next duel of a match", "statement": "A server or client that has followed a duel handles the start of the next one, and everything after it, as one that has followed nothing: the same is sent, the same shown, and failures are the same.", "quantifier": "all histories of buffers or messages, all start messages with any trailing bytes (for clients any state event), all buffers or messages after them, with and without the cache", "why_tests_cant": "Everything kept from the whole previous duel would have to be shown not to matter to everything that can happen later; a test restarts one duel after one other.", "anchors": [{"file": "src/codec/edo9300_ocgcore_encode.cpp", "symbols": ["encode_one"]}, {"file": "include/ygopen/server/basic_encode_context.hpp", "symbols": ["BasicEncodeContext", "parse"]}, {"file": "include/ygopen/client/parse_event.hpp", "symbols": ["parse_event"]}, {"file": "include/ygopen/client/frame.hpp", "symbols": ["clear", "pile_resize"]}]}
{"id": "C115", "title": "Clients at their own pace", "statement": "Any number of clients come and go and take the server's messages at their own pace, with late ones catching up first, while other servers may take over: no client ever gets stuck; a client shows what the server tracked as many messages ago as wait for it; clients for which nothing waits show what the server tracks; and what is sent is what one server alone would have sent.", "quantifier": "all interleavings of buffers from the core, clients coming (after any earlier history, with and without the cache), going and taking messages, and servers taking over", "why_tests_cant": "The states are interleavings of any length with any number of clients; a test runs one schedule.", "anchors": [{"file": "src/codec/edo9300_ocgcore_encode.cpp", "symbols": ["encode_one"]}, {"file": "include/ygopen/server/basic_encode_context.hpp", "symbols": ["BasicEncodeContext", "parse"]}, {"file": "include/ygopen/client/parse_event.hpp", "symbols": ["parse_event"]}, {"file": "include/ygopen/client/parse_query.hpp", "symbols": ["parse_query"]}, {"file": "include/ygopen/client/board.hpp", "symbols": ["Board"]}]}
{"id": "C116", "title": "The order in which players get ready does not matter", "statement": "Signals of different clients in a room, other than the host's start, may arrive in any order among each other: nothing fails, the room becomes the same and to each signal exactly the same is sent. With newcomers among them, as long as these come in the same order, the room becomes the same or the same failure happens; then everybody present knows the same and whatever comes next has the same effect. The order of newcomers and of the start does matter.", "quantifier": "all rooms that can come about, all lists of calls by any number of clients and all reorderings that keep each client's own order", "why_tests_cant": "Interleavings grow exponentially in the number of signals; a test runs one order.", "anchors": [{"file": "include/ygopen/server/room.hpp", "symbols": ["enter", "visit", "find_peer_duelist_slot", "on_client_enter_", "on_client_signal_"]}]}
{"id": "C117", "title": "Exactly which tables a server can track", "statement": "What a server tracks after well-formed core messages is: any number of cards in each pile and below each zone, at most one card in each zone, none in the skill zones; any 32-bit turn number and life points, any one-byte player, two-byte phase and chain of links; and as blocked zones those of some mask. Each of these can come about, whatever the server was fed with before. Whatever bytes it is fed with, the skill zones stay empty, as they do with clients that follow only servers' messages, although clients are able to show cards there.", "quantifier": "all tables, scores and masks; all byte sequences fed to the server; all lists of messages of servers, in any order", "why_tests_cant": "The set of states that can be reached is infinite; tests visit a few of them and can not show that a zone is never used.", "anchors": [{"file": "src/codec/edo9300_ocgcore_encode.cpp", "symbols": ["MSG_MOVE", "MSG_START", "MSG_FIELD_DISABLED", "MSG_NEW_TURN", "MSG_CHAINING"]}, {"file": "include/ygopen/client/parse_event.hpp", "symbols": ["parse_event"]}, {"file": "include/ygopen/client/board.hpp", "symbols": ["Board"]}]}
{"id": "C118", "title": "Any rearrangement can be told by moves", "statement": "Moves of single cards lead from a table to every table with exactly the same cards (at most one per zone) and to no other, with at most two moves per card on the table. A client can be told so in a single message and keeps everything else it knows; a server that has put no material off can be told so by MSG_MOVEs. Exchanges, shuffles, splices and exchanges of piles can always be replaced by moves of single cards.", "quantifier": "all tables, clients and servers, all arrangements of the cards", "why_tests_cant": "The number of arrangements grows factorially with the number of cards.", "anchors": [{"file": "include/ygopen/client/frame.hpp", "symbols": ["card_move", "card_swap", "card_shuffle", "pile_splice", "pile_swap"]}, {"file": "include/ygopen/client/parse_event.hpp", "symbols": ["parse_event"]}, {"file": "src/codec/edo9300_ocgcore_encode.cpp", "symbols": ["MSG_MOVE"]}]}
{"id": "C119", "title": "Exactly which rooms can come about", "statement": "A room state is reached by some history of calls exactly if: both team sizes are 1 to 3; in each team the taken seats are the first ones; the host has the first seat of team 0; team 0 is at most one duelist ahead and team 1 never, unless the other one is full; free seats are blank; a taken seat has an accepted deck or none, is ready only if the validator accepts some deck, and is ready without a deck only if it also refuses some; seats of a client that the room finds elsewhere first, and that were taken later, are untouched; spectators (never the host) are there only if all seats are taken; before the start no random number has been used; after it every duelist is ready with a deck, and the one asked to decide and the numbers used are those the options and the random stream determine.", "quantifier": "all rooms, options, histories, validators and random streams", "why_tests_cant": "The histories that lead to a room are unboundedly many; tests show that some rooms occur, not that all others do not.", "anchors": [{"file": "include/ygopen/server/room.hpp", "symbols": ["enter", "on_client_enter_", "find_empty_duelist_slot", "find_peer_duelist_slot", "on_client_signal_", "on_enter_state_", "can_start"]}]}
{"id": "C120", "title": "Exactly what a server or client can come to show", "statement": "Some buffers of bytes bring a fresh server to show a given picture - what is known of each card, place by place, the score and the blocked zones - exactly if: no zone has more than one card and the skill zones none; every value known of a card is one the core has words for (32-bit numbers, 64-bit race, one-byte owner, places as the core names them, 16-bit counters); and so are score and blocked zones. The same holds for clients that follow messages of servers, whichever and in whatever order, with or without query cache. A server gets to any such picture from whatever it was fed with before, by messages as the core writes them.", "quantifier": "all pictures, all buffers, all servers and clients", "why_tests_cant": "That something is never shown, whatever bytes come, can not be tested; and that everything else can be shown takes a construction for every picture.", "anchors": [{"file": "src/codec/edo9300_ocgcore_encode.cpp", "symbols": ["encode_one", "encode_one_query"]}, {"file": "include/ygopen/client/parse_event.hpp", "symbols": ["parse_event"]}, {"file": "include/ygopen/client/parse_query.hpp", "symbols": ["parse_query"]}, {"file": "include/ygopen/server/basic_encode_context.hpp", "symbols": ["BasicEncodeContext"]}, {"file": "include/ygopen/client/frame.hpp", "symbols": ["BasicFrame"]}]}
{"id": "C121", "title": "A room forgets what it has said", "statement": "What a room keeps in memory is bounded, however often its clients repeat a request that changes nothing. (Expected to fail: every event is made in an arena of the room that is never reset, so that the room keeps each one it ever sent. Kept are at most one event for each call, one more for each call to enter, and three; a call that sends nothing keeps nothing; every kept event but the first was sent to someone. The arena can be made to grow beyond any bound exactly while the room is being configured or, after the start, if the host chooses who goes first - by one client, who sends the same deck or the same answer again and again while the room stays as it is.)", "quantifier": "all rooms, validators, generators, options and histories of calls", "why_tests_cant": "Tests make a few calls and never look at the arena; that no bound holds is about all histories.", "anchors": [{"file": "include/ygopen/server/room.hpp", "symbols": ["event_", "arena_", "BasicRoom", "on_client_enter_", "on_client_signal_", "on_enter_state_"]}]}
{"id": "C122", "title": "Materials left behind are taken from where their monster was", "statement": "When the core reports a material of a monster that has left the field, by the place in the pile where the monster is by then, the server takes it from the zone that this monster left. (Expected to fail: the server notes which zone a card came from under the place in the pile to which it went, and never corrects the note. Exactly: the material is taken from the zone that was noted last for that place, and if none was, the end of a map is dereferenced. The right zone is found as long as the monster stays where it went; when another card is put beneath it, or one beneath it leaves, its materials are lost or those of another monster are taken. Notes are made whenever a card leaves a zone with materials, for detached materials too; none is ever dropped; those about monsters that cease to exist are never read.)", "quantifier": "all histories of messages, all places, all buffers that follow", "why_tests_cant": "Tests let one monster leave and detach its materials at once; where a note is wrong depends on the whole history between.", "anchors": [{"file": "include/ygopen/server/basic_encode_context.hpp", "symbols": ["xyz_left", "get_xyz_left", "has_xyz_mat", "left_"]}, {"file": "src/codec/edo9300_ocgcore_encode.cpp", "symbols": ["encode_one", "MSG_MOVE"]}]}
{"id": "C123", "title": "Materials of a monster that left can go anywhere", "statement": "A material whose monster has left the field, of which the core speaks by the place of the monster in its pile, can go wherever a card can go: to a pile, beneath another monster, into a zone, out of existence; the server then shows it there, and everything else as before. (Expected to fail: only moves to piles and beneath monsters on the field are handled. Put into a zone, it stops the server at an assertion; passed on to a monster that is still in a pile, it stops the server when the next card arrives in a zone, whichever it is; if it ceases to exist, the server removes the monster from its pile instead.)", "quantifier": "all tracked states, all places and messages, all messages between a material's being passed on and the next arrival", "why_tests_cant": "Tests send materials to the graveyard; the other branches of the encoder are only reached by rare effects, and the failure comes later than its cause.", "anchors": [{"file": "src/codec/edo9300_ocgcore_encode.cpp", "symbols": ["encode_one", "MSG_MOVE"]}, {"file": "include/ygopen/server/basic_encode_context.hpp", "symbols": ["xyz_mat_defer", "take_deferred_xyz_mat", "get_xyz_left"]}, {"file": "include/ygopen/client/frame.hpp", "symbols": ["card_move", "card_remove", "card_erase"]}]}
{"id": "C124", "title": "What is told about materials is not shown on their monster", "statement": "When the core describes a card together with the codes of its materials, the card is shown as described and each material with its own code. (Expected to fail: the queries made for materials name the card's place with a material index, and for cards in piles the index is ignored. So a monster in a pile that already or still has materials in the core, one that is about to be summoned for instance, is shown with the code of its last material. Exactly: all values but the code are right, the code is right exactly if no material is listed or the last has the same one, and no other card changes. In zones everything is right, and a message is accepted exactly if the card is there with at least as many materials as are listed.)", "quantifier": "all reachable tracked boards, all piles and zones, all lists of described cards and items", "why_tests_cant": "Tests describe monsters on the field; the combination of a pile and listed materials only occurs between messages that belong together.", "anchors": [{"file": "src/codec/edo9300_ocgcore_encode.cpp", "symbols": ["encode_one", "MSG_UPDATE_DATA", "MSG_UPDATE_CARD", "encode_one_query"]}, {"file": "include/ygopen/client/parse_query.hpp", "symbols": ["parse_query"]}, {"file": "include/ygopen/client/frame.hpp", "symbols": ["card_", "has_card"]}]}
{"id": "C125", "title": "What is shown of a pile holds after a shuffle or a change of players", "statement": "After the core shuffled a deck, a hand, an extra deck or set cards, or another player of a team took over, no card of the pile or row is shown with a code that belongs to another card. (Expected to fail: shuffles move nothing and the codes that the core tells with them are skipped, so what is shown stays true only if the order cannot matter; a player who takes over is shown with the codes of the player before. Exactly when it holds is stated; see DESIGN.md.)", "quantifier": "every tracked state, every shuffle message and every shuffle it may stand for; every history and every change of players", "why_tests_cant": "It speaks of all rearrangements of piles of any size, and of what was known after any history.", "anchors": [{"file": "src/codec/edo9300_ocgcore_encode.cpp", "symbols": ["MSG_SHUFFLE_DECK", "MSG_SHUFFLE_HAND", "MSG_SHUFFLE_EXTRA", "MSG_SHUFFLE_SET_CARD", "MSG_TAG_SWAP", "skip"]}, {"file": "include/ygopen/client/frame.hpp", "symbols": ["pile_resize", "card_shuffle"]}, {"file": "include/ygopen/client/parse_event.hpp", "symbols": ["parse_event"]}]}
{"id": "C126", "title": "A client that missed a message or got one twice is found out", "statement": "If a client did not get one of the messages, or got one twice, then it fails at some later message at the latest, instead of showing a wrong game for the rest of the duel. (Expected to fail: messages carry no numbers. Exactly which clients can be found out is stated: those with another number of cards in or beneath a zone, with fewer cards in a pile or with fewer links in the chain than there are; see DESIGN.md.)", "quantifier": "every history, every missed or repeated message, and all messages that may follow", "why_tests_cant": "It speaks of all continuations of a duel at once: that none of them gives a wrong client away.", "anchors": [{"file": "include/ygopen/client/parse_event.hpp", "symbols": ["parse_event"]}, {"file": "include/ygopen/client/parse_query.hpp", "symbols": ["parse_query"]}, {"file": "include/ygopen/client/frame.hpp", "symbols": ["card_add", "card_remove", "card_move", "card_swap", "pile_splice", "has_card"]}, {"file": "include/ygopen/proto/duel_msg.proto", "symbols": ["Msg"]}]}
{"id": "C127", "title": "An event about many cards is many events about one", "statement": "Parsing an event with several operations gives the same board, or the same failure, as parsing one event per operation in order; a whole state is a state without cards and then its cards. Undoing it is undoing these, last one first. So it does not matter how a server groups operations into events, or whether one goes back over them grouped differently.", "quantifier": "every board, plain or undoable, with or without asserts, and every event or sequence of events", "why_tests_cant": "Events can have any number of operations on any board, and failures in the middle are to be the same as well.", "anchors": [{"file": "include/ygopen/client/parse_event.hpp", "symbols": ["parse_event"]}, {"file": "include/ygopen/client/undo_parse_event.hpp", "symbols": ["undo_parse_event", "ReverseView"]}, {"file": "include/ygopen/client/frame.hpp", "symbols": ["card_add", "card_remove", "card_move", "card_swap", "pile_resize", "pile_splice", "pile_swap"]}, {"file": "include/ygopen/client/frame_limbo.hpp", "symbols": ["undo"]}]}
{"id": "C128", "title": "A client that lost track does nothing undefined, in builds without asserts", "statement": "In builds without asserts, a client that shows another game than the one being played, because it missed messages or got some twice, does nothing undefined when it is told what a right client gets through. (Expected to fail. Exactly which clients are safe is stated: no null pointer in piles or beneath zones, a card in each zone where there is one, at least as many beneath each zone and in each pile, and at least as many links in the chain; a whole state heals all clients without such null pointers; see DESIGN.md.)", "quantifier": "every right client that can be reached, every client in a build without asserts whether reachable or not, and all messages that may follow", "why_tests_cant": "It speaks of all continuations of a duel in a build where nothing is checked: no test sees that none of them reads past the end of a container.", "anchors": [{"file": "include/ygopen/client/parse_event.hpp", "symbols": ["parse_event"]}, {"file": "include/ygopen/client/parse_query.hpp", "symbols": ["parse_query"]}, {"file": "include/ygopen/client/frame.hpp", "symbols": ["card_add", "card_remove", "card_move", "card_swap", "card_shuffle", "pile_splice", "pile_resize", "pile_swap", "clear", "card"]}]}
{"id": "C129", "title": "A message makes a client do no more than its length allows", "statement": "Whatever bytes a client is sent, if they can be read as a message, then it makes the client perform at most one call, keep one link or blocked zone, or look at one query, target or counter for every two bytes. So what a client keeps is bounded by the bytes it was sent and the counts they name; half the bytes is the best bound, and counts are believed: 300 bytes make any number of cards below 2^32. The messages of a server are bounded by the core's bytes unless the core reloads the field. The other way, an answer of n bytes gives the core at most 2n+8 bytes.", "quantifier": "every list of bytes, every client and every request", "why_tests_cant": "Bytes from the network can be anything, nested and repeated in any way; a test sends some messages that servers really send.", "anchors": [{"file": "include/ygopen/client/parse_event.hpp", "symbols": ["parse_event"]}, {"file": "include/ygopen/client/parse_query.hpp", "symbols": ["parse_query"]}, {"file": "include/ygopen/client/frame.hpp", "symbols": ["pile_resize"]}, {"file": "src/codec/edo9300_ocgcore_decode.cpp", "symbols": ["decode_one_answer"]}, {"file": "include/ygopen/proto/duel_msg.proto", "symbols": ["Msg"]}, {"file": "include/ygopen/proto/duel_answer.proto", "symbols": ["Answer"]}]}
{"id": "C130", "title": "It does not matter which addresses cards get", "statement": "Whatever addresses the allocator hands out, those of destroyed cards among them, as long as it hands out none in use, and whatever pile_splice left in its scratch vector: every sequence of calls on a frame and every sequence of messages to a client ends in the same way, with the same cards at the same places, the same known about them and the same board. What was known about a destroyed card does not show at the card that gets its address, and no pointer on a board leads to a card that is gone.", "quantifier": "every allocator, every sequence of calls and every sequence of messages", "why_tests_cant": "Which addresses are used again depends on the allocator and on all that happened before; a test runs with one allocator.", "anchors": [{"file": "include/ygopen/client/frame.hpp", "symbols": ["construct_card", "destruct_card", "pile_splice", "pile_splice_cache_", "pile_resize", "card_add", "clear"]}, {"file": "include/ygopen/client/parse_event.hpp", "symbols": ["parse_event"]}, {"file": "include/ygopen/client/parse_query.hpp", "symbols": ["parse_query"]}]}
{"id": "C131", "title": "Who goes first is decided fairly", "statement": "With dice both teams are equally likely to go first, whatever values the generator gives and however likely each of them is, as long as draws do not depend on each other; the chance that no one was decided on after n rounds is the n-th power of the chance of a tie, and one in 6^n when the generator gives a multiple of six consecutive values. Each face gets a sixth of the values up to one, all get equally many exactly if their number is a multiple of six, which no power of two is. With a coin a team is as likely as values of its parity: of consecutive values it is fair exactly if there is an even number of them, and one value makes the difference otherwise.", "quantifier": "every room that lived through any calls, every list of values of a generator, every number of draws", "why_tests_cant": "A chance is a count over all sequences of draws; a test sees some of them.", "anchors": [{"file": "include/ygopen/server/room.hpp", "symbols": ["on_enter_state_", "roll_next_die", "rng_"]}]}
{"id": "C132", "title": "Rooms know clients by what they do, not by their addresses", "statement": "If all clients had other addresses, in any order, a room would do the same from its construction on: the same calls fail in the same way or not at all, the same clients have the same seats, decks and roles, and every client is sent the same messages in the same order. The whole order of sending is the same exactly if the addresses are in the same order, as spectators are told in the order of their addresses.", "quantifier": "every renaming of clients that keeps different ones different, all validators, generators, options and sequences of calls", "why_tests_cant": "Addresses are picked by the allocator; spectators are kept in a set ordered by address, so a test sees one order per run.", "anchors": [{"file": "include/ygopen/server/room.hpp", "symbols": ["spectators_", "send_all_", "send_spectators_", "enter", "visit", "find_peer_duelist_slot", "host_", "first_turn_decider"]}]}
{"id": "C133", "title": "What a server remembers is bounded by the cards of the duel", "statement": "However long a duel goes on, what a server keeps in order to follow it is bounded by the number of cards there are: the notes about cards that left a zone with materials, and the materials that are put off. (Expected to fail: the notes are bounded, by 42 times the number of cards plus 32, if materials are numbered from 0; what is put off is not bounded at all, and what it is at each moment is stated exactly; see DESIGN.md.)", "quantifier": "every sequence of messages that a server gets through, every bound on the number of cards, all lengths", "why_tests_cant": "It speaks of duels of any length: the notes are never dropped, so only an argument about all histories shows that they stop growing, and no test is long enough to see that the other list does not.", "anchors": [{"file": "src/codec/edo9300_ocgcore_encode.cpp", "symbols": ["MSG_MOVE"]}, {"file": "include/ygopen/server/basic_encode_context.hpp", "symbols": ["xyz_left", "get_xyz_left", "xyz_mat_defer", "take_deferred_xyz_mat", "left_"]}]}
{"id": "C134", "title": "Going back and forth makes nothing anew", "statement": "However a client goes back and forth over events, it keeps exactly one log entry for each addition, removal, resize and clear up to the farthest position it has been at, and of each value on the board the first one and one for each event up to there that said a new one. So as long as it goes no farther than before it makes no cards, no log entries and no values, and it keeps as many as it would after going straight there.", "quantifier": "every list of events, every walk back and forth that gets through, of any length, whether or not the events can be undone exactly", "why_tests_cant": "Growth by one entry in a walk of millions of steps is nothing a test would look for; the statement is about all walks over all events.", "anchors": [{"file": "include/ygopen/client/frame_limbo.hpp", "symbols": ["advance_op_", "regress_op_", "emplace_op_", "card_add", "card_remove", "pile_resize", "clear"]}, {"file": "include/ygopen/client/undoable.hpp", "symbols": ["operator=", "undo", "assign"]}, {"file": "include/ygopen/client/parse_event.hpp", "symbols": ["parse_event"]}, {"file": "include/ygopen/client/undo_parse_event.hpp", "symbols": ["undo_parse_event"]}]}
{"id": "C135", "title": "Servers send only what clients act upon", "statement": "Of the sixty-five kinds of messages the protocol has, a server can send exactly forty-six, whatever the buffer and whatever the context, and one that has just started can send each of them. It never sends a message in which somewhere nothing is set, never two things in one message, life points of exactly two players, and as many places before a shuffle as after. Every event it sends is of a kind clients act upon, or says how the duel ended, what to show or what came of chance, which leaves every board as it is. Clients ignore that a pile has another size now, and servers never say so.", "quantifier": "every buffer and every context, every board, every message", "why_tests_cant": "That a kind of message is never sent, or never heard, cannot be found by trying some: it is a statement about all buffers and all boards.", "anchors": [{"file": "src/codec/edo9300_ocgcore_encode.cpp", "symbols": ["encode_one"]}, {"file": "include/ygopen/client/parse_event.hpp", "symbols": ["parse_event"]}, {"file": "include/ygopen/client/undo_parse_event.hpp", "symbols": ["undo_parse_event"]}, {"file": "include/ygopen/proto/duel_msg.proto", "symbols": ["Msg"]}]}
{"id": "C136", "title": "A room says what changes, to everyone, and not much more", "statement": "A room that says nothing has not changed. Whatever a call changes, everyone in the room hears something, except that a deck only concerns its owner. Everyone in the room hears the same announcements in the same order, once for each place it has there; a call makes at most two announcements and sends at most one other message, to the newcomer, the owner of the deck or the one to decide; nobody outside hears anything. So with n calls and s spectators a room has sent at most n * (2 * s + 13) messages.", "quantifier": "every room, validator, generator and history of calls", "why_tests_cant": "Tests look at the messages of some calls; that no call of any history changes a room silently, or tells some clients and not others, is a statement about all of them.", "anchors": [{"file": "include/ygopen/server/room.hpp", "symbols": ["enter", "visit", "send_all_", "send_team_", "on_client_enter_", "on_client_signal_", "on_enter_state_"]}]}
{"id": "C137", "title": "Exactly what a room can still become", "statement": "A room that is being configured can become another one by some further calls exactly if that one can come about at all (C119), has the same options, host and random stream, everybody is still in the seat or among the spectators where they were, nothing changed in seats whose client the room finds elsewhere first, and no seat lost its deck unless the validator refuses some deck. So as long as nobody came and the duel was not started, everything duelists said can be taken back, except a first deck when no deck is ever refused; a room that was started stays as it is whatever is called.", "quantifier": "every room that can come about, every other room, all futures, validators and random streams", "why_tests_cant": "Tests follow single histories; which of infinitely many rooms can never follow a given one is a statement about all histories.", "anchors": [{"file": "include/ygopen/server/room.hpp", "symbols": ["enter", "visit", "on_client_enter_", "on_client_signal_", "on_enter_state_"]}]}
{"id": "C138", "title": "A duel with other cards is the same duel", "statement": "Giving every card of a duel another code, in all messages of the core, gives every card another code in all questions and queries of the server and on the tables of server and clients, and changes nothing else: every message takes as many bytes, events and boards are the same, failures are the same, the same values are found unchanged by clients that look them up, clients that go back and forth see the same, and answers to the questions give the core the same bytes. (Code 0 stays, it means that nothing is known; opcodes and descriptions of effects, in which codes are hidden, are left alone.)", "quantifier": "every finite sequence of messages of the core, every one-to-one exchange of codes, every context, all servers and clients in any state", "why_tests_cant": "Tests play with a few cards; that no code is treated specially, and that none is lost, mixed up or put elsewhere, concerns all 2^32 codes in all places at once.", "anchors": [{"file": "src/codec/edo9300_ocgcore_encode.cpp", "symbols": ["encode_one"]}, {"file": "include/ygopen/server/basic_encode_context.hpp", "symbols": ["parse"]}, {"file": "include/ygopen/client/parse_query.hpp", "symbols": ["parse_query"]}, {"file": "src/codec/edo9300_ocgcore_decode.cpp", "symbols": ["decode_one_answer"]}]}
{"id": "C139", "title": "What the values of cards stand for makes no difference", "statement": "Whatever values of cards are replaced by others, each member's in its own way, in the messages that clients get, every client gets on as before and shows the other values in their place, even if different values become one; a server does not look at the values of the cards it tracks when it translates what the core says. What parse_query reports as unchanged, and so what clients see that go back and forth, stays the same exactly if no two values become one.", "quantifier": "every function on the values of each member, every list of messages, all servers and clients in any state, every way of going back and forth", "why_tests_cant": "Tests use a few values; that none is compared with a constant, capped, or used to tell cards apart concerns all functions on values.", "anchors": [{"file": "include/ygopen/client/parse_query.hpp", "symbols": ["parse_query"]}, {"file": "include/ygopen/server/basic_encode_context.hpp", "symbols": ["parse"]}, {"file": "src/codec/edo9300_ocgcore_encode.cpp", "symbols": ["encode_one"]}, {"file": "include/ygopen/client/card.hpp", "symbols": ["BasicCard"]}]}
{"id": "C140", "title": "A room does not look into what it passes on", "statement": "With other decks, users, reasons for refusing decks, deck limits and banlists of its own, a room does the same, if the validator judges the other decks like the decks: the same calls fail in the same way, the same messages go to the same clients in the same order with the other things in them, and seats, readiness, spectators and decisions are the same.", "quantifier": "all functions on decks, users, reasons, limits and banlists, all validators that judge alike, every room in any state and every history of calls", "why_tests_cant": "Tests use a few decks and names; that nothing depends on what is in them concerns all functions on them and all histories.", "anchors": [{"file": "include/ygopen/server/room.hpp", "symbols": ["enter", "visit"]}, {"file": "include/ygopen/proto/room.proto", "symbols": ["Options", "Duelist"]}]}
{"id": "C141", "title": "What translating answers depends on", "statement": "How answers are translated depends on nothing of a question but which of five kinds it is of: cards one by one, other cards, the battle phase, a main phase, or anything else; and these five are all different. What was in the response buffer before stays in it exactly if the answer says nothing: nothing is set, it is about counters, or it names phases that do not come next; otherwise it makes no difference.", "quantifier": "every two questions, every answer, all contents of the buffer", "why_tests_cant": "That two questions give the same responses for all answers cannot be tested, nor that nothing else of a question is looked at.", "anchors": [{"file": "src/codec/edo9300_ocgcore_decode.cpp", "symbols": ["decode_one_answer"]}]}
