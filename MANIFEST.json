{
 "claims": [
  {
   "property": "C01",
   "status": "proved",
   "theorems": [
    "Ygo.Props.C01_popcnt_counts_ones"
   ],
   "note": ""
  },
  {
   "property": "C02",
   "status": "proved",
   "theorems": [
    "Ygo.Props.C02_chooser_picks_lowest",
    "Ygo.Props.C02_lowest_unique",
    "Ygo.Props.C02_chooser64_ub_iff"
   ],
   "note": "64-bit values shift a 32-bit constant: C02_chooser64_ub_iff says exactly when that is undefined."
  },
  {
   "property": "C03",
   "status": "partial",
   "theorems": [
    "Ygo.Props.C03_choosel_picks_highest_partial",
    "Ygo.Props.C03_choosel_zero_exact",
    "Ygo.Props.C03_choosel_zero_not_empty",
    "Ygo.Props.C03_choosel64_always_ub",
    "Ygo.Props.C03_exactly"
   ],
   "note": "False when no bits are asked for and the top bit is set (C03_choosel_zero_not_empty); C03_exactly shows that up to 32 bits this is the only exception. 64-bit use is always undefined behaviour, as C03_choosel64_always_ub proves."
  },
  {
   "property": "C04",
   "status": "proved",
   "theorems": [
    "Ygo.Props.C04_less_is_lexicographic",
    "Ygo.Props.C04_eq_is_field_equality",
    "Ygo.Props.C04_less_strict_total_order"
   ],
   "note": ""
  },
  {
   "property": "C05",
   "status": "proved",
   "theorems": [
    "Ygo.Props.C05_classification_bits",
    "Ygo.Props.C05_constants_classified",
    "Ygo.Props.C05_empty_iff",
    "Ygo.Props.C05_zone_limits"
   ],
   "note": ""
  },
  {
   "property": "C06",
   "status": "proved",
   "theorems": [
    "Ygo.Props.C06_owned_exactly_once"
   ],
   "note": ""
  },
  {
   "property": "C07",
   "status": "proved",
   "theorems": [
    "Ygo.Props.C07_card_add",
    "Ygo.Props.C07_added_card_is_new"
   ],
   "note": ""
  },
  {
   "property": "C08",
   "status": "proved",
   "theorems": [
    "Ygo.Props.C08_card_remove",
    "Ygo.Props.C08_removed_card_is_gone"
   ],
   "note": ""
  },
  {
   "property": "C09",
   "status": "proved",
   "theorems": [
    "Ygo.Props.C09_card_move",
    "Ygo.Props.C09_same_card"
   ],
   "note": ""
  },
  {
   "property": "C10",
   "status": "proved",
   "theorems": [
    "Ygo.Props.C10_card_move_back"
   ],
   "note": ""
  },
  {
   "property": "C11",
   "status": "partial",
   "theorems": [
    "Ygo.Props.C11_card_swap_partial",
    "Ygo.Props.C11_cards_exchanged_partial",
    "Ygo.Props.C11_card_swap_exactly",
    "Ygo.Props.C11_right_cards_iff",
    "Ygo.Props.C11_card_swap_twice",
    "Ygo.Props.C11_card_swap_wrong_material"
   ],
   "note": "The code uses the zone sequence as material index (frame.hpp:400,404). The exact effect is proved for all places (C11_card_swap_exactly); the right cards change places exactly outside that case (C11_right_cards_iff, C11_card_swap_wrong_material). Swapping twice restores the layout in all cases."
  },
  {
   "property": "C12",
   "status": "proved",
   "theorems": [
    "Ygo.Props.C12_card_shuffle",
    "Ygo.Props.C12_returns"
   ],
   "note": "All places of one call are assumed to lie in one row of zones and be pairwise different."
  },
  {
   "property": "C13",
   "status": "proved",
   "theorems": [
    "Ygo.Props.C13_pile_resize"
   ],
   "note": ""
  },
  {
   "property": "C14",
   "status": "proved",
   "theorems": [
    "Ygo.Props.C14_pile_splice"
   ],
   "note": ""
  },
  {
   "property": "C15",
   "status": "proved",
   "theorems": [
    "Ygo.Props.C15_pile_splice_back"
   ],
   "note": ""
  },
  {
   "property": "C16",
   "status": "proved",
   "theorems": [
    "Ygo.Props.C16_pile_swap",
    "Ygo.Props.C16_pile_swap_twice"
   ],
   "note": ""
  },
  {
   "property": "C17",
   "status": "proved",
   "theorems": [
    "Ygo.Props.C17_clear"
   ],
   "note": ""
  },
  {
   "property": "C18",
   "status": "partial",
   "theorems": [
    "Ygo.Props.C18_has_card_total",
    "Ygo.Props.C18_card_iff_has_card",
    "Ygo.Props.C18_card_reads_board",
    "Ygo.Props.C18_no_ub_partial",
    "Ygo.Props.C18_card_swap_ub",
    "Ygo.Props.C18_pile_splice_ub",
    "Ygo.Props.C18_card_shuffle_ub",
    "Ygo.Props.C18_ill_formed_place_ub",
    "Ygo.Props.C18_ub_exactly"
   ],
   "note": "Accessors: full. Operations: no undefined behaviour under SafeArgs; each excluded case is shown to be undefined behaviour by a C18_*_ub theorem, and C18_ub_exactly says for all well-formed places which calls are undefined."
  },
  {
   "property": "C19",
   "status": "proved",
   "theorems": [
    "Ygo.Props.C19_undo_and_replay",
    "Ygo.Props.C19_reads_defined",
    "Ygo.Props.C19_append_after_replay",
    "Ygo.Props.C19_undo_past_first",
    "Ygo.Props.C19_is_an_editor"
   ],
   "note": ""
  },
  {
   "property": "C20",
   "status": "proved",
   "theorems": [
    "Ygo.Props.C20_card_add",
    "Ygo.Props.C20_card_remove"
   ],
   "note": ""
  },
  {
   "property": "C21",
   "status": "partial",
   "theorems": [
    "Ygo.Props.C21_pile_resize_partial",
    "Ygo.Props.C21_shrink_below_half_undo_aborts",
    "Ygo.Props.C21_shrink_above_half_ub",
    "Ygo.Props.C21_pile_resize_exactly"
   ],
   "note": "True for growing, equal and exactly halving resizes (C21_pile_resize_partial). Shrinking below half makes the undo abort, shrinking above half is undefined behaviour; both proved. frame_limbo.hpp:102 starts the saved slice at the wrong index. C21_pile_resize_exactly: these are all the sizes that work."
  },
  {
   "property": "C22",
   "status": "proved",
   "theorems": [
    "Ygo.Props.C22_clear"
   ],
   "note": ""
  },
  {
   "property": "C23",
   "status": "proved",
   "theorems": [
    "Ygo.Props.C23_cards_kept",
    "Ygo.Props.C23_undo_redo_return",
    "Ygo.Props.C23_owned_never_shrinks",
    "Ygo.Props.C23_misordered_undo_duplicates"
   ],
   "note": "Histories undo the last and redo the next operation; C23_misordered_undo_duplicates shows that other uses can duplicate a card."
  },
  {
   "property": "C24",
   "status": "proved",
   "theorems": [
    "Ygo.Props.C24_only_named_parts",
    "Ygo.Props.C24_inert_events",
    "Ygo.Props.C24_values",
    "Ygo.Props.C24_push_pop"
   ],
   "note": ""
  },
  {
   "property": "C25",
   "status": "proved",
   "theorems": [
    "Ygo.Props.C25_lp_event",
    "Ygo.Props.C25_recover_wraps",
    "Ygo.Props.C25_lp_in_range",
    "Ygo.Props.C25_bad_controller"
   ],
   "note": "Recovery wraps at 2^32 (C25_recover_wraps)."
  },
  {
   "property": "C26",
   "status": "proved",
   "theorems": [
    "Ygo.Props.C26_state_event",
    "Ygo.Props.C26_same_shape"
   ],
   "note": ""
  },
  {
   "property": "C27",
   "status": "partial",
   "theorems": [
    "Ygo.Props.C27_undo_events_partial",
    "Ygo.Props.C27_undo_event_partial",
    "Ygo.Props.C27_undo_exactly"
   ],
   "note": "All supported events; Supported excludes shuffles and non-halving shrinks, where the undo fails (C29_*, C21_*); chain push/pop do not return at all. The restriction is exact: undoing returns if and only if the events are supported (C27_undo_exactly)."
  },
  {
   "property": "C28",
   "status": "partial",
   "theorems": [
    "Ygo.Props.C28_scrub_partial",
    "Ygo.Props.C28_replay_allocates_nothing",
    "Ygo.Props.C28_replay_partial",
    "Ygo.Props.C28_scrub_exactly"
   ],
   "note": "Same exclusions as C27; C28_scrub_partial covers arbitrary back and forth, C28_scrub_exactly says that no other events allow it."
  },
  {
   "property": "C29",
   "status": "proved",
   "theorems": [
    "Ygo.Props.C29_chain_events_abort",
    "Ygo.Props.C29_undo_shuffle_aborts"
   ],
   "note": ""
  },
  {
   "property": "C30",
   "status": "proved",
   "theorems": [
    "Ygo.Props.C30_parse_query",
    "Ygo.Props.C30_returns",
    "Ygo.Props.C30_no_card",
    "Ygo.Props.C30_undoable"
   ],
   "note": ""
  },
  {
   "property": "C31",
   "status": "proved",
   "theorems": [
    "Ygo.Props.C31_hits",
    "Ygo.Props.C31_bits_differ",
    "Ygo.Props.C31_no_cache_no_hits",
    "Ygo.Props.C31_cache_harmless",
    "Ygo.Props.C31_repeat_hits_all"
   ],
   "note": ""
  },
  {
   "property": "C32",
   "status": "proved",
   "theorems": [
    "Ygo.Props.C32_result_contract"
   ],
   "note": ""
  },
  {
   "property": "C33",
   "status": "partial",
   "theorems": [
    "Ygo.Props.C33_appended_bytes",
    "Ygo.Props.C33_only_bytes_read_matter_partial",
    "Ygo.Props.C33_short_mask_reads_next_message",
    "Ygo.Props.C33_only_bytes_read_matter_exactly"
   ],
   "note": "Appending bytes never changes anything (full). That only the bytes read matter fails for a swap of graveyard and deck with a short mask (C33_short_mask_reads_next_message) and holds otherwise (C33_only_bytes_read_matter_partial); for the context the server uses it holds exactly when the board knows the places the message speaks about (C33_only_bytes_read_matter_exactly)."
  },
  {
   "property": "C34",
   "status": "proved",
   "theorems": [
    "Ygo.Props.C34_translation",
    "Ygo.Props.C34_translation_in_context",
    "Ygo.Props.C34_consumed",
    "Ygo.Props.C34_stream",
    "Ygo.Props.C34_stream_of_meanings",
    "Ygo.Props.C34_unknown"
   ],
   "note": "Moves and the swap of graveyard and deck: C34_consumed and C34_stream; their contents are C39, C40 and C42."
  },
  {
   "property": "C35",
   "status": "proved",
   "theorems": [
    "Ygo.Props.C35_blob",
    "Ygo.Props.C35_fields"
   ],
   "note": ""
  },
  {
   "property": "C36",
   "status": "proved",
   "theorems": [
    "Ygo.Props.C36_slots",
    "Ygo.Props.C36_one_to_one",
    "Ygo.Props.C36_valid",
    "Ygo.Props.C36_onto",
    "Ygo.Props.C36_other_locations",
    "Ygo.Props.C36_beyond"
   ],
   "note": "Slots above 7: C36_beyond."
  },
  {
   "property": "C37",
   "status": "proved",
   "theorems": [
    "Ygo.Props.C37_clear_bits",
    "Ygo.Props.C37_nodup",
    "Ygo.Props.C37_valid",
    "Ygo.Props.C37_sides_swapped"
   ],
   "note": ""
  },
  {
   "property": "C38",
   "status": "proved",
   "theorems": [
    "Ygo.Props.C38_effect",
    "Ygo.Props.C38_effect_cut",
    "Ygo.Props.C38_counter"
   ],
   "note": ""
  },
  {
   "property": "C39",
   "status": "proved",
   "theorems": [
    "Ygo.Props.C39_kinds",
    "Ygo.Props.C39_nothing",
    "Ygo.Props.C39_added",
    "Ygo.Props.C39_removed",
    "Ygo.Props.C39_deferred",
    "Ygo.Props.C39_arrival",
    "Ygo.Props.C39_left_behind",
    "Ygo.Props.C39_plain"
   ],
   "note": ""
  },
  {
   "property": "C40",
   "status": "proved",
   "theorems": [
    "Ygo.Props.C40_defer",
    "Ygo.Props.C40_arrival",
    "Ygo.Props.C40_attachments",
    "Ygo.Props.C40_list_of_history",
    "Ygo.Props.C40_between_arrivals"
   ],
   "note": ""
  },
  {
   "property": "C41",
   "status": "proved",
   "theorems": [
    "Ygo.Props.C41_draw"
   ],
   "note": "Piles below 2^32 cards."
  },
  {
   "property": "C42",
   "status": "proved",
   "theorems": [
    "Ygo.Props.C42_swap_grave_deck"
   ],
   "note": "Mask long enough and position within the extra deck, as stated; fewer than 2^32 cards."
  },
  {
   "property": "C43",
   "status": "proved",
   "theorems": [
    "Ygo.Props.C43_reverse_decks"
   ],
   "note": "Piles below 2^32 cards."
  },
  {
   "property": "C44",
   "status": "proved",
   "theorems": [
    "Ygo.Props.C44_deck_top",
    "Ygo.Props.C44_confirm"
   ],
   "note": ""
  },
  {
   "property": "C45",
   "status": "partial",
   "theorems": [
    "Ygo.Props.C45_reload_places_partial",
    "Ygo.Props.C45_invalid_place"
   ],
   "note": "False for materials in field and pendulum zones (C45_invalid_place); C45_reload_places_partial shows this is the only exception."
  },
  {
   "property": "C46",
   "status": "proved",
   "theorems": [
    "Ygo.Props.C46_last_announced",
    "Ygo.Props.C46_win_reports",
    "Ygo.Props.C46_win_without_announcement",
    "Ygo.Props.C46_parse_keeps"
   ],
   "note": "Without an announcement: C46_win_without_announcement."
  },
  {
   "property": "C47",
   "status": "proved",
   "theorems": [
    "Ygo.Props.C47_selected_mod",
    "Ygo.Props.C47_selected",
    "Ygo.Props.C47_stepped",
    "Ygo.Props.C47_none",
    "Ygo.Props.C47_sorted_mod",
    "Ygo.Props.C47_sorted"
   ],
   "note": "Truncation outside the stated range: C47_selected_mod, C47_sorted_mod."
  },
  {
   "property": "C48",
   "status": "proved",
   "theorems": [
    "Ygo.Props.C48_idle",
    "Ygo.Props.C48_battle",
    "Ygo.Props.C48_idle_distinct",
    "Ygo.Props.C48_battle_distinct",
    "Ygo.Props.C48_index_cut",
    "Ygo.Props.C48_other_phase",
    "Ygo.Props.C48_idle_phases",
    "Ygo.Props.C48_battle_phases"
   ],
   "note": ""
  },
  {
   "property": "C49",
   "status": "partial",
   "theorems": [
    "Ygo.Props.C49_bytes",
    "Ygo.Props.C49_zones_partial",
    "Ygo.Props.C49_offered",
    "Ygo.Props.C49_confused",
    "Ygo.Props.C49_exactly"
   ],
   "note": "False for field and pendulum zones (C49_confused); C49_exactly shows that an answer made of offered zones is read back exactly when it names none of them."
  },
  {
   "property": "C50",
   "status": "proved",
   "theorems": [
    "Ygo.Props.C50_capacity",
    "Ygo.Props.C50_maximums",
    "Ygo.Props.C50_options_kept",
    "Ygo.Props.C50_construction"
   ],
   "note": ""
  },
  {
   "property": "C51",
   "status": "proved",
   "theorems": [
    "Ygo.Props.C51_seating",
    "Ygo.Props.C51_balance"
   ],
   "note": ""
  },
  {
   "property": "C52",
   "status": "proved",
   "theorems": [
    "Ygo.Props.C52_start",
    "Ygo.Props.C52_starts",
    "Ygo.Props.C52_never_back"
   ],
   "note": "The value of the start signal is not looked at."
  },
  {
   "property": "C53",
   "status": "partial",
   "theorems": [
    "Ygo.Props.C53_ready_without_deck",
    "Ygo.Props.C53_ready_has_deck_partial",
    "Ygo.Props.C53_becoming_ready",
    "Ygo.Props.C53_exactly"
   ],
   "note": "False as stated (C53_ready_without_deck). Holds when no deck is refused (C53_ready_has_deck_partial), and fails exactly when the last deck of somebody ready was refused (C53_exactly); becoming ready always takes a valid deck (C53_becoming_ready)."
  },
  {
   "property": "C54",
   "status": "proved",
   "theorems": [
    "Ygo.Props.C54_views_in_sync",
    "Ygo.Props.C54_agree",
    "Ygo.Props.C54_present"
   ],
   "note": ""
  },
  {
   "property": "C55",
   "status": "partial",
   "theorems": [
    "Ygo.Props.C55_two_seats",
    "Ygo.Props.C55_seats_le_enters",
    "Ygo.Props.C55_one_seat_partial",
    "Ygo.Props.C55_exactly"
   ],
   "note": "False as stated (C55_two_seats). Holds for clients that enter at most once (C55_one_seat_partial), and how many seats a client has is counted exactly (C55_exactly)."
  },
  {
   "property": "C56",
   "status": "proved",
   "theorems": [
    "Ygo.Props.C56_dice",
    "Ygo.Props.C56_dice_terminates",
    "Ygo.Props.C56_coin",
    "Ygo.Props.C56_host_asked",
    "Ygo.Props.C56_host_answer"
   ],
   "note": ""
  },
  {
   "property": "C57",
   "status": "partial",
   "theorems": [
    "Ygo.Props.C57_answers_ignored",
    "Ygo.Props.C57_decider_ignored",
    "Ygo.Props.C57_stuck",
    "Ygo.Props.C57_host_decides_partial",
    "Ygo.Props.C57_exactly"
   ],
   "note": "Holds exactly for the host method (C57_exactly): false for dice and coin (C57_decider_ignored), nobody is asked with rock-paper-scissors (C57_stuck); holds for the host method (C57_host_decides_partial)."
  },
  {
   "property": "C58",
   "status": "proved",
   "theorems": [
    "Ygo.Props.C58_same_as_plain",
    "Ygo.Props.C58_accepts_what_plain_accepts"
   ],
   "note": ""
  },
  {
   "property": "C59",
   "status": "proved",
   "theorems": [
    "Ygo.Props.C59_abort_iff",
    "Ygo.Props.C59_undefined_iff",
    "Ygo.Props.C59_hang_iff"
   ],
   "note": ""
  },
  {
   "property": "C60",
   "status": "proved",
   "theorems": [
    "Ygo.Props.C60_single",
    "Ygo.Props.C60_single_mod",
    "Ygo.Props.C60_race_cut",
    "Ygo.Props.C60_declining"
   ],
   "note": ""
  },
  {
   "property": "C61",
   "status": "partial",
   "theorems": [
    "Ygo.Props.C61_blocked_partial",
    "Ygo.Props.C61_all_blocked"
   ],
   "note": "False (C61_all_blocked): exactly the zones that are not disabled are listed (C61_blocked_partial)."
  },
  {
   "property": "C62",
   "status": "proved",
   "theorems": [
    "Ygo.Props.C62_xyz_summon"
   ],
   "note": ""
  },
  {
   "property": "C63",
   "status": "proved",
   "theorems": [
    "Ygo.Props.C63_material_anywhere",
    "Ygo.Props.C63_monster_leaves",
    "Ygo.Props.C63_material",
    "Ygo.Props.C63_xyz_leaves"
   ],
   "note": "C63_xyz_leaves: all materials go on top of piles, one after the other; C63_material_anywhere: one of them goes anywhere, at any time."
  },
  {
   "property": "C64",
   "status": "proved",
   "theorems": [
    "Ygo.Props.C64_start",
    "Ygo.Props.C64_reload",
    "Ygo.Props.C64_tag_swap"
   ],
   "note": "Cards in field and pendulum zones must have no materials, see C45_invalid_place."
  },
  {
   "property": "C65",
   "status": "proved",
   "theorems": [
    "Ygo.Props.C65_always_consistent",
    "Ygo.Props.C65_new_cards_blank"
   ],
   "note": ""
  },
  {
   "property": "C66",
   "status": "partial",
   "theorems": [
    "Ygo.Props.C66_clients_in_step",
    "Ygo.Props.C66_undoable_clients_in_step",
    "Ygo.Props.C66_undoable_clients_get_through",
    "Ygo.Props.C66_undoable_clients_exactly",
    "Ygo.Props.C66_undoable_clients_partial",
    "Ygo.Props.C66_exceptions_real"
   ],
   "note": "False for undoable clients (C66_exceptions_real). Holds for plain clients (C66_clients_in_step) and for undoable ones without the three kinds of messages named (C66_undoable_clients_partial); C66_undoable_clients_exactly says which events they get through."
  },
  {
   "property": "C67",
   "status": "proved",
   "theorems": [
    "Ygo.Props.C67_update_data",
    "Ygo.Props.C67_update_card"
   ],
   "note": "Materials listed for a card in a pile are left out: the frame ignores the material index there."
  },
  {
   "property": "C68",
   "status": "partial",
   "theorems": [
    "Ygo.Props.C68_rewind",
    "Ygo.Props.C68_rewind_exactly",
    "Ygo.Props.C68_rewind_partial",
    "Ygo.Props.C68_shuffle_is_final"
   ],
   "note": "False after a shuffle of set cards (C68_shuffle_is_final) and where C66 fails; holds for every stream of events that can be undone (C68_rewind), in particular for arbitrary buffers not starting with one of four message bytes (C68_rewind_partial), and for no other stream (C68_rewind_exactly)."
  },
  {
   "property": "C69",
   "status": "proved",
   "theorems": [
    "Ygo.Props.C69_score",
    "Ygo.Props.C69_score_of_history",
    "Ygo.Props.C69_score_returns"
   ],
   "note": ""
  },
  {
   "property": "C70",
   "status": "proved",
   "theorems": [
    "Ygo.Props.C70_positions",
    "Ygo.Props.C70_data",
    "Ygo.Props.C70_zones",
    "Ygo.Props.C70_left"
   ],
   "note": ""
  },
  {
   "property": "C71",
   "status": "proved",
   "theorems": [
    "Ygo.Props.C71_appears",
    "Ygo.Props.C71_disappears",
    "Ygo.Props.C71_moves",
    "Ygo.Props.C71_swap",
    "Ygo.Props.C71_shuffle"
   ],
   "note": "Swaps: not for the material index that C11_card_swap_wrong_material is about."
  },
  {
   "property": "C72",
   "status": "partial",
   "theorems": [
    "Ygo.Props.C72_understood",
    "Ygo.Props.C72_expressible_partial",
    "Ygo.Props.C72_expressible_exactly",
    "Ygo.Props.C72_distinct",
    "Ygo.Props.C72_cannot_cancel",
    "Ygo.Props.C72_cannot_select_none",
    "Ygo.Props.C72_field_zone"
   ],
   "note": "Answers are understood (C72_understood, C72_distinct). Not every decision can be said: C72_cannot_cancel, C72_cannot_select_none, C72_field_zone; exactly the others can (C72_expressible_exactly)."
  },
  {
   "property": "C73",
   "status": "proved",
   "theorems": [
    "Ygo.Props.C73_duel_shown",
    "Ygo.Props.C73_names_kept",
    "Ygo.Props.C73_one_buffer"
   ],
   "note": "Shuffles of set cards whose targets the core does not tell are left out: identities are unknown then by design. Zones that cannot be used are left out, see C61. Monsters that take the zone of one with several materials are left out, see C85."
  },
  {
   "property": "C74",
   "status": "proved",
   "theorems": [
    "Ygo.Props.C74_same_or_past_end",
    "Ygo.Props.C74_cut",
    "Ygo.Props.C74_incomplete_message",
    "Ygo.Props.C74_no_prefix",
    "Ygo.Props.C74_buffer"
   ],
   "note": "Past the end means undefined behaviour in the model: the encoder is not told where the buffer ends."
  },
  {
   "property": "C75",
   "status": "proved",
   "theorems": [
    "Ygo.Props.C75_message",
    "Ygo.Props.C75_accepted",
    "Ygo.Props.C75_taken",
    "Ygo.Props.C75_sizes_ignored",
    "Ygo.Props.C75_name_not_message",
    "Ygo.Props.C75_size_not_message",
    "Ygo.Props.C75_total_not_message",
    "Ygo.Props.C75_swap_not_message"
   ],
   "note": "Buffers up to 2^32 bytes for C75_accepted."
  },
  {
   "property": "C76",
   "status": "proved",
   "theorems": [
    "Ygo.Props.C76_own_seat",
    "Ygo.Props.C76_record"
   ],
   "note": ""
  },
  {
   "property": "C77",
   "status": "proved",
   "theorems": [
    "Ygo.Props.C77_call",
    "Ygo.Props.C77_private"
   ],
   "note": "`send` and `fill_user` are taken not to call back into the room."
  },
  {
   "property": "C78",
   "status": "proved",
   "theorems": [
    "Ygo.Props.C78_can_start",
    "Ygo.Props.C78_never"
   ],
   "note": ""
  },
  {
   "property": "C79",
   "status": "proved",
   "theorems": [
    "Ygo.Props.C79_replay",
    "Ygo.Props.C79_same_card"
   ],
   "note": "Without the messages C68 shows cannot be undone."
  },
  {
   "property": "C80",
   "status": "proved",
   "theorems": [
    "Ygo.Props.C80_aborts_iff",
    "Ygo.Props.C80_taken",
    "Ygo.Props.C80_stale",
    "Ygo.Props.C80_fresh"
   ],
   "note": ""
  },
  {
   "property": "C81",
   "status": "proved",
   "theorems": [
    "Ygo.Props.C81_encodes_iff"
   ],
   "note": "For a message alone in its buffer; C74 says what happens when bytes follow."
  },
  {
   "property": "C82",
   "status": "proved",
   "theorems": [
    "Ygo.Props.C82_call",
    "Ygo.Props.C82_calls",
    "Ygo.Props.C82_call_fails",
    "Ygo.Props.C82_one_outcome",
    "Ygo.Props.C82_shuffle_across_rows"
   ],
   "note": "Shuffles within a row of zones; across rows: C82_shuffle_across_rows."
  },
  {
   "property": "C83",
   "status": "proved",
   "theorems": [
    "Ygo.Props.C83_event",
    "Ygo.Props.C83_story",
    "Ygo.Props.C83_undoable"
   ],
   "note": "As C82."
  },
  {
   "property": "C84",
   "status": "proved",
   "theorems": [
    "Ygo.Props.C84_call",
    "Ygo.Props.C84_event",
    "Ygo.Props.C84_events",
    "Ygo.Props.C84_checked",
    "Ygo.Props.C84_undoable_call",
    "Ygo.Props.C84_undoable_event",
    "Ygo.Props.C84_undoable_events",
    "Ygo.Props.C84_undoable_checked"
   ],
   "note": "Exact for all arguments; C18_ub_exactly is the special case of well-formed places."
  },
  {
   "property": "C85",
   "status": "partial",
   "theorems": [
    "Ygo.Props.C85_overlay_partial",
    "Ygo.Props.C85_in_place_wrong_order",
    "Ygo.Props.C85_in_place_exactly",
    "Ygo.Props.C85_in_place_old_numbers",
    "Ygo.Props.C85_elsewhere_old_numbers"
   ],
   "note": "False when the monster takes the zone of one with two or more materials: the order is wrong (C85_in_place_wrong_order) with the numbering that works elsewhere; with the numbering that works there it aborts elsewhere (C85_in_place_old_numbers, C85_elsewhere_old_numbers). C85_in_place_exactly: which order comes of it for any number of materials, right exactly with at most one. All other cases: C85_overlay_partial."
  },
  {
   "property": "C86",
   "status": "proved",
   "theorems": [
    "Ygo.Props.C86_single_bits",
    "Ygo.Props.C86_widths",
    "Ygo.Props.C86_test",
    "Ygo.Props.C86_determined",
    "Ygo.Props.C86_count",
    "Ygo.Props.C86_part",
    "Ygo.Props.C86_fit",
    "Ygo.Props.C86_races_chosen",
    "Ygo.Props.C86_locations",
    "Ygo.Props.C86_location_kinds",
    "Ygo.Props.C86_in_use"
   ],
   "note": ""
  },
  {
   "property": "C87",
   "status": "proved",
   "theorems": [
    "Ygo.Props.C87_server",
    "Ygo.Props.C87_client",
    "Ygo.Props.C87_followed"
   ],
   "note": "The bound on the number of buffers is for the material index of deferred materials, a 32-bit loop counter in the code."
  },
  {
   "property": "C88",
   "status": "proved",
   "theorems": [
    "Ygo.Props.C88_same",
    "Ygo.Props.C88_same_history",
    "Ygo.Props.C88_no_stop",
    "Ygo.Props.C88_call",
    "Ygo.Props.C88_shuffle_returns",
    "Ygo.Props.C88_shuffle_permutes",
    "Ygo.Props.C88_no_dangling",
    "Ygo.Props.C88_lost",
    "Ygo.Props.C88_lost_forever",
    "Ygo.Props.C88_destroyed",
    "Ygo.Props.C88_null",
    "Ygo.Props.C88_tolerated",
    "Ygo.Props.C88_same_event",
    "Ygo.Props.C88_same_duel",
    "Ygo.Props.C88_no_stop_event",
    "Ygo.Props.C88_no_dangling_duel"
   ],
   "note": "C88_shuffle_returns is for new places of one kind of zone; what a shuffle that returns does is for all (C88_shuffle_permutes)."
  },
  {
   "property": "C89",
   "status": "partial",
   "theorems": [
    "Ygo.Props.C89_same",
    "Ygo.Props.C89_same_undo",
    "Ygo.Props.C89_same_event",
    "Ygo.Props.C89_same_undo_event",
    "Ygo.Props.C89_same_walk",
    "Ygo.Props.C89_follow",
    "Ygo.Props.C89_follow_exactly",
    "Ygo.Props.C89_walk_events",
    "Ygo.Props.C89_walk",
    "Ygo.Props.C89_walk_partial",
    "Ygo.Props.C89_follow_partial",
    "Ygo.Props.C89_chain_ignored",
    "Ygo.Props.C89_shuffle_not_undone",
    "Ygo.Props.C89_undo_undefined",
    "Ygo.Props.C89_no_dangling",
    "Ygo.Props.C89_erase_defined",
    "Ygo.Props.C89_no_dangling_board",
    "Ygo.Props.C89_chain_not_shown",
    "Ygo.Props.C89_shuffle_wrong",
    "Ygo.Props.C89_shrink_wrong"
   ],
   "note": "False for the chain, which is the one of the last state (C89_chain_not_shown); for going back over shuffles (C89_shuffle_wrong) and over piles that shrink to less than half (C89_shrink_wrong). Without shuffles of set cards and swaps of tag partners, and but for the chain, it is true: C89_walk_partial. Following: C89_follow_exactly."
  },
  {
   "property": "C90",
   "status": "proved",
   "theorems": [
    "Ygo.Props.C90_empty_selection",
    "Ygo.Props.C90_encode_more",
    "Ygo.Props.C90_event_more",
    "Ygo.Props.C90_differences",
    "Ygo.Props.C90_decode_same",
    "Ygo.Props.C90_decode_undefined_iff",
    "Ygo.Props.C90_decode_cards",
    "Ygo.Props.C90_decode_action",
    "Ygo.Props.C90_decode_no_action",
    "Ygo.Props.C90_no_dangling",
    "Ygo.Props.C90_new_cards_blank",
    "Ygo.Props.C90_no_stop",
    "Ygo.Props.C90_clients",
    "Ygo.Props.C90_clients_with_asserts",
    "Ygo.Props.C90_clients_of_asserting",
    "Ygo.Props.C90_query",
    "Ygo.Props.C90_same"
   ],
   "note": "C90_differences does not say which shuffles return without asserts only; C88_shuffle_returns does for new places of one kind of zone."
  },
  {
   "property": "C91",
   "status": "proved",
   "theorems": [
    "Ygo.Props.C91_same",
    "Ygo.Props.C91_same_history",
    "Ygo.Props.C91_call",
    "Ygo.Props.C91_no_stop",
    "Ygo.Props.C91_fails_iff",
    "Ygo.Props.C91_as_if",
    "Ygo.Props.C91_capacity",
    "Ygo.Props.C91_start",
    "Ygo.Props.C91_views_in_sync",
    "Ygo.Props.C91_told_twice"
   ],
   "note": ""
  },
  {
   "property": "C92",
   "status": "proved",
   "theorems": [
    "Ygo.Props.C92_described",
    "Ygo.Props.C92_objects",
    "Ygo.Props.C92_messages",
    "Ygo.Props.C92_answers",
    "Ygo.Props.C92_messages_apart",
    "Ygo.Props.C92_received",
    "Ygo.Props.C92_received_answers",
    "Ygo.Props.C92_any_client",
    "Ygo.Props.C92_clients_in_step",
    "Ygo.Props.C92_concatenation",
    "Ygo.Props.C92_later_versions",
    "Ygo.Props.C92_depth",
    "Ygo.Props.C92_limit",
    "Ygo.Props.C92_groups"
   ],
   "note": "The wire format is modelled from its specification; the protobuf library is not in the repository."
  },
  {
   "property": "C93",
   "status": "proved",
   "theorems": [
    "Ygo.Props.C93_client_messages",
    "Ygo.Props.C93_server_messages",
    "Ygo.Props.C93_received_signals",
    "Ygo.Props.C93_received_events",
    "Ygo.Props.C93_room_sends",
    "Ygo.Props.C93_views_in_sync",
    "Ygo.Props.C93_decks"
   ],
   "note": "Parts of options and deck errors that the room model leaves out are not set."
  },
  {
   "property": "C94",
   "status": "proved",
   "theorems": [
    "Ygo.Props.C94_replays",
    "Ygo.Props.C94_loaded",
    "Ygo.Props.C94_any_replay",
    "Ygo.Props.C94_replays_the_duel",
    "Ygo.Props.C94_pieces"
   ],
   "note": "Replays that are not compressed; the repository has no code for compressing them."
  },
  {
   "property": "C95",
   "status": "partial",
   "theorems": [
    "Ygo.Props.C95_exactly",
    "Ygo.Props.C95_reads_exactly",
    "Ygo.Props.C95_objects_partial",
    "Ygo.Props.C95_swap",
    "Ygo.Props.C95_growing_vector",
    "Ygo.Props.C95_copy",
    "Ygo.Props.C95_copies_are_no_values",
    "Ygo.Props.C95_no_leaks"
   ],
   "note": "False for copies: assigning to a copy or undoing it is undefined, and reading it when the other object is gone (C95_copy). Programs without copies: C95_objects_partial. With copies, exactly which programs are defined (C95_exactly) and what objects read (C95_reads_exactly). No node leaks, copies or none: C95_no_leaks."
  },
  {
   "property": "C96",
   "status": "partial",
   "theorems": [
    "Ygo.Props.C96_one_partial",
    "Ygo.Props.C96_reload",
    "Ygo.Props.C96_all_partial",
    "Ygo.Props.C96_factor_partial",
    "Ygo.Props.C96_each_partial",
    "Ygo.Props.C96_clients_in_step_partial",
    "Ygo.Props.C96_materials",
    "Ygo.Props.C96_unbounded",
    "Ygo.Props.C96_refused"
   ],
   "note": "False for reloads, whose counts of materials are believed (C96_materials, C96_unbounded, C96_refused); everything else in a reload is bounded: C96_reload."
  },
  {
   "property": "C97",
   "status": "partial",
   "theorems": [
    "Ygo.Props.C97_copy_exactly",
    "Ygo.Props.C97_moved_exactly",
    "Ygo.Props.C97_no_leaks",
    "Ygo.Props.C97_frames_partial",
    "Ygo.Props.C97_no_leaks_partial",
    "Ygo.Props.C97_swap",
    "Ygo.Props.C97_any_cards",
    "Ygo.Props.C97_moved",
    "Ygo.Props.C97_moved_clear",
    "Ygo.Props.C97_copy",
    "Ygo.Props.C97_copies_are_no_values",
    "Ygo.Props.C97_moved_are_not_empty"
   ],
   "note": "False for copies (C97_copy, C97_copies_are_no_values) and for moved frames, whose zones keep their pointers (C97_moved, C97_moved_clear, C97_moved_are_not_empty). Programs without copies that use a moved frame only to assign to it, move it on or destroy it: C97_frames_partial. No card leaks, is owned twice or outlives its frame in any program, copies and moved frames included: C97_no_leaks. Exactly what calls on a copy and on a moved frame do, for any number of calls after the copy or move: C97_copy_exactly, C97_moved_exactly."
  },
  {
   "property": "C98",
   "status": "proved",
   "theorems": [
    "Ygo.Props.C98_events",
    "Ygo.Props.C98_events_undoable",
    "Ygo.Props.C98_undone",
    "Ygo.Props.C98_messages",
    "Ygo.Props.C98_appears",
    "Ygo.Props.C98_disappears",
    "Ygo.Props.C98_asked",
    "Ygo.Props.C98_clients",
    "Ygo.Props.C98_account",
    "Ygo.Props.C98_duel",
    "Ygo.Props.C98_since_start",
    "Ygo.Props.C98_believed"
   ],
   "note": "C98_account is the exact account for every message; C98_since_start and C98_clients are its corollaries for duels and clients."
  },
  {
   "property": "C99",
   "status": "proved",
   "theorems": [
    "Ygo.Props.C99_understood",
    "Ygo.Props.C99_any_bytes",
    "Ygo.Props.C99_abort",
    "Ygo.Props.C99_abort_release",
    "Ygo.Props.C99_silent",
    "Ygo.Props.C99_hostile_server"
   ],
   "note": "C99_understood is the round trip; C99_any_bytes covers every byte string."
  },
  {
   "property": "C100",
   "status": "partial",
   "theorems": [
    "Ygo.Props.C100_any_response",
    "Ygo.Props.C100_no_cards",
    "Ygo.Props.C100_taken",
    "Ygo.Props.C100_exactly",
    "Ygo.Props.C100_leaves_battle",
    "Ygo.Props.C100_as_meant_partial",
    "Ygo.Props.C100_attack_idle",
    "Ygo.Props.C100_summon_in_battle",
    "Ygo.Props.C100_first_only",
    "Ygo.Props.C100_cut",
    "Ygo.Props.C100_finish",
    "Ygo.Props.C100_highest_link",
    "Ygo.Props.C100_no_order",
    "Ygo.Props.C100_other_question",
    "Ygo.Props.C100_two_phases",
    "Ygo.Props.C100_misunderstood"
   ],
   "note": "Holds for answers to the point: C100_as_meant_partial. False otherwise (C100_misunderstood). What every answer and every response is taken for is proved (C100_taken, C100_any_response), and so for which answers the property holds (C100_exactly). Witnesses: C100_leaves_battle, C100_attack_idle, C100_summon_in_battle, C100_first_only, C100_cut, C100_finish, C100_highest_link, C100_no_order, C100_other_question, C100_two_phases."
  },
  {
   "property": "C101",
   "status": "proved",
   "theorems": [
    "Ygo.Props.C101_scrub",
    "Ygo.Props.C101_exactly",
    "Ygo.Props.C101_one_card",
    "Ygo.Props.C101_reports_needed",
    "Ygo.Props.C101_same_cache",
    "Ygo.Props.C101_other_query"
   ],
   "note": "C101_scrub is the claim for events that can be undone, C101_exactly says that only the events matter."
  },
  {
   "property": "C102",
   "status": "partial",
   "theorems": [
    "Ygo.Props.C102_ignored",
    "Ygo.Props.C102_violated",
    "Ygo.Props.C102_broken",
    "Ygo.Props.C102_named_partial",
    "Ygo.Props.C102_stubs"
   ],
   "note": "The code violates it (C102_violated, C102_broken): limits and custom banlists have no effect at all (C102_ignored). What holds: decks were accepted for the name of the banlist (C102_named_partial). With the project's own stubs no duel ever starts (C102_stubs)."
  },
  {
   "property": "C103",
   "status": "proved",
   "theorems": [
    "Ygo.Props.C103_same",
    "Ygo.Props.C103_same_but_cards",
    "Ygo.Props.C103_duel",
    "Ygo.Props.C103_events",
    "Ygo.Props.C103_shown"
   ],
   "note": "C103_duel is the claim for whole duels, C103_events what follows for those who see no questions and queries; C103_shown: every message left out by the condition of C103_same does show codes."
  },
  {
   "property": "C104",
   "status": "proved",
   "theorems": [
    "Ygo.Props.C104_fits",
    "Ygo.Props.C104_exactly",
    "Ygo.Props.C104_enough",
    "Ygo.Props.C104_once",
    "Ygo.Props.C104_in_context",
    "Ygo.Props.C104_targets",
    "Ygo.Props.C104_counters",
    "Ygo.Props.C104_updates",
    "Ygo.Props.C104_updates_apart"
   ],
   "note": "Spec/Gist.lean lists what gets lost; C104_exactly: nothing else does. C104_in_context is the same for messages translated with sizes of piles; C104_updates is the same for messages with queries. Moves, graveyard swaps and match kills are left out (C39, C42, C46)."
  },
  {
   "property": "C105",
   "status": "proved",
   "theorems": [
    "Ygo.Props.C105_calls",
    "Ygo.Props.C105_parsed",
    "Ygo.Props.C105_events",
    "Ygo.Props.C105_same",
    "Ygo.Props.C105_shape",
    "Ygo.Props.C105_undoable",
    "Ygo.Props.C105_only_apart"
   ],
   "note": "Calls and events that name different containers and values commute up to a renaming of the cards they create; the games are equal if none are created; also for undoable boards; with a witness that events about the same pile do not commute."
  },
  {
   "property": "C106",
   "status": "proved",
   "theorems": [
    "Ygo.Props.C106_calls",
    "Ygo.Props.C106_undoable_calls",
    "Ygo.Props.C106_look",
    "Ygo.Props.C106_events",
    "Ygo.Props.C106_undo_boards",
    "Ygo.Props.C106_queries",
    "Ygo.Props.C106_client",
    "Ygo.Props.C106_messages",
    "Ygo.Props.C106_duel",
    "Ygo.Props.C106_both_sides",
    "Ygo.Props.C106_answers",
    "Ygo.Props.C106_twice",
    "Ygo.Props.C106_whole_duel",
    "Ygo.Props.C106_as_far",
    "Ygo.Props.C106_whole_client"
   ],
   "note": "C106_calls, C106_undoable_calls, C106_events, C106_undo_boards, C106_queries, C106_client, C106_messages, C106_answers for single steps and clients; C106_duel for whole duels without messages about both sides, exactly; C106_whole_duel, C106_as_far and C106_whole_client for whole duels with all messages, up to the order in which C106_both_sides lists the sides and which of the cards in a place is which."
  },
  {
   "property": "C107",
   "status": "proved",
   "theorems": [
    "Ygo.Props.C107_calls",
    "Ygo.Props.C107_look",
    "Ygo.Props.C107_events",
    "Ygo.Props.C107_queries",
    "Ygo.Props.C107_server",
    "Ygo.Props.C107_client"
   ],
   "note": "C107_calls, C107_look, C107_events, C107_queries, C107_server, C107_client."
  },
  {
   "property": "C108",
   "status": "proved",
   "theorems": [
    "Ygo.Props.C108_any_context",
    "Ygo.Props.C108_histories",
    "Ygo.Props.C108_no_questions",
    "Ygo.Props.C108_needed",
    "Ygo.Props.C108_tally"
   ],
   "note": "C108_any_context: for contexts of any two types in any relation under which the questions that are asked are answered alike, arbitrary buffers; C108_histories: whole histories with any way of following messages that keeps the relation; C108_no_questions: no relation needed for the other kinds; C108_needed: the list of seven kinds is minimal; C108_tally: sizes of piles and zones with materials are enough."
  },
  {
   "property": "C109",
   "status": "proved",
   "theorems": [
    "Ygo.Props.C109_shown",
    "Ygo.Props.C109_told",
    "Ygo.Props.C109_coarsest"
   ],
   "note": "C109_shown: clients reached by any messages, LookSame is kept by any further messages or both fail alike; C109_told: what a query changes, as a function of the card; C109_coarsest: no coarser relation would do."
  },
  {
   "property": "C110",
   "status": "proved",
   "theorems": [
    "Ygo.Props.C110_catch_up",
    "Ygo.Props.C110_late",
    "Ygo.Props.C110_server",
    "Ygo.Props.C110_every_table",
    "Ygo.Props.C110_sent",
    "Ygo.Props.C110_size",
    "Ygo.Props.C110_arrives",
    "Ygo.Props.C110_least"
   ],
   "note": "C110_catch_up: four messages from any reachable client to any reachable client; C110_late: afterwards alike under any continuation; C110_server: with arbitrary buffers encoded by the server; C110_every_table: exactly which tables can be shown; C110_sent: over the wire, if the turn counter fits int32 and places have fewer than 2^31 cards; C110_size: how many bytes they take at most; C110_arrives: so that up to 2^16 cards always arrive."
  },
  {
   "property": "C111",
   "status": "proved",
   "theorems": [
    "Ygo.Props.C111_alike",
    "Ygo.Props.C111_handover",
    "Ygo.Props.C111_nothing_noted",
    "Ygo.Props.C111_notes_needed"
   ],
   "note": "C111_handover: arbitrary buffers before and after; C111_alike: any server that looks alike and has noted the same; C111_nothing_noted: messages alone; C111_notes_needed: a case where they are not enough."
  },
  {
   "property": "C112",
   "status": "proved",
   "theorems": [
    "Ygo.Props.C112_merged",
    "Ygo.Props.C112_any_order",
    "Ygo.Props.C112_last_value",
    "Ygo.Props.C112_again"
   ],
   "note": "C112_merged, C112_any_order (any permutation of queries that do not clash), C112_last_value (closed form for every field of every card), C112_again."
  },
  {
   "property": "C113",
   "status": "partial",
   "theorems": [
    "Ygo.Props.C113_counts",
    "Ygo.Props.C113_erased",
    "Ygo.Props.C113_add_exactly",
    "Ygo.Props.C113_remove_exactly",
    "Ygo.Props.C113_clear_exactly",
    "Ygo.Props.C113_resize_exactly",
    "Ygo.Props.C113_others_exactly",
    "Ygo.Props.C113_board_partial",
    "Ygo.Props.C113_write_exactly",
    "Ygo.Props.C113_value_wrong",
    "Ygo.Props.C113_card_twice"
   ],
   "note": "The code violates it: C113_value_wrong shows stale life points, C113_card_twice one card in two places. Proved for all walks: C113_counts and C113_board_partial (the right number of cards in every place), C113_erased (frames are right up to the identities of cards if history is erased first), and exactly when each call or write is right after going back (C113_add_exactly, C113_remove_exactly, C113_resize_exactly, C113_clear_exactly, C113_others_exactly, C113_write_exactly)."
  },
  {
   "property": "C114",
   "status": "partial",
   "theorems": [
    "Ygo.Props.C114_client_partial",
    "Ygo.Props.C114_stays",
    "Ygo.Props.C114_server_partial",
    "Ygo.Props.C114_reused_partial",
    "Ygo.Props.C114_violated_shown",
    "Ygo.Props.C114_violated_material",
    "Ygo.Props.C114_reused_exactly"
   ],
   "note": "The code violates it: C114_violated_shown (blocked zones and the turn's player stay), C114_violated_material (material put off in the last duel goes beneath the first card summoned in the next). Proved for all histories: C114_client_partial (cards, chain, turn, life points, and the rest as soon as it is told), C114_stays (what is not told stays), C114_server_partial (the same is sent as by a new server with the same notes), C114_reused_partial (the same is sent as by a new server if no material is put off), C114_reused_exactly (if and only if)."
  },
  {
   "property": "C115",
   "status": "proved",
   "theorems": [
    "Ygo.Props.C115_in_step",
    "Ygo.Props.C115_all_alike",
    "Ygo.Props.C115_never_stuck",
    "Ygo.Props.C115_shows_the_past",
    "Ygo.Props.C115_one_server",
    "Ygo.Props.C115_goes_on"
   ],
   "note": "By induction over all interleavings: C115_in_step, C115_all_alike, C115_never_stuck, C115_shows_the_past, C115_one_server, C115_goes_on."
  },
  {
   "property": "C116",
   "status": "proved",
   "theorems": [
    "Ygo.Props.C116_order",
    "Ygo.Props.C116_newcomers",
    "Ygo.Props.C116_views",
    "Ygo.Props.C116_next",
    "Ygo.Props.C116_newcomers_matter",
    "Ygo.Props.C116_start_matters"
   ],
   "note": "C116_order (same room, same messages for each call), C116_newcomers, C116_views, C116_next; that the conditions are needed: C116_newcomers_matter, C116_start_matters."
  },
  {
   "property": "C117",
   "status": "proved",
   "theorems": [
    "Ygo.Props.C117_tracked",
    "Ygo.Props.C117_from_anywhere",
    "Ygo.Props.C117_no_skill",
    "Ygo.Props.C117_no_skill_client",
    "Ygo.Props.C117_clients_can"
   ],
   "note": "C117_tracked (iff), C117_from_anywhere, C117_no_skill (arbitrary bytes), C117_no_skill_client; C117_clients_can shows that it is not for the clients' sake."
  },
  {
   "property": "C118",
   "status": "proved",
   "theorems": [
    "Ygo.Props.C118_moves",
    "Ygo.Props.C118_few",
    "Ygo.Props.C118_client",
    "Ygo.Props.C118_server",
    "Ygo.Props.C118_instead"
   ],
   "note": "C118_moves (iff), C118_few (at most two moves per card, same objects), C118_client, C118_server (fewer than 2^31 cards, skill zones empty, no material put off), C118_instead."
  },
  {
   "property": "C119",
   "status": "proved",
   "theorems": [
    "Ygo.Props.C119_rooms",
    "Ygo.Props.C119_kept",
    "Ygo.Props.C119_alone",
    "Ygo.Props.C119_late"
   ],
   "note": "C119_rooms (iff), C119_kept (inductive), C119_alone (iff, host alone), C119_late (iff: ready without a valid deck)."
  },
  {
   "property": "C120",
   "status": "proved",
   "theorems": [
    "Ygo.Props.C120_server",
    "Ygo.Props.C120_client",
    "Ygo.Props.C120_from_anywhere"
   ],
   "note": "C120_server (iff, arbitrary bytes), C120_client (iff, messages of any servers in any order), C120_from_anywhere."
  },
  {
   "property": "C121",
   "status": "partial",
   "theorems": [
    "Ygo.Props.C121_sent",
    "Ygo.Props.C121_rooms",
    "Ygo.Props.C121_call",
    "Ygo.Props.C121_quiet",
    "Ygo.Props.C121_unsent",
    "Ygo.Props.C121_kept_partial",
    "Ygo.Props.C121_decks",
    "Ygo.Props.C121_answers",
    "Ygo.Props.C121_silent",
    "Ygo.Props.C121_exactly",
    "Ygo.Props.C121_unbounded"
   ],
   "note": "The code violates the property: C121_unbounded (no bound, for every validator, generator, host and options, one client suffices), C121_decks and C121_answers (the requests to repeat). C121_exactly says when the arena can still grow beyond any bound, C121_silent that otherwise nothing is kept any more. C121_kept_partial: the bound in terms of calls, reached. C121_sent, C121_rooms: the model with the arena is the room of the other properties; C121_call, C121_quiet, C121_unsent."
  },
  {
   "property": "C122",
   "status": "partial",
   "theorems": [
    "Ygo.Props.C122_note",
    "Ygo.Props.C122_history",
    "Ygo.Props.C122_exactly",
    "Ygo.Props.C122_stays_partial",
    "Ygo.Props.C122_detached",
    "Ygo.Props.C122_unread",
    "Ygo.Props.C122_lost",
    "Ygo.Props.C122_mistaken"
   ],
   "note": "The code violates the property: C122_lost (a monster pushed up in its pile by another one: its material is looked for behind the end of a map) and C122_mistaken (a monster that moved down: the material of another monster is taken). C122_exactly and C122_history say for all histories from where a material is taken; C122_stays_partial is the property while the monster stays where it went. C122_note, C122_detached: what is written down; C122_unread: what never is read."
  },
  {
   "property": "C123",
   "status": "partial",
   "theorems": [
    "Ygo.Props.C123_summoned",
    "Ygo.Props.C123_passed_on",
    "Ygo.Props.C123_removed",
    "Ygo.Props.C123_exactly",
    "Ygo.Props.C123_moves_partial",
    "Ygo.Props.C123_violated"
   ],
   "note": "The code violates the property: C123_summoned (into a zone: no server survives), C123_passed_on (to a monster in a pile: no server survives the next arrival, whatever comes between), C123_removed (out of existence: the monster is removed instead); C123_violated has witnesses. C123_moves_partial is the property for piles and materials of other monsters; C123_exactly says that nothing else ever changes what is beneath a zone."
  },
  {
   "property": "C124",
   "status": "partial",
   "theorems": [
    "Ygo.Props.C124_piles_exactly",
    "Ygo.Props.C124_card_exactly",
    "Ygo.Props.C124_code",
    "Ygo.Props.C124_rest_partial",
    "Ygo.Props.C124_zones_partial",
    "Ygo.Props.C124_accepted",
    "Ygo.Props.C124_violated"
   ],
   "note": "The code violates the property: C124_violated (a monster that is about to be summoned is shown with the code of its last material, also after its arrival). C124_piles_exactly and C124_card_exactly say for all messages what is shown; C124_code says exactly when the code is right; C124_rest_partial and C124_zones_partial are the property for other values and for zones; C124_accepted says exactly which messages about one card are accepted."
  },
  {
   "property": "C125",
   "status": "partial",
   "theorems": [
    "Ygo.Props.C125_shuffle",
    "Ygo.Props.C125_shuffle_exactly",
    "Ygo.Props.C125_set_cards",
    "Ygo.Props.C125_set_cards_exactly",
    "Ygo.Props.C125_hand_exactly",
    "Ygo.Props.C125_tag_swap_exactly",
    "Ygo.Props.C125_tag_swap_hand",
    "Ygo.Props.C125_start_partial",
    "Ygo.Props.C125_violated",
    "Ygo.Props.C125_set_cards_violated"
   ],
   "note": "The code violates it (C125_violated); C125_shuffle_exactly, C125_tag_swap_exactly and C125_tag_swap_hand say exactly when it holds."
  },
  {
   "property": "C126",
   "status": "partial",
   "theorems": [
    "Ygo.Props.C126_exactly",
    "Ygo.Props.C126_missed",
    "Ygo.Props.C126_twice",
    "Ygo.Props.C126_values",
    "Ygo.Props.C126_move_partial",
    "Ygo.Props.C126_splice_partial",
    "Ygo.Props.C126_appears",
    "Ygo.Props.C126_disappears",
    "Ygo.Props.C126_link",
    "Ygo.Props.C126_unlink",
    "Ygo.Props.C126_twice_state",
    "Ygo.Props.C126_state_heals",
    "Ygo.Props.C126_violated"
   ],
   "note": "The code violates it (C126_violated); C126_exactly says exactly which clients are never found out, C126_move_partial and the like apply it to single messages."
  },
  {
   "property": "C127",
   "status": "proved",
   "theorems": [
    "Ygo.Props.C127_parts",
    "Ygo.Props.C127_regroup",
    "Ygo.Props.C127_undo",
    "Ygo.Props.C127_regroup_undo",
    "Ygo.Props.C127_release",
    "Ygo.Props.C127_release_undoable",
    "Ygo.Props.C127_message",
    "Ygo.Props.C127_single",
    "Ygo.Props.C127_calls"
   ],
   "note": "C127_parts holds for every kind of frame and value; C127_undo for the board that can be undone."
  },
  {
   "property": "C128",
   "status": "partial",
   "theorems": [
    "Ygo.Props.C128_exactly",
    "Ygo.Props.C128_counts",
    "Ygo.Props.C128_of_unnoticed",
    "Ygo.Props.C128_disappears",
    "Ygo.Props.C128_move_partial",
    "Ygo.Props.C128_state_heals",
    "Ygo.Props.C128_never_stopped",
    "Ygo.Props.C128_violated"
   ],
   "note": "The code violates it (C128_violated); C128_exactly says exactly which clients never do anything undefined, C128_move_partial and the like apply it to single messages."
  },
  {
   "property": "C129",
   "status": "proved",
   "theorems": [
    "Ygo.Props.C129_parts",
    "Ygo.Props.C129_calls",
    "Ygo.Props.C129_clients",
    "Ygo.Props.C129_cards",
    "Ygo.Props.C129_sharp",
    "Ygo.Props.C129_believed",
    "Ygo.Props.C129_server",
    "Ygo.Props.C129_answers"
   ],
   "note": "C129_parts for any bytes; C129_clients for what is kept; C129_sharp and C129_believed show that the bounds cannot be better; C129_answers for the other direction."
  },
  {
   "property": "C130",
   "status": "proved",
   "theorems": [
    "Ygo.Props.C130_frames",
    "Ygo.Props.C130_scratch",
    "Ygo.Props.C130_no_dangling",
    "Ygo.Props.C130_clients",
    "Ygo.Props.C130_shown",
    "Ygo.Props.C130_two"
   ],
   "note": "C130_frames and C130_clients relate frames and clients at addresses of any allocator to the model with names never used twice; C130_shown, C130_two, C130_scratch and C130_no_dangling are what follows."
  },
  {
   "property": "C131",
   "status": "proved",
   "theorems": [
    "Ygo.Props.C131_dice",
    "Ygo.Props.C131_dice_ends",
    "Ygo.Props.C131_sixth",
    "Ygo.Props.C131_faces",
    "Ygo.Props.C131_faces_exactly",
    "Ygo.Props.C131_bits",
    "Ygo.Props.C131_coin",
    "Ygo.Props.C131_coin_exactly"
   ],
   "note": "Chances are counts over all sequences of draws of an arbitrary list of values; C131_dice, C131_dice_ends, C131_sixth for dice, C131_faces* for one die, C131_coin* for the coin."
  },
  {
   "property": "C132",
   "status": "proved",
   "theorems": [
    "Ygo.Props.C132_rooms",
    "Ygo.Props.C132_received",
    "Ygo.Props.C132_fails",
    "Ygo.Props.C132_order_exactly"
   ],
   "note": "C132_rooms for whole lives of rooms; C132_received and C132_fails follow; C132_order_exactly says when also the order of sending to different clients is the same."
  },
  {
   "property": "C133",
   "status": "partial",
   "theorems": [
    "Ygo.Props.C133_notes_partial",
    "Ygo.Props.C133_places",
    "Ygo.Props.C133_entries_partial",
    "Ygo.Props.C133_again",
    "Ygo.Props.C133_violated",
    "Ygo.Props.C133_exactly",
    "Ygo.Props.C133_violated_notes"
   ],
   "note": "The code violates it for what is put off (C133_violated, C133_again; C133_exactly says what that is at each moment). For the notes it is proved under the hypothesis that materials are numbered from 0 (C133_notes_partial, C133_entries_partial), and refuted without it (C133_violated_notes)."
  },
  {
   "property": "C134",
   "status": "proved",
   "theorems": [
    "Ygo.Props.C134_kept",
    "Ygo.Props.C134_undoable",
    "Ygo.Props.C134_nothing_new",
    "Ygo.Props.C134_straight"
   ],
   "note": "C134_kept and C134_undoable for all walks; C134_nothing_new and C134_straight follow."
  },
  {
   "property": "C135",
   "status": "proved",
   "theorems": [
    "Ygo.Props.C135_well_made",
    "Ygo.Props.C135_exactly",
    "Ygo.Props.C135_bystanders",
    "Ygo.Props.C135_bystanders_undo",
    "Ygo.Props.C135_heard",
    "Ygo.Props.C135_unheard",
    "Ygo.Props.C135_nothing_missed"
   ],
   "note": ""
  },
  {
   "property": "C136",
   "status": "proved",
   "theorems": [
    "Ygo.Props.C136_silent",
    "Ygo.Props.C136_heard",
    "Ygo.Props.C136_announced",
    "Ygo.Props.C136_alike",
    "Ygo.Props.C136_private",
    "Ygo.Props.C136_inside",
    "Ygo.Props.C136_little",
    "Ygo.Props.C136_traffic"
   ],
   "note": ""
  },
  {
   "property": "C137",
   "status": "proved",
   "theorems": [
    "Ygo.Props.C137_exactly",
    "Ygo.Props.C137_started",
    "Ygo.Props.C137_back",
    "Ygo.Props.C137_alone"
   ],
   "note": ""
  },
  {
   "property": "C138",
   "status": "proved",
   "theorems": [
    "Ygo.Props.C138_messages",
    "Ygo.Props.C138_server",
    "Ygo.Props.C138_queries",
    "Ygo.Props.C138_clients",
    "Ygo.Props.C138_new",
    "Ygo.Props.C138_duel",
    "Ygo.Props.C138_answers",
    "Ygo.Props.C138_desks"
   ],
   "note": ""
  },
  {
   "property": "C139",
   "status": "proved",
   "theorems": [
    "Ygo.Props.C139_queries",
    "Ygo.Props.C139_clients",
    "Ygo.Props.C139_screens",
    "Ygo.Props.C139_server",
    "Ygo.Props.C139_desks",
    "Ygo.Props.C139_reports_exactly"
   ],
   "note": ""
  },
  {
   "property": "C140",
   "status": "proved",
   "theorems": [
    "Ygo.Props.C140_calls",
    "Ygo.Props.C140_rooms",
    "Ygo.Props.C140_same_course"
   ],
   "note": ""
  },
  {
   "property": "C141",
   "status": "proved",
   "theorems": [
    "Ygo.Props.C141_kinds_exactly",
    "Ygo.Props.C141_buffer_exactly"
   ],
   "note": ""
  }
 ]
}