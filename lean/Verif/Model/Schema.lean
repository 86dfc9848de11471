import Verif.Model.Protobuf

/-!
# The descriptions of the messages (`include/ygopen/proto/*.proto`)

A transcription of the `.proto` files.  The names are the full names of the message types without dots and underscores,
where `ev` is for `Duel.Msg.Event`, `rq` for `Duel.Msg.Request`, `rqSelect` for its `SelectCard`, `an` for `Duel.Answer` and `q` for `Duel.Msg.Query.Data.Q`;
`Duel` is left out elsewhere.
-/

namespace Ygo.Pb

/-- All message types. -/
inductive MsgType where
  | fieldShape | duelOptions | duelOptionsDuelist | chain | counter | effect | place | msg | event | evBoard | evBoardExchange
  | evBoardState | evCard | evCardAdd | evCardExchange | evCardExchangeOp | evCardMove | evCardMoveOp | evCardRemove | evCardShuffle
  | evChainStack | evFinish | evLP | evMeta | evMetaAttack | evMetaConfirm | evMetaDescription | evMetaFlashCard | evMetaMissedTiming
  | evMetaSelection | evMetaShufflePile | evMetaUpdate | evPile | evPileExchange | evPileExchangeOp | evPileResize | evPileResizeOp
  | evPileSplice | evPileSpliceOp | evResult | evResultCoin | evResultDice | evResultRPS | evZoneBlock | request | rqActCard
  | rqSelectAttribute | rqSelectCard | rqSelectSelectableCard | rqSelectLimbo | rqSelectRecursive | rqSelectUniqueRange
  | rqSelectUniqueSum | rqSelectUniqueSumSumCard | rqSelectUniqueTributes | rqSelectUniqueTributesTributeCard | rqSelectCardCode
  | rqSelectCounter | rqSelectCounterCounterCard | rqSelectEffect | rqSelectIdle | rqSelectIdleAtkCard | rqSelectNumber
  | rqSelectPosition | rqSelectRace | rqSelectToChain | rqSelectYesNo | rqSelectZone | rqSort | query | queryData | qCode | qPosition
  | qAlias | qType | qLevel | qXyzRank | qAttribute | qRace | qAtk | qDef | qBaseAtk | qBaseDef | qEquippedTo | qTargets | qCounters
  | qOwner | qStatus | qIsPublic | qPendLScale | qPendRScale | qLinkRate | qLinkArrow | qIsHidden | qCover | answer | anIndexes
  | anSelectCard | anSelectCounter | anSelectCounterPair | anSelectIdle | anSelectIdleCardAction | anSelectToChain | anSelectZone
  | anSort | user | banlist | banlistError | deck | deckData | deckLimits | deckLimitsLimit | deckError | deckErrorBanlisted
  | deckErrorBanlistedReasonAndCode | deckErrorExcessiveCopies | deckErrorInvalidCard | deckErrorMixedCard | deckErrorOutOfLimit
  | roomDuelist | roomOptions | roomEvent | roomEventConfiguring | roomEventConfiguringEnteringState | roomEventConfiguringDeckStatus
  | roomEventDecidingFirstTurn | roomEventDecidingFirstTurnEnteringState | roomEventDecidingFirstTurnResult
  | roomEventDecidingFirstTurnResultRPS | roomEventDecidingFirstTurnResultDice | roomEventDecidingFirstTurnResultDiceResultPair
  | roomEventDueling | roomEventDuelingEnteringState | roomSignal | roomSignalConfiguring | roomSignalDecidingFirstTurn | clientMsg
  | clientMsgIdSignal | serverMsg | serverMsgIdEvent | replay | replayStream | replayStreamBlock | replayCompressedStream
  | replayCompressedStreamLZ4 | replayCompressedStreamLZMA
  deriving DecidableEq, Repr

open MsgType

/-- The fields of each type, in the order of their numbers. -/
def schema : MsgType → List (Field MsgType)
  -- duel_data.proto
  | fieldShape => /- 22-34 -/
    [⟨1, .plain, .num .bool⟩ /- three_columns -/, ⟨2, .plain, .num .bool⟩ /- has_pzones -/,
     ⟨3, .plain, .num .bool⟩ /- has_separate_pzones -/, ⟨4, .plain, .num .bool⟩ /- has_emzones -/,
     ⟨5, .plain, .num .bool⟩ /- has_skill_zone -/]
  | duelOptions => /- 36-58 -/
    [⟨1, .rep, .num .uint64⟩ /- seed -/, ⟨2, .rep, .msg duelOptionsDuelist⟩ /- duelists_first -/,
     ⟨3, .rep, .msg duelOptionsDuelist⟩ /- duelists_second -/, ⟨4, .plain, .msg fieldShape⟩ /- shape -/]
  | duelOptionsDuelist => /- 41-46 -/
    [⟨1, .plain, .num .uint32⟩ /- starting_lp -/, ⟨2, .plain, .num .uint32⟩ /- starting_draw_count -/,
     ⟨3, .plain, .num .uint32⟩ /- draw_count_per_turn -/]
  | chain => /- 71-76 -/
    [⟨1, .plain, .msg place⟩ /- card_place -/, ⟨2, .plain, .msg place⟩ /- place -/, ⟨3, .plain, .msg effect⟩ /- effect -/]
  | counter => /- 78-82 -/
    [⟨1, .plain, .num .uint32⟩ /- type -/, ⟨2, .plain, .num .uint32⟩ /- count -/]
  | effect => /- 84-88 -/
    [⟨1, .plain, .num .uint32⟩ /- code -/, ⟨2, .plain, .num .uint32⟩ /- index -/]
  | place => /- 90-96 -/
    [⟨1, .plain, .num .int32⟩ /- con -/, ⟨2, .plain, .num .uint32⟩ /- loc -/, ⟨3, .plain, .num .uint32⟩ /- seq -/,
     ⟨4, .plain, .num .sint32⟩ /- oseq -/]
  -- duel_msg.proto
  | msg => /- 16-737 -/
    [⟨1, .oneof 0, .msg event⟩ /- event -/, ⟨2, .oneof 0, .msg request⟩ /- request -/, ⟨3, .rep, .msg query⟩ /- queries -/]
  | event => /- 18-297 -/
    [⟨1, .oneof 0, .msg evBoard⟩ /- board -/, ⟨2, .oneof 0, .msg evCard⟩ /- card -/, ⟨3, .oneof 0, .msg evChainStack⟩ /- chain_stack -/,
     ⟨4, .oneof 0, .num .int32⟩ /- next_turn -/, ⟨5, .oneof 0, .msg evFinish⟩ /- finish -/, ⟨6, .oneof 0, .msg evLP⟩ /- lp -/,
     ⟨7, .oneof 0, .msg evMeta⟩ /- meta -/, ⟨8, .oneof 0, .num .uint32⟩ /- next_phase -/, ⟨9, .oneof 0, .msg evPile⟩ /- pile -/,
     ⟨10, .oneof 0, .msg evResult⟩ /- result -/, ⟨11, .oneof 0, .msg evZoneBlock⟩ /- zone_block -/]
  | evBoard => /- 20-46 -/
    [⟨1, .oneof 0, .msg evBoardExchange⟩ /- exchange -/, ⟨2, .oneof 0, .msg evBoardState⟩ /- state -/]
  | evBoardExchange => /- 22-28 -/
    [⟨1, .plain, .num .int32⟩ /- con -/, ⟨2, .plain, .msg evCardRemove⟩ /- remove -/, ⟨3, .plain, .msg evCardAdd⟩ /- add -/,
     ⟨4, .plain, .msg evPileResize⟩ /- resize -/]
  | evBoardState => /- 30-39 -/
    [⟨1, .plain, .msg fieldShape⟩ /- shape -/, ⟨2, .plain, .num .int32⟩ /- turn_counter -/, ⟨3, .rep, .num .uint32⟩ /- lps -/,
     ⟨4, .rep, .msg chain⟩ /- chains -/, ⟨5, .plain, .msg evCardAdd⟩ /- add -/, ⟨6, .plain, .msg evPileResize⟩ /- resize -/]
  | evCard => /- 48-99 -/
    [⟨1, .plain, .num .uint64⟩ /- reason -/, ⟨2, .oneof 0, .msg evCardAdd⟩ /- add -/, ⟨3, .oneof 0, .msg evCardExchange⟩ /- exchange -/,
     ⟨4, .oneof 0, .msg evCardMove⟩ /- move -/, ⟨5, .oneof 0, .msg evCardRemove⟩ /- remove -/,
     ⟨6, .oneof 0, .msg evCardShuffle⟩ /- shuffle -/]
  | evCardAdd => /- 50-53 -/
    [⟨1, .rep, .msg place⟩ /- places -/]
  | evCardExchange => /- 55-64 -/
    [⟨1, .rep, .msg evCardExchangeOp⟩ /- ops -/]
  | evCardExchangeOp => /- 57-61 -/
    [⟨1, .plain, .msg place⟩ /- place_a -/, ⟨2, .plain, .msg place⟩ /- place_b -/]
  | evCardMove => /- 66-75 -/
    [⟨1, .rep, .msg evCardMoveOp⟩ /- ops -/]
  | evCardMoveOp => /- 68-72 -/
    [⟨1, .plain, .msg place⟩ /- old_place -/, ⟨2, .plain, .msg place⟩ /- new_place -/]
  | evCardRemove => /- 77-80 -/
    [⟨1, .rep, .msg place⟩ /- places -/]
  | evCardShuffle => /- 82-88 -/
    [⟨1, .rep, .msg place⟩ /- previous_places -/, ⟨2, .rep, .msg place⟩ /- current_places -/]
  | evChainStack => /- 101-108 -/
    [⟨1, .oneof 0, .msg chain⟩ /- push -/, ⟨2, .oneof 0, .num .bool⟩ /- pop -/]
  | evFinish => /- 110-120 -/
    [⟨1, .plain, .num .uint32⟩ /- win_reason -/, ⟨2, .plain, .num .uint32⟩ /- match_win_reason -/,
     ⟨3, .oneof 0, .num .int32⟩ /- winner -/, ⟨4, .oneof 0, .num .bool⟩ /- draw -/]
  | evLP => /- 122-132 -/
    [⟨1, .plain, .num .int32⟩ /- controller -/, ⟨2, .oneof 0, .num .uint32⟩ /- become -/, ⟨3, .oneof 0, .num .uint32⟩ /- damage -/,
     ⟨4, .oneof 0, .num .uint32⟩ /- pay -/, ⟨5, .oneof 0, .num .uint32⟩ /- recover -/]
  | evMeta => /- 134-201 -/
    [⟨1, .oneof 0, .msg evMetaAttack⟩ /- attack -/, ⟨2, .oneof 0, .num .enum⟩ /- chain_status -/,
     ⟨3, .oneof 0, .msg evMetaConfirm⟩ /- confirm -/, ⟨4, .oneof 0, .msg evMetaDescription⟩ /- description -/,
     ⟨5, .oneof 0, .msg evMetaFlashCard⟩ /- flash_card -/, ⟨6, .oneof 0, .msg evMetaMissedTiming⟩ /- missed_timing -/,
     ⟨7, .oneof 0, .msg evMetaSelection⟩ /- selection -/, ⟨8, .oneof 0, .msg evMetaShufflePile⟩ /- shuffle_pile -/,
     ⟨9, .oneof 0, .msg evMetaUpdate⟩ /- update -/]
  | evMetaAttack => /- 136-141 -/
    [⟨1, .plain, .msg place⟩ /- attacker -/, ⟨2, .plain, .msg place⟩ /- attack_target -/]
  | evMetaConfirm => /- 143-147 -/
    [⟨1, .plain, .num .uint64⟩ /- reason -/, ⟨2, .rep, .msg place⟩ /- places -/]
  | evMetaDescription => /- 149-157 -/
    [⟨1, .plain, .num .int32⟩ /- con -/, ⟨2, .oneof 0, .msg effect⟩ /- add -/, ⟨3, .oneof 0, .msg effect⟩ /- remove -/]
  | evMetaFlashCard => /- 159-164 -/
    [⟨1, .plain, .num .uint32⟩ /- code -/, ⟨2, .plain, .num .bool⟩ /- has_number -/, ⟨3, .plain, .num .int32⟩ /- number -/]
  | evMetaMissedTiming => /- 166-169 -/
    [⟨1, .rep, .msg place⟩ /- places -/]
  | evMetaSelection => /- 171-176 -/
    [⟨1, .plain, .msg place⟩ /- selector -/, ⟨2, .plain, .num .uint64⟩ /- reason -/, ⟨3, .rep, .msg place⟩ /- selected_places -/]
  | evMetaShufflePile => /- 178-181 -/
    [⟨1, .rep, .msg place⟩ /- places -/]
  | evMetaUpdate => /- 183-187 -/
    [⟨1, .plain, .num .uint64⟩ /- reason -/, ⟨2, .rep, .msg place⟩ /- places -/]
  | evPile => /- 203-247 -/
    [⟨1, .plain, .num .uint64⟩ /- reason -/, ⟨2, .oneof 0, .msg evPileExchange⟩ /- exchange -/,
     ⟨3, .oneof 0, .msg evPileResize⟩ /- resize -/, ⟨4, .oneof 0, .msg evPileSplice⟩ /- splice -/]
  | evPileExchange => /- 205-214 -/
    [⟨1, .rep, .msg evPileExchangeOp⟩ /- ops -/]
  | evPileExchangeOp => /- 207-211 -/
    [⟨1, .plain, .msg place⟩ /- place_a -/, ⟨2, .plain, .msg place⟩ /- place_b -/]
  | evPileResize => /- 216-225 -/
    [⟨1, .rep, .msg evPileResizeOp⟩ /- ops -/]
  | evPileResizeOp => /- 218-222 -/
    [⟨1, .plain, .msg place⟩ /- place -/, ⟨2, .plain, .num .uint32⟩ /- count -/]
  | evPileSplice => /- 227-238 -/
    [⟨1, .rep, .msg evPileSpliceOp⟩ /- ops -/]
  | evPileSpliceOp => /- 229-235 -/
    [⟨1, .plain, .msg place⟩ /- from -/, ⟨2, .plain, .num .uint32⟩ /- count -/, ⟨3, .plain, .msg place⟩ /- to -/,
     ⟨4, .plain, .num .bool⟩ /- reverse -/]
  | evResult => /- 249-274 -/
    [⟨1, .oneof 0, .msg evResultCoin⟩ /- coin -/, ⟨2, .oneof 0, .msg evResultDice⟩ /- dice -/, ⟨3, .oneof 0, .msg evResultRPS⟩ /- rps -/]
  | evResultCoin => /- 251-255 -/
    [⟨1, .plain, .num .int32⟩ /- actor -/, ⟨2, .rep, .num .bool⟩ /- values -/]
  | evResultDice => /- 257-261 -/
    [⟨1, .plain, .num .int32⟩ /- actor -/, ⟨2, .rep, .num .uint32⟩ /- values -/]
  | evResultRPS => /- 263-266 -/
    [⟨1, .rep, .num .int32⟩ /- values -/]
  | evZoneBlock => /- 276-279 -/
    [⟨1, .rep, .msg place⟩ /- zones -/]
  | request => /- 299-575 -/
    [⟨1, .plain, .num .int32⟩ /- replier -/, ⟨2, .oneof 0, .msg rqSelectAttribute⟩ /- select_attribute -/,
     ⟨3, .oneof 0, .msg rqSelectCard⟩ /- select_card -/, ⟨4, .oneof 0, .msg rqSelectCardCode⟩ /- select_card_code -/,
     ⟨5, .oneof 0, .msg rqSelectCounter⟩ /- select_counter -/, ⟨6, .oneof 0, .msg rqSelectEffect⟩ /- select_effect -/,
     ⟨7, .oneof 0, .msg rqSelectIdle⟩ /- select_idle -/, ⟨8, .oneof 0, .msg rqSelectNumber⟩ /- select_number -/,
     ⟨9, .oneof 0, .msg rqSelectPosition⟩ /- select_position -/, ⟨10, .oneof 0, .msg rqSelectRace⟩ /- select_race -/,
     ⟨11, .oneof 0, .num .bool⟩ /- select_rock_paper_scissors -/, ⟨12, .oneof 0, .msg rqSelectToChain⟩ /- select_to_chain -/,
     ⟨13, .oneof 0, .msg rqSelectYesNo⟩ /- select_yes_no -/, ⟨14, .oneof 0, .msg rqSelectZone⟩ /- select_zone -/,
     ⟨15, .oneof 0, .msg rqSort⟩ /- sort -/]
  | rqActCard => /- 301-306 -/
    [⟨1, .plain, .msg place⟩ /- place -/, ⟨2, .plain, .msg effect⟩ /- effect -/]
  | rqSelectAttribute => /- 308-314 -/
    [⟨1, .plain, .num .uint32⟩ /- count -/, ⟨2, .plain, .num .uint32⟩ /- attribute -/]
  | rqSelectCard => /- 316-421 -/
    [⟨1, .oneof 0, .msg rqSelectLimbo⟩ /- limbo -/, ⟨2, .oneof 0, .msg rqSelectRecursive⟩ /- recursive -/,
     ⟨3, .oneof 0, .msg rqSelectUniqueRange⟩ /- unique_range -/, ⟨4, .oneof 0, .msg rqSelectUniqueSum⟩ /- unique_sum -/,
     ⟨5, .oneof 0, .msg rqSelectUniqueTributes⟩ /- unique_tributes -/]
  | rqSelectSelectableCard => /- 318-322 -/
    [⟨1, .plain, .msg place⟩ /- place -/, ⟨2, .plain, .num .uint32⟩ /- code -/]
  | rqSelectLimbo => /- 325-335 -/
    [⟨1, .plain, .num .bool⟩ /- can_cancel -/, ⟨2, .plain, .num .uint32⟩ /- min -/, ⟨3, .plain, .num .uint32⟩ /- max -/,
     ⟨4, .rep, .num .uint32⟩ /- card_codes -/]
  | rqSelectRecursive => /- 337-351 -/
    [⟨1, .plain, .num .bool⟩ /- can_finish -/, ⟨2, .plain, .num .bool⟩ /- accept -/, ⟨3, .plain, .num .uint32⟩ /- min -/,
     ⟨4, .plain, .num .uint32⟩ /- max -/, ⟨5, .rep, .msg rqSelectSelectableCard⟩ /- selectable_cards -/,
     ⟨6, .rep, .msg rqSelectSelectableCard⟩ /- deselectable_cards -/]
  | rqSelectUniqueRange => /- 353-363 -/
    [⟨1, .plain, .num .bool⟩ /- can_cancel -/, ⟨2, .plain, .num .uint32⟩ /- min -/, ⟨3, .plain, .num .uint32⟩ /- max -/,
     ⟨4, .rep, .msg rqSelectSelectableCard⟩ /- cards -/]
  | rqSelectUniqueSum => /- 365-390 -/
    [⟨1, .plain, .num .bool⟩ /- can_cancel -/, ⟨2, .plain, .num .bool⟩ /- sum_exactly -/, ⟨3, .plain, .num .uint32⟩ /- sum_min -/,
     ⟨4, .plain, .num .uint32⟩ /- sum_max -/, ⟨5, .rep, .msg rqSelectUniqueSumSumCard⟩ /- cards -/]
  | rqSelectUniqueSumSumCard => /- 367-378 -/
    [⟨1, .plain, .msg place⟩ /- place -/, ⟨2, .plain, .num .uint32⟩ /- code -/, ⟨3, .plain, .num .uint32⟩ /- param_1 -/,
     ⟨4, .plain, .num .uint32⟩ /- param_2 -/]
  | rqSelectUniqueTributes => /- 392-411 -/
    [⟨1, .plain, .num .bool⟩ /- can_cancel -/, ⟨2, .plain, .num .uint32⟩ /- tribute_min -/, ⟨3, .plain, .num .uint32⟩ /- tribute_max -/,
     ⟨4, .rep, .msg rqSelectUniqueTributesTributeCard⟩ /- cards -/]
  | rqSelectUniqueTributesTributeCard => /- 394-401 -/
    [⟨1, .plain, .msg place⟩ /- place -/, ⟨2, .plain, .num .uint32⟩ /- code -/, ⟨3, .plain, .num .uint32⟩ /- count_as -/]
  | rqSelectCardCode => /- 425-434 -/
    [⟨1, .plain, .num .uint32⟩ /- count -/, ⟨2, .rep, .num .uint64⟩ /- opcodes -/]
  | rqSelectCounter => /- 436-449 -/
    [⟨1, .plain, .msg counter⟩ /- counter -/, ⟨2, .rep, .msg rqSelectCounterCounterCard⟩ /- cards -/]
  | rqSelectCounterCounterCard => /- 438-443 -/
    [⟨1, .plain, .msg place⟩ /- place -/, ⟨2, .plain, .num .uint32⟩ /- amount -/]
  | rqSelectEffect => /- 451-457 -/
    [⟨1, .plain, .num .uint32⟩ /- count -/, ⟨2, .rep, .msg effect⟩ /- effects -/]
  | rqSelectIdle => /- 459-488 -/
    [⟨1, .plain, .num .bool⟩ /- can_shuffle -/, ⟨2, .plain, .num .uint32⟩ /- available_phase -/,
     ⟨3, .rep, .msg rqActCard⟩ /- activable_cards -/, ⟨4, .rep, .msg place⟩ /- summonable_cards -/,
     ⟨5, .rep, .msg place⟩ /- spsummonable_cards -/, ⟨6, .rep, .msg place⟩ /- repositionable_cards -/,
     ⟨7, .rep, .msg place⟩ /- msetable_cards -/, ⟨8, .rep, .msg place⟩ /- ssetable_cards -/,
     ⟨9, .rep, .msg rqSelectIdleAtkCard⟩ /- can_attack_cards -/, ⟨15, .plain, .num .bool⟩ /- is_battle_cmd -/]
  | rqSelectIdleAtkCard => /- 461-465 -/
    [⟨1, .plain, .msg place⟩ /- place -/, ⟨2, .plain, .num .bool⟩ /- can_attack_directly -/]
  | rqSelectNumber => /- 490-496 -/
    [⟨1, .plain, .num .uint32⟩ /- count -/, ⟨2, .rep, .num .uint64⟩ /- numbers -/]
  | rqSelectPosition => /- 498-506 -/
    [⟨1, .plain, .num .uint32⟩ /- count -/, ⟨2, .plain, .num .uint32⟩ /- code -/, ⟨3, .plain, .num .uint32⟩ /- position -/]
  | rqSelectRace => /- 508-514 -/
    [⟨1, .plain, .num .uint32⟩ /- count -/, ⟨2, .plain, .num .uint64⟩ /- race -/]
  | rqSelectToChain => /- 516-527 -/
    [⟨1, .plain, .num .bool⟩ /- forced -/, ⟨2, .plain, .num .bool⟩ /- triggering -/, ⟨5, .rep, .msg rqActCard⟩ /- activable_cards -/]
  | rqSelectYesNo => /- 529-537 -/
    [⟨1, .plain, .msg place⟩ /- place -/, ⟨2, .plain, .num .uint32⟩ /- code -/, ⟨3, .plain, .msg effect⟩ /- effect -/]
  | rqSelectZone => /- 539-547 -/
    [⟨1, .plain, .num .bool⟩ /- blocking -/, ⟨2, .plain, .num .uint32⟩ /- count -/, ⟨3, .rep, .msg place⟩ /- places -/]
  | rqSort => /- 549-553 -/
    [⟨1, .rep, .msg place⟩ /- places -/]
  | query => /- 577-728 -/
    [⟨1, .plain, .msg place⟩ /- place -/, ⟨2, .plain, .msg queryData⟩ /- data -/]
  | queryData => /- 579-724 -/
    [⟨1, .plain, .msg qCode⟩ /- code -/, ⟨2, .plain, .msg qPosition⟩ /- position -/, ⟨3, .plain, .msg qAlias⟩ /- alias -/,
     ⟨4, .plain, .msg qType⟩ /- type -/, ⟨5, .plain, .msg qLevel⟩ /- level -/, ⟨6, .plain, .msg qXyzRank⟩ /- xyz_rank -/,
     ⟨7, .plain, .msg qAttribute⟩ /- attribute -/, ⟨8, .plain, .msg qRace⟩ /- race -/, ⟨9, .plain, .msg qAtk⟩ /- atk -/,
     ⟨10, .plain, .msg qDef⟩ /- def -/, ⟨11, .plain, .msg qBaseAtk⟩ /- base_atk -/, ⟨12, .plain, .msg qBaseDef⟩ /- base_def -/,
     ⟨13, .plain, .msg qEquippedTo⟩ /- equipped_to -/, ⟨14, .plain, .msg qTargets⟩ /- targets -/,
     ⟨15, .plain, .msg qCounters⟩ /- counters -/, ⟨16, .plain, .msg qOwner⟩ /- owner -/, ⟨17, .plain, .msg qStatus⟩ /- status -/,
     ⟨18, .plain, .msg qIsPublic⟩ /- is_public -/, ⟨19, .plain, .msg qPendLScale⟩ /- pend_l_scale -/,
     ⟨20, .plain, .msg qPendRScale⟩ /- pend_r_scale -/, ⟨21, .plain, .msg qLinkRate⟩ /- link_rate -/,
     ⟨22, .plain, .msg qLinkArrow⟩ /- link_arrow -/, ⟨23, .plain, .msg qIsHidden⟩ /- is_hidden -/, ⟨24, .plain, .msg qCover⟩ /- cover -/]
  | qCode => /- 581-584 -/
    [⟨1, .plain, .num .uint32⟩ /- value -/]
  | qPosition => /- 587-590 -/
    [⟨1, .plain, .num .uint32⟩ /- value -/]
  | qAlias => /- 593-596 -/
    [⟨1, .plain, .num .uint32⟩ /- value -/]
  | qType => /- 599-602 -/
    [⟨1, .plain, .num .uint32⟩ /- value -/]
  | qLevel => /- 605-608 -/
    [⟨1, .plain, .num .int32⟩ /- value -/]
  | qXyzRank => /- 611-614 -/
    [⟨1, .plain, .num .uint32⟩ /- value -/]
  | qAttribute => /- 617-620 -/
    [⟨1, .plain, .num .uint32⟩ /- value -/]
  | qRace => /- 623-626 -/
    [⟨1, .plain, .num .uint64⟩ /- value -/]
  | qAtk => /- 629-632 -/
    [⟨1, .plain, .num .int32⟩ /- value -/]
  | qDef => /- 635-638 -/
    [⟨1, .plain, .num .int32⟩ /- value -/]
  | qBaseAtk => /- 641-644 -/
    [⟨1, .plain, .num .int32⟩ /- value -/]
  | qBaseDef => /- 647-650 -/
    [⟨1, .plain, .num .int32⟩ /- value -/]
  | qEquippedTo => /- 653-656 -/
    [⟨1, .plain, .msg place⟩ /- value -/]
  | qTargets => /- 659-662 -/
    [⟨1, .rep, .msg place⟩ /- values -/]
  | qCounters => /- 665-668 -/
    [⟨1, .rep, .msg counter⟩ /- values -/]
  | qOwner => /- 671-674 -/
    [⟨1, .plain, .num .int32⟩ /- value -/]
  | qStatus => /- 677-680 -/
    [⟨1, .plain, .num .uint32⟩ /- value -/]
  | qIsPublic => /- 683-686 -/
    [⟨1, .plain, .num .bool⟩ /- value -/]
  | qPendLScale => /- 689-692 -/
    [⟨1, .plain, .num .uint32⟩ /- value -/]
  | qPendRScale => /- 695-698 -/
    [⟨1, .plain, .num .uint32⟩ /- value -/]
  | qLinkRate => /- 701-704 -/
    [⟨1, .plain, .num .uint32⟩ /- value -/]
  | qLinkArrow => /- 707-710 -/
    [⟨1, .plain, .num .uint32⟩ /- value -/]
  | qIsHidden => /- 713-716 -/
    [⟨1, .plain, .num .bool⟩ /- value -/]
  | qCover => /- 719-722 -/
    [⟨1, .plain, .num .uint32⟩ /- value -/]
  -- duel_answer.proto
  | answer => /- 16-147 -/
    [⟨1, .oneof 0, .num .uint32⟩ /- select_attribute -/, ⟨2, .oneof 0, .msg anSelectCard⟩ /- select_card -/,
     ⟨3, .oneof 0, .num .uint32⟩ /- select_card_code -/, ⟨4, .oneof 0, .msg anSelectCounter⟩ /- select_counter -/,
     ⟨5, .oneof 0, .num .uint32⟩ /- select_effect -/, ⟨6, .oneof 0, .msg anSelectIdle⟩ /- select_idle -/,
     ⟨7, .oneof 0, .num .uint32⟩ /- select_number -/, ⟨8, .oneof 0, .num .uint32⟩ /- select_position -/,
     ⟨9, .oneof 0, .num .uint64⟩ /- select_race -/, ⟨10, .oneof 0, .num .int32⟩ /- select_rock_paper_scissors -/,
     ⟨11, .oneof 0, .msg anSelectToChain⟩ /- select_to_chain -/, ⟨12, .oneof 0, .num .bool⟩ /- select_yes_no -/,
     ⟨13, .oneof 0, .msg anSelectZone⟩ /- select_zone -/, ⟨14, .oneof 0, .msg anSort⟩ /- sort -/]
  | anIndexes => /- 18-23 -/
    [⟨1, .rep, .num .uint32⟩ /- values -/]
  | anSelectCard => /- 25-36 -/
    [⟨1, .oneof 0, .num .bool⟩ /- cancel -/, ⟨2, .oneof 0, .num .bool⟩ /- finish -/, ⟨3, .oneof 0, .msg anIndexes⟩ /- indexes -/]
  | anSelectCounter => /- 38-51 -/
    [⟨1, .rep, .msg anSelectCounterPair⟩ /- values -/]
  | anSelectCounterPair => /- 40-48 -/
    [⟨1, .plain, .num .uint32⟩ /- index -/, ⟨2, .plain, .num .uint32⟩ /- amount -/]
  | anSelectIdle => /- 53-86 -/
    [⟨1, .oneof 0, .num .bool⟩ /- shuffle -/, ⟨2, .oneof 0, .num .uint32⟩ /- phase -/,
     ⟨3, .oneof 0, .msg anSelectIdleCardAction⟩ /- card_action -/]
  | anSelectIdleCardAction => /- 68-75 -/
    [⟨1, .plain, .num .enum⟩ /- action -/, ⟨2, .plain, .num .uint32⟩ /- index -/]
  | anSelectToChain => /- 88-98 -/
    [⟨1, .oneof 0, .num .bool⟩ /- no_op -/, ⟨2, .oneof 0, .num .uint32⟩ /- index -/]
  | anSelectZone => /- 100-103 -/
    [⟨1, .rep, .msg place⟩ /- places -/]
  | anSort => /- 105-114 -/
    [⟨1, .oneof 0, .num .bool⟩ /- skip -/, ⟨2, .oneof 0, .msg anIndexes⟩ /- indexes -/]
  -- user.proto
  | user => /- 14-22 -/
    [⟨1, .plain, .blob⟩ /- id -/, ⟨2, .plain, .text⟩ /- name -/]
  -- banlist.proto
  | banlist => /- 14-25 -/
    [⟨1, .plain, .text⟩ /- id -/, ⟨2, .rep, .num .uint32⟩ /- forbidden -/, ⟨3, .rep, .num .uint32⟩ /- limited -/,
     ⟨4, .rep, .num .uint32⟩ /- semilimited -/, ⟨5, .rep, .num .uint32⟩ /- whitelist -/, ⟨6, .plain, .text⟩ /- title -/,
     ⟨7, .plain, .text⟩ /- notes -/]
  | banlistError => /- 27-30 -/ []
  -- deck.proto
  | deck => /- 22-37 -/
    [⟨1, .plain, .msg deckData⟩ /- data -/, ⟨2, .rep, .num .uint32⟩ /- useful -/, ⟨3, .plain, .text⟩ /- title -/,
     ⟨4, .plain, .text⟩ /- banlist_id -/, ⟨5, .plain, .text⟩ /- notes -/]
  | deckData => /- 24-29 -/
    [⟨1, .rep, .num .uint32⟩ /- main_cards -/, ⟨2, .rep, .num .uint32⟩ /- extra_cards -/, ⟨3, .rep, .num .uint32⟩ /- side_cards -/]
  | deckLimits => /- 39-50 -/
    [⟨1, .plain, .msg deckLimitsLimit⟩ /- main -/, ⟨2, .plain, .msg deckLimitsLimit⟩ /- extra -/,
     ⟨3, .plain, .msg deckLimitsLimit⟩ /- side -/]
  | deckLimitsLimit => /- 41-46 -/
    [⟨1, .plain, .num .uint32⟩ /- min -/, ⟨2, .plain, .num .int32⟩ /- max -/]
  | deckError => /- 52-118 -/
    [⟨1, .plain, .msg deckErrorBanlisted⟩ /- banlisted -/, ⟨2, .plain, .msg deckErrorExcessiveCopies⟩ /- excessive_copies -/,
     ⟨3, .plain, .msg deckErrorInvalidCard⟩ /- invalid_card -/, ⟨4, .plain, .msg deckErrorMixedCard⟩ /- mixed_card -/,
     ⟨5, .plain, .msg deckErrorOutOfLimit⟩ /- out_of_limit -/]
  | deckErrorBanlisted => /- 55-75 -/
    [⟨1, .rep, .msg deckErrorBanlistedReasonAndCode⟩ /- reasons_and_cards -/]
  | deckErrorBanlistedReasonAndCode => /- 57-72 -/
    [⟨1, .plain, .num .enum⟩ /- type -/, ⟨2, .plain, .num .uint32⟩ /- card -/]
  | deckErrorExcessiveCopies => /- 78-81 -/
    [⟨1, .rep, .num .uint32⟩ /- cards -/]
  | deckErrorInvalidCard => /- 84-87 -/
    [⟨1, .rep, .num .uint32⟩ /- cards -/]
  | deckErrorMixedCard => /- 90-96 -/
    [⟨1, .rep, .num .uint32⟩ /- main_on_extra_cards -/, ⟨2, .rep, .num .uint32⟩ /- extra_on_main_cards -/]
  | deckErrorOutOfLimit => /- 99-111 -/
    [⟨1, .plain, .num .enum⟩ /- deck_type -/, ⟨2, .plain, .num .enum⟩ /- limit_type -/, ⟨3, .plain, .num .uint32⟩ /- expected -/,
     ⟨4, .plain, .num .uint32⟩ /- got -/]
  -- room.proto
  | roomDuelist => /- 43-50 -/
    [⟨1, .plain, .num .uint32⟩ /- team -/, ⟨2, .plain, .num .uint32⟩ /- pos -/, ⟨3, .plain, .msg user⟩ /- user -/,
     ⟨4, .plain, .num .bool⟩ /- is_host -/, ⟨5, .plain, .num .bool⟩ /- is_ready -/]
  | roomOptions => /- 52-71 -/
    [⟨1, .rep, .num .uint32⟩ /- max_duelists -/, ⟨2, .plain, .msg deckLimits⟩ /- deck_limits -/, ⟨3, .oneof 0, .text⟩ /- banlist_id -/,
     ⟨4, .oneof 0, .msg banlist⟩ /- custom_banlist -/, ⟨5, .plain, .num .enum⟩ /- ftdm -/]
  | roomEvent => /- 73-176 -/
    [⟨1, .oneof 0, .msg roomEventConfiguring⟩ /- configuring -/,
     ⟨2, .oneof 0, .msg roomEventDecidingFirstTurn⟩ /- deciding_first_turn -/, ⟨3, .oneof 0, .msg roomEventDueling⟩ /- dueling -/,
     ⟨4, .oneof 0, .num .uint32⟩ /- spectator_count -/]
  | roomEventConfiguring => /- 75-97 -/
    [⟨1, .oneof 0, .msg roomEventConfiguringEnteringState⟩ /- entering_state -/, ⟨2, .oneof 0, .msg roomDuelist⟩ /- duelist_enters -/,
     ⟨3, .oneof 0, .msg roomDuelist⟩ /- update_duelist -/, ⟨4, .oneof 0, .msg roomEventConfiguringDeckStatus⟩ /- deck_status -/]
  | roomEventConfiguringEnteringState => /- 77-83 -/
    [⟨1, .plain, .msg roomOptions⟩ /- options -/, ⟨2, .rep, .msg roomDuelist⟩ /- duelists -/,
     ⟨3, .plain, .num .uint32⟩ /- spectator_count -/]
  | roomEventConfiguringDeckStatus => /- 85-88 -/
    [⟨1, .plain, .msg deckError⟩ /- deck_error -/]
  | roomEventDecidingFirstTurn => /- 99-154 -/
    [⟨1, .oneof 0, .msg roomEventDecidingFirstTurnEnteringState⟩ /- entering_state -/, ⟨2, .oneof 0, .num .bool⟩ /- decide_first_turn -/,
     ⟨3, .oneof 0, .msg roomEventDecidingFirstTurnResult⟩ /- result -/]
  | roomEventDecidingFirstTurnEnteringState => /- 101-104 -/ []
  | roomEventDecidingFirstTurnResult => /- 106-146 -/
    [⟨1, .plain, .num .uint32⟩ /- team_going_first -/, ⟨2, .oneof 0, .msg roomEventDecidingFirstTurnResultRPS⟩ /- rps -/,
     ⟨3, .oneof 0, .msg roomEventDecidingFirstTurnResultDice⟩ /- dice -/, ⟨4, .oneof 0, .num .enum⟩ /- coin_result -/]
  | roomEventDecidingFirstTurnResultRPS => /- 114-114 -/ []
  | roomEventDecidingFirstTurnResultDice => /- 116-127 -/
    [⟨1, .rep, .msg roomEventDecidingFirstTurnResultDiceResultPair⟩ /- results -/]
  | roomEventDecidingFirstTurnResultDiceResultPair => /- 118-124 -/
    [⟨1, .plain, .num .uint32⟩ /- team0 -/, ⟨2, .plain, .num .uint32⟩ /- team1 -/]
  | roomEventDueling => /- 156-167 -/
    [⟨1, .oneof 0, .msg roomEventDuelingEnteringState⟩ /- entering_state -/]
  | roomEventDuelingEnteringState => /- 158-161 -/ []
  | roomSignal => /- 178-204 -/
    [⟨1, .oneof 0, .msg roomSignalConfiguring⟩ /- configuring -/,
     ⟨2, .oneof 0, .msg roomSignalDecidingFirstTurn⟩ /- deciding_first_turn -/]
  | roomSignalConfiguring => /- 180-188 -/
    [⟨1, .oneof 0, .msg deck⟩ /- update_deck -/, ⟨2, .oneof 0, .num .bool⟩ /- ready_status -/,
     ⟨3, .oneof 0, .num .bool⟩ /- start_dueling -/]
  | roomSignalDecidingFirstTurn => /- 190-197 -/
    [⟨1, .oneof 0, .num .uint32⟩ /- team_going_first -/]
  -- client_msg.proto
  | clientMsg => /- 16-29 -/
    [⟨1, .oneof 0, .msg clientMsgIdSignal⟩ /- id_signal -/, ⟨2, .oneof 0, .msg roomSignal⟩ /- room_signal -/]
  | clientMsgIdSignal => /- 18-22 -/
    [⟨1, .plain, .text⟩ /- name -/]
  -- server_msg.proto
  | serverMsg => /- 16-29 -/
    [⟨1, .oneof 0, .msg serverMsgIdEvent⟩ /- id_event -/, ⟨2, .oneof 0, .msg roomEvent⟩ /- room_event -/]
  | serverMsgIdEvent => /- 18-22 -/
    [⟨1, .plain, .blob⟩ /- your_id -/]
  -- replay.proto
  | replay => /- 16-59 -/
    [⟨1, .oneof 0, .msg replayStream⟩ /- stream -/, ⟨2, .oneof 0, .msg replayCompressedStream⟩ /- compressed_stream -/]
  | replayStream => /- 21-33 -/
    [⟨1, .rep, .msg replayStreamBlock⟩ /- blocks -/]
  | replayStreamBlock => /- 23-31 -/
    [⟨1, .plain, .num .uint32⟩ /- time_offset_ms -/, ⟨2, .oneof 0, .msg msg⟩ /- msg -/]
  | replayCompressedStream => /- 35-52 -/
    [⟨1, .plain, .blob⟩ /- buffer -/, ⟨2, .plain, .num .uint64⟩ /- uncompressed_size -/,
     ⟨3, .oneof 0, .msg replayCompressedStreamLZ4⟩ /- lz4 -/, ⟨4, .oneof 0, .msg replayCompressedStreamLZMA⟩ /- lzma -/]
  | replayCompressedStreamLZ4 => /- 37-40 -/ []
  | replayCompressedStreamLZMA => /- 41-44 -/ []

end Ygo.Pb
