{
 "claims": [
  {
   "property": "C01",
   "status": "proved",
   "theorems": [
    "Verif.DB.C01_find_returns_latest_write",
    "Verif.DB.C01_version"
   ],
   "note": "flush is restricted to states without uncommitted inserts (the only way the node flushes); undisciplined_flush_loses_data shows the restriction is needed"
  },
  {
   "property": "C02",
   "status": "proved",
   "theorems": [
    "Verif.DB.C02_flush_and_compaction_invisible"
   ],
   "note": "point reads"
  },
  {
   "property": "C03",
   "status": "proved",
   "theorems": [
    "Verif.DB.C03_revert_exact",
    "Verif.DB.C03_revert_forgets"
   ],
   "note": ""
  },
  {
   "property": "C04",
   "status": "proved",
   "theorems": [
    "Verif.DB.C04_insert_revert_guards",
    "Verif.DB.C04_commit_guard",
    "Verif.DB.C04_flush_guard"
   ],
   "note": ""
  },
  {
   "property": "C05",
   "status": "proved",
   "theorems": [
    "Verif.DB.C05_crash_between_calls",
    "Verif.DB.C05_opens",
    "Verif.DB.C05_reads_survive"
   ],
   "note": "the version number itself is C07"
  },
  {
   "property": "C06",
   "status": "partial",
   "theorems": [
    "Verif.DB.C06_crash_inside_calls_partial",
    "Verif.DB.C06_opens_partial",
    "Verif.DB.C06_returned_calls_survive",
    "Verif.DB.C06_two_leftovers_lose_data"
   ],
   "note": "every crash point of every call and of every restart except while a compaction has two or more inputs left to delete; there the claim is false (witness proved)"
  },
  {
   "property": "C07",
   "status": "partial",
   "theorems": [
    "Verif.DB.C07_version_bounds_partial",
    "Verif.DB.C07_version_survives_without_flush_partial",
    "Verif.DB.C07_version_lost_after_flush",
    "Verif.DB.C07_version_lost_after_empty_flush"
   ],
   "note": "false in general (two witnesses proved); true while no flush happened since the commit, and always bounded"
  },
  {
   "property": "C44",
   "status": "partial",
   "theorems": [
    "Verif.DB.C44_throw_means_no_effect_partial",
    "Verif.DB.C44_commit_can_throw_after_committing"
   ],
   "note": "false for a commit whose automatic flush is refused by a live iterator: it throws after the version has advanced (witness proved)"
  },
  {
   "property": "C08",
   "status": "proved",
   "theorems": [
    "Verif.DB.C08_recover",
    "Verif.DB.C08_commit",
    "Verif.DB.C08_restart_is_consistent_cut_partial",
    "Verif.DB.C08_commit_refused",
    "Verif.DB.C08_commit_not_atomic",
    "Verif.DB.C08_flush_rolls_database_back"
   ],
   "note": "recover proved for all executions; the crash form is partial because it needs NoDouble (see C06); two witnesses: commit is not atomic when one table refuses, and a flush before a clean stop makes recover roll the whole database back"
  },
  {
   "property": "C09",
   "status": "proved",
   "theorems": [
    "Verif.DB.C09_forward_scan",
    "Verif.DB.C09_forward_from"
   ],
   "note": ""
  },
  {
   "property": "C10",
   "status": "partial",
   "theorems": [
    "Verif.DB.C10_backward_scan",
    "Verif.DB.C10_backward_from",
    "Verif.DB.C10_cursor_partial",
    "Verif.DB.C10_cursor_total",
    "Verif.DB.C10_is_valid",
    "Verif.DB.C10_invalid_throws",
    "Verif.DB.C10_seek_for_prev",
    "Verif.DB.C10_turn_skips",
    "Verif.DB.C10_seek_for_prev_above"
   ],
   "note": "everything except next() directly after a backward move, which is false in the code (C10_turn_skips); seek_for_prev above all keys is invalid (exact behaviour proved)"
  },
  {
   "property": "C11",
   "status": "proved",
   "theorems": [
    "Verif.DB.C11_uint",
    "Verif.DB.C11_hash",
    "Verif.DB.C11_pair",
    "Verif.DB.C11_pair_order",
    "Verif.DB.C11_tables",
    "Verif.DB.C11_uint_order",
    "Verif.DB.C11_hash_order",
    "Verif.DB.C11_injective",
    "Verif.DB.C11_wrong_size",
    "Verif.DB.C11_comparator",
    "Verif.DB.C11_table_over_bytes"
   ],
   "note": "widths and pairs of any shape; the hash order is the order of the stored bytes"
  },
  {
   "property": "C12",
   "status": "proved",
   "theorems": [
    "Verif.DB.C12_find",
    "Verif.DB.C12_find_range",
    "Verif.DB.C12_find_from",
    "Verif.DB.C12_insert"
   ],
   "note": "over any history of inserts, bulk inserts, commits, reverts and flushes"
  },
  {
   "property": "C13",
   "status": "proved",
   "theorems": [
    "Verif.DB.C13_roundtrip",
    "Verif.DB.C13_prefix",
    "Verif.DB.C13_torn_tail",
    "Verif.DB.C13_cut",
    "Verif.DB.C13_crash",
    "Verif.DB.C13_loop_ends"
   ],
   "note": "any 64 bit checksum function; one restart. Repeated restarts: see C71"
  },
  {
   "property": "C70",
   "status": "proved",
   "theorems": [
    "Verif.DB.C70_find",
    "Verif.DB.C70_find_range",
    "Verif.DB.C70_find_last_range",
    "Verif.DB.C70_find_first",
    "Verif.DB.C70_find_greater_equal"
   ],
   "note": "find_first and find_last are both covered by C70_find_first"
  },
  {
   "property": "C71",
   "status": "partial",
   "theorems": [
    "Verif.DB.C71_overwrite_partial",
    "Verif.DB.C71_short_tail",
    "Verif.DB.C71_stale_tail",
    "Verif.DB.C71_damaged_record",
    "Verif.DB.C71_damage_drops_committed"
   ],
   "note": "false in general: the torn tail is not removed and its bytes can be read as records at the second restart (C71_stale_tail); a damaged record is skipped while later ones count (C71_damage_drops_committed). Proved for torn writes below 42 bytes and for tails that the new records cover"
  },
  {
   "property": "C29",
   "status": "proved",
   "theorems": [
    "Verif.Chain.C29_time_difficulty",
    "Verif.Chain.C29_space_difficulty",
    "Verif.Chain.C29_base_reward",
    "Verif.Chain.C29_fee_buffer",
    "Verif.Chain.C29_fee_buffer_drains",
    "Verif.Chain.C29_netspace_ratio"
   ],
   "note": ""
  },
  {
   "property": "C30",
   "status": "proved",
   "theorems": [
    "Verif.Chain.C30_reward_bounded",
    "Verif.Chain.C30_block_payout"
   ],
   "note": ""
  },
  {
   "property": "C31",
   "status": "proved",
   "theorems": [
    "Verif.Chain.C31_cost_to_fee_exact",
    "Verif.Chain.C31_fee_to_cost_exact",
    "Verif.Chain.C31_cost_to_fee_mono",
    "Verif.Chain.C31_fee_to_cost_mono",
    "Verif.Chain.C31_round_trip",
    "Verif.Chain.C31_zero_ratio_undefined"
   ],
   "note": ""
  },
  {
   "property": "C45",
   "status": "proved",
   "theorems": [
    "Verif.Chain.C45_accumulators",
    "Verif.Chain.C45_fee_buffer_conserved"
   ],
   "note": ""
  },
  {
   "property": "C46",
   "status": "proved",
   "theorems": [
    "Verif.Chain.C46_time_stamps"
   ],
   "note": ""
  },
  {
   "property": "C47",
   "status": "proved",
   "theorems": [
    "Verif.Chain.C47_forced_fork"
   ],
   "note": ""
  },
  {
   "property": "C48",
   "status": "proved",
   "theorems": [
    "Verif.Chain.C48_own_block_accepted",
    "Verif.Chain.C48_block_creation_defined"
   ],
   "note": "a reward address is needed when the reward is not zero (hypothesis); transactions are not part of this claim"
  },
  {
   "property": "C49",
   "status": "proved",
   "theorems": [
    "Verif.Chain.C49_fee_bands",
    "Verif.Chain.C49_subsequence",
    "Verif.Chain.C49_oversized_breaks"
   ],
   "note": "the size hypothesis is guaranteed by max_tx_cost; C49_oversized_breaks shows it is needed"
  },
  {
   "property": "C36",
   "status": "partial",
   "theorems": [
    "Verif.Codec.C36_encoder_exact",
    "Verif.Codec.C36_encoder_refuses",
    "Verif.Codec.C36_decoder",
    "Verif.Codec.C36_round_trip_partial",
    "Verif.Codec.C36_never_wrong_partial",
    "Verif.Codec.C36_round_trip_fails",
    "Verif.Codec.C36_bound_sharp",
    "Verif.Codec.C36_unaligned_start_fails"
   ],
   "note": "round trip proved for lists of symbols below 24; false in general, because the decoder refills once per symbol (witnesses proved); whatever the decoder returns is right"
  },
  {
   "property": "C37",
   "status": "proved",
   "theorems": [
    "Verif.Codec.C37_pair_round_trip",
    "Verif.Codec.C37_point_round_trip",
    "Verif.Codec.C37_injective",
    "Verif.Codec.C37_square2"
   ],
   "note": ""
  },
  {
   "property": "C38",
   "status": "proved",
   "theorems": [
    "Verif.Codec.C38_write_exact",
    "Verif.Codec.C38_read_exact",
    "Verif.Codec.C38_round_trip",
    "Verif.Codec.C38_pack_round_trip"
   ],
   "note": ""
  },
  {
   "property": "C33",
   "status": "proved",
   "theorems": [
    "Verif.Codec.C33_value_injective",
    "Verif.Codec.C33_args_injective",
    "Verif.Codec.C33_contract_injective",
    "Verif.Codec.C33_operation_injective",
    "Verif.Codec.C33_revision0_collision",
    "Verif.Codec.C33_revision0_same_id"
   ],
   "note": "the two last theorems show that revision 0 does not have the property"
  },
  {
   "property": "C34",
   "status": "proved",
   "theorems": [
    "Verif.Codec.C34_id_ignores_witnesses",
    "Verif.Codec.C34_id_binds",
    "Verif.Codec.C34_content_binds",
    "Verif.Codec.C34_result_flags_not_covered"
   ],
   "note": "changed hash input up to collisions of the hash function on the strings hashed for the two transactions (explicit hypothesis)"
  },
  {
   "property": "C35",
   "status": "proved",
   "theorems": [
    "Verif.Codec.C35_any_schedule",
    "Verif.Codec.C35_reported_segment",
    "Verif.Codec.C35_completes",
    "Verif.Codec.C35_output"
   ],
   "note": "the hash function and the segment comparison are parameters; the thread pool is any interleaving of the chunk tasks"
  },
  {
   "property": "C39",
   "status": "proved",
   "theorems": [
    "Verif.Codec.C39_bid_rounds_down",
    "Verif.Codec.C39_ask_rounds_up",
    "Verif.Codec.C39_zero_price_undefined"
   ],
   "note": "offer_data_t"
  },
  {
   "property": "C43",
   "status": "partial",
   "theorems": [
    "Verif.Codec.C43_print_parse",
    "Verif.Codec.C43_parse_exact_partial",
    "Verif.Codec.C43_parse_int_exact_partial",
    "Verif.Codec.C43_parse_wraps",
    "Verif.Codec.C43_parse_truncates",
    "Verif.Codec.C43_amount_round_trip"
   ],
   "note": "print/parse and amount round trips hold; parsing a number that does not fit silently wraps (witness proved)"
  },
  {
   "property": "C32",
   "status": "proved",
   "theorems": [
    "Verif.Contract.C32_single_key",
    "Verif.Contract.C32_enough_owners",
    "Verif.Contract.C32_never_free",
    "Verif.Contract.C32_signatures_suffice",
    "Verif.Contract.C32_exact",
    "Verif.Contract.C32_version0_malleable"
   ],
   "note": "signature verification is a parameter"
  },
  {
   "property": "C40",
   "status": "proved",
   "theorems": [
    "Verif.Contract.C40_solvent",
    "Verif.Contract.C40_share"
   ],
   "note": ""
  },
  {
   "property": "C41",
   "status": "partial",
   "theorems": [
    "Verif.Contract.C41_product_with_fee_partial",
    "Verif.Contract.C41_price",
    "Verif.Contract.C41_product_can_fall",
    "Verif.Contract.C41_round_trip_profit",
    "Verif.Contract.C41_one_sided_drain"
   ],
   "note": "false as stated: rounding down the new balance lets the product fall, and a trader can gain from buying and selling back (witnesses proved); holds for one trade when its fee is counted"
  },
  {
   "property": "C50",
   "status": "proved",
   "theorems": [
    "Verif.Contract.C50_withdraw_succeeds"
   ],
   "note": ""
  },
  {
   "property": "C51",
   "status": "partial",
   "theorems": [
    "Verif.Contract.C51_lock",
    "Verif.Contract.C51_add_locks",
    "Verif.Contract.C51_dry_run_burns"
   ],
   "note": "the lock holds; the part about dry runs is false: a dry run removes the liquidity for good (witness proved)"
  },
  {
   "property": "C14",
   "status": "proved",
   "theorems": [
    "Verif.VM.C14_round_trip",
    "Verif.VM.C14_truncation",
    "Verif.VM.C14_prefix_free",
    "Verif.VM.C14_any_input",
    "Verif.VM.C14_constants"
   ],
   "note": ""
  },
  {
   "property": "C15",
   "status": "proved",
   "theorems": [
    "Verif.VM.C15_equal_iff_same",
    "Verif.VM.C15_antisymmetric",
    "Verif.VM.C15_transitive",
    "Verif.VM.C15_total",
    "Verif.VM.C15_congruent",
    "Verif.VM.C15_pointers"
   ],
   "note": ""
  },
  {
   "property": "C16",
   "status": "proved",
   "theorems": [
    "Verif.VM.C16_round_trip",
    "Verif.VM.C16_truncation",
    "Verif.VM.C16_injective",
    "Verif.VM.C16_any_input",
    "Verif.VM.C16_junk_dropped"
   ],
   "note": "for programs whose unused operand fields are zero (what the compiler emits and what reading any bytes yields); C16_junk_dropped shows why"
  },
  {
   "property": "C17",
   "status": "proved",
   "theorems": [
    "Verif.VM.C17_every_instruction_paid",
    "Verif.VM.C17_over_limit_fails",
    "Verif.VM.C17_steps_within_gas",
    "Verif.VM.C17_bounded_length",
    "Verif.VM.C17_run_terminates",
    "Verif.VM.C17_run_stable",
    "Verif.VM.C17_success_within_limit"
   ],
   "note": ""
  },
  {
   "property": "C19",
   "status": "proved",
   "theorems": [
    "Verif.VM.C19_sent_plus_left",
    "Verif.VM.C19_sent_at_most_balance",
    "Verif.VM.C19_send_effect",
    "Verif.VM.C19_send_too_large",
    "Verif.VM.C19_send_insufficient",
    "Verif.VM.C19_balance_shown",
    "Verif.VM.C19_outputs_well_formed",
    "Verif.VM.C19_execution"
   ],
   "note": "within one engine; the deposit is part of the balance the backend reports"
  },
  {
   "property": "C20",
   "status": "proved",
   "theorems": [
    "Verif.VM.C20_mints_own_token",
    "Verif.VM.C20_only_mint_mints"
   ],
   "note": ""
  },
  {
   "property": "C21",
   "status": "partial",
   "theorems": [
    "Verif.VM.C21_add",
    "Verif.VM.C21_sub",
    "Verif.VM.C21_mul_partial",
    "Verif.VM.C21_mul_version0_wrong",
    "Verif.VM.C21_div_mod",
    "Verif.VM.C21_min_max",
    "Verif.VM.C21_compare"
   ],
   "note": "multiplication holds from engine version 1 on; in version 0 the overflow check misses products (witness proved)"
  },
  {
   "property": "C18",
   "status": "partial",
   "theorems": [
    "Verif.VM.C18_instruction_partial",
    "Verif.VM.C18_context_partial",
    "Verif.VM.C18_attempts_abort",
    "Verif.VM.C18_pop_back_shrinks"
   ],
   "note": "every instruction but POP_BACK leaves constant cells as they are; POP_BACK shortens a constant array (witness proved), which is all that can happen to a constant"
  },
  {
   "property": "C52",
   "status": "partial",
   "theorems": [
    "Verif.VM.C52_defined_partial",
    "Verif.VM.C52_copy_use_after_free",
    "Verif.VM.C52_pop_back_use_after_free",
    "Verif.VM.C52_ret_past_end"
   ],
   "note": "false for COPY, POP_BACK and RET (witnesses proved); proved for all instructions that do not move references, arrays or maps"
  },
  {
   "property": "C53",
   "status": "partial",
   "theorems": [
    "Verif.VM.C53_order_partial",
    "Verif.VM.C53_failed_gas_differs"
   ],
   "note": "false with reference operands: the gas of a failed instruction differs (witness proved); proved without reference operands"
  },
  {
   "property": "C22",
   "status": "partial",
   "theorems": [
    "Verif.VM.C22_refines_copies",
    "Verif.VM.C22_database_after",
    "Verif.VM.C22_discarded_leaves_no_trace",
    "Verif.VM.C22_commit_keeps_answers",
    "Verif.VM.C22_throws_only_on_keys",
    "Verif.VM.C22_counts_forgotten",
    "Verif.VM.C22_prefix_shared",
    "Verif.VM.C22_key_twice",
    "Verif.VM.C22_erase_depends_on_layer"
   ],
   "note": "layered caches refine whole copies of the storage, for contracts whose addresses differ in the first 20 bytes and keys used once, up to reference counts, which the database drops; witnesses show each restriction is needed, and that a contract can observe the lost count"
  },
  {
   "property": "C23",
   "status": "proved",
   "theorems": [
    "Verif.VM.C23_read",
    "Verif.VM.C23_read_entry",
    "Verif.VM.C23_lookup",
    "Verif.VM.C23_balance",
    "Verif.VM.C23_commit",
    "Verif.VM.C23_commit_exact"
   ],
   "note": ""
  },
  {
   "property": "C24",
   "status": "partial",
   "theorems": [
    "Verif.Ledger.C24_conserved_partial",
    "Verif.Ledger.C24_never_destroyed_partial",
    "Verif.Ledger.C24_native_partial",
    "Verif.Ledger.C24_inputs_authorised",
    "Verif.Ledger.C24_wraps"
   ],
   "note": "proved for each token of which the balance of a contract plus the inputs stays below 2^128; C24_wraps shows that coins appear otherwise"
  },
  {
   "property": "C25",
   "status": "proved",
   "theorems": [
    "Verif.Ledger.C25_fee"
   ],
   "note": ""
  },
  {
   "property": "C26",
   "status": "proved",
   "theorems": [
    "Verif.Ledger.C26_failed_leaves_nothing",
    "Verif.Ledger.C26_only_fee"
   ],
   "note": ""
  },
  {
   "property": "C27",
   "status": "partial",
   "theorems": [
    "Verif.Ledger.C27_accounts",
    "Verif.Ledger.C27_no_overspend_partial"
   ],
   "note": "accounts without code: no assumption. Contracts: supplies below 2^127, and the address of no contract that runs is an account with a key; C24_wraps shows what happens when sums overflow"
  },
  {
   "property": "C28",
   "status": "proved",
   "theorems": [
    "Verif.Ledger.C28_in_order",
    "Verif.Ledger.C28_access_locked",
    "Verif.Ledger.C28_no_conflict",
    "Verif.Ledger.C28_same_result"
   ],
   "note": "the thread pool is a queue; one storage access is one step, justified by C28_no_conflict"
  },
  {
   "property": "C54",
   "status": "proved",
   "theorems": [
    "Verif.Ledger.C54_balances",
    "Verif.Ledger.C54_total",
    "Verif.Ledger.C54_supply",
    "Verif.Ledger.C54_native_chain"
   ],
   "note": "coins and rewards below 2^126 together; the address of no contract that runs is an account with a key"
  },
  {
   "property": "C55",
   "status": "partial",
   "theorems": [
    "Verif.Ledger.C55_partial",
    "Verif.Ledger.C55_overrun",
    "Verif.Ledger.C55_rounding"
   ],
   "note": "false when the fee exceeds its maximum, or when the rounded fee is the maximum (witnesses); proved for transactions that fail for another reason, and for those that succeed with a cost that the maximum fee pays for without rounding"
  },
  {
   "property": "C56",
   "status": "proved",
   "theorems": [
    "Verif.Ledger.C56_never_stuck",
    "Verif.Ledger.C56_terminates",
    "Verif.Ledger.C56_completes"
   ],
   "note": "contract programs are finite, which gas ensures (C17)"
  },
  {
   "property": "C57",
   "status": "partial",
   "theorems": [
    "Verif.Ledger.C57_defined_partial",
    "Verif.Ledger.C57_null_operation"
   ],
   "note": "false for blocks with a null operation (witness); otherwise proved for the part before transactions are validated"
  },
  {
   "property": "C58",
   "status": "partial",
   "theorems": [
    "Verif.Ledger.C58_supply_partial",
    "Verif.Ledger.C58_tokens_partial",
    "Verif.Ledger.C58_burnt_fees"
   ],
   "note": "false when a block burns more fees than it pays rewards (witness); proved for all other blocks, which includes all tokens"
  },
  {
   "property": "C59",
   "status": "proved",
   "theorems": [
    "Verif.Ledger.C59_no_replay"
   ],
   "note": ""
  },
  {
   "property": "C60",
   "status": "proved",
   "theorems": [
    "Verif.Ledger.C60_debits",
    "Verif.Ledger.C60_balance_falls"
   ],
   "note": ""
  },
  {
   "property": "C42",
   "status": "proved",
   "theorems": [
    "Verif.Contract.C42_locked",
    "Verif.Contract.C42_extended",
    "Verif.Contract.C42_extend_works",
    "Verif.Contract.C42_release",
    "Verif.Contract.C42_accounted"
   ],
   "note": ""
  },
  {
   "property": "C61",
   "status": "proved",
   "theorems": [
    "Verif.Contract.C61_escrow",
    "Verif.Contract.C61_escrow_pays",
    "Verif.Contract.C61_transfer",
    "Verif.Contract.C61_transfer_pays",
    "Verif.Contract.C61_relay",
    "Verif.Contract.C61_relay_handover",
    "Verif.Contract.C61_relay_named"
   ],
   "note": ""
  },
  {
   "property": "C62",
   "status": "proved",
   "theorems": [
    "Verif.Contract.C62_withdraw_factor",
    "Verif.Contract.C62_withdraw_works"
   ],
   "note": ""
  },
  {
   "property": "C63",
   "status": "proved",
   "theorems": [
    "Verif.Contract.C63_take",
    "Verif.Contract.C63_owner_covered",
    "Verif.Contract.C63_price_stable",
    "Verif.Contract.C63_price_change",
    "Verif.Contract.C63_who",
    "Verif.Contract.C63_owner_exit",
    "Verif.Contract.C63_accept_works"
   ],
   "note": ""
  },
  {
   "property": "C64",
   "status": "proved",
   "theorems": [
    "Verif.Contract.C64_buy",
    "Verif.Contract.C64_paid_for",
    "Verif.Contract.C64_price_stable",
    "Verif.Contract.C64_price_change",
    "Verif.Contract.C64_who"
   ],
   "note": ""
  },
  {
   "property": "C65",
   "status": "proved",
   "theorems": [
    "Verif.Contract.C65_locked",
    "Verif.Contract.C65_unlock",
    "Verif.Contract.C65_unlock_once",
    "Verif.Contract.C65_unlocked"
   ],
   "note": ""
  },
  {
   "property": "C66",
   "status": "partial",
   "theorems": [
    "Verif.Contract.C66_bounded_partial",
    "Verif.Contract.C66_payment",
    "Verif.Contract.C66_pays",
    "Verif.Contract.C66_accounted",
    "Verif.Contract.C66_zero_interval"
   ],
   "note": "false for plans with interval 0, which the contract accepts (witness); proved for positive intervals"
  },
  {
   "property": "C67",
   "status": "proved",
   "theorems": [
    "Verif.Contract.C67_token_call",
    "Verif.Contract.C67_token",
    "Verif.Contract.C67_nft_once",
    "Verif.Contract.C67_template"
   ],
   "note": "hash and signature check are parameters"
  },
  {
   "property": "C68",
   "status": "partial",
   "theorems": [
    "Verif.Contract.C68_buy",
    "Verif.Contract.C68_paid_for",
    "Verif.Contract.C68_earnings",
    "Verif.Contract.C68_backed_partial",
    "Verif.Contract.C68_redeem",
    "Verif.Contract.C68_recover_drains"
   ],
   "note": "fixed price token proved; liquid token: false when the owner recovers the currency itself (witness), proved otherwise"
  },
  {
   "property": "C69",
   "status": "proved",
   "theorems": [
    "Verif.Contract.C69_solvent",
    "Verif.Contract.C69_wallet_call",
    "Verif.Contract.C69_wallet",
    "Verif.Contract.C69_transfer",
    "Verif.Contract.C69_price_monotone",
    "Verif.Contract.C69_no_profit",
    "Verif.Contract.C69_round_trip"
   ],
   "note": "total of the currency below 2^190"
  },
  {
   "property": "C72",
   "status": "partial",
   "theorems": [
    "Verif.Wallet.C72_amounts",
    "Verif.Wallet.C72_draws",
    "Verif.Wallet.C72_completes_iff",
    "Verif.Wallet.C72_sender",
    "Verif.Wallet.C72_gather",
    "Verif.Wallet.C72_header",
    "Verif.Wallet.C72_inputs_not_counted",
    "Verif.Wallet.C72_fee_above_max"
   ],
   "note": "funding is exact; inputs that are already in the transaction are not counted against the balance, so a transaction that comes with inputs can draw more than there is (witness); the fee the sender is checked for does not include the signatures (witness)"
  },
  {
   "property": "C73",
   "status": "proved",
   "theorems": [
    "Verif.Wallet.C73_available",
    "Verif.Wallet.C73_no_overdraw"
   ],
   "note": "amounts reserved for pending transactions include the static fee only; as of the last refresh. no_overdraw is for transactions that come without inputs"
  },
  {
   "property": "C74",
   "status": "proved",
   "theorems": [
    "Verif.Wallet.C74_lock_restored",
    "Verif.Wallet.C74_passphrase",
    "Verif.Wallet.C74_signatures",
    "Verif.Wallet.C74_addresses",
    "Verif.Wallet.C74_is_signed",
    "Verif.Wallet.C74_valid",
    "Verif.Wallet.C74_keys_in_memory",
    "Verif.Wallet.C74_second_pass"
   ],
   "note": "keys, hashes and signing are parameters; for unsigned transactions: signing a transaction again that already has signatures can make it invalid (C74_second_pass). keys_in_memory assumes that passphrases with the same first address have the same keys"
  },
  {
   "property": "C75",
   "status": "partial",
   "theorems": [
    "Verif.Wallet.C75_wordlist",
    "Verif.Wallet.C75_words",
    "Verif.Wallet.C75_round_trip",
    "Verif.Wallet.C75_accepts",
    "Verif.Wallet.C75_at_most_two",
    "Verif.Wallet.C75_refuses",
    "Verif.Wallet.C75_second_phrase"
   ],
   "note": "all but uniqueness: two checksums are accepted, so a seed has up to two phrases (C75_second_phrase)"
  },
  {
   "property": "C76",
   "status": "partial",
   "theorems": [
    "Verif.Wallet.C76_round_trip",
    "Verif.Wallet.C76_injective",
    "Verif.Wallet.C76_accepts",
    "Verif.Wallet.C76_bytes",
    "Verif.Wallet.C76_not_canonical",
    "Verif.Wallet.C76_silent_zero"
   ],
   "note": "bech32 is a parameter; other texts are accepted for the same address (C76_not_canonical), and typed messages read unreadable texts as the zero address (C76_silent_zero)"
  },
  {
   "property": "C77",
   "status": "proved",
   "theorems": [
    "Verif.Wallet.C77_send",
    "Verif.Wallet.C77_send_many",
    "Verif.Wallet.C77_send_from",
    "Verif.Wallet.C77_execute",
    "Verif.Wallet.C77_deposit",
    "Verif.Wallet.C77_make_offer",
    "Verif.Wallet.C77_offer_price_zero"
   ],
   "note": "sums of the request below 2^128"
  },
  {
   "property": "C78",
   "status": "proved",
   "theorems": [
    "Verif.Node.C78_chain_is_replay",
    "Verif.Node.C78_same_peak_same_tables"
   ],
   "note": "what blocks do to the tables is a parameter (the ledger model covers it); different blocks have different hashes; one thread (the code holds one lock)"
  },
  {
   "property": "C79",
   "status": "partial",
   "theorems": [
    "Verif.Node.C79_failed_switch_partial",
    "Verif.Node.Toy.C79_deep_switch_fails",
    "Verif.Node.Toy.C79_deep_switch_stuck",
    "Verif.Node.Toy.C79_apply_fails"
   ],
   "note": "proved for forks above the committed height; false for forks off the committed chain (witness) and for blocks that validate but cannot be applied (witness)"
  },
  {
   "property": "C80",
   "status": "proved",
   "theorems": [
    "Verif.Node.C80_switch",
    "Verif.Node.C80_switch_succeeds"
   ],
   "note": "blocks whose heights follow their predecessors'; what validates can be applied"
  },
  {
   "property": "C81",
   "status": "partial",
   "theorems": [
    "Verif.Node.C81_best_fork_partial",
    "Verif.Node.C81_arrival_order",
    "Verif.Node.Toy.C81_cycle",
    "Verif.Node.Toy.C81_lost_sibling"
   ],
   "note": "proved for forks that start from blocks of equal weight, in particular all forks off the root; otherwise the comparison is circular and the choice depends on the order of arrival (witness); a line whose first block was dropped unverified at a commit is never followed (witness)"
  },
  {
   "property": "C82",
   "status": "proved",
   "theorems": [
    "Verif.Node.C82_loop_ends",
    "Verif.Node.C82_follows_best"
   ],
   "note": "the second theorem where no fork leaves the committed chain; see C79_deep_switch_fails for the other case"
  },
  {
   "property": "C83",
   "status": "partial",
   "theorems": [
    "Verif.Node.C83_finality_partial",
    "Verif.Node.C83_committed_stays",
    "Verif.Node.Toy.C83_forged_height"
   ],
   "note": "proved where no fork leaves the committed chain (leaving it is intended, for recovery) and heights are honest; a block with a false height commits the whole chain at once (witness)"
  },
  {
   "property": "C84",
   "status": "proved",
   "theorems": [
    "Verif.Node.C84_restart",
    "Verif.Node.C84_lost_blocks"
   ],
   "note": "that the database recovers to one version is C08"
  },
  {
   "property": "C85",
   "status": "proved",
   "theorems": [
    "Verif.Node.C85_votes"
   ],
   "note": "signatures of votes are checked on arrival and not modelled"
  },
  {
   "property": "C86",
   "status": "proved",
   "theorems": [
    "Verif.Node.C86_proofs"
   ],
   "note": ""
  },
  {
   "property": "C87",
   "status": "partial",
   "theorems": [
    "Verif.Ledger.C87_partial",
    "Verif.Ledger.C87_all_in",
    "Verif.Ledger.C87_parallel",
    "Verif.Ledger.C87_left_out"
   ],
   "note": "Holds when every transaction in the block pays for its cost (C55) and none that was left out before wrote to a contract that one in the block shares. False otherwise: C87_left_out is a pool from which the node makes a block that no node accepts."
  },
  {
   "property": "C88",
   "status": "proved",
   "theorems": [
    "Verif.Ledger.C88_limits",
    "Verif.Ledger.C88_order",
    "Verif.Ledger.C88_bands",
    "Verif.Ledger.C88_funds",
    "Verif.Ledger.C88_complete"
   ],
   "note": "Sums are natural numbers (64 bit in the code). Bands need ascending ratios, the first at most 1, and no transaction larger than a band."
  },
  {
   "property": "C89",
   "status": "partial",
   "theorems": [
    "Verif.Ledger.C89_in_time",
    "Verif.Ledger.C89_one_thread",
    "Verif.Ledger.C89_disjoint",
    "Verif.Ledger.C89_stuck"
   ],
   "note": "Holds when no task is skipped, with one thread, or when no two transactions share a contract. False otherwise: C89_stuck, a task waits for ever for one that was skipped."
  },
  {
   "property": "C90",
   "status": "proved",
   "theorems": [
    "Verif.Node.C90_admission",
    "Verif.Node.C90_accepted",
    "Verif.Node.C90_recorded",
    "Verif.Node.C90_once"
   ],
   "note": "Fees below 2^32 (their type) and less than 2^32 pending transactions."
  },
  {
   "property": "C91",
   "status": "proved",
   "theorems": [
    "Verif.Node.C91_index"
   ],
   "note": "Which transaction ids the index holds; the entries that the queries make of them are not part of this."
  },
  {
   "property": "C92",
   "status": "proved",
   "theorems": [
    "Verif.Node.C92_purge",
    "Verif.Node.C92_idle"
   ],
   "note": "A sender counts as unable to pay when its fees exceed the balance modulo 2^64, which is how the code stores it; C92_idle needs balances below 2^64."
  },
  {
   "property": "C93",
   "status": "partial",
   "theorems": [
    "Verif.Node.C93_apart",
    "Verif.Node.C93_switch_partial",
    "Verif.Node.C93_block",
    "Verif.Node.C93_lost"
   ],
   "note": "False for a node that is not in sync or reverts below its root: C93_lost. Blocks are taken to apply without an exception (C59 and C56 for validated ones)."
  },
  {
   "property": "C94",
   "status": "partial",
   "theorems": [
    "Verif.Node.History.C94_sound",
    "Verif.Node.History.C94_all",
    "Verif.Node.History.C94_history",
    "Verif.Node.History.C94_memo_incomplete",
    "Verif.Node.History.C94_empty_range"
   ],
   "note": "Holds for get_history when since <= until. False with a memo and a limit (C94_memo_incomplete: a block is cut in two) and when since > until (C94_empty_range: one block is given)."
  },
  {
   "property": "C95",
   "status": "partial",
   "theorems": [
    "Verif.Node.History.C95_shown",
    "Verif.Node.History.C95_once_partial",
    "Verif.Node.History.C95_repeated",
    "Verif.Node.History.C95_unfiltered"
   ],
   "note": "What is shown is right; each once only if no pending transaction concerns two of the addresses. False otherwise: C95_repeated. The filter is not applied: C95_unfiltered."
  },
  {
   "property": "C96",
   "status": "partial",
   "theorems": [
    "Verif.Node.TimeLord.C96_sequential_partial",
    "Verif.Node.TimeLord.C96_accepted_partial",
    "Verif.Node.TimeLord.C96_defined",
    "Verif.Node.TimeLord.C96_taken",
    "Verif.Node.TimeLord.C96_waits",
    "Verif.Node.TimeLord.C96_answered",
    "Verif.Node.TimeLord.C96_race",
    "Verif.Node.TimeLord.C96_stale",
    "Verif.Node.TimeLord.C96_stop",
    "Verif.Node.TimeLord.C96_zero"
   ],
   "note": "Holds for the requests of one chain when no update runs between a reset and its execution and nothing is stopped while requests are open. False otherwise: C96_race, C96_stale, C96_stop; C96_zero restarts from the zero hash."
  },
  {
   "property": "C97",
   "status": "proved",
   "theorems": [
    "Verif.Hash.C97_streamed",
    "Verif.Hash.C97_split",
    "Verif.Hash.C97_reset",
    "Verif.Hash.C97_block"
   ],
   "note": "messages below 2^61 bytes; a little-endian machine"
  },
  {
   "property": "C98",
   "status": "proved",
   "theorems": [
    "Verif.Hash.C98_hmac",
    "Verif.Hash.C98_child",
    "Verif.Hash.C98_kdf",
    "Verif.Hash.C98_distinct"
   ],
   "note": "vnx::to_big_endian (not in the checkout) gives the value whose memory image is big endian"
  },
  {
   "property": "C99",
   "status": "proved",
   "theorems": [
    "Verif.Hash.C99_gpu",
    "Verif.Hash.C99_agrees",
    "Verif.Hash.C99_room"
   ],
   "note": "messages below 2^32 - 144 bytes; one GPU thread"
  },
  {
   "property": "C100",
   "status": "proved",
   "theorems": [
    "Verif.Hash.C100_ni",
    "Verif.Hash.C100_recursive",
    "Verif.Hash.C100_two",
    "Verif.Hash.C100_avx2",
    "Verif.Hash.C100_avx2_long",
    "Verif.Hash.C100_x8",
    "Verif.Hash.C100_hash"
   ],
   "note": "x86 versions (ARM: C164); the software version (vnx::SHA256, not in the checkout) is a hypothesis where it is used"
  },
  {
   "property": "C101",
   "status": "proved",
   "theorems": [
    "Verif.Hash.C101_gpu",
    "Verif.Hash.C101_same",
    "Verif.Hash.C101_endless"
   ],
   "note": "segment size up to 2^32 - 2500; from 2^32 - 3 on the GPU check does not end (C101_endless)"
  },
  {
   "property": "C102",
   "status": "proved",
   "theorems": [
    "Verif.Pos.C102_sound",
    "Verif.Pos.C102_complete",
    "Verif.Pos.C102_fails",
    "Verif.Pos.C102_order"
   ],
   "note": "the hash functions are parameters; fewer than 2^32 entries per table"
  },
  {
   "property": "C103",
   "status": "proved",
   "theorems": [
    "Verif.Pos.C103_sound",
    "Verif.Pos.C103_unique",
    "Verif.Pos.C103_rigid",
    "Verif.Pos.C103_complete",
    "Verif.Pos.C103_same",
    "Verif.Pos.C103_defined",
    "Verif.Pos.C103_case"
   ],
   "note": "C103_rigid and C103_same assume that no two different trees over the values have the same meta data (a collision of SHA-512 cut to 14 k bits). C103_case: values above 2^ksize are accepted."
  },
  {
   "property": "C104",
   "status": "proved",
   "theorems": [
    "Verif.Pos.C104_accepted"
   ],
   "note": "assumes that no two different trees over the candidate values have the same meta data; decoding the parks of the plot file is C36 and C37 or not modelled"
  },
  {
   "property": "C105",
   "status": "proved",
   "theorems": [
    "Verif.Pos.C105_sound",
    "Verif.Pos.C105_threshold",
    "Verif.Pos.C105_easier"
   ],
   "note": "space_diff_constant at least 33 (mainnet: 10^11) and below 2^64; hash functions are parameters"
  },
  {
   "property": "C106",
   "status": "proved",
   "theorems": [
    "Verif.Pos.C106_entry",
    "Verif.Pos.C106_gpu",
    "Verif.Pos.C106_repeated",
    "Verif.Pos.C106_runs",
    "Verif.Pos.C106_fits",
    "Verif.Pos.C106_buffer",
    "Verif.Pos.C106_accepts",
    "Verif.Pos.C106_agrees",
    "Verif.Pos.C106_differs"
   ],
   "note": "the two are the same for distinct values; with a repeated value a node with a GPU may reject what others accept (C106_differs, for toy hashes). rotl_32 by 0 is undefined in C++: both usual outcomes are covered"
  },
  {
   "property": "C107",
   "status": "proved",
   "theorems": [
    "Verif.Time.C107_challenge",
    "Verif.Time.C107_limit",
    "Verif.Time.C107_height",
    "Verif.Time.C107_agrees",
    "Verif.Time.C107_direct",
    "Verif.Time.C107_final",
    "Verif.Time.C107_continues",
    "Verif.Time.C107_published"
   ],
   "note": "hash functions are parameters; heights do not wrap"
  },
  {
   "property": "C108",
   "status": "proved",
   "theorems": [
    "Verif.Time.C108_infusion",
    "Verif.Time.C108_stable",
    "Verif.Time.C108_requests",
    "Verif.Time.C108_expected",
    "Verif.Time.C108_seamless"
   ],
   "note": "time_diff_divider not zero; heights do not wrap, iterations do"
  },
  {
   "property": "C109",
   "status": "partial",
   "theorems": [
    "Verif.Time.C109_total",
    "Verif.Time.C109_found",
    "Verif.Time.C109_finds",
    "Verif.Time.C109_next",
    "Verif.Time.C109_made",
    "Verif.Time.C109_wrong_start",
    "Verif.Time.C109_first_only",
    "Verif.Time.C109_displaced"
   ],
   "note": "C109_next and C109_made assume that points carry their true position. Nothing in the code checks it: with a wrong `start` the result is wrong (C109_wrong_start), and a copy of an honest proof with another `start` that is verified first keeps the honest one out (C109_displaced, C109_first_only)"
  },
  {
   "property": "C110",
   "status": "partial",
   "theorems": [
    "Verif.Time.C110_owned_partial",
    "Verif.Time.C110_free",
    "Verif.Time.C110_stuck",
    "Verif.Time.C110_leak"
   ],
   "note": "false in general: a proof discarded because the chain of points is full keeps its slot for ever (C110_leak), and without a GPU there is only one slot (C110_stuck). C110_owned_partial: it holds for histories without such a discard"
  },
  {
   "property": "C111",
   "status": "proved",
   "theorems": [
    "Verif.Time.C111_block",
    "Verif.Time.C111_kept",
    "Verif.Time.C111_made"
   ],
   "note": "the check of one proof is a parameter here and the subject of C102-C105; VDF height below 2^32"
  },
  {
   "property": "C112",
   "status": "partial",
   "theorems": [
    "Verif.Time.C112_winner",
    "Verif.Time.C112_counted",
    "Verif.Time.C112_any_address"
   ],
   "note": "the winner is as stated; but no check ties the addresses named in a block to the VDFs, its maker may name any (C112_any_address)"
  },
  {
   "property": "C113",
   "status": "partial",
   "theorems": [
    "Verif.Comp.C113_program_partial",
    "Verif.Comp.C113_throws_partial",
    "Verif.Comp.C113_shift_wraps"
   ],
   "note": "for all programs of the modelled part of the language, except those of C115_falls_through and C117_assert_order, and except shifts by 2^64 or more and declarations that are the whole body of an if or loop; arrays, objects, globals, interfaces and built-in functions are not modelled"
  },
  {
   "property": "C114",
   "status": "partial",
   "theorems": [
    "Verif.Comp.C114_one_reading",
    "Verif.Comp.C114_compiled_as_read",
    "Verif.Comp.C114_chained_assignment",
    "Verif.Comp.C114_logical_like_bitwise"
   ],
   "note": "proved for expressions of values; but a chain of assignments is grouped from the left and loses one, and logical operators bind like bitwise ones"
  },
  {
   "property": "C115",
   "status": "partial",
   "theorems": [
    "Verif.Comp.C115_null_partial",
    "Verif.Comp.C115_falls_through"
   ],
   "note": "proved for functions whose last instruction in the text is no return inside an if; false otherwise: execution falls into the next function, proved with a witness"
  },
  {
   "property": "C116",
   "status": "partial",
   "theorems": [
    "Verif.Comp.C116_refused_partial",
    "Verif.Comp.C116_const_changes"
   ],
   "note": "proved for =, ++ and -- and for names declared twice; false for compound assignments, proved with a witness"
  },
  {
   "property": "C117",
   "status": "partial",
   "theorems": [
    "Verif.Comp.C113_program_partial",
    "Verif.Comp.C113_throws_partial",
    "Verif.Comp.C117_assert_order",
    "Verif.Comp.C117_message"
   ],
   "note": "proved (as part of C113) for an assert without message when the compiler evaluates C++ arguments from the right, or the condition is a variable or constant; false otherwise, proved with witnesses"
  },
  {
   "property": "C118",
   "status": "partial",
   "theorems": [
    "Verif.Comp.C118_same_value_partial"
   ],
   "note": "for the modelled part of the language; opt_level only decides about division and remainder by powers of two there"
  },
  {
   "property": "C119",
   "status": "proved",
   "theorems": [
    "Verif.Router.C119_not_again"
   ],
   "note": "the caches are bounded, so a message that was forgotten may go out again; messages are told apart by their content hash; the VDFs sent to a new peer are not counted (on_connect)"
  },
  {
   "property": "C120",
   "status": "proved",
   "theorems": [
    "Verif.Router.C120_relayed_once",
    "Verif.Router.C120_published_once"
   ],
   "note": "the cache is bounded, as for C119"
  },
  {
   "property": "C121",
   "status": "proved",
   "theorems": [
    "Verif.Router.C121_blocks",
    "Verif.Router.C121_vdfs"
   ],
   "note": ""
  },
  {
   "property": "C122",
   "status": "partial",
   "theorems": [
    "Verif.Router.C122_offered_partial",
    "Verif.Router.C122_sent",
    "Verif.Router.C122_time_taken",
    "Verif.Router.C122_time_taken_later"
   ],
   "note": "false when another item of the peer has the same microsecond: the message is dropped for good, proved with witnesses; proved otherwise"
  },
  {
   "property": "C123",
   "status": "partial",
   "theorems": [
    "Verif.Router.C123_new_peer_partial",
    "Verif.Router.C123_withheld"
   ],
   "note": "proved for VDFs not relayed before they were verified; false for the others, proved with a witness"
  },
  {
   "property": "C124",
   "status": "partial",
   "theorems": [
    "Verif.Router.Sync.C124_valid",
    "Verif.Router.Sync.C124_agreed_partial",
    "Verif.Router.Sync.C124_themselves_partial",
    "Verif.Router.Sync.C124_one_peer",
    "Verif.Router.Sync.C124_counted_twice",
    "Verif.Router.Sync.C124_other_height"
   ],
   "note": "Valid, sent in reply and distinct: proved. Proved with half of min_sync_peers peers asked and their requests answered; that they answered themselves under the assumption that returns come from the peers asked. The full claim is false, shown by three counterexamples: a return is matched by id alone, a peer can be counted as failed and as succeeded, and the height of a block is not compared."
  },
  {
   "property": "C125",
   "status": "partial",
   "theorems": [
    "Verif.Router.Sync.C125_goes_on_partial",
    "Verif.Router.Sync.C125_stalled"
   ],
   "note": "Proved: there is always a request under way. That the call ends is false: min_sync_peers + 3 peers that name a hash and answer with exceptions keep it open for ever."
  },
  {
   "property": "C126",
   "status": "proved",
   "theorems": [
    "Verif.Router.Sync.C126_once",
    "Verif.Router.Sync.C126_made",
    "Verif.Router.Sync.C126_in_time"
   ],
   "note": "Over the model of process and update; the timer event itself is assumed to come."
  },
  {
   "property": "C127",
   "status": "partial",
   "theorems": [
    "Verif.Router.Sync.C127_block_partial",
    "Verif.Router.Sync.C127_none_partial",
    "Verif.Router.Sync.C127_at_partial",
    "Verif.Router.Sync.C127_unchecked"
   ],
   "note": "Proved: the block came in a return to a request for this hash or height, and null only after the request to every synced peer was answered. False and shown by a counterexample: neither the hash of the block nor the sender is checked."
  },
  {
   "property": "C128",
   "status": "partial",
   "theorems": [
    "Verif.Catchup.C128_no_gap_partial",
    "Verif.Catchup.C128_calls",
    "Verif.Catchup.C128_gap"
   ],
   "note": "Proved as long as no call fails and none is open from an earlier sync. False otherwise: C128_gap is a run in which a height is never asked for."
  },
  {
   "property": "C129",
   "status": "partial",
   "theorems": [
    "Verif.Catchup.C129_commit_partial",
    "Verif.Catchup.C129_when",
    "Verif.Catchup.C129_unanswered"
   ],
   "note": "Proved as long as no call fails and none is open from an earlier sync. False otherwise: C129_unanswered."
  },
  {
   "property": "C130",
   "status": "partial",
   "theorems": [
    "Verif.Catchup.C130_done",
    "Verif.Catchup.C130_complete_partial",
    "Verif.Catchup.C130_pause",
    "Verif.Catchup.C130_flag",
    "Verif.Catchup.C130_positive",
    "Verif.Catchup.C130_loop",
    "Verif.Catchup.C130_hole"
   ],
   "note": "Number and spacing of the passes and their ends proved for all runs. That all heights were heard is proved as long as no call fails and none is open from an earlier sync, and false otherwise: C130_hole."
  },
  {
   "property": "C131",
   "status": "partial",
   "theorems": [
    "Verif.Catchup.C131_ahead_partial",
    "Verif.Catchup.C131_goes_on",
    "Verif.Catchup.C131_ends"
   ],
   "note": "The limit is proved as long as no call fails and none is open from an earlier sync, for heights from the start of the sync; the rest for all runs."
  },
  {
   "property": "C132",
   "status": "partial",
   "theorems": [
    "Verif.Farm.C132_sound",
    "Verif.Farm.C132_tail",
    "Verif.Farm.C132_even_partial",
    "Verif.Farm.C132_complete_partial",
    "Verif.Farm.C132_missed"
   ],
   "note": "What is given is right, in all plots. That nothing is missing is proved for plots whose entries are spread evenly to less than 24576, and false in general: C132_missed."
  },
  {
   "property": "C133",
   "status": "proved",
   "theorems": [
    "Verif.Farm.C133_accepted"
   ],
   "note": "hash functions are parameters; the plot file holds what the plotter should have put there (Plot.Made)"
  },
  {
   "property": "C134",
   "status": "partial",
   "theorems": [
    "Verif.Farm.C134_found_partial"
   ],
   "note": "For the entries that the search gives (C132) when the meta data of all of them can be read; if that of one cannot, the whole lookup fails (Prover.cpp, by reading)."
  },
  {
   "property": "C135",
   "status": "partial",
   "theorems": [
    "Verif.Farm.C135_delivered_partial",
    "Verif.Farm.C135_long_name",
    "Verif.Farm.C135_signed",
    "Verif.Farm.C135_taken"
   ],
   "note": "Proved for names of harvesters below 1024 characters; with longer names no proof is ever delivered (C135_long_name)."
  },
  {
   "property": "C136",
   "status": "partial",
   "theorems": [
    "Verif.Farm.C136_once",
    "Verif.Farm.C136_accounted",
    "Verif.Farm.C136_timely",
    "Verif.Farm.C136_armed",
    "Verif.Farm.C136_newest",
    "Verif.Farm.C136_drained",
    "Verif.Farm.C136_all_partial",
    "Verif.Farm.C136_replaced"
   ],
   "note": "At most once (and once more after each reload that found new plots), newest first and worked off: proved for all runs. That every challenge is looked up is proved as long as challenges for the same height agree; false otherwise: C136_replaced."
  },
  {
   "property": "C137",
   "status": "partial",
   "theorems": [
    "Verif.Farm.C137_signed_partial",
    "Verif.Farm.C137_whole_partial",
    "Verif.Farm.C137_ambiguous",
    "Verif.Farm.C137_og"
   ],
   "note": "Proved for the text and proofs of plot NFTs if the address of the pool does not contain 'harvester:', and false otherwise (C137_ambiguous); for proofs without contract the text leaves out the values, seed and size of the proof (C137_og)."
  },
  {
   "property": "C138",
   "status": "proved",
   "theorems": [
    "Verif.Farm.C138_approved",
    "Verif.Farm.C138_honest"
   ],
   "note": "hash functions and signatures are parameters; whether the contract points to the pool is one (verify_plot_nft_target)"
  },
  {
   "property": "C139",
   "status": "partial",
   "theorems": [
    "Verif.Rules.C139_dependencies",
    "Verif.Rules.C139_limits",
    "Verif.Rules.C139_ends",
    "Verif.Rules.C139_cost_partial",
    "Verif.Rules.C139_deep"
   ],
   "note": "What is found and what is refused: proved. The number of steps is bounded only by the length of the longest chain: the limit on depth is checked after the recursion, and contracts can be deployed before those they depend on, so that chains of any length exist (C139_deep)."
  },
  {
   "property": "C140",
   "status": "partial",
   "theorems": [
    "Verif.Rules.C140_validators",
    "Verif.Rules.C140_count",
    "Verif.Rules.C140_agree_partial",
    "Verif.Rules.C140_setting"
   ],
   "note": "Proved for nodes with the same max_history; it is a setting of each node, and with different ones they can disagree (C140_setting)."
  },
  {
   "property": "C141",
   "status": "partial",
   "theorems": [
    "Verif.Rules.C141_apart",
    "Verif.Rules.C141_when",
    "Verif.Rules.C141_votes",
    "Verif.Rules.C141_weaker"
   ],
   "note": "Proved for runs without restart: the votes are in memory only. The later vote for a replacement does not look at the best proof (C141_weaker)."
  },
  {
   "property": "C142",
   "status": "proved",
   "theorems": [
    "Verif.Rules.C142_sorted",
    "Verif.Rules.C142_best",
    "Verif.Rules.C142_forget",
    "Verif.Rules.C142_replay"
   ],
   "note": "hashes of proofs are numbers; farmer_keys is not modelled"
  },
  {
   "property": "C143",
   "status": "partial",
   "theorems": [
    "Verif.Rules.C143_merged_partial",
    "Verif.Rules.C143_signed_partial",
    "Verif.Rules.C143_dangling"
   ],
   "note": "Proved if every input has a signature or is marked to have none, and signatures and inputs are fewer than 65536 together. False for inputs with the number of a signature not yet there (C143_dangling)."
  },
  {
   "property": "C144",
   "status": "proved",
   "theorems": [
    "Verif.Blocks.C144_block",
    "Verif.Blocks.C144_tx",
    "Verif.Blocks.C144_heights"
   ],
   "note": "what was flushed to the file is assumed to stay there (see C145); the serialisation of vnx is a parameter; the hash of a block is assumed to commit to its height and transactions"
  },
  {
   "property": "C145",
   "status": "partial",
   "theorems": [
    "Verif.Blocks.C145_rewritten_partial",
    "Verif.Blocks.C145_checked",
    "Verif.Blocks.C145_other_block"
   ],
   "note": "Proved: a block that is written again is then found, or else a valid block with as many transactions. False: it can be another block, and the check at start does not compare hashes (C145_other_block)."
  },
  {
   "property": "C146",
   "status": "partial",
   "theorems": [
    "Verif.Index.C146_recorded_partial",
    "Verif.Index.C146_reported_partial",
    "Verif.Index.C146_remove_all",
    "Verif.Index.C146_switch",
    "Verif.Index.C146_deploy"
   ],
   "note": "Proved for users that never switch pools, name the exchange by its address and give rem_all_liquid its argument; false in each of these cases, proved with witnesses. Calls through other contracts are not recorded either (by reading)."
  },
  {
   "property": "C147",
   "status": "partial",
   "theorems": [
    "Verif.Index.Farmers.C147_ranking_partial",
    "Verif.Index.Farmers.C147_top_partial",
    "Verif.Index.Farmers.C147_zero",
    "Verif.Index.Farmers.C147_failed_write"
   ],
   "note": "Proved as long as no block fails to be written to the file; then it stays counted (C147_failed_write). A farmer whose blocks were all reverted stays listed with zero blocks (C147_zero)."
  },
  {
   "property": "C148",
   "status": "partial",
   "theorems": [
    "Verif.Index.Farmers.C148_farmed_partial",
    "Verif.Index.Farmers.C148_twice"
   ],
   "note": "Proved if no key is given twice, and false otherwise (C148_twice)."
  },
  {
   "property": "C149",
   "status": "partial",
   "theorems": [
    "Verif.Index.Farmers.C149_summary_partial",
    "Verif.Index.Farmers.C149_large_reward"
   ],
   "note": "Proved for rewards below 2^32 and keys given once; larger rewards are recorded modulo 2^32 (C149_large_reward)."
  },
  {
   "property": "C150",
   "status": "proved",
   "theorems": [
    "Verif.Index.Offers.C150_recent",
    "Verif.Index.Offers.C150_for",
    "Verif.Index.Offers.C150_same_height"
   ],
   "note": "the index is taken not to change during the query; which of several offers of one height are left out is not fixed (C150_same_height)"
  },
  {
   "property": "C151",
   "status": "proved",
   "theorems": [
    "Verif.Index.Offers.C151_trades",
    "Verif.Index.Offers.C151_for"
   ],
   "note": "the index of trades is taken to hold those of the coins; it leaves out trades of offers whose bid_currency cannot be read"
  },
  {
   "property": "C152",
   "status": "proved",
   "theorems": [
    "Verif.Contract.Std.C152_sort",
    "Verif.Contract.Std.C152_sort_values",
    "Verif.Contract.Std.C152_sort_mixed",
    "Verif.Contract.Std.C152_reverse",
    "Verif.Contract.Std.C152_descending",
    "Verif.Contract.Std.C152_equals",
    "Verif.Contract.Std.C152_compare_equal",
    "Verif.Contract.Std.C152_compare_order",
    "Verif.Contract.Std.C152_compare_numbers",
    "Verif.Contract.Std.C152_compare_mixed"
   ],
   "note": "maps and numbers above 2^256 are not part of the values"
  },
  {
   "property": "C153",
   "status": "partial",
   "theorems": [
    "Verif.Contract.Poker.C153_rank",
    "Verif.Contract.Poker.C153_order",
    "Verif.Contract.Poker.C153_win_partial",
    "Verif.Contract.Poker.C153_not_poker"
   ],
   "note": "The kinds are right. Hands of the same kind are compared by all their values in descending order, not by those of the pairs first: two twos with an ace beat two kings (C153_not_poker)."
  },
  {
   "property": "C154",
   "status": "proved",
   "theorems": [
    "Verif.Contract.Poker.C154_pot",
    "Verif.Contract.Poker.C154_paid",
    "Verif.Contract.Poker.C154_claim",
    "Verif.Contract.Poker.C154_winner"
   ],
   "note": "C154_claim is for those with one seat; a payment must be below 2^128. The winner is the first to show (C155)."
  },
  {
   "property": "C155",
   "status": "partial",
   "theorems": [
    "Verif.Contract.Poker.C155_first",
    "Verif.Contract.Poker.C155_no_second",
    "Verif.Contract.Poker.C155_worse_wins",
    "Verif.Contract.Poker.C155_repeated",
    "Verif.Contract.Poker.C155_four"
   ],
   "note": "False: whoever shows first wins, every further show aborts (C155_no_second), and a card can be named four times (C155_repeated). Proved instead: there is at most one winner and it never changes."
  },
  {
   "property": "C156",
   "status": "partial",
   "theorems": [
    "Verif.Contract.Poker.C156_leave",
    "Verif.Contract.Poker.C156_locked",
    "Verif.Contract.Poker.C156_stuck"
   ],
   "note": "False: leave never works (C156_leave); one seed sent as a binary locks all bets for ever (C156_locked, C156_stuck). For a winner see C154_winner."
  },
  {
   "property": "C157",
   "status": "partial",
   "theorems": [
    "Verif.Contract.Poker.C157_seats_partial",
    "Verif.Contract.Poker.C157_twice",
    "Verif.Contract.Poker.C157_limits"
   ],
   "note": "The limits on seats and bets hold. One seat each: proved for all but the first player, who can have two seats (C157_twice)."
  },
  {
   "property": "C158",
   "status": "partial",
   "theorems": [
    "Verif.Contract.Poker.C158_turn_partial",
    "Verif.Contract.Poker.C158_no_turn"
   ],
   "note": "Proved for rounds in which nobody folds; a fold ends a round too early (C158_no_turn)."
  },
  {
   "property": "C159",
   "status": "proved",
   "theorems": [
    "Verif.Control.C159_median",
    "Verif.Control.C159_vote",
    "Verif.Control.C159_range"
   ],
   "note": "Doubles are numbers with an order; that a mean lies between and quotients compare monotonically is assumed (Arith)."
  },
  {
   "property": "C160",
   "status": "proved",
   "theorems": [
    "Verif.Control.C160_requests",
    "Verif.Control.C160_failed"
   ],
   "note": ""
  },
  {
   "property": "C161",
   "status": "partial",
   "theorems": [
    "Verif.Control.C161_fresh_partial",
    "Verif.Control.C161_stale"
   ],
   "note": "Proved if no file is old. False otherwise: while downloads fail the last vote stays for ever (C161_stale)."
  },
  {
   "property": "C162",
   "status": "proved",
   "theorems": [
    "Verif.DB.C162_reopen",
    "Verif.DB.C162_find",
    "Verif.DB.C162_index",
    "Verif.DB.C162_entries"
   ],
   "note": "32 bit versions and sizes, file below 2^63 bytes; default comparator"
  },
  {
   "property": "C163",
   "status": "partial",
   "theorems": [
    "Verif.DB.C163_cut_partial",
    "Verif.DB.C163_format",
    "Verif.DB.C163_zeros",
    "Verif.DB.C163_changed"
   ],
   "note": "Proved: a file that was cut short is refused. False: a file of zeros is an empty block (C163_zeros), and a changed byte of a value is not noticed (C163_changed)."
  },
  {
   "property": "C164",
   "status": "proved",
   "theorems": [
    "Verif.Hash.C164_arm",
    "Verif.Hash.C164_recursive",
    "Verif.Hash.C164_two",
    "Verif.Hash.C164_hash",
    "Verif.Hash.C164_x8",
    "Verif.Hash.C164_compute",
    "Verif.Hash.C164_check"
   ],
   "note": "the meaning of the instructions is taken from the Arm manual; little-endian memory; the software version (vnx::SHA256, not in the checkout) is a hypothesis where it is used"
  },
  {
   "property": "C165",
   "status": "partial",
   "theorems": [
    "Verif.Sig.C165_right_partial",
    "Verif.Sig.C165_agree_partial",
    "Verif.Sig.C165_once",
    "Verif.Sig.C165_alone",
    "Verif.Sig.C165_zero",
    "Verif.Sig.C165_zero_after",
    "Verif.Sig.C165_differs",
    "Verif.Sig.C165_fork",
    "Verif.Sig.C165_machine_partial"
   ],
   "note": "Proved for all but one input. False for the hash, key and signature that are all zeros: an untouched slot of the cache equals it (C165_zero), so nodes differ, also on a contract that checks it (C165_fork). secp256k1 is a parameter; that it cannot read a key of zeros is a hypothesis of C165_zero_after."
  },
  {
   "property": "C166",
   "status": "proved",
   "theorems": [
    "Verif.Pos.C166_remote",
    "Verif.Pos.C166_rows",
    "Verif.Pos.C166_complete"
   ],
   "note": "the transport of requests and results (vnx) is not modelled; server and client are given the same order of table 1 and sort (for others see C102)"
  },
  {
   "property": "C167",
   "status": "partial",
   "theorems": [
    "Verif.Gpu.C167_once",
    "Verif.Gpu.C167_asked",
    "Verif.Gpu.C167_own",
    "Verif.Gpu.C167_result",
    "Verif.Gpu.C167_turn",
    "Verif.Gpu.C167_wake",
    "Verif.Gpu.C167_dead",
    "Verif.Gpu.C167_left_behind",
    "Verif.Gpu.C167_lost_count",
    "Verif.Gpu.C167_asleep",
    "Verif.Gpu.C167_shutdown"
   ],
   "note": "Proved: at most once, own result, bounded overtaking in turns of the devices, no lost wake-up. False: when the last device fails, requests that wait are never answered (C167_left_behind); a device that fails before the initialisation ends leaves the count of devices wrong for ever (C167_lost_count); a shutdown does not wake a caller that waits (C167_shutdown)."
  },
  {
   "property": "C168",
   "status": "partial",
   "theorems": [
    "Verif.Wallet.C168_refresh",
    "Verif.Wallet.C168_spendable_partial",
    "Verif.Wallet.C168_race",
    "Verif.Wallet.C168_reverted"
   ],
   "note": "Proved while the chain only grows and no block comes during the refresh. False otherwise: a block between two of the calls makes coins that were just spent count again (C168_race), and a transaction whose block was taken back is forgotten (C168_reverted)."
  },
  {
   "property": "C169",
   "status": "partial",
   "theorems": [
    "Verif.Router.Identity.C169_signed",
    "Verif.Router.Identity.C169_node",
    "Verif.Router.Identity.C169_unique",
    "Verif.Router.Identity.C169_end_partial",
    "Verif.Router.Identity.C169_kept_partial",
    "Verif.Router.Identity.C169_relay"
   ],
   "note": "Proved: the owner of the id has signed the challenge, one open connection for each id, and the claim unless an outsider has had the challenge signed by the owner. False otherwise: nodes sign whatever a peer asks them to, so an outsider can pass a challenge on (C169_relay). Signatures are symbols (unforgeable), challenges are unique."
  },
  {
   "property": "C170",
   "status": "partial",
   "theorems": [
    "Verif.Router.Connections.C170_lists",
    "Verif.Router.Connections.C170_banned",
    "Verif.Router.Connections.C170_settled",
    "Verif.Router.Connections.C170_tasks",
    "Verif.Router.Connections.C170_forgotten",
    "Verif.Router.Connections.C170_cleared",
    "Verif.Router.Connections.C170_kick",
    "Verif.Router.Connections.C170_stays",
    "Verif.Router.Connections.C170_dial",
    "Verif.Router.Connections.C170_share",
    "Verif.Router.Connections.C170_unbounded",
    "Verif.Router.Connections.C170_twice",
    "Verif.Router.Connections.C170_light",
    "Verif.Router.Connections.C170_own",
    "Verif.Router.Connections.C170_private"
   ],
   "note": "Proved for all histories, with three exceptions shown by witnesses: an address of a fixed peer can be dialled twice, light nodes can count as synced full nodes, and private addresses 172.16. to 172.31. are handed out. Also shown: the list of addresses to try grows without bound, and a peer can have its address taken for our own."
  },
  {
   "property": "C171",
   "status": "partial",
   "theorems": [
    "Verif.Wallet.C171_parts",
    "Verif.Wallet.C171_total_partial",
    "Verif.Wallet.C171_at_least",
    "Verif.Wallet.C171_too_much"
   ],
   "note": "The parts: proved for all histories. The total is right as long as pending transactions take no more from an address than the node reported; otherwise it is too large (C171_too_much). Sums within 128 bits."
  },
  {
   "property": "C172",
   "status": "partial",
   "theorems": [
    "Verif.Farm.Plots.C172_search",
    "Verif.Farm.Plots.C172_which",
    "Verif.Farm.Plots.C172_there",
    "Verif.Farm.Plots.C172_once",
    "Verif.Farm.Plots.C172_schedule",
    "Verif.Farm.Plots.C172_again",
    "Verif.Farm.Plots.C172_space_partial",
    "Verif.Farm.Plots.C172_space",
    "Verif.Farm.Plots.C172_old_key",
    "Verif.Farm.Plots.C172_replaced",
    "Verif.Farm.Plots.C172_unsettled"
   ],
   "note": "Which directories are searched, which plots are farmed after any reloads, one lookup for each plot and independence of the schedule: proved. Not so: a plot stays when its key is gone or its file is replaced (C172_old_key, C172_replaced), a plot in two files counts twice (C172_space), a plot for another key disturbs every reload (C172_unsettled). Reading the size of a file is taken not to fail."
  },
  {
   "property": "C173",
   "status": "proved",
   "theorems": [
    "Verif.Farm.Pool.C173_counted",
    "Verif.Farm.Pool.C173_sent",
    "Verif.Farm.Pool.C173_sum"
   ],
   "note": "Sums and counts modulo their size (64 and 32 bits). An answer whose JSON cannot be parsed is taken as one that is not understood; how vnx treats an exception there is not in the repository."
  },
  {
   "property": "C174",
   "status": "partial",
   "theorems": [
    "Verif.Farm.Pool.C174_settled_partial",
    "Verif.Farm.Pool.C174_old",
    "Verif.Farm.Pool.C174_late",
    "Verif.Farm.Pool.C174_flips",
    "Verif.Farm.Pool.C174_nfts_partial",
    "Verif.Farm.Pool.C174_nfts",
    "Verif.Farm.Pool.C174_gone"
   ],
   "note": "Holds once no request to another pool waits and the pool has answered. Not so right after a change of the pool (C174_old), nor later if the old pool answers late (C174_late). Plot NFTs: holds if no contract goes while the node is asked about it; otherwise C174_nfts, C174_gone."
  },
  {
   "property": "C175",
   "status": "proved",
   "theorems": [
    "Verif.Rules.C175_known",
    "Verif.Rules.C175_waiting",
    "Verif.Rules.C175_schedule",
    "Verif.Rules.C175_fresh",
    "Verif.Rules.C175_once",
    "Verif.Rules.C175_farmer"
   ],
   "note": "What is known is for the time between two commits (for these see C142). The address remembered for a proof sent by two farmers does depend on the schedule (C175_farmer)."
  },
  {
   "property": "C176",
   "status": "partial",
   "theorems": [
    "Verif.Wallet.Acc.C176_kept_partial",
    "Verif.Wallet.Acc.C176_keys",
    "Verif.Wallet.Acc.C176_stable",
    "Verif.Wallet.Acc.C176_other_removed",
    "Verif.Wallet.Acc.C176_swapped",
    "Verif.Wallet.Acc.C176_outside",
    "Verif.Wallet.Acc.C176_lost"
   ],
   "note": "Key files: proved for all histories. Numbers: proved if no call fails half-way and the last account is not a removed one at a restart. False otherwise: after a failed creation another account is removed than the one asked for (C176_other_removed); a removed account comes back in place of another (C176_swapped). Also shown: a write outside the list (C176_outside), and an account that is shown although its only key file was deleted (C176_lost)."
  },
  {
   "property": "C177",
   "status": "proved",
   "theorems": [
    "Verif.Contract.C177_trade",
    "Verif.Contract.C177_estimated",
    "Verif.Contract.C177_outside",
    "Verif.Contract.C177_withdraw",
    "Verif.Contract.C177_wallet"
   ],
   "note": "For indices 0 and 1. With any other index the node reads outside of an array of two (C177_outside)."
  },
  {
   "property": "C178",
   "status": "partial",
   "theorems": [
    "Verif.Rules.Past.C178_var",
    "Verif.Rules.Past.C178_field",
    "Verif.Rules.Past.C178_array",
    "Verif.Rules.Past.C178_map",
    "Verif.Rules.Past.C178_entry_partial",
    "Verif.Rules.Past.C178_storage_partial",
    "Verif.Rules.Past.C178_ignored",
    "Verif.Rules.Past.C178_constant"
   ],
   "note": "Proved for variables, fields, arrays, maps, and for entries by a stored key. False for all fields at once, where the height is not used (C178_ignored), and for entries by a key that is a constant of the contract (C178_constant). Maps and keys: given that contracts never change a key, which the engine refuses."
  },
  {
   "property": "C179",
   "status": "proved",
   "theorems": [
    "Verif.Wallet.AutoLock.C179_locked",
    "Verif.Wallet.AutoLock.C179_not_early",
    "Verif.Wallet.AutoLock.C179_sign",
    "Verif.Wallet.AutoLock.C179_unmarked"
   ],
   "note": "For accounts that have the flag with_passphrase, which import_wallet sets. An account created by create_account with a passphrase but without the flag is never locked again (C179_unmarked)."
  },
  {
   "property": "C180",
   "status": "proved",
   "theorems": [
    "Verif.Codec.C180_hash",
    "Verif.Codec.C180_content",
    "Verif.Codec.C180_chain_free",
    "Verif.Codec.C180_header"
   ],
   "note": "The hash function is a parameter that must not collide on what is hashed for the two blocks. Transactions of hash revision 1 or later are the same but for what C34 says their content hash leaves out; those of revision 0 have the same content hash (C33). proof_chain before hardfork 2 is not covered (C180_chain_free)."
  },
  {
   "property": "C181",
   "status": "proved",
   "theorems": [
    "Verif.Farm.C181_kind",
    "Verif.Farm.C181_vote",
    "Verif.Farm.C181_response",
    "Verif.Farm.C181_block"
   ],
   "note": "What the signature of a partial covers is C137. The signature scheme itself is C165."
  },
  {
   "property": "C182",
   "status": "proved",
   "theorems": [
    "Verif.Rules.Balances.C182_totals",
    "Verif.Rules.Balances.C182_total",
    "Verif.Rules.Balances.C182_all",
    "Verif.Rules.Balances.C182_contract",
    "Verif.Rules.Balances.C182_limited",
    "Verif.Rules.Balances.C182_limit_hides"
   ],
   "note": "Sums are modulo 2^128. With a limit, and no whitelist, entries of coins the address has no longer count toward it, so balances can be missing although there are fewer than the limit (C182_limit_hides)."
  },
  {
   "property": "C183",
   "status": "partial",
   "theorems": [
    "Verif.Contract.C183_offer",
    "Verif.Contract.C183_amount",
    "Verif.Contract.C183_shown",
    "Verif.Contract.C183_list_partial",
    "Verif.Contract.C183_blocked",
    "Verif.Contract.C183_hide_all",
    "Verif.Contract.C183_trade",
    "Verif.Contract.C183_accept_overstated"
   ],
   "note": "Single offers are proved. False of lists: one offer whose price or amount does not fit 128 bits makes every list that looks at it fail, and anybody can deploy one (C183_hide_all); proved without such offers. False of the history: of accept it shows the whole deposit, and an entry that overflows makes it fail (C183_accept_overstated); proved for trade."
  },
  {
   "property": "C184",
   "status": "proved",
   "theorems": [
    "Verif.Contract.C184_info",
    "Verif.Contract.C184_history"
   ],
   "note": "For heights below 2^32 - 256. Name and server URL are not modelled."
  },
  {
   "property": "C185",
   "status": "proved",
   "theorems": [
    "Verif.Contract.C185_info",
    "Verif.Contract.C185_backed",
    "Verif.Contract.C185_unknown",
    "Verif.Contract.C185_user",
    "Verif.Contract.C185_order"
   ],
   "note": "As long as what the contract holds, the volumes, the liquidity and 365 times the fees fit 128 bits. Yields and fee rates as floating point numbers are not modelled."
  },
  {
   "property": "C186",
   "status": "partial",
   "theorems": [
    "Verif.Wallet.Tokens.C186_list",
    "Verif.Wallet.Tokens.C186_kept",
    "Verif.Wallet.Tokens.C186_gone_partial",
    "Verif.Wallet.Tokens.C186_fails",
    "Verif.Wallet.Tokens.C186_comes_back"
   ],
   "note": "False of tokens that are on the list of the network: they cannot be removed, unless added first, and then come back after a restart (C186_comes_back); proved for all others."
  },
  {
   "property": "C187",
   "status": "partial",
   "theorems": [
    "Verif.Router.Requests.C187_once",
    "Verif.Router.Requests.C187_reach",
    "Verif.Router.Requests.C187_blocked",
    "Verif.Router.Requests.C187_resumes",
    "Verif.Router.Requests.C187_unbounded"
   ],
   "note": "That what waits for a peer stays bounded is false (C187_unbounded): overflow answers are queued even while the peer is blocked, and receiving from it is never paused, only marked so. All else is proved."
  },
  {
   "property": "C188",
   "status": "partial",
   "theorems": [
    "Verif.Node.Cache.C188_fresh_partial",
    "Verif.Node.Cache.C188_still_partial",
    "Verif.Node.Cache.C188_small",
    "Verif.Node.Cache.C188_ends",
    "Verif.Node.Cache.C188_stale",
    "Verif.Node.Cache.C188_moves"
   ],
   "note": "Proved for all schedules without revert_sync. False with it, since it changes the tables without taking the lock: C188_stale (a removed contract is put back into the cache, and validation uses it until the next block is applied), C188_moves."
  },
  {
   "property": "C189",
   "status": "partial",
   "theorems": [
    "Verif.Node.Queue.C189_validate",
    "Verif.Node.Queue.C189_bounded",
    "Verif.Node.Queue.C189_kept",
    "Verif.Node.Queue.C189_drains",
    "Verif.Node.Queue.C189_add",
    "Verif.Node.Queue.C189_silent"
   ],
   "note": "False when the queue is full: the transaction is not kept and the caller is not told (C189_silent). All else is proved."
  },
  {
   "property": "C190",
   "status": "proved",
   "theorems": [
    "Verif.Codec.C190_signed",
    "Verif.Codec.C190_content",
    "Verif.Codec.C190_finish",
    "Verif.Codec.C190_point",
    "Verif.Codec.C190_point_free",
    "Verif.Codec.C190_made",
    "Verif.Codec.C190_apart"
   ],
   "note": "The hash function and the signatures are parameters; it must not collide on the inputs named in each theorem."
  },
  {
   "property": "C191",
   "status": "partial",
   "theorems": [
    "Verif.Index.Deploys.C191_by",
    "Verif.Index.Deploys.C191_owned_partial",
    "Verif.Index.Deploys.C191_once",
    "Verif.Index.Deploys.C191_wallet",
    "Verif.Index.Deploys.C191_moved"
   ],
   "note": "False for owners: the list has the owners at the time of deployment; a plot NFT that was handed over stays with its first owner (C191_moved). All else is proved."
  },
  {
   "property": "C192",
   "status": "proved",
   "theorems": [
    "Verif.Index.TxLog.C192_recent",
    "Verif.Index.TxLog.C192_at",
    "Verif.Index.TxLog.C192_since",
    "Verif.Index.TxLog.C192_height",
    "Verif.Index.TxLog.C192_once",
    "Verif.Index.TxLog.C192_applied",
    "Verif.Index.TxLog.C192_cut"
   ],
   "note": "C192_cut shows that a limit within a block cuts off its last transactions."
  },
  {
   "property": "C193",
   "status": "proved",
   "theorems": [
    "Verif.Wallet.Exchange.C193_trade",
    "Verif.Wallet.Exchange.C193_currency",
    "Verif.Wallet.Exchange.C193_add",
    "Verif.Wallet.Exchange.C193_rem",
    "Verif.Wallet.Exchange.C193_sent"
   ],
   "note": "num_iter is not negative in the model; funding of the transaction is C72, and that the address passed as a string is read back is C76."
  },
  {
   "property": "C194",
   "status": "proved",
   "theorems": [
    "Verif.Wallet.Offers.C194_trade",
    "Verif.Wallet.Offers.C194_accept",
    "Verif.Wallet.Offers.C194_whole",
    "Verif.Wallet.Offers.C194_owner"
   ],
   "note": "Funding of the transaction is C72; addresses as strings are C76."
  },
  {
   "property": "C195",
   "status": "partial",
   "theorems": [
    "Verif.Wallet.Find.C195_account_partial",
    "Verif.Wallet.Find.C195_wallet_partial",
    "Verif.Wallet.Find.C195_first",
    "Verif.Wallet.Find.C195_stale"
   ],
   "note": "Holds unless the saved list of addresses is longer than the number of addresses set (C195_stale)."
  }
 ]
}