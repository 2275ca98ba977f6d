import json
C=[]
def c(prop,status,theorems,note=""):
    C.append(dict(property=prop,status=status,theorems=theorems,note=note))
D="Verif.DB."
c("C01","proved",[D+"C01_find_returns_latest_write",D+"C01_version"],"flush is restricted to states without uncommitted inserts (the only way the node flushes); undisciplined_flush_loses_data shows the restriction is needed")
c("C02","proved",[D+"C02_flush_and_compaction_invisible"],"point reads")
c("C03","proved",[D+"C03_revert_exact",D+"C03_revert_forgets"])
c("C04","proved",[D+"C04_insert_revert_guards",D+"C04_commit_guard",D+"C04_flush_guard"])
c("C05","proved",[D+"C05_crash_between_calls",D+"C05_opens",D+"C05_reads_survive"],"the version number itself is C07")
c("C06","partial",[D+"C06_crash_inside_calls_partial",D+"C06_opens_partial",D+"C06_returned_calls_survive",D+"C06_two_leftovers_lose_data"],"every crash point of every call and of every restart except while a compaction has two or more inputs left to delete; there the claim is false (witness proved)")
c("C07","partial",[D+"C07_version_bounds_partial",D+"C07_version_survives_without_flush_partial",D+"C07_version_lost_after_flush",D+"C07_version_lost_after_empty_flush"],"false in general (two witnesses proved); true while no flush happened since the commit, and always bounded")
c("C44","partial",[D+"C44_throw_means_no_effect_partial",D+"C44_commit_can_throw_after_committing"],"false for a commit whose automatic flush is refused by a live iterator: it throws after the version has advanced (witness proved)")
c("C08","proved",[D+"C08_recover",D+"C08_commit",D+"C08_restart_is_consistent_cut_partial",D+"C08_commit_refused",D+"C08_commit_not_atomic",D+"C08_flush_rolls_database_back"],"recover proved for all executions; the crash form is partial because it needs NoDouble (see C06); two witnesses: commit is not atomic when one table refuses, and a flush before a clean stop makes recover roll the whole database back")
c("C09","proved",[D+"C09_forward_scan",D+"C09_forward_from"],"")
c("C10","partial",[D+"C10_backward_scan",D+"C10_backward_from",D+"C10_cursor_partial",D+"C10_cursor_total",D+"C10_is_valid",D+"C10_invalid_throws",D+"C10_seek_for_prev",D+"C10_turn_skips",D+"C10_seek_for_prev_above"],"everything except next() directly after a backward move, which is false in the code (C10_turn_skips); seek_for_prev above all keys is invalid (exact behaviour proved)")
c("C11","proved",[D+x for x in ["C11_uint","C11_hash","C11_pair","C11_pair_order","C11_tables","C11_uint_order","C11_hash_order","C11_injective","C11_wrong_size","C11_comparator","C11_table_over_bytes"]],"widths and pairs of any shape; the hash order is the order of the stored bytes")
c("C12","proved",[D+"C12_find",D+"C12_find_range",D+"C12_find_from",D+"C12_insert"],"over any history of inserts, bulk inserts, commits, reverts and flushes")
c("C13","proved",[D+"C13_roundtrip",D+"C13_prefix",D+"C13_torn_tail",D+"C13_cut",D+"C13_crash",D+"C13_loop_ends"],"any 64 bit checksum function; one restart. Repeated restarts: see C71")
c("C70","proved",[D+"C70_find",D+"C70_find_range",D+"C70_find_last_range",D+"C70_find_first",D+"C70_find_greater_equal"],"find_first and find_last are both covered by C70_find_first")
c("C71","partial",[D+"C71_overwrite_partial",D+"C71_short_tail",D+"C71_stale_tail",D+"C71_damaged_record",D+"C71_damage_drops_committed"],"false in general: the torn tail is not removed and its bytes can be read as records at the second restart (C71_stale_tail); a damaged record is skipped while later ones count (C71_damage_drops_committed). Proved for torn writes below 42 bytes and for tails that the new records cover")
K="Verif.Chain."
c("C29","proved",[K+x for x in ["C29_time_difficulty","C29_space_difficulty","C29_base_reward","C29_fee_buffer","C29_fee_buffer_drains","C29_netspace_ratio"]])
c("C30","proved",[K+"C30_reward_bounded",K+"C30_block_payout"])
c("C31","proved",[K+x for x in ["C31_cost_to_fee_exact","C31_fee_to_cost_exact","C31_cost_to_fee_mono","C31_fee_to_cost_mono","C31_round_trip","C31_zero_ratio_undefined"]])
c("C45","proved",[K+"C45_accumulators",K+"C45_fee_buffer_conserved"])
c("C46","proved",[K+"C46_time_stamps"])
c("C47","proved",[K+"C47_forced_fork"])
c("C48","proved",[K+"C48_own_block_accepted",K+"C48_block_creation_defined"],"a reward address is needed when the reward is not zero (hypothesis); transactions are not part of this claim")
c("C49","proved",[K+"C49_fee_bands",K+"C49_subsequence",K+"C49_oversized_breaks"],"the size hypothesis is guaranteed by max_tx_cost; C49_oversized_breaks shows it is needed")
L="Verif.Codec."
c("C36","partial",[L+x for x in ["C36_encoder_exact","C36_encoder_refuses","C36_decoder","C36_round_trip_partial","C36_never_wrong_partial","C36_round_trip_fails","C36_bound_sharp","C36_unaligned_start_fails"]],"round trip proved for lists of symbols below 24; false in general, because the decoder refills once per symbol (witnesses proved); whatever the decoder returns is right")
c("C37","proved",[L+x for x in ["C37_pair_round_trip","C37_point_round_trip","C37_injective","C37_square2"]])
c("C38","proved",[L+x for x in ["C38_write_exact","C38_read_exact","C38_round_trip","C38_pack_round_trip"]])
c("C33","proved",[L+x for x in ["C33_value_injective","C33_args_injective","C33_contract_injective","C33_operation_injective","C33_revision0_collision","C33_revision0_same_id"]],"the two last theorems show that revision 0 does not have the property")
c("C34","proved",[L+x for x in ["C34_id_ignores_witnesses","C34_id_binds","C34_content_binds","C34_result_flags_not_covered"]],"changed hash input up to collisions of the hash function on the strings hashed for the two transactions (explicit hypothesis)")
c("C35","proved",[L+x for x in ["C35_any_schedule","C35_reported_segment","C35_completes","C35_output"]],"the hash function and the segment comparison are parameters; the thread pool is any interleaving of the chunk tasks")
c("C39","proved",[L+x for x in ["C39_bid_rounds_down","C39_ask_rounds_up","C39_zero_price_undefined"]],"offer_data_t")
c("C43","partial",[L+x for x in ["C43_print_parse","C43_parse_exact_partial","C43_parse_int_exact_partial","C43_parse_wraps","C43_parse_truncates","C43_amount_round_trip"]],"print/parse and amount round trips hold; parsing a number that does not fit silently wraps (witness proved)")
T="Verif.Contract."
c("C32","proved",[T+x for x in ["C32_single_key","C32_enough_owners","C32_never_free","C32_signatures_suffice","C32_exact","C32_version0_malleable"]],"signature verification is a parameter")
c("C40","proved",[T+"C40_solvent",T+"C40_share"])
c("C41","partial",[T+x for x in ["C41_product_with_fee_partial","C41_price","C41_product_can_fall","C41_round_trip_profit","C41_one_sided_drain"]],"false as stated: rounding down the new balance lets the product fall, and a trader can gain from buying and selling back (witnesses proved); holds for one trade when its fee is counted")
c("C50","proved",[T+"C50_withdraw_succeeds"])
c("C51","partial",[T+"C51_lock",T+"C51_add_locks",T+"C51_dry_run_burns"],"the lock holds; the part about dry runs is false: a dry run removes the liquidity for good (witness proved)")
V="Verif.VM."
c("C14","proved",[V+x for x in ["C14_round_trip","C14_truncation","C14_prefix_free","C14_any_input","C14_constants"]])
c("C15","proved",[V+x for x in ["C15_equal_iff_same","C15_antisymmetric","C15_transitive","C15_total","C15_congruent","C15_pointers"]])
c("C16","proved",[V+x for x in ["C16_round_trip","C16_truncation","C16_injective","C16_any_input","C16_junk_dropped"]],"for programs whose unused operand fields are zero (what the compiler emits and what reading any bytes yields); C16_junk_dropped shows why")
c("C17","proved",[V+x for x in ["C17_every_instruction_paid","C17_over_limit_fails","C17_steps_within_gas","C17_bounded_length","C17_run_terminates","C17_run_stable","C17_success_within_limit"]])
c("C19","proved",[V+x for x in ["C19_sent_plus_left","C19_sent_at_most_balance","C19_send_effect","C19_send_too_large","C19_send_insufficient","C19_balance_shown","C19_outputs_well_formed","C19_execution"]],"within one engine; the deposit is part of the balance the backend reports")
c("C20","proved",[V+x for x in ["C20_mints_own_token","C20_only_mint_mints"]])
c("C21","partial",[V+x for x in ["C21_add","C21_sub","C21_mul_partial","C21_mul_version0_wrong","C21_div_mod","C21_min_max","C21_compare"]],"multiplication holds from engine version 1 on; in version 0 the overflow check misses products (witness proved)")
c("C18","partial",[V+x for x in ["C18_instruction_partial","C18_context_partial","C18_attempts_abort","C18_pop_back_shrinks"]],"every instruction but POP_BACK leaves constant cells as they are; POP_BACK shortens a constant array (witness proved), which is all that can happen to a constant")
c("C52","partial",[V+x for x in ["C52_defined_partial","C52_copy_use_after_free","C52_pop_back_use_after_free","C52_ret_past_end"]],"false for COPY, POP_BACK and RET (witnesses proved); proved for all instructions that do not move references, arrays or maps")
c("C53","partial",[V+x for x in ["C53_order_partial","C53_failed_gas_differs"]],"false with reference operands: the gas of a failed instruction differs (witness proved); proved without reference operands")
c("C22","partial",[V+x for x in ["C22_refines_copies","C22_database_after","C22_discarded_leaves_no_trace","C22_commit_keeps_answers","C22_throws_only_on_keys","C22_counts_forgotten","C22_prefix_shared","C22_key_twice","C22_erase_depends_on_layer"]],"layered caches refine whole copies of the storage, for contracts whose addresses differ in the first 20 bytes and keys used once, up to reference counts, which the database drops; witnesses show each restriction is needed, and that a contract can observe the lost count")
c("C23","proved",[V+x for x in ["C23_read","C23_read_entry","C23_lookup","C23_balance","C23_commit","C23_commit_exact"]])
G="Verif.Ledger."
c("C24","partial",[G+x for x in ["C24_conserved_partial","C24_never_destroyed_partial","C24_native_partial","C24_inputs_authorised","C24_wraps"]],"proved for each token of which the balance of a contract plus the inputs stays below 2^128; C24_wraps shows that coins appear otherwise")
c("C25","proved",[G+"C25_fee"])
c("C26","proved",[G+"C26_failed_leaves_nothing",G+"C26_only_fee"])
c("C27","partial",[G+x for x in ["C27_accounts","C27_no_overspend_partial"]],"accounts without code: no assumption. Contracts: supplies below 2^127, and the address of no contract that runs is an account with a key; C24_wraps shows what happens when sums overflow")
c("C28","proved",[G+x for x in ["C28_in_order","C28_access_locked","C28_no_conflict","C28_same_result"]],"the thread pool is a queue; one storage access is one step, justified by C28_no_conflict")
c("C54","proved",[G+x for x in ["C54_balances","C54_total","C54_supply","C54_native_chain"]],"coins and rewards below 2^126 together; the address of no contract that runs is an account with a key")
c("C55","partial",[G+x for x in ["C55_partial","C55_overrun","C55_rounding"]],"false when the fee exceeds its maximum, or when the rounded fee is the maximum (witnesses); proved for transactions that fail for another reason, and for those that succeed with a cost that the maximum fee pays for without rounding")
c("C56","proved",[G+x for x in ["C56_never_stuck","C56_terminates","C56_completes"]],"contract programs are finite, which gas ensures (C17)")
c("C57","partial",[G+x for x in ["C57_defined_partial","C57_null_operation"]],"false for blocks with a null operation (witness); otherwise proved for the part before transactions are validated")
c("C58","partial",[G+x for x in ["C58_supply_partial","C58_tokens_partial","C58_burnt_fees"]],"false when a block burns more fees than it pays rewards (witness); proved for all other blocks, which includes all tokens")
c("C59","proved",[G+"C59_no_replay"])
c("C60","proved",[G+x for x in ["C60_debits","C60_balance_falls"]])
c("C42","proved",[T+x for x in ["C42_locked","C42_extended","C42_extend_works","C42_release","C42_accounted"]])
c("C61","proved",[T+x for x in ["C61_escrow","C61_escrow_pays","C61_transfer","C61_transfer_pays","C61_relay","C61_relay_handover","C61_relay_named"]])
c("C62","proved",[T+x for x in ["C62_withdraw_factor","C62_withdraw_works"]])
c("C63","proved",[T+x for x in ["C63_take","C63_owner_covered","C63_price_stable","C63_price_change","C63_who","C63_owner_exit","C63_accept_works"]])
c("C64","proved",[T+x for x in ["C64_buy","C64_paid_for","C64_price_stable","C64_price_change","C64_who"]])
c("C65","proved",[T+x for x in ["C65_locked","C65_unlock","C65_unlock_once","C65_unlocked"]])
c("C66","partial",[T+x for x in ["C66_bounded_partial","C66_payment","C66_pays","C66_accounted","C66_zero_interval"]],"false for plans with interval 0, which the contract accepts (witness); proved for positive intervals")
c("C67","proved",[T+x for x in ["C67_token_call","C67_token","C67_nft_once","C67_template"]],"hash and signature check are parameters")
c("C68","partial",[T+x for x in ["C68_buy","C68_paid_for","C68_earnings","C68_backed_partial","C68_redeem","C68_recover_drains"]],"fixed price token proved; liquid token: false when the owner recovers the currency itself (witness), proved otherwise")
c("C69","proved",[T+x for x in ["C69_solvent","C69_wallet_call","C69_wallet","C69_transfer","C69_price_monotone","C69_no_profit","C69_round_trip"]],"total of the currency below 2^190")
W="Verif.Wallet."
c("C72","partial",[W+x for x in ["C72_amounts","C72_draws","C72_completes_iff","C72_sender","C72_gather","C72_header","C72_inputs_not_counted","C72_fee_above_max"]],"funding is exact; inputs that are already in the transaction are not counted against the balance, so a transaction that comes with inputs can draw more than there is (witness); the fee the sender is checked for does not include the signatures (witness)")
c("C73","proved",[W+"C73_available",W+"C73_no_overdraw"],"amounts reserved for pending transactions include the static fee only; as of the last refresh. no_overdraw is for transactions that come without inputs")
c("C74","proved",[W+x for x in ["C74_lock_restored","C74_passphrase","C74_signatures","C74_addresses","C74_is_signed","C74_valid","C74_keys_in_memory","C74_second_pass"]],"keys, hashes and signing are parameters; for unsigned transactions: signing a transaction again that already has signatures can make it invalid (C74_second_pass). keys_in_memory assumes that passphrases with the same first address have the same keys")
c("C75","partial",[W+x for x in ["C75_wordlist","C75_words","C75_round_trip","C75_accepts","C75_at_most_two","C75_refuses","C75_second_phrase"]],"all but uniqueness: two checksums are accepted, so a seed has up to two phrases (C75_second_phrase)")
c("C76","partial",[W+x for x in ["C76_round_trip","C76_injective","C76_accepts","C76_bytes","C76_not_canonical","C76_silent_zero"]],"bech32 is a parameter; other texts are accepted for the same address (C76_not_canonical), and typed messages read unreadable texts as the zero address (C76_silent_zero)")
c("C77","proved",[W+x for x in ["C77_send","C77_send_many","C77_send_from","C77_execute","C77_deposit","C77_make_offer","C77_offer_price_zero"]],"sums of the request below 2^128")
N="Verif.Node."; NT="Verif.Node.Toy."
c("C78","proved",[N+"C78_chain_is_replay",N+"C78_same_peak_same_tables"],"what blocks do to the tables is a parameter (the ledger model covers it); different blocks have different hashes; one thread (the code holds one lock)")
c("C79","partial",[N+"C79_failed_switch_partial",NT+"C79_deep_switch_fails",NT+"C79_deep_switch_stuck",NT+"C79_apply_fails"],"proved for forks above the committed height; false for forks off the committed chain (witness) and for blocks that validate but cannot be applied (witness)")
c("C80","proved",[N+"C80_switch",N+"C80_switch_succeeds"],"blocks whose heights follow their predecessors'; what validates can be applied")
c("C81","partial",[N+"C81_best_fork_partial",N+"C81_arrival_order",NT+"C81_cycle",NT+"C81_lost_sibling"],"proved for forks that start from blocks of equal weight, in particular all forks off the root; otherwise the comparison is circular and the choice depends on the order of arrival (witness); a line whose first block was dropped unverified at a commit is never followed (witness)")
c("C82","proved",[N+"C82_loop_ends",N+"C82_follows_best"],"the second theorem where no fork leaves the committed chain; see C79_deep_switch_fails for the other case")
c("C83","partial",[N+"C83_finality_partial",N+"C83_committed_stays",NT+"C83_forged_height"],"proved where no fork leaves the committed chain (leaving it is intended, for recovery) and heights are honest; a block with a false height commits the whole chain at once (witness)")
c("C84","proved",[N+"C84_restart",N+"C84_lost_blocks"],"that the database recovers to one version is C08")
c("C85","proved",[N+"C85_votes"],"signatures of votes are checked on arrival and not modelled")
c("C86","proved",[N+"C86_proofs"],"")
c("C87","partial",[G+x for x in ["C87_partial","C87_all_in","C87_parallel","C87_left_out"]],"Holds when every transaction in the block pays for its cost (C55) and none that was left out before wrote to a contract that one in the block shares. False otherwise: C87_left_out is a pool from which the node makes a block that no node accepts.")
c("C88","proved",[G+x for x in ["C88_limits","C88_order","C88_bands","C88_funds","C88_complete"]],"Sums are natural numbers (64 bit in the code). Bands need ascending ratios, the first at most 1, and no transaction larger than a band.")
c("C89","partial",[G+x for x in ["C89_in_time","C89_one_thread","C89_disjoint","C89_stuck"]],"Holds when no task is skipped, with one thread, or when no two transactions share a contract. False otherwise: C89_stuck, a task waits for ever for one that was skipped.")
c("C90","proved",[N+x for x in ["C90_admission","C90_accepted","C90_recorded","C90_once"]],"Fees below 2^32 (their type) and less than 2^32 pending transactions.")
c("C91","proved",[N+"C91_index"],"Which transaction ids the index holds; the entries that the queries make of them are not part of this.")
c("C92","proved",[N+"C92_purge",N+"C92_idle"],"A sender counts as unable to pay when its fees exceed the balance modulo 2^64, which is how the code stores it; C92_idle needs balances below 2^64.")
c("C93","partial",[N+x for x in ["C93_apart","C93_switch_partial","C93_block","C93_lost"]],"False for a node that is not in sync or reverts below its root: C93_lost. Blocks are taken to apply without an exception (C59 and C56 for validated ones).")
H=N+"History."
c("C94","partial",[H+x for x in ["C94_sound","C94_all","C94_history","C94_memo_incomplete","C94_empty_range"]],"Holds for get_history when since <= until. False with a memo and a limit (C94_memo_incomplete: a block is cut in two) and when since > until (C94_empty_range: one block is given).")
c("C95","partial",[H+x for x in ["C95_shown","C95_once_partial","C95_repeated","C95_unfiltered"]],"What is shown is right; each once only if no pending transaction concerns two of the addresses. False otherwise: C95_repeated. The filter is not applied: C95_unfiltered.")
TL=N+"TimeLord."
c("C96","partial",[TL+x for x in ["C96_sequential_partial","C96_accepted_partial","C96_defined","C96_taken","C96_waits","C96_answered","C96_race","C96_stale","C96_stop","C96_zero"]],"Holds for the requests of one chain when no update runs between a reset and its execution and nothing is stopped while requests are open. False otherwise: C96_race, C96_stale, C96_stop; C96_zero restarts from the zero hash.")
S="Verif.Hash."
c("C97","proved",[S+x for x in ["C97_streamed","C97_split","C97_reset","C97_block"]],"messages below 2^61 bytes; a little-endian machine")
c("C98","proved",[S+x for x in ["C98_hmac","C98_child","C98_kdf","C98_distinct"]],"vnx::to_big_endian (not in the checkout) gives the value whose memory image is big endian")
c("C99","proved",[S+x for x in ["C99_gpu","C99_agrees","C99_room"]],"messages below 2^32 - 144 bytes; one GPU thread")
c("C100","proved",[S+x for x in ["C100_ni","C100_recursive","C100_two","C100_avx2","C100_avx2_long","C100_x8","C100_hash"]],"x86 versions (ARM: C164); the software version (vnx::SHA256, not in the checkout) is a hypothesis where it is used")
c("C101","proved",[S+x for x in ["C101_gpu","C101_same","C101_endless"]],"segment size up to 2^32 - 2500; from 2^32 - 3 on the GPU check does not end (C101_endless)")
PS="Verif.Pos."
c("C102","proved",[PS+x for x in ["C102_sound","C102_complete","C102_fails","C102_order"]],"the hash functions are parameters; fewer than 2^32 entries per table")
c("C103","proved",[PS+x for x in ["C103_sound","C103_unique","C103_rigid","C103_complete","C103_same","C103_defined","C103_case"]],"C103_rigid and C103_same assume that no two different trees over the values have the same meta data (a collision of SHA-512 cut to 14 k bits). C103_case: values above 2^ksize are accepted.")
c("C104","proved",[PS+"C104_accepted"],"assumes that no two different trees over the candidate values have the same meta data; decoding the parks of the plot file is C36 and C37 or not modelled")
c("C105","proved",[PS+x for x in ["C105_sound","C105_threshold","C105_easier"]],"space_diff_constant at least 33 (mainnet: 10^11) and below 2^64; hash functions are parameters")
c("C106","proved",[PS+x for x in ["C106_entry","C106_gpu","C106_repeated","C106_runs","C106_fits","C106_buffer","C106_accepts","C106_agrees","C106_differs"]],"the two are the same for distinct values; with a repeated value a node with a GPU may reject what others accept (C106_differs, for toy hashes). rotl_32 by 0 is undefined in C++: both usual outcomes are covered")
TM="Verif.Time."; CO="Verif.Comp."
c("C107","proved",[TM+x for x in ["C107_challenge","C107_limit","C107_height","C107_agrees","C107_direct","C107_final","C107_continues","C107_published"]],"hash functions are parameters; heights do not wrap")
c("C108","proved",[TM+x for x in ["C108_infusion","C108_stable","C108_requests","C108_expected","C108_seamless"]],"time_diff_divider not zero; heights do not wrap, iterations do")
c("C109","partial",[TM+x for x in ["C109_total","C109_found","C109_finds","C109_next","C109_made","C109_wrong_start","C109_first_only","C109_displaced"]],"C109_next and C109_made assume that points carry their true position. Nothing in the code checks it: with a wrong `start` the result is wrong (C109_wrong_start), and a copy of an honest proof with another `start` that is verified first keeps the honest one out (C109_displaced, C109_first_only)")
c("C110","partial",[TM+x for x in ["C110_owned_partial","C110_free","C110_stuck","C110_leak"]],"false in general: a proof discarded because the chain of points is full keeps its slot for ever (C110_leak), and without a GPU there is only one slot (C110_stuck). C110_owned_partial: it holds for histories without such a discard")
c("C111","proved",[TM+x for x in ["C111_block","C111_kept","C111_made"]],"the check of one proof is a parameter here and the subject of C102-C105; VDF height below 2^32")
c("C112","partial",[TM+x for x in ["C112_winner","C112_counted","C112_any_address"]],"the winner is as stated; but no check ties the addresses named in a block to the VDFs, its maker may name any (C112_any_address)")
c("C113","partial",[CO+x for x in ["C113_program_partial","C113_throws_partial","C113_shift_wraps"]],"for all programs of the modelled part of the language, except those of C115_falls_through and C117_assert_order, and except shifts by 2^64 or more and declarations that are the whole body of an if or loop; arrays, objects, globals, interfaces and built-in functions are not modelled")
c("C114","partial",[CO+x for x in ["C114_one_reading","C114_compiled_as_read","C114_chained_assignment","C114_logical_like_bitwise"]],"proved for expressions of values; but a chain of assignments is grouped from the left and loses one, and logical operators bind like bitwise ones")
c("C115","partial",[CO+x for x in ["C115_null_partial","C115_falls_through"]],"proved for functions whose last instruction in the text is no return inside an if; false otherwise: execution falls into the next function, proved with a witness")
c("C116","partial",[CO+x for x in ["C116_refused_partial","C116_const_changes"]],"proved for =, ++ and -- and for names declared twice; false for compound assignments, proved with a witness")
c("C117","partial",[CO+x for x in ["C113_program_partial","C113_throws_partial","C117_assert_order","C117_message"]],"proved (as part of C113) for an assert without message when the compiler evaluates C++ arguments from the right, or the condition is a variable or constant; false otherwise, proved with witnesses")
c("C118","partial",[CO+x for x in ["C118_same_value_partial"]],"for the modelled part of the language; opt_level only decides about division and remainder by powers of two there")
RT="Verif.Router."
c("C119","proved",[RT+"C119_not_again"],"the caches are bounded, so a message that was forgotten may go out again; messages are told apart by their content hash; the VDFs sent to a new peer are not counted (on_connect)")
c("C120","proved",[RT+x for x in ["C120_relayed_once","C120_published_once"]],"the cache is bounded, as for C119")
c("C121","proved",[RT+x for x in ["C121_blocks","C121_vdfs"]],"")
c("C122","partial",[RT+x for x in ["C122_offered_partial","C122_sent","C122_time_taken","C122_time_taken_later"]],"false when another item of the peer has the same microsecond: the message is dropped for good, proved with witnesses; proved otherwise")
c("C123","partial",[RT+x for x in ["C123_new_peer_partial","C123_withheld"]],"proved for VDFs not relayed before they were verified; false for the others, proved with a witness")
RS=RT+"Sync."
c("C124","partial",[RS+"C124_valid",RS+"C124_agreed_partial",RS+"C124_themselves_partial",RS+"C124_one_peer",RS+"C124_counted_twice",RS+"C124_other_height"],"Valid, sent in reply and distinct: proved. Proved with half of min_sync_peers peers asked and their requests answered; that they answered themselves under the assumption that returns come from the peers asked. The full claim is false, shown by three counterexamples: a return is matched by id alone, a peer can be counted as failed and as succeeded, and the height of a block is not compared.")
c("C125","partial",[RS+"C125_goes_on_partial",RS+"C125_stalled"],"Proved: there is always a request under way. That the call ends is false: min_sync_peers + 3 peers that name a hash and answer with exceptions keep it open for ever.")
c("C126","proved",[RS+"C126_once",RS+"C126_made",RS+"C126_in_time"],"Over the model of process and update; the timer event itself is assumed to come.")
c("C127","partial",[RS+"C127_block_partial",RS+"C127_none_partial",RS+"C127_at_partial",RS+"C127_unchecked"],"Proved: the block came in a return to a request for this hash or height, and null only after the request to every synced peer was answered. False and shown by a counterexample: neither the hash of the block nor the sender is checked.")
CU="Verif.Catchup."
c("C128","partial",[CU+"C128_no_gap_partial",CU+"C128_calls",CU+"C128_gap"],"Proved as long as no call fails and none is open from an earlier sync. False otherwise: C128_gap is a run in which a height is never asked for.")
c("C129","partial",[CU+"C129_commit_partial",CU+"C129_when",CU+"C129_unanswered"],"Proved as long as no call fails and none is open from an earlier sync. False otherwise: C129_unanswered.")
c("C130","partial",[CU+"C130_done",CU+"C130_complete_partial",CU+"C130_pause",CU+"C130_flag",CU+"C130_positive",CU+"C130_loop",CU+"C130_hole"],"Number and spacing of the passes and their ends proved for all runs. That all heights were heard is proved as long as no call fails and none is open from an earlier sync, and false otherwise: C130_hole.")
c("C131","partial",[CU+"C131_ahead_partial",CU+"C131_goes_on",CU+"C131_ends"],"The limit is proved as long as no call fails and none is open from an earlier sync, for heights from the start of the sync; the rest for all runs.")
FM="Verif.Farm."
c("C132","partial",[FM+x for x in ["C132_sound","C132_tail","C132_even_partial","C132_complete_partial","C132_missed"]],"What is given is right, in all plots. That nothing is missing is proved for plots whose entries are spread evenly to less than 24576, and false in general: C132_missed.")
c("C133","proved",[FM+"C133_accepted"],"hash functions are parameters; the plot file holds what the plotter should have put there (Plot.Made)")
c("C134","partial",[FM+"C134_found_partial"],"For the entries that the search gives (C132) when the meta data of all of them can be read; if that of one cannot, the whole lookup fails (Prover.cpp, by reading).")
c("C135","partial",[FM+x for x in ["C135_delivered_partial","C135_long_name","C135_signed","C135_taken"]],"Proved for names of harvesters below 1024 characters; with longer names no proof is ever delivered (C135_long_name).")
c("C136","partial",[FM+x for x in ["C136_once","C136_accounted","C136_timely","C136_armed","C136_newest","C136_drained","C136_all_partial","C136_replaced"]],"At most once (and once more after each reload that found new plots), newest first and worked off: proved for all runs. That every challenge is looked up is proved as long as challenges for the same height agree; false otherwise: C136_replaced.")
c("C137","partial",[FM+x for x in ["C137_signed_partial","C137_whole_partial","C137_ambiguous","C137_og"]],"Proved for the text and proofs of plot NFTs if the address of the pool does not contain 'harvester:', and false otherwise (C137_ambiguous); for proofs without contract the text leaves out the values, seed and size of the proof (C137_og).")
c("C138","proved",[FM+"C138_approved",FM+"C138_honest"],"hash functions and signatures are parameters; whether the contract points to the pool is one (verify_plot_nft_target)")
RU="Verif.Rules."
c("C139","partial",[RU+x for x in ["C139_dependencies","C139_limits","C139_ends","C139_cost_partial","C139_deep"]],"What is found and what is refused: proved. The number of steps is bounded only by the length of the longest chain: the limit on depth is checked after the recursion, and contracts can be deployed before those they depend on, so that chains of any length exist (C139_deep).")
c("C140","partial",[RU+x for x in ["C140_validators","C140_count","C140_agree_partial","C140_setting"]],"Proved for nodes with the same max_history; it is a setting of each node, and with different ones they can disagree (C140_setting).")
c("C141","partial",[RU+x for x in ["C141_apart","C141_when","C141_votes","C141_weaker"]],"Proved for runs without restart: the votes are in memory only. The later vote for a replacement does not look at the best proof (C141_weaker).")
c("C142","proved",[RU+x for x in ["C142_sorted","C142_best","C142_forget","C142_replay"]],"hashes of proofs are numbers; farmer_keys is not modelled")
c("C143","partial",[RU+x for x in ["C143_merged_partial","C143_signed_partial","C143_dangling"]],"Proved if every input has a signature or is marked to have none, and signatures and inputs are fewer than 65536 together. False for inputs with the number of a signature not yet there (C143_dangling).")
BL="Verif.Blocks."
c("C144","proved",[BL+x for x in ["C144_block","C144_tx","C144_heights"]],"what was flushed to the file is assumed to stay there (see C145); the serialisation of vnx is a parameter; the hash of a block is assumed to commit to its height and transactions")
c("C145","partial",[BL+x for x in ["C145_rewritten_partial","C145_checked","C145_other_block"]],"Proved: a block that is written again is then found, or else a valid block with as many transactions. False: it can be another block, and the check at start does not compare hashes (C145_other_block).")
IX="Verif.Index."
c("C146","partial",[IX+x for x in ["C146_recorded_partial","C146_reported_partial","C146_remove_all","C146_switch","C146_deploy"]],"Proved for users that never switch pools, name the exchange by its address and give rem_all_liquid its argument; false in each of these cases, proved with witnesses. Calls through other contracts are not recorded either (by reading).")
IF=IX+"Farmers."
c("C147","partial",[IF+x for x in ["C147_ranking_partial","C147_top_partial","C147_zero","C147_failed_write"]],"Proved as long as no block fails to be written to the file; then it stays counted (C147_failed_write). A farmer whose blocks were all reverted stays listed with zero blocks (C147_zero).")
c("C148","partial",[IF+x for x in ["C148_farmed_partial","C148_twice"]],"Proved if no key is given twice, and false otherwise (C148_twice).")
c("C149","partial",[IF+x for x in ["C149_summary_partial","C149_large_reward"]],"Proved for rewards below 2^32 and keys given once; larger rewards are recorded modulo 2^32 (C149_large_reward).")
IO=IX+"Offers."
c("C150","proved",[IO+x for x in ["C150_recent","C150_for","C150_same_height"]],"the index is taken not to change during the query; which of several offers of one height are left out is not fixed (C150_same_height)")
c("C151","proved",[IO+x for x in ["C151_trades","C151_for"]],"the index of trades is taken to hold those of the coins; it leaves out trades of offers whose bid_currency cannot be read")
SD=T+"Std."
c("C152","proved",[SD+x for x in ["C152_sort","C152_sort_values","C152_sort_mixed","C152_reverse","C152_descending","C152_equals","C152_compare_equal","C152_compare_order","C152_compare_numbers","C152_compare_mixed"]],"maps and numbers above 2^256 are not part of the values")
PK=T+"Poker."
c("C153","partial",[PK+x for x in ["C153_rank","C153_order","C153_win_partial","C153_not_poker"]],"The kinds are right. Hands of the same kind are compared by all their values in descending order, not by those of the pairs first: two twos with an ace beat two kings (C153_not_poker).")
c("C154","proved",[PK+x for x in ["C154_pot","C154_paid","C154_claim","C154_winner"]],"C154_claim is for those with one seat; a payment must be below 2^128. The winner is the first to show (C155).")
c("C155","partial",[PK+x for x in ["C155_first","C155_no_second","C155_worse_wins","C155_repeated","C155_four"]],"False: whoever shows first wins, every further show aborts (C155_no_second), and a card can be named four times (C155_repeated). Proved instead: there is at most one winner and it never changes.")
c("C156","partial",[PK+x for x in ["C156_leave","C156_locked","C156_stuck"]],"False: leave never works (C156_leave); one seed sent as a binary locks all bets for ever (C156_locked, C156_stuck). For a winner see C154_winner.")
c("C157","partial",[PK+x for x in ["C157_seats_partial","C157_twice","C157_limits"]],"The limits on seats and bets hold. One seat each: proved for all but the first player, who can have two seats (C157_twice).")
c("C158","partial",[PK+x for x in ["C158_turn_partial","C158_no_turn"]],"Proved for rounds in which nobody folds; a fold ends a round too early (C158_no_turn).")
CT="Verif.Control."
c("C159","proved",[CT+x for x in ["C159_median","C159_vote","C159_range"]],"Doubles are numbers with an order; that a mean lies between and quotients compare monotonically is assumed (Arith).")
c("C160","proved",[CT+x for x in ["C160_requests","C160_failed"]],"")
c("C161","partial",[CT+x for x in ["C161_fresh_partial","C161_stale"]],"Proved if no file is old. False otherwise: while downloads fail the last vote stays for ever (C161_stale).")
c("C162","proved",["Verif.DB."+x for x in ["C162_reopen","C162_find","C162_index","C162_entries"]],"32 bit versions and sizes, file below 2^63 bytes; default comparator")
c("C163","partial",["Verif.DB."+x for x in ["C163_cut_partial","C163_format","C163_zeros","C163_changed"]],"Proved: a file that was cut short is refused. False: a file of zeros is an empty block (C163_zeros), and a changed byte of a value is not noticed (C163_changed).")
c("C164","proved",[S+x for x in ["C164_arm","C164_recursive","C164_two","C164_hash","C164_x8","C164_compute","C164_check"]],"the meaning of the instructions is taken from the Arm manual; little-endian memory; the software version (vnx::SHA256, not in the checkout) is a hypothesis where it is used")
SG="Verif.Sig."
c("C165","partial",[SG+x for x in ["C165_right_partial","C165_agree_partial","C165_once","C165_alone","C165_zero","C165_zero_after","C165_differs","C165_fork","C165_machine_partial"]],"Proved for all but one input. False for the hash, key and signature that are all zeros: an untouched slot of the cache equals it (C165_zero), so nodes differ, also on a contract that checks it (C165_fork). secp256k1 is a parameter; that it cannot read a key of zeros is a hypothesis of C165_zero_after.")
c("C166","proved",[PS+x for x in ["C166_remote","C166_rows","C166_complete"]],"the transport of requests and results (vnx) is not modelled; server and client are given the same order of table 1 and sort (for others see C102)")
GP="Verif.Gpu."
c("C167","partial",[GP+x for x in ["C167_once","C167_asked","C167_own","C167_result","C167_turn","C167_wake","C167_dead","C167_left_behind","C167_lost_count","C167_asleep","C167_shutdown"]],"Proved: at most once, own result, bounded overtaking in turns of the devices, no lost wake-up. False: when the last device fails, requests that wait are never answered (C167_left_behind); a device that fails before the initialisation ends leaves the count of devices wrong for ever (C167_lost_count); a shutdown does not wake a caller that waits (C167_shutdown).")
c("C168","partial",["Verif.Wallet."+x for x in ["C168_refresh","C168_spendable_partial","C168_race","C168_reverted"]],"Proved while the chain only grows and no block comes during the refresh. False otherwise: a block between two of the calls makes coins that were just spent count again (C168_race), and a transaction whose block was taken back is forgotten (C168_reverted).")
c("C169","partial",["Verif.Router.Identity."+x for x in ["C169_signed","C169_node","C169_unique","C169_end_partial","C169_kept_partial","C169_relay"]],"Proved: the owner of the id has signed the challenge, one open connection for each id, and the claim unless an outsider has had the challenge signed by the owner. False otherwise: nodes sign whatever a peer asks them to, so an outsider can pass a challenge on (C169_relay). Signatures are symbols (unforgeable), challenges are unique.")
c("C170","partial",["Verif.Router.Connections."+x for x in ["C170_lists","C170_banned","C170_settled","C170_tasks","C170_forgotten","C170_cleared","C170_kick","C170_stays","C170_dial","C170_share","C170_unbounded","C170_twice","C170_light","C170_own","C170_private"]],"Proved for all histories, with three exceptions shown by witnesses: an address of a fixed peer can be dialled twice, light nodes can count as synced full nodes, and private addresses 172.16. to 172.31. are handed out. Also shown: the list of addresses to try grows without bound, and a peer can have its address taken for our own.")
c("C171","partial",["Verif.Wallet."+x for x in ["C171_parts","C171_total_partial","C171_at_least","C171_too_much"]],"The parts: proved for all histories. The total is right as long as pending transactions take no more from an address than the node reported; otherwise it is too large (C171_too_much). Sums within 128 bits.")
c("C172","partial",["Verif.Farm.Plots."+x for x in ["C172_search","C172_which","C172_there","C172_once","C172_schedule","C172_again","C172_space_partial","C172_space","C172_old_key","C172_replaced","C172_unsettled"]],"Which directories are searched, which plots are farmed after any reloads, one lookup for each plot and independence of the schedule: proved. Not so: a plot stays when its key is gone or its file is replaced (C172_old_key, C172_replaced), a plot in two files counts twice (C172_space), a plot for another key disturbs every reload (C172_unsettled). Reading the size of a file is taken not to fail.")
c("C173","proved",["Verif.Farm.Pool."+x for x in ["C173_counted","C173_sent","C173_sum"]],"Sums and counts modulo their size (64 and 32 bits). An answer whose JSON cannot be parsed is taken as one that is not understood; how vnx treats an exception there is not in the repository.")
c("C174","partial",["Verif.Farm.Pool."+x for x in ["C174_settled_partial","C174_old","C174_late","C174_flips","C174_nfts_partial","C174_nfts","C174_gone"]],"Holds once no request to another pool waits and the pool has answered. Not so right after a change of the pool (C174_old), nor later if the old pool answers late (C174_late). Plot NFTs: holds if no contract goes while the node is asked about it; otherwise C174_nfts, C174_gone.")
c("C175","proved",["Verif.Rules."+x for x in ["C175_known","C175_waiting","C175_schedule","C175_fresh","C175_once","C175_farmer"]],"What is known is for the time between two commits (for these see C142). The address remembered for a proof sent by two farmers does depend on the schedule (C175_farmer).")
c("C176","partial",["Verif.Wallet.Acc."+x for x in ["C176_kept_partial","C176_keys","C176_stable","C176_other_removed","C176_swapped","C176_outside","C176_lost"]],"Key files: proved for all histories. Numbers: proved if no call fails half-way and the last account is not a removed one at a restart. False otherwise: after a failed creation another account is removed than the one asked for (C176_other_removed); a removed account comes back in place of another (C176_swapped). Also shown: a write outside the list (C176_outside), and an account that is shown although its only key file was deleted (C176_lost).")
c("C177","proved",["Verif.Contract."+x for x in ["C177_trade","C177_estimated","C177_outside","C177_withdraw","C177_wallet"]],"For indices 0 and 1. With any other index the node reads outside of an array of two (C177_outside).")
c("C178","partial",["Verif.Rules.Past."+x for x in ["C178_var","C178_field","C178_array","C178_map","C178_entry_partial","C178_storage_partial","C178_ignored","C178_constant"]],"Proved for variables, fields, arrays, maps, and for entries by a stored key. False for all fields at once, where the height is not used (C178_ignored), and for entries by a key that is a constant of the contract (C178_constant). Maps and keys: given that contracts never change a key, which the engine refuses.")
c("C179","proved",["Verif.Wallet.AutoLock."+x for x in ["C179_locked","C179_not_early","C179_sign","C179_unmarked"]],"For accounts that have the flag with_passphrase, which import_wallet sets. An account created by create_account with a passphrase but without the flag is never locked again (C179_unmarked).")
c("C180","proved",["Verif.Codec."+x for x in ["C180_hash","C180_content","C180_chain_free","C180_header"]],"The hash function is a parameter that must not collide on what is hashed for the two blocks. Transactions of hash revision 1 or later are the same but for what C34 says their content hash leaves out; those of revision 0 have the same content hash (C33). proof_chain before hardfork 2 is not covered (C180_chain_free).")
c("C181","proved",["Verif.Farm."+x for x in ["C181_kind","C181_vote","C181_response","C181_block"]],"What the signature of a partial covers is C137. The signature scheme itself is C165.")
c("C182","proved",["Verif.Rules.Balances."+x for x in ["C182_totals","C182_total","C182_all","C182_contract","C182_limited","C182_limit_hides"]],"Sums are modulo 2^128. With a limit, and no whitelist, entries of coins the address has no longer count toward it, so balances can be missing although there are fewer than the limit (C182_limit_hides).")
c("C183","partial",["Verif.Contract."+x for x in ["C183_offer","C183_amount","C183_shown","C183_list_partial","C183_blocked","C183_hide_all","C183_trade","C183_accept_overstated"]],"Single offers are proved. False of lists: one offer whose price or amount does not fit 128 bits makes every list that looks at it fail, and anybody can deploy one (C183_hide_all); proved without such offers. False of the history: of accept it shows the whole deposit, and an entry that overflows makes it fail (C183_accept_overstated); proved for trade.")
c("C184","proved",["Verif.Contract."+x for x in ["C184_info","C184_history"]],"For heights below 2^32 - 256. Name and server URL are not modelled.")
c("C185","proved",["Verif.Contract."+x for x in ["C185_info","C185_backed","C185_unknown","C185_user","C185_order"]],"As long as what the contract holds, the volumes, the liquidity and 365 times the fees fit 128 bits. Yields and fee rates as floating point numbers are not modelled.")
c("C186","partial",["Verif.Wallet.Tokens."+x for x in ["C186_list","C186_kept","C186_gone_partial","C186_fails","C186_comes_back"]],"False of tokens that are on the list of the network: they cannot be removed, unless added first, and then come back after a restart (C186_comes_back); proved for all others.")
c("C187","partial",["Verif.Router.Requests."+x for x in ["C187_once","C187_reach","C187_blocked","C187_resumes","C187_unbounded"]],"That what waits for a peer stays bounded is false (C187_unbounded): overflow answers are queued even while the peer is blocked, and receiving from it is never paused, only marked so. All else is proved.")
c("C188","partial",["Verif.Node.Cache."+x for x in ["C188_fresh_partial","C188_still_partial","C188_small","C188_ends","C188_stale","C188_moves"]],"Proved for all schedules without revert_sync. False with it, since it changes the tables without taking the lock: C188_stale (a removed contract is put back into the cache, and validation uses it until the next block is applied), C188_moves.")
c("C189","partial",["Verif.Node.Queue."+x for x in ["C189_validate","C189_bounded","C189_kept","C189_drains","C189_add","C189_silent"]],"False when the queue is full: the transaction is not kept and the caller is not told (C189_silent). All else is proved.")
c("C190","proved",["Verif.Codec."+x for x in ["C190_signed","C190_content","C190_finish","C190_point","C190_point_free","C190_made","C190_apart"]],"The hash function and the signatures are parameters; it must not collide on the inputs named in each theorem.")
c("C191","partial",["Verif.Index.Deploys."+x for x in ["C191_by","C191_owned_partial","C191_once","C191_wallet","C191_moved"]],"False for owners: the list has the owners at the time of deployment; a plot NFT that was handed over stays with its first owner (C191_moved). All else is proved.")
c("C192","proved",["Verif.Index.TxLog."+x for x in ["C192_recent","C192_at","C192_since","C192_height","C192_once","C192_applied","C192_cut"]],"C192_cut shows that a limit within a block cuts off its last transactions.")
c("C193","proved",["Verif.Wallet.Exchange."+x for x in ["C193_trade","C193_currency","C193_add","C193_rem","C193_sent"]],"num_iter is not negative in the model; funding of the transaction is C72, and that the address passed as a string is read back is C76.")
c("C194","proved",["Verif.Wallet.Offers."+x for x in ["C194_trade","C194_accept","C194_whole","C194_owner"]],"Funding of the transaction is C72; addresses as strings are C76.")
c("C195","partial",["Verif.Wallet.Find."+x for x in ["C195_account_partial","C195_wallet_partial","C195_first","C195_stale"]],"Holds unless the saved list of addresses is longer than the number of addresses set (C195_stale).")
have={x["property"] for x in C}
json.dump({"claims":C},open("/verif/MANIFEST.json","w"),indent=1)
ids=[json.loads(l)["id"] for l in open("/verif/properties.jsonl")]
print("missing:",[i for i in ids if i not in have])
