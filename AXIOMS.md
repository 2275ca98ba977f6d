# Axioms of the theorems in MANIFEST.json

Output of `#print axioms`, written by `tools/axioms.py`.

## none (24 theorems)

* `Verif.Chain.C31_zero_ratio_undefined`
* `Verif.Codec.C190_point_free`
* `Verif.Codec.C34_result_flags_not_covered`
* `Verif.Codec.C39_zero_price_undefined`
* `Verif.DB.C44_commit_can_throw_after_committing`
* `Verif.Farm.C137_og`
* `Verif.Index.Farmers.C147_failed_write`
* `Verif.Index.Farmers.C148_twice`
* `Verif.Index.Farmers.C149_large_reward`
* `Verif.Index.Offers.C150_same_height`
* `Verif.Node.TimeLord.C96_zero`
* `Verif.Node.Toy.C79_apply_fails`
* `Verif.Node.Toy.C79_deep_switch_fails`
* `Verif.Node.Toy.C79_deep_switch_stuck`
* `Verif.Node.Toy.C81_cycle`
* `Verif.Node.Toy.C81_lost_sibling`
* `Verif.Node.Toy.C83_forged_height`
* `Verif.Rules.Balances.C182_limit_hides`
* `Verif.Rules.C141_weaker`
* `Verif.Rules.Past.C178_ignored`
* `Verif.Time.C109_wrong_start`
* `Verif.VM.C23_balance`
* `Verif.Wallet.AutoLock.C179_sign`
* `Verif.Wallet.AutoLock.C179_unmarked`

## propext (98 theorems)

* `Verif.Chain.C49_oversized_breaks`
* `Verif.Chain.C49_subsequence`
* `Verif.Codec.C180_chain_free`
* `Verif.Codec.C33_revision0_collision`
* `Verif.Codec.C33_revision0_same_id`
* `Verif.Codec.C36_bound_sharp`
* `Verif.Codec.C36_round_trip_fails`
* `Verif.Codec.C36_unaligned_start_fails`
* `Verif.Contract.C177_outside`
* `Verif.Contract.C183_accept_overstated`
* `Verif.Contract.C184_info`
* `Verif.Contract.C185_unknown`
* `Verif.Contract.C32_version0_malleable`
* `Verif.Contract.C41_one_sided_drain`
* `Verif.Contract.C41_product_can_fall`
* `Verif.Contract.C41_round_trip_profit`
* `Verif.Contract.C42_extend_works`
* `Verif.Contract.C51_dry_run_burns`
* `Verif.Contract.C65_unlock_once`
* `Verif.Contract.C66_zero_interval`
* `Verif.Contract.C68_recover_drains`
* `Verif.Contract.Poker.C153_not_poker`
* `Verif.Contract.Poker.C155_four`
* `Verif.DB.C04_flush_guard`
* `Verif.DB.C06_two_leftovers_lose_data`
* `Verif.DB.C07_version_lost_after_empty_flush`
* `Verif.DB.C07_version_lost_after_flush`
* `Verif.DB.C08_commit_not_atomic`
* `Verif.DB.C08_flush_rolls_database_back`
* `Verif.DB.C10_invalid_throws`
* `Verif.DB.C10_is_valid`
* `Verif.DB.C10_seek_for_prev_above`
* `Verif.DB.C10_turn_skips`
* `Verif.DB.C11_uint_order`
* `Verif.DB.C163_changed`
* `Verif.DB.C71_damage_drops_committed`
* `Verif.Farm.C135_long_name`
* `Verif.Farm.C135_signed`
* `Verif.Farm.C135_taken`
* `Verif.Farm.C136_replaced`
* `Verif.Farm.C137_ambiguous`
* `Verif.Farm.C138_approved`
* `Verif.Farm.C181_vote`
* `Verif.Index.C146_deploy`
* `Verif.Index.C146_remove_all`
* `Verif.Index.C146_switch`
* `Verif.Index.Deploys.C191_moved`
* `Verif.Ledger.C24_wraps`
* `Verif.Ledger.C55_overrun`
* `Verif.Ledger.C55_rounding`
* `Verif.Ledger.C56_terminates`
* `Verif.Node.Cache.C188_ends`
* `Verif.Node.Cache.C188_moves`
* `Verif.Node.Cache.C188_stale`
* `Verif.Node.Queue.C189_add`
* `Verif.Node.TimeLord.C96_defined`
* `Verif.Node.TimeLord.C96_race`
* `Verif.Node.TimeLord.C96_stale`
* `Verif.Node.TimeLord.C96_stop`
* `Verif.Node.TimeLord.C96_waits`
* `Verif.Pos.C103_case`
* `Verif.Pos.C106_differs`
* `Verif.Router.Requests.C187_blocked`
* `Verif.Rules.Balances.C182_total`
* `Verif.Rules.C143_dangling`
* `Verif.Rules.Past.C178_constant`
* `Verif.Sig.C165_agree_partial`
* `Verif.Sig.C165_fork`
* `Verif.Sig.C165_machine_partial`
* `Verif.Sig.C165_right_partial`
* `Verif.Time.C108_stable`
* `Verif.Time.C109_first_only`
* `Verif.Time.C110_free`
* `Verif.Time.C112_counted`
* `Verif.VM.C15_congruent`
* `Verif.VM.C16_junk_dropped`
* `Verif.VM.C18_pop_back_shrinks`
* `Verif.VM.C21_mul_version0_wrong`
* `Verif.VM.C22_counts_forgotten`
* `Verif.VM.C22_erase_depends_on_layer`
* `Verif.VM.C22_key_twice`
* `Verif.VM.C22_prefix_shared`
* `Verif.VM.C23_lookup`
* `Verif.VM.C52_copy_use_after_free`
* `Verif.VM.C52_pop_back_use_after_free`
* `Verif.VM.C52_ret_past_end`
* `Verif.VM.C53_failed_gas_differs`
* `Verif.Wallet.Acc.C176_lost`
* `Verif.Wallet.Acc.C176_other_removed`
* `Verif.Wallet.Acc.C176_outside`
* `Verif.Wallet.Acc.C176_swapped`
* `Verif.Wallet.C171_too_much`
* `Verif.Wallet.C72_fee_above_max`
* `Verif.Wallet.C72_inputs_not_counted`
* `Verif.Wallet.C74_second_pass`
* `Verif.Wallet.C76_silent_zero`
* `Verif.Wallet.C77_offer_price_zero`
* `Verif.Wallet.Exchange.C193_currency`

## propext, Classical.choice, Quot.sound (451 theorems)

* `Verif.Blocks.C144_block`
* `Verif.Blocks.C144_heights`
* `Verif.Blocks.C144_tx`
* `Verif.Catchup.C128_calls`
* `Verif.Catchup.C128_no_gap_partial`
* `Verif.Catchup.C129_commit_partial`
* `Verif.Catchup.C129_when`
* `Verif.Catchup.C130_complete_partial`
* `Verif.Catchup.C130_done`
* `Verif.Catchup.C130_flag`
* `Verif.Catchup.C130_pause`
* `Verif.Catchup.C130_positive`
* `Verif.Catchup.C131_ahead_partial`
* `Verif.Catchup.C131_ends`
* `Verif.Catchup.C131_goes_on`
* `Verif.Chain.C29_base_reward`
* `Verif.Chain.C29_netspace_ratio`
* `Verif.Chain.C29_space_difficulty`
* `Verif.Chain.C29_time_difficulty`
* `Verif.Chain.C30_block_payout`
* `Verif.Chain.C30_reward_bounded`
* `Verif.Chain.C45_accumulators`
* `Verif.Chain.C45_fee_buffer_conserved`
* `Verif.Chain.C46_time_stamps`
* `Verif.Chain.C47_forced_fork`
* `Verif.Chain.C48_block_creation_defined`
* `Verif.Chain.C48_own_block_accepted`
* `Verif.Chain.C49_fee_bands`
* `Verif.Codec.C180_hash`
* `Verif.Codec.C190_content`
* `Verif.Codec.C190_made`
* `Verif.Codec.C190_signed`
* `Verif.Codec.C33_args_injective`
* `Verif.Codec.C33_contract_injective`
* `Verif.Codec.C33_operation_injective`
* `Verif.Codec.C33_value_injective`
* `Verif.Codec.C34_content_binds`
* `Verif.Codec.C34_id_binds`
* `Verif.Codec.C35_any_schedule`
* `Verif.Codec.C35_completes`
* `Verif.Codec.C35_output`
* `Verif.Codec.C35_reported_segment`
* `Verif.Codec.C36_decoder`
* `Verif.Codec.C36_encoder_exact`
* `Verif.Codec.C36_never_wrong_partial`
* `Verif.Codec.C36_round_trip_partial`
* `Verif.Codec.C37_injective`
* `Verif.Codec.C37_pair_round_trip`
* `Verif.Codec.C37_point_round_trip`
* `Verif.Codec.C37_square2`
* `Verif.Codec.C38_pack_round_trip`
* `Verif.Codec.C38_read_exact`
* `Verif.Codec.C38_round_trip`
* `Verif.Codec.C38_write_exact`
* `Verif.Codec.C43_parse_truncates`
* `Verif.Codec.C43_parse_wraps`
* `Verif.Comp.C113_program_partial`
* `Verif.Comp.C113_throws_partial`
* `Verif.Comp.C114_logical_like_bitwise`
* `Verif.Comp.C114_one_reading`
* `Verif.Comp.C115_null_partial`
* `Verif.Comp.C116_refused_partial`
* `Verif.Comp.C118_same_value_partial`
* `Verif.Contract.C177_trade`
* `Verif.Contract.C183_amount`
* `Verif.Contract.C183_hide_all`
* `Verif.Contract.C183_list_partial`
* `Verif.Contract.C183_offer`
* `Verif.Contract.C183_shown`
* `Verif.Contract.C185_order`
* `Verif.Contract.C185_user`
* `Verif.Contract.C32_enough_owners`
* `Verif.Contract.C32_exact`
* `Verif.Contract.C32_never_free`
* `Verif.Contract.C51_lock`
* `Verif.Contract.C63_owner_covered`
* `Verif.Contract.C63_price_change`
* `Verif.Contract.C63_price_stable`
* `Verif.Contract.C63_take`
* `Verif.Contract.C63_who`
* `Verif.Contract.C69_no_profit`
* `Verif.Contract.C69_price_monotone`
* `Verif.Contract.C69_round_trip`
* `Verif.Contract.C69_solvent`
* `Verif.Contract.C69_wallet`
* `Verif.Contract.C69_wallet_call`
* `Verif.Contract.Poker.C153_order`
* `Verif.Contract.Poker.C153_rank`
* `Verif.Contract.Poker.C153_win_partial`
* `Verif.Contract.Poker.C154_claim`
* `Verif.Contract.Poker.C154_paid`
* `Verif.Contract.Poker.C154_pot`
* `Verif.Contract.Poker.C154_winner`
* `Verif.Contract.Poker.C155_first`
* `Verif.Contract.Poker.C155_no_second`
* `Verif.Contract.Poker.C155_repeated`
* `Verif.Contract.Poker.C156_leave`
* `Verif.Contract.Poker.C157_seats_partial`
* `Verif.Contract.Poker.C158_turn_partial`
* `Verif.Contract.Std.C152_compare_equal`
* `Verif.Contract.Std.C152_compare_numbers`
* `Verif.Contract.Std.C152_compare_order`
* `Verif.Contract.Std.C152_descending`
* `Verif.Contract.Std.C152_equals`
* `Verif.Contract.Std.C152_sort`
* `Verif.Contract.Std.C152_sort_mixed`
* `Verif.Contract.Std.C152_sort_values`
* `Verif.Control.C159_median`
* `Verif.Control.C159_vote`
* `Verif.Control.C160_failed`
* `Verif.Control.C160_requests`
* `Verif.Control.C161_fresh_partial`
* `Verif.DB.C01_find_returns_latest_write`
* `Verif.DB.C01_version`
* `Verif.DB.C02_flush_and_compaction_invisible`
* `Verif.DB.C03_revert_exact`
* `Verif.DB.C03_revert_forgets`
* `Verif.DB.C04_commit_guard`
* `Verif.DB.C04_insert_revert_guards`
* `Verif.DB.C05_crash_between_calls`
* `Verif.DB.C05_opens`
* `Verif.DB.C05_reads_survive`
* `Verif.DB.C06_crash_inside_calls_partial`
* `Verif.DB.C06_opens_partial`
* `Verif.DB.C06_returned_calls_survive`
* `Verif.DB.C07_version_bounds_partial`
* `Verif.DB.C07_version_survives_without_flush_partial`
* `Verif.DB.C08_commit`
* `Verif.DB.C08_commit_refused`
* `Verif.DB.C08_recover`
* `Verif.DB.C08_restart_is_consistent_cut_partial`
* `Verif.DB.C09_forward_from`
* `Verif.DB.C09_forward_scan`
* `Verif.DB.C10_backward_from`
* `Verif.DB.C10_backward_scan`
* `Verif.DB.C10_cursor_partial`
* `Verif.DB.C10_cursor_total`
* `Verif.DB.C10_seek_for_prev`
* `Verif.DB.C11_comparator`
* `Verif.DB.C11_hash`
* `Verif.DB.C11_hash_order`
* `Verif.DB.C11_injective`
* `Verif.DB.C11_pair`
* `Verif.DB.C11_pair_order`
* `Verif.DB.C11_table_over_bytes`
* `Verif.DB.C11_tables`
* `Verif.DB.C11_uint`
* `Verif.DB.C11_wrong_size`
* `Verif.DB.C12_find`
* `Verif.DB.C12_find_from`
* `Verif.DB.C12_find_range`
* `Verif.DB.C12_insert`
* `Verif.DB.C13_crash`
* `Verif.DB.C13_cut`
* `Verif.DB.C13_prefix`
* `Verif.DB.C13_roundtrip`
* `Verif.DB.C13_torn_tail`
* `Verif.DB.C162_entries`
* `Verif.DB.C162_find`
* `Verif.DB.C162_index`
* `Verif.DB.C162_reopen`
* `Verif.DB.C163_cut_partial`
* `Verif.DB.C44_throw_means_no_effect_partial`
* `Verif.DB.C70_find`
* `Verif.DB.C70_find_first`
* `Verif.DB.C70_find_greater_equal`
* `Verif.DB.C70_find_last_range`
* `Verif.DB.C70_find_range`
* `Verif.DB.C71_damaged_record`
* `Verif.DB.C71_overwrite_partial`
* `Verif.DB.C71_short_tail`
* `Verif.DB.C71_stale_tail`
* `Verif.Farm.C132_complete_partial`
* `Verif.Farm.C132_even_partial`
* `Verif.Farm.C132_sound`
* `Verif.Farm.C132_tail`
* `Verif.Farm.C133_accepted`
* `Verif.Farm.C134_found_partial`
* `Verif.Farm.C136_accounted`
* `Verif.Farm.C136_all_partial`
* `Verif.Farm.C136_armed`
* `Verif.Farm.C136_drained`
* `Verif.Farm.C136_newest`
* `Verif.Farm.C136_once`
* `Verif.Farm.C136_timely`
* `Verif.Farm.C137_signed_partial`
* `Verif.Farm.C137_whole_partial`
* `Verif.Farm.C138_honest`
* `Verif.Farm.C181_block`
* `Verif.Farm.C181_response`
* `Verif.Farm.Plots.C172_again`
* `Verif.Farm.Plots.C172_schedule`
* `Verif.Farm.Plots.C172_there`
* `Verif.Farm.Plots.C172_unsettled`
* `Verif.Farm.Plots.C172_which`
* `Verif.Farm.Pool.C173_counted`
* `Verif.Gpu.C167_dead`
* `Verif.Gpu.C167_left_behind`
* `Verif.Gpu.C167_lost_count`
* `Verif.Gpu.C167_once`
* `Verif.Gpu.C167_own`
* `Verif.Gpu.C167_result`
* `Verif.Gpu.C167_turn`
* `Verif.Hash.C100_avx2`
* `Verif.Hash.C100_hash`
* `Verif.Hash.C100_ni`
* `Verif.Hash.C100_recursive`
* `Verif.Hash.C100_two`
* `Verif.Hash.C100_x8`
* `Verif.Hash.C101_gpu`
* `Verif.Hash.C101_same`
* `Verif.Hash.C164_arm`
* `Verif.Hash.C164_check`
* `Verif.Hash.C164_compute`
* `Verif.Hash.C164_hash`
* `Verif.Hash.C164_recursive`
* `Verif.Hash.C164_two`
* `Verif.Hash.C164_x8`
* `Verif.Hash.C97_block`
* `Verif.Hash.C97_reset`
* `Verif.Hash.C97_split`
* `Verif.Hash.C97_streamed`
* `Verif.Hash.C98_child`
* `Verif.Hash.C98_distinct`
* `Verif.Hash.C98_hmac`
* `Verif.Hash.C98_kdf`
* `Verif.Hash.C99_agrees`
* `Verif.Hash.C99_gpu`
* `Verif.Index.Deploys.C191_by`
* `Verif.Index.Deploys.C191_once`
* `Verif.Index.Deploys.C191_owned_partial`
* `Verif.Index.Deploys.C191_wallet`
* `Verif.Index.Farmers.C147_ranking_partial`
* `Verif.Index.Farmers.C147_top_partial`
* `Verif.Index.Farmers.C148_farmed_partial`
* `Verif.Index.Farmers.C149_summary_partial`
* `Verif.Index.Offers.C150_for`
* `Verif.Index.Offers.C150_recent`
* `Verif.Index.Offers.C151_for`
* `Verif.Index.Offers.C151_trades`
* `Verif.Index.TxLog.C192_applied`
* `Verif.Index.TxLog.C192_at`
* `Verif.Index.TxLog.C192_height`
* `Verif.Index.TxLog.C192_once`
* `Verif.Index.TxLog.C192_recent`
* `Verif.Index.TxLog.C192_since`
* `Verif.Ledger.C25_fee`
* `Verif.Ledger.C27_accounts`
* `Verif.Ledger.C27_no_overspend_partial`
* `Verif.Ledger.C28_access_locked`
* `Verif.Ledger.C28_in_order`
* `Verif.Ledger.C28_no_conflict`
* `Verif.Ledger.C28_same_result`
* `Verif.Ledger.C54_balances`
* `Verif.Ledger.C54_native_chain`
* `Verif.Ledger.C54_supply`
* `Verif.Ledger.C54_total`
* `Verif.Ledger.C55_partial`
* `Verif.Ledger.C56_completes`
* `Verif.Ledger.C56_never_stuck`
* `Verif.Ledger.C58_supply_partial`
* `Verif.Ledger.C58_tokens_partial`
* `Verif.Ledger.C59_no_replay`
* `Verif.Ledger.C60_balance_falls`
* `Verif.Ledger.C60_debits`
* `Verif.Ledger.C87_parallel`
* `Verif.Ledger.C87_partial`
* `Verif.Ledger.C88_bands`
* `Verif.Ledger.C88_limits`
* `Verif.Ledger.C89_disjoint`
* `Verif.Ledger.C89_in_time`
* `Verif.Ledger.C89_one_thread`
* `Verif.Node.C78_chain_is_replay`
* `Verif.Node.C78_same_peak_same_tables`
* `Verif.Node.C79_failed_switch_partial`
* `Verif.Node.C80_switch`
* `Verif.Node.C80_switch_succeeds`
* `Verif.Node.C81_arrival_order`
* `Verif.Node.C81_best_fork_partial`
* `Verif.Node.C82_follows_best`
* `Verif.Node.C83_committed_stays`
* `Verif.Node.C83_finality_partial`
* `Verif.Node.C84_lost_blocks`
* `Verif.Node.C84_restart`
* `Verif.Node.C85_votes`
* `Verif.Node.C86_proofs`
* `Verif.Node.C90_admission`
* `Verif.Node.C92_idle`
* `Verif.Node.C92_purge`
* `Verif.Node.Cache.C188_small`
* `Verif.Node.History.C94_all`
* `Verif.Node.History.C94_history`
* `Verif.Node.History.C94_memo_incomplete`
* `Verif.Node.History.C94_sound`
* `Verif.Node.History.C95_once_partial`
* `Verif.Node.Queue.C189_validate`
* `Verif.Node.TimeLord.C96_accepted_partial`
* `Verif.Node.TimeLord.C96_sequential_partial`
* `Verif.Node.TimeLord.C96_taken`
* `Verif.Pos.C102_complete`
* `Verif.Pos.C102_fails`
* `Verif.Pos.C102_order`
* `Verif.Pos.C102_sound`
* `Verif.Pos.C103_complete`
* `Verif.Pos.C103_defined`
* `Verif.Pos.C103_rigid`
* `Verif.Pos.C103_same`
* `Verif.Pos.C103_sound`
* `Verif.Pos.C103_unique`
* `Verif.Pos.C104_accepted`
* `Verif.Pos.C105_sound`
* `Verif.Pos.C106_accepts`
* `Verif.Pos.C106_agrees`
* `Verif.Pos.C106_entry`
* `Verif.Pos.C106_gpu`
* `Verif.Pos.C106_repeated`
* `Verif.Pos.C106_runs`
* `Verif.Pos.C166_complete`
* `Verif.Pos.C166_remote`
* `Verif.Pos.C166_rows`
* `Verif.Router.C120_published_once`
* `Verif.Router.C120_relayed_once`
* `Verif.Router.C121_blocks`
* `Verif.Router.C121_vdfs`
* `Verif.Router.Connections.C170_private`
* `Verif.Router.Connections.C170_share`
* `Verif.Router.Connections.C170_tasks`
* `Verif.Router.Requests.C187_once`
* `Verif.Router.Requests.C187_reach`
* `Verif.Router.Requests.C187_resumes`
* `Verif.Router.Sync.C124_agreed_partial`
* `Verif.Router.Sync.C124_themselves_partial`
* `Verif.Router.Sync.C124_valid`
* `Verif.Router.Sync.C125_goes_on_partial`
* `Verif.Router.Sync.C125_stalled`
* `Verif.Router.Sync.C126_in_time`
* `Verif.Router.Sync.C126_made`
* `Verif.Router.Sync.C126_once`
* `Verif.Router.Sync.C127_at_partial`
* `Verif.Router.Sync.C127_block_partial`
* `Verif.Router.Sync.C127_none_partial`
* `Verif.Rules.Balances.C182_all`
* `Verif.Rules.Balances.C182_contract`
* `Verif.Rules.Balances.C182_limited`
* `Verif.Rules.Balances.C182_totals`
* `Verif.Rules.C139_deep`
* `Verif.Rules.C139_limits`
* `Verif.Rules.C175_fresh`
* `Verif.Rules.C175_known`
* `Verif.Rules.C175_waiting`
* `Verif.Rules.Past.C178_array`
* `Verif.Rules.Past.C178_entry_partial`
* `Verif.Rules.Past.C178_field`
* `Verif.Rules.Past.C178_map`
* `Verif.Rules.Past.C178_storage_partial`
* `Verif.Rules.Past.C178_var`
* `Verif.Time.C107_agrees`
* `Verif.Time.C107_challenge`
* `Verif.Time.C107_direct`
* `Verif.Time.C107_final`
* `Verif.Time.C107_height`
* `Verif.Time.C107_published`
* `Verif.Time.C108_expected`
* `Verif.Time.C108_infusion`
* `Verif.Time.C108_requests`
* `Verif.Time.C108_seamless`
* `Verif.Time.C109_finds`
* `Verif.Time.C109_found`
* `Verif.Time.C109_made`
* `Verif.Time.C109_next`
* `Verif.Time.C109_total`
* `Verif.Time.C110_owned_partial`
* `Verif.Time.C111_block`
* `Verif.Time.C111_kept`
* `Verif.Time.C111_made`
* `Verif.Time.C112_winner`
* `Verif.VM.C14_constants`
* `Verif.VM.C14_prefix_free`
* `Verif.VM.C14_round_trip`
* `Verif.VM.C14_truncation`
* `Verif.VM.C15_equal_iff_same`
* `Verif.VM.C15_pointers`
* `Verif.VM.C15_total`
* `Verif.VM.C15_transitive`
* `Verif.VM.C16_injective`
* `Verif.VM.C16_round_trip`
* `Verif.VM.C16_truncation`
* `Verif.VM.C19_execution`
* `Verif.VM.C19_outputs_well_formed`
* `Verif.VM.C19_send_effect`
* `Verif.VM.C19_send_insufficient`
* `Verif.VM.C19_send_too_large`
* `Verif.VM.C19_sent_at_most_balance`
* `Verif.VM.C19_sent_plus_left`
* `Verif.VM.C20_mints_own_token`
* `Verif.VM.C20_only_mint_mints`
* `Verif.VM.C21_add`
* `Verif.VM.C21_compare`
* `Verif.VM.C21_div_mod`
* `Verif.VM.C21_min_max`
* `Verif.VM.C21_mul_partial`
* `Verif.VM.C21_sub`
* `Verif.VM.C22_commit_keeps_answers`
* `Verif.VM.C22_database_after`
* `Verif.VM.C22_discarded_leaves_no_trace`
* `Verif.VM.C22_refines_copies`
* `Verif.VM.C22_throws_only_on_keys`
* `Verif.Wallet.Acc.C176_kept_partial`
* `Verif.Wallet.Acc.C176_keys`
* `Verif.Wallet.Acc.C176_stable`
* `Verif.Wallet.C168_refresh`
* `Verif.Wallet.C168_spendable_partial`
* `Verif.Wallet.C72_amounts`
* `Verif.Wallet.C72_completes_iff`
* `Verif.Wallet.C72_draws`
* `Verif.Wallet.C72_gather`
* `Verif.Wallet.C72_header`
* `Verif.Wallet.C72_sender`
* `Verif.Wallet.C73_no_overdraw`
* `Verif.Wallet.C74_addresses`
* `Verif.Wallet.C74_is_signed`
* `Verif.Wallet.C74_signatures`
* `Verif.Wallet.C74_valid`
* `Verif.Wallet.C75_accepts`
* `Verif.Wallet.C75_at_most_two`
* `Verif.Wallet.C75_refuses`
* `Verif.Wallet.C75_round_trip`
* `Verif.Wallet.C75_second_phrase`
* `Verif.Wallet.C75_words`
* `Verif.Wallet.C76_accepts`
* `Verif.Wallet.C76_bytes`
* `Verif.Wallet.C76_injective`
* `Verif.Wallet.C76_not_canonical`
* `Verif.Wallet.C76_round_trip`
* `Verif.Wallet.C77_deposit`
* `Verif.Wallet.C77_execute`
* `Verif.Wallet.C77_make_offer`
* `Verif.Wallet.C77_send`
* `Verif.Wallet.C77_send_from`
* `Verif.Wallet.C77_send_many`
* `Verif.Wallet.Exchange.C193_add`
* `Verif.Wallet.Exchange.C193_rem`
* `Verif.Wallet.Exchange.C193_sent`
* `Verif.Wallet.Find.C195_account_partial`
* `Verif.Wallet.Find.C195_wallet_partial`
* `Verif.Wallet.Offers.C194_accept`
* `Verif.Wallet.Offers.C194_owner`
* `Verif.Wallet.Offers.C194_trade`
* `Verif.Wallet.Offers.C194_whole`
* `Verif.Wallet.Tokens.C186_gone_partial`
* `Verif.Wallet.Tokens.C186_kept`

## propext, Quot.sound (266 theorems)

* `Verif.Blocks.C145_checked`
* `Verif.Blocks.C145_other_block`
* `Verif.Blocks.C145_rewritten_partial`
* `Verif.Catchup.C128_gap`
* `Verif.Catchup.C129_unanswered`
* `Verif.Catchup.C130_hole`
* `Verif.Catchup.C130_loop`
* `Verif.Chain.C29_fee_buffer`
* `Verif.Chain.C29_fee_buffer_drains`
* `Verif.Chain.C31_cost_to_fee_exact`
* `Verif.Chain.C31_cost_to_fee_mono`
* `Verif.Chain.C31_fee_to_cost_exact`
* `Verif.Chain.C31_fee_to_cost_mono`
* `Verif.Chain.C31_round_trip`
* `Verif.Codec.C180_content`
* `Verif.Codec.C180_header`
* `Verif.Codec.C190_apart`
* `Verif.Codec.C190_finish`
* `Verif.Codec.C190_point`
* `Verif.Codec.C34_id_ignores_witnesses`
* `Verif.Codec.C36_encoder_refuses`
* `Verif.Codec.C39_ask_rounds_up`
* `Verif.Codec.C39_bid_rounds_down`
* `Verif.Codec.C43_amount_round_trip`
* `Verif.Codec.C43_parse_exact_partial`
* `Verif.Codec.C43_parse_int_exact_partial`
* `Verif.Codec.C43_print_parse`
* `Verif.Comp.C113_shift_wraps`
* `Verif.Comp.C114_chained_assignment`
* `Verif.Comp.C114_compiled_as_read`
* `Verif.Comp.C115_falls_through`
* `Verif.Comp.C116_const_changes`
* `Verif.Comp.C117_assert_order`
* `Verif.Comp.C117_message`
* `Verif.Contract.C177_estimated`
* `Verif.Contract.C177_wallet`
* `Verif.Contract.C177_withdraw`
* `Verif.Contract.C183_blocked`
* `Verif.Contract.C183_trade`
* `Verif.Contract.C184_history`
* `Verif.Contract.C185_backed`
* `Verif.Contract.C185_info`
* `Verif.Contract.C32_signatures_suffice`
* `Verif.Contract.C32_single_key`
* `Verif.Contract.C40_share`
* `Verif.Contract.C40_solvent`
* `Verif.Contract.C41_price`
* `Verif.Contract.C41_product_with_fee_partial`
* `Verif.Contract.C42_accounted`
* `Verif.Contract.C42_extended`
* `Verif.Contract.C42_locked`
* `Verif.Contract.C42_release`
* `Verif.Contract.C50_withdraw_succeeds`
* `Verif.Contract.C51_add_locks`
* `Verif.Contract.C61_escrow`
* `Verif.Contract.C61_escrow_pays`
* `Verif.Contract.C61_relay`
* `Verif.Contract.C61_relay_handover`
* `Verif.Contract.C61_relay_named`
* `Verif.Contract.C61_transfer`
* `Verif.Contract.C61_transfer_pays`
* `Verif.Contract.C62_withdraw_factor`
* `Verif.Contract.C62_withdraw_works`
* `Verif.Contract.C63_accept_works`
* `Verif.Contract.C63_owner_exit`
* `Verif.Contract.C64_buy`
* `Verif.Contract.C64_paid_for`
* `Verif.Contract.C64_price_change`
* `Verif.Contract.C64_price_stable`
* `Verif.Contract.C64_who`
* `Verif.Contract.C65_locked`
* `Verif.Contract.C65_unlock`
* `Verif.Contract.C65_unlocked`
* `Verif.Contract.C66_accounted`
* `Verif.Contract.C66_bounded_partial`
* `Verif.Contract.C66_payment`
* `Verif.Contract.C66_pays`
* `Verif.Contract.C67_nft_once`
* `Verif.Contract.C67_template`
* `Verif.Contract.C67_token`
* `Verif.Contract.C67_token_call`
* `Verif.Contract.C68_backed_partial`
* `Verif.Contract.C68_buy`
* `Verif.Contract.C68_earnings`
* `Verif.Contract.C68_paid_for`
* `Verif.Contract.C68_redeem`
* `Verif.Contract.C69_transfer`
* `Verif.Contract.Poker.C155_worse_wins`
* `Verif.Contract.Poker.C156_locked`
* `Verif.Contract.Poker.C156_stuck`
* `Verif.Contract.Poker.C157_limits`
* `Verif.Contract.Poker.C157_twice`
* `Verif.Contract.Poker.C158_no_turn`
* `Verif.Contract.Std.C152_compare_mixed`
* `Verif.Contract.Std.C152_reverse`
* `Verif.Control.C159_range`
* `Verif.Control.C161_stale`
* `Verif.DB.C13_loop_ends`
* `Verif.DB.C163_format`
* `Verif.DB.C163_zeros`
* `Verif.Farm.C132_missed`
* `Verif.Farm.C135_delivered_partial`
* `Verif.Farm.C181_kind`
* `Verif.Farm.Plots.C172_old_key`
* `Verif.Farm.Plots.C172_once`
* `Verif.Farm.Plots.C172_replaced`
* `Verif.Farm.Plots.C172_search`
* `Verif.Farm.Plots.C172_space`
* `Verif.Farm.Plots.C172_space_partial`
* `Verif.Farm.Pool.C173_sent`
* `Verif.Farm.Pool.C173_sum`
* `Verif.Farm.Pool.C174_flips`
* `Verif.Farm.Pool.C174_gone`
* `Verif.Farm.Pool.C174_late`
* `Verif.Farm.Pool.C174_nfts`
* `Verif.Farm.Pool.C174_nfts_partial`
* `Verif.Farm.Pool.C174_old`
* `Verif.Farm.Pool.C174_settled_partial`
* `Verif.Gpu.C167_asked`
* `Verif.Gpu.C167_asleep`
* `Verif.Gpu.C167_shutdown`
* `Verif.Gpu.C167_wake`
* `Verif.Hash.C100_avx2_long`
* `Verif.Hash.C101_endless`
* `Verif.Hash.C99_room`
* `Verif.Index.C146_recorded_partial`
* `Verif.Index.C146_reported_partial`
* `Verif.Index.Farmers.C147_zero`
* `Verif.Index.TxLog.C192_cut`
* `Verif.Ledger.C24_conserved_partial`
* `Verif.Ledger.C24_inputs_authorised`
* `Verif.Ledger.C24_native_partial`
* `Verif.Ledger.C24_never_destroyed_partial`
* `Verif.Ledger.C26_failed_leaves_nothing`
* `Verif.Ledger.C26_only_fee`
* `Verif.Ledger.C57_defined_partial`
* `Verif.Ledger.C57_null_operation`
* `Verif.Ledger.C58_burnt_fees`
* `Verif.Ledger.C87_all_in`
* `Verif.Ledger.C87_left_out`
* `Verif.Ledger.C88_complete`
* `Verif.Ledger.C88_funds`
* `Verif.Ledger.C88_order`
* `Verif.Ledger.C89_stuck`
* `Verif.Node.C82_loop_ends`
* `Verif.Node.C90_accepted`
* `Verif.Node.C90_once`
* `Verif.Node.C90_recorded`
* `Verif.Node.C91_index`
* `Verif.Node.C93_apart`
* `Verif.Node.C93_block`
* `Verif.Node.C93_lost`
* `Verif.Node.C93_switch_partial`
* `Verif.Node.Cache.C188_fresh_partial`
* `Verif.Node.Cache.C188_still_partial`
* `Verif.Node.History.C94_empty_range`
* `Verif.Node.History.C95_repeated`
* `Verif.Node.History.C95_shown`
* `Verif.Node.History.C95_unfiltered`
* `Verif.Node.Queue.C189_bounded`
* `Verif.Node.Queue.C189_drains`
* `Verif.Node.Queue.C189_kept`
* `Verif.Node.Queue.C189_silent`
* `Verif.Node.TimeLord.C96_answered`
* `Verif.Pos.C105_easier`
* `Verif.Pos.C105_threshold`
* `Verif.Pos.C106_buffer`
* `Verif.Pos.C106_fits`
* `Verif.Router.C119_not_again`
* `Verif.Router.C122_offered_partial`
* `Verif.Router.C122_sent`
* `Verif.Router.C122_time_taken`
* `Verif.Router.C122_time_taken_later`
* `Verif.Router.C123_new_peer_partial`
* `Verif.Router.C123_withheld`
* `Verif.Router.Connections.C170_banned`
* `Verif.Router.Connections.C170_cleared`
* `Verif.Router.Connections.C170_dial`
* `Verif.Router.Connections.C170_forgotten`
* `Verif.Router.Connections.C170_kick`
* `Verif.Router.Connections.C170_light`
* `Verif.Router.Connections.C170_lists`
* `Verif.Router.Connections.C170_own`
* `Verif.Router.Connections.C170_settled`
* `Verif.Router.Connections.C170_stays`
* `Verif.Router.Connections.C170_twice`
* `Verif.Router.Connections.C170_unbounded`
* `Verif.Router.Identity.C169_end_partial`
* `Verif.Router.Identity.C169_kept_partial`
* `Verif.Router.Identity.C169_node`
* `Verif.Router.Identity.C169_relay`
* `Verif.Router.Identity.C169_signed`
* `Verif.Router.Identity.C169_unique`
* `Verif.Router.Requests.C187_unbounded`
* `Verif.Router.Sync.C124_counted_twice`
* `Verif.Router.Sync.C124_one_peer`
* `Verif.Router.Sync.C124_other_height`
* `Verif.Router.Sync.C127_unchecked`
* `Verif.Rules.C139_cost_partial`
* `Verif.Rules.C139_dependencies`
* `Verif.Rules.C139_ends`
* `Verif.Rules.C140_agree_partial`
* `Verif.Rules.C140_count`
* `Verif.Rules.C140_setting`
* `Verif.Rules.C140_validators`
* `Verif.Rules.C141_apart`
* `Verif.Rules.C141_votes`
* `Verif.Rules.C141_when`
* `Verif.Rules.C142_best`
* `Verif.Rules.C142_forget`
* `Verif.Rules.C142_replay`
* `Verif.Rules.C142_sorted`
* `Verif.Rules.C143_merged_partial`
* `Verif.Rules.C143_signed_partial`
* `Verif.Rules.C175_farmer`
* `Verif.Rules.C175_once`
* `Verif.Rules.C175_schedule`
* `Verif.Sig.C165_alone`
* `Verif.Sig.C165_differs`
* `Verif.Sig.C165_once`
* `Verif.Sig.C165_zero`
* `Verif.Sig.C165_zero_after`
* `Verif.Time.C107_continues`
* `Verif.Time.C107_limit`
* `Verif.Time.C109_displaced`
* `Verif.Time.C110_leak`
* `Verif.Time.C110_stuck`
* `Verif.Time.C112_any_address`
* `Verif.VM.C14_any_input`
* `Verif.VM.C15_antisymmetric`
* `Verif.VM.C16_any_input`
* `Verif.VM.C17_bounded_length`
* `Verif.VM.C17_every_instruction_paid`
* `Verif.VM.C17_over_limit_fails`
* `Verif.VM.C17_run_stable`
* `Verif.VM.C17_run_terminates`
* `Verif.VM.C17_steps_within_gas`
* `Verif.VM.C17_success_within_limit`
* `Verif.VM.C18_attempts_abort`
* `Verif.VM.C18_context_partial`
* `Verif.VM.C18_instruction_partial`
* `Verif.VM.C19_balance_shown`
* `Verif.VM.C23_commit`
* `Verif.VM.C23_commit_exact`
* `Verif.VM.C23_read`
* `Verif.VM.C23_read_entry`
* `Verif.VM.C52_defined_partial`
* `Verif.VM.C53_order_partial`
* `Verif.Wallet.AutoLock.C179_locked`
* `Verif.Wallet.AutoLock.C179_not_early`
* `Verif.Wallet.C168_race`
* `Verif.Wallet.C168_reverted`
* `Verif.Wallet.C171_at_least`
* `Verif.Wallet.C171_parts`
* `Verif.Wallet.C171_total_partial`
* `Verif.Wallet.C73_available`
* `Verif.Wallet.C74_keys_in_memory`
* `Verif.Wallet.C74_lock_restored`
* `Verif.Wallet.C74_passphrase`
* `Verif.Wallet.C75_wordlist`
* `Verif.Wallet.Exchange.C193_trade`
* `Verif.Wallet.Find.C195_first`
* `Verif.Wallet.Find.C195_stale`
* `Verif.Wallet.Tokens.C186_comes_back`
* `Verif.Wallet.Tokens.C186_fails`
* `Verif.Wallet.Tokens.C186_list`
