# Formal model of mmx-node (Lean 4)

## Approach

The code in /repo is read as text and re-expressed as small total functions in Lean 4.
Every definition cites the file and lines it models, and says where it simplifies.
A C++ `throw` is an explicit outcome (`none`, `Res.throw`, `Except.error`), never a default value.
Undefined behaviour is a distinct outcome (`Res.ub`, `.ub`).
Unsigned wrap-around is modelled where the code can wrap, by `% 2^n` on `Nat`.
Loops whose end is not obvious take a number of rounds; running out of it is a failure, and a theorem shows
that it does not happen.

In each area the plain files hold the model, `Spec*.lean` the independent specification, `*Lemmas*.lean`
helper lemmas and `Props*.lean` the property theorems with concrete cases that meet their hypotheses.

When a property turned out to be false of the code, the negation is proved with a concrete witness, the true
part is proved in a theorem named `…_partial`, and the property is marked `partial`.

## What is modelled

| directory / file | code |
|---|---|
| `DB/Model`, `DB/Crash` | `src/DataBase.cpp`, `Table`: insert, find, commit, flush, rewrite, check_rewrite, revert, constructor; files as named objects, every file operation a possible crash point |
| `DB/Iter` | `Table::Iterator` (DataBase.cpp:753-1002) |
| `DB/DataBase` | `DataBase` (DataBase.cpp:1005-1072) |
| `DB/Keys`, `DB/Typed` | key encodings, comparator, `table.h`, `multi_table.h` |
| `DB/Bytes` | bytes of the write log, the reading loop of the constructor |
| `VM/Var` | `var_t.cpp`: serialisation, comparison |
| `VM/Code` | `instr_t.cpp`: bytecode codec |
| `VM/Engine`, `VM/Exec` | `Engine.cpp`: memory, references, all instructions, gas, `run`, `step` |
| `VM/Storage` | `Storage*.cpp`: RAM, cache, database and proxy storage |
| `Codec/HashBytes` | `write_bytes.h` and the `hash_serialize`/`calc_hash` functions of transactions, operations, contracts and execution results |
| `Codec/Bits`, `Codec/LinePoint` | `pos/encoding.cpp`, `pos/encoding.h`, `pos/util.h`: symbol coder, bit packing, line points |
| `Codec/Vdf` | the chunked VDF check (`Node_verify.cpp`) |
| `Codec/Fixed` | `fixed128`, `utils.h` amounts, `offer_data_t` prices |
| `Chain/Params` | `utils.h`, `Node_validate.cpp`, `Node_verify.cpp`, `Node_update.cpp`, `BlockHeader.cpp`: header checks, difficulty, rewards, fee buffer |
| `Chain/Bands` | minimum fee bands in block assembly |
| `Ledger/Model`, `Ledger/Block` | `Node_validate.cpp`: transaction and block validation, execution contexts, parallel execution; `Node::apply` (balances, transaction index) |
| `Wallet/Model`, `Wallet/Api` | `ECDSA_Wallet.h`: lock, unlock, balances and pending transactions, input selection, completion, signing; the payment calls of `Wallet.cpp` |
| `Wallet/Text`, `Wallet/WordList` | `mnemonic.cpp`, `wordlist_en.cpp`, `addr_t.cpp`, integer conversion of `bytes_t.hpp` |
| `Ledger/Assemble` | `Node_update.cpp:757-921`: selecting transactions for a block, the deadline of the tasks |
| `Node/Pool` | `Node_update.cpp:535-667` (tx_pool_update, tx_pool_erase, purge_tx_pool), the pool in apply and revert |
| `Node/History` | `Node_api.cpp:389-584` (get_history, get_history_memo) |
| `Node/TimeLord` | `TimeLord.cpp:102-322` (requests, checkpoints, infusions, proofs; two threads) |
| `Hash/Spec` | the specification: SHA-256 and SHA-512 of FIPS 180-4, nothing from the code (with the published examples and the derivation of the constants as checks) |
| `Hash/Sha512` | `sha512.cpp`, `hmac_sha512.cpp` (whole files; the unrolled rounds as one table row per source line) |
| `Hash/Hmac` | `include/mmx/hmac_sha512.hpp` (key derivation); `vnx::to_big_endian` assumed |
| `Hash/Cuda` | `include/cuda_sha512.h` (one GPU thread, accesses outside of the buffer as `none`) |
| `Hash/Sha256Ni`, `Hash/Sha256NiCode`, `Hash/Sha256NiFuns` | `sha256_ni.cpp`, `sha256_ni_rec.cpp`: the SSE and SHA instructions used, the straight-line code as a list of instructions made from the source by tools/gen_sha256_ni.py, and the functions around it; the meaning of the instructions is taken from the Intel manual |
| `Hash/Sha256Arm`, `Hash/Sha256ArmCode`, `Hash/Sha256ArmFuns` | `sha256_arm.cpp`, `sha256_arm_rec.cpp` in the same way (tools/gen_sha256_arm.py); the meaning of the instructions is taken from the Arm manual |
| `Hash/Sha256Avx`, `Hash/Sha256AvxCode`, `Hash/Sha256AvxFuns` | `sha256_avx2.cpp` in the same way (tools/gen_sha256_avx2.py), `sha256_64_x8.cpp` without ARM (with it, and the other functions that choose a version, in `Hash/PropsArm`) |
| `Hash/Ocl` | `kernel/sha256.cl`, `kernel/rsha256.cl` (one work item), `OCL_VDF.cpp` `compute` and `verify`; transfer to and from the device and the lanes that fill up a group of 64 are left out |
| `Pos/Tables` | `pos/verify_full.cpp`, `pos/verify.cpp` (`compute` on the CPU, `verify`), the end of `Prover::get_full_proof`, `Node::verify_proof`, `check_proof_threshold`; SHA-512 and the memory-hard hash of table 1 are parameters, the sort and the order of table 1 are arbitrary |
| `Pos/MemHash` | `pos/mem_hash.cpp`, `compute_f1`, `pos/cuda_recompute.cu` (the three kernels, the host loop for requests taken together); a kernel is the set of its memory writes in any order, the lanes of a warp run in lockstep between two `__syncwarp` and in any order within; errors of the CUDA runtime, the request queue and the result map are not modelled |
| `Time/Model` | `find_challenge`, `find_infusion`, `find_vdf_points`, `find_next_vdf_points`, `get_vdf_reward_winner` (Node.cpp), the requests and challenges of `update` (Node_update.cpp:397-441), `verify_vdfs`, `verify_vdf_success`, `add_proof`, `verify_proof` of a block with the numeric part from `Chain`; hashes and the check of one proof are parameters; heights are natural numbers (no wrap at 2^32); the choice among points received at the same time is any |
| `Compile/Model`, `Compile/Spec` | the contract compiler (src/vm/Compiler.cpp): expressions by rank, statements, functions, constants, linking, for functions over local variables; the meaning of sources as an evaluator on trees | the parser; arrays, objects, members, interfaces, `this`, global variables, constructors, `for(of)`, built-in functions other than `assert`; debug output. Proofs in Tree (text to trees), Machine, Run, Select, Static, Vars, SimExpr, SimStmt, SimBody, SimProg, Boot |
| `Router/Gossip`, `Router/Spec` | `Router.cpp`: relaying of blocks, VDFs, votes, proofs, VDF points and transactions (on_msg, the handle functions, relay_msg_hash, receive_msg_hash, broadcast, send_to, send, update, on_connect, on_disconnect) as a machine with one step per callback; the transport (blocked peers, pending cost, socket) is the parameter `World.takes`; requests and returns, the search for peers, peer scores and bans, HTTP and statistics are not modelled |
| `Router/Sync`, `Router/SyncSpec` | `Router.cpp:271-300, 478-512, 515-771, 1431-1435`: the calls get_blocks_at, fetch_block and fetch_block_at as a machine with one step per callback (a call, a return, an update, a change of synced_peers); the random choices and the peer found for an address are parameters, `is_valid` of a block is a field of the block, the content of a return is any of five kinds; how synced_peers is found (get_synced_height) and the wrap of next_request_id are not modelled |
| `Catchup/Model`, `Catchup/Spec` | `Node.cpp:520-634`, `Node_update.cpp:300-395`: which heights a node that syncs asks for, the passes, the end of a sync and the commits meanwhile, as a machine with one step per callback; the time, the height of the root, the limit of open calls (a floating-point average), the fork line, the peak and whether a block has a known predecessor are inputs of each step; the choice of the fork itself is the subject of C78 to C86 |
| `Farm/Prover`, `Farm/Harvest`, `Farm/Queue`, `Farm/Partial` | `pos/Prover.cpp:29-250` (search for the entries in range, qualities, full proofs), `Harvester.cpp:69-132, 204-315, 585-594` (queue of challenges, lookup, responses), `Farmer.cpp:249-279`, `ProofResponse.cpp:14-54`, `Node_verify.cpp:52-72`, `Partial.cpp:16-46`, `Node_api.cpp:1534-1589`; the parks of the plot file are functions of the index (their codecs are C36, C37), hashes and signatures are parameters, threads are not modelled; in C138 the execution of `verify_plot_nft_target` is a parameter |
| `Rules/Depends`, `Rules/Voting`, `Rules/Proofs` | `Node.cpp:1713-1777` (validators, dependencies, best proof), `Node.cpp:945-952`, `Node_verify.cpp:24-50`, `Node_update.cpp:443-466` and `vote_for_block`, `Transaction.cpp:263-294` | the order of a `std::set` of validators; restarts of a voting node; `farmer_keys` |
| `Blocks/File` | `Node.cpp:1365-1385, 1830-1928`, `Node_api.cpp:188-194, 361-371` (file of blocks and its indexes) | bytes of `vnx` values (a parameter); threads |
| `Index/Liquid` | `Node.cpp:1223-1264` (`swap_liquid_map`), `Node_api.cpp:1431-1454` | calls through other contracts; other indexes |
| `Index/Farmers` | `Node.cpp:927-933, 1122-1161, 1289-1347` (`farmer_block_map`, `farmer_ranking`), `Node_api.cpp:1455-1512` | the order that `std::sort` gives equal entries (any) |
| `Index/Offers` | `Node_api.cpp:1062-1181` (recent offers and trades) | what makes an offer open or a scam (a parameter) |
| `Node/Model` | `Node.cpp`, `Node_update.cpp`: fork tree, fork choice, switching, revert, commitment, votes, loading the chain at start; what a block does to the tables is a parameter |
| `Contract/Sig` | `PubKey`, `MultiSig` |
| `Sig/Cache` | `signature_t.cpp` `verify` with its cache, called by any number of threads; secp256k1 is a parameter |
| `Pos/Remote` | `ProofServer.cpp` `compute_async` and the branch for a proof server of `compute` in `pos/verify.cpp` |
| `Gpu/Queue` | `pos/cuda_recompute.cu` without the kernels: the queue of requests, its devices, the callers and the tasks on the CPU as interleaved events (C167); one initialisation, done before the first request; `compute_full` is a parameter |
| `Wallet/Refresh` | `Wallet::update_cache` and `send_off` against a chain that changes between the calls (C168); what the node reports for a chain is a parameter; external balances are left out |
| `Farm/Pool` | `Farmer::get_farm_info`, `update`, `query_difficulty`, the handlers of `FarmInfo` and `Partial` (C173, C174), `Harvester::update_nfts` (C174); requests are answered in any order or never |
| `Rules/ProofQueue` | `Node::handle(ProofResponse)`, `Node::verify_proofs` with threads that finish in any order (C175); whether a response passes `verify` is given for each pass |
| `Wallet/Accounts` | `Wallet::main`, `add_account`, `create_account`, `import_wallet`, `remove_account`, `set_address_count` (C176); passphrases and the files with addresses are left out; failures of permissions and of writing the settings are flags |
| `Contract/SwapQuery` | `Node::get_swap_trade_estimate`, `get_swap_fees_earned`, `get_swap_equivalent_liquidity`, `Wallet::swap_rem_liquid`, and the return values of `trade`, `rem_all_liquid`, `get_earned_fees` of swap.js (C177); the transport of arguments and results as variants is left out |
| `Rules/PastState` | `Node::read_storage`, `read_storage_var`, `read_storage_field`, `read_storage_entry_var`, `read_storage_array`, `read_storage_map`, `StorageDB::read_ex`, `find_entries`, `lookup`, and the storage in `apply` and `revert` (C178); tables are lists with versions (C01, C03, C09 are about the tables), variables are a flag, a reference and a number |
| `Wallet/AutoLock` | `Wallet::unlock`, `lock`, `send_off`, `add_account`, `remove_account` and `ECDSA_Wallet::lock`, `unlock`, `sign_off` as to keys in memory and lock timers (C179); that a stopped timer does not fire and a reset one starts again is assumed of the framework |
| `Codec/BlockHash` | what is hashed for a block: `BlockHeader::calc_hash`, `calc_content_hash`, `calc_btree_hash`, `calc_tx_hash`, `calc_hash` of the proofs of space, and the hash checks of `Block::is_valid` (C180); type hashes are those of the generated code |
| `Farm/Signed` | the messages that `Farmer` signs: blocks, proofs, partials, votes (C181) |
| `Rules/Balances` | `Node::get_balance`, `get_total_balance`, `get_balances`, `get_contract_balances`, `get_total_balances`, `get_all_balances`, and `table::find_range` (C182); what a contract's `is_locked` gives is a parameter |
| `Contract/Shown` | `Node::get_offer`, `get_offer_state`, `fetch_offers`, the amounts of `make_trade_entry`, and `get_plot_nft_info` (C183, C184); prices as floating point numbers are left out |
| `Contract/SwapShown` | `Node::get_swap_info`, `get_swap_user_info`, and the order of `get_swaps` (C185), of the contract of `Contract/Swap`; floating point numbers are left out; the 128-bit type of the missing library is taken to wrap on `+=` |
| `Wallet/Tokens` | `Wallet::get_token_list`, `add_token`, `rem_token` with failing writes, crashes and restarts (C186); that `token_whitelist+` extends `token_whitelist` is assumed of the framework |
| `Router/Requests` | `Router::on_request`, `send_result`, `on_error`, `on_pause`, `on_resume`, and `send_to` for answers, with connections beginning and ending (C187); that the framework never gives a client number twice is assumed, and how it limits its own buffers is not modelled |
| `Node/ContractCache` | `Node::get_contract_ex` in steps, the cache of contracts, and `db_mutex` around calls of the API and `update` (C188); gas is left to `Ledger`, and data races on the cache itself are not modelled |
| `Node/Queue` | `tx_queue`: `Node::add_transaction`, `handle`, the selection and the end of `validate_new`, `apply`, `get_transaction` (C189); verdicts of validation and of the pool are inputs, see `Ledger` and `Node/Pool` |
| `Codec/TimeHash` | `ProofOfTime` and `VDF_Point`: the hash inputs, `is_valid`, `validate`, the end of `TimeLord::update`, the point made in `verify_vdf_task` (C190) |
| `Index/Deploys` | `deploy_map` and `owner_map`: what `Node::apply` adds for a deployed contract, `revert`, `get_contracts_by`, `get_contracts_owned_by`, and `Wallet::get_contracts`, `get_contracts_owned` (C191); arguments of contracts are addresses already |
| `Index/TxLog` | `tx_log` and `tx_index`: what `Node::apply` and `write_block` add, the checks for transactions that come twice, `revert`, `get_tx_ids`, `get_tx_ids_at`, `get_tx_ids_since`, `get_tx_height` (C192); of blocks only the ids of transactions |
| `Wallet/Exchange` | `Wallet::swap_trade`, `swap_add_liquid`, `swap_rem_liquid`: the operations they make, and how `swap.js` takes them (C193); on top of `Contract/Swap`, which has the exchange itself |
| `Wallet/Offers` | `Wallet::offer_trade`, `accept_offer`, `cancel_offer`, `offer_withdraw`: the calls they make after a look at the offer, executed after any further history of it (C194); on top of `Contract/Small` and `Contract/Shown` |
| `Wallet/Find` | addresses and `index_map` of `ECDSA_Wallet`, `unlock`, `find_address`, `Wallet::get_all_addresses`, `find_wallet_by_addr` (C195); keys are left out |
| `Farm/Plots` | `Harvester::find_plot_dirs`, `reload`, the plots of a lookup (C172); disks are functions that list or throw, threads any order of files and plots |
| `Wallet/Balance` | `Wallet::get_balances`, `get_balance` (C171) |
| `Router/Identity` | `Router.cpp:1440-1487, 1629-1666, 1329-1333, 168-171`: ids of nodes, challenges and signatures, for several nodes and an outsider (C169); signatures are symbols, each challenge is new |
| `Router/Connections` | `Router.cpp:773-910, 1000-1011, 264-269, 1440-1532, 1629-1699, 173-215`: dialling, lists of connections, banned addresses, addresses handed out (C170); waiting times and the random choice are arbitrary, `vnx::MsgServer` is assumed to end each client with one `on_disconnect` |
| `Contract/Swap`, `Small`, `HorseRace`, `Poker` | `src/contract/*.js`, at the level of the contract language |
| `Contract/Std` | `src/vm/std/{compare,equals,reverse,sort}.js` |
| `Control/Vote` | `src/Node_control.cpp` (prices are ordered numbers; parsing of the answers is left out) |
| `DB/BlockBytes` | block files of tables at byte level: `src/DataBase.cpp:32-97, 229-255, 316-386, 701-738` and the write loops of `revert`, `flush`, `rewrite` |

## What is not modelled

* Of the network: sockets, messages on the wire, peers' credits and the times at which peers are tried again; `HTTP`, `WebAPI`, GUI.
* Wallet files, key files and the wallet's own history tables; plot files on disk, the plotters; OpenCL and CUDA drivers.
* Of the compiler (`vm/Compiler.cpp`): the parser of tokens, arrays, objects, globals, interfaces and built-in functions. The contracts of
  the node (`Contract/*`) are modelled at source level with the checked 256 bit arithmetic of the engine; they are not linked to the
  compiler model.
* Serialisation by `vnx` (empty submodule); it is a pair of functions where needed.
* Cryptography: signatures and, where not named above (SHA-256, SHA-512, HMAC), hash functions are parameters.
* Disk and memory exhaustion, except where an exception of a write is named.

## Trusted base

* Lean 4.33.0 kernel. No axiom is added. The axioms used by each theorem are listed in `AXIOMS.md`: subsets of
  `propext`, `Classical.choice`, `Quot.sound`.
* The reading of the C++ and contract sources; nothing was compiled or run.
* Submodules absent from /repo are assumed to behave as named: `uint128`/`uint256` are unsigned integers
  modulo 2^128/2^256; `vnx` streams deliver bytes in order and throw `underflow_error` at the end; file rename
  is atomic; `CRC64`, hashes and signature checks are uninterpreted functions.
* A storage access of one contract task is one atomic step (`C28_no_conflict` shows that tasks never touch the
  same contract at the same time).
* Standard containers behave as in the C++ standard; iteration over an unordered container is any permutation.

## Status per property

Written by `tools/design_table.py`.

<!-- status table begin -->
| id | claim | status | note | theorems |
|----|-------|--------|------|----------|
| C01 | Versioned point reads return the latest surviving write | proved | flush is restricted to states without uncommitted inserts (the only way the node flushes); undisciplined_flush_loses_data shows the restriction is needed | `C01_find_returns_latest_write`, `C01_version` |
| C02 | Flush and compaction never change what a reader sees | proved | point reads | `C02_flush_and_compaction_invisible` |
| C03 | Revert undoes exactly the newer versions | proved |  | `C03_revert_exact`, `C03_revert_forgets` |
| C04 | Version discipline: commits only move forward, reverts only backward, refused calls do nothing | proved |  | `C04_insert_revert_guards`, `C04_commit_guard`, `C04_flush_guard` |
| C05 | Reopening after a crash between calls recovers exactly the committed writes | proved | the version number itself is C07 | `C05_crash_between_calls`, `C05_opens`, `C05_reads_survive` |
| C06 | A crash inside flush, revert or compaction loses nothing that was committed | partial | every crash point of every call and of every restart except while a compaction has two or more inputs left to delete; there the claim is false (witness proved) | `C06_crash_inside_calls_partial`, `C06_opens_partial`, `C06_returned_calls_survive`, `C06_two_leftovers_lose_data` |
| C07 | The committed version number survives a restart | partial | false in general (two witnesses proved); true while no flush happened since the commit, and always bounded | `C07_version_bounds_partial`, `C07_version_survives_without_flush_partial`, `C07_version_lost_after_flush`, `C07_version_lost_after_empty_flush` |
| C08 | Database recovery brings all tables to one common version | proved | recover proved for all executions; the crash form is partial because it needs NoDouble (see C06); two witnesses: commit is not atomic when one table refuses, and a flush before a clean stop makes recover roll the whole database back | `C08_recover`, `C08_commit`, `C08_restart_is_consistent_cut_partial`, `C08_commit_refused`, `C08_commit_not_atomic`, `C08_flush_rolls_database_back` |
| C09 | Forward iteration lists every live key once, in order, with its newest value | proved |  | `C09_forward_scan`, `C09_forward_from` |
| C10 | Backward iteration and direction changes enumerate neighbours | partial | everything except next() directly after a backward move, which is false in the code (C10_turn_skips); seek_for_prev above all keys is invalid (exact behaviour proved) | `C10_backward_scan`, `C10_backward_from`, `C10_cursor_partial`, `C10_cursor_total`, `C10_is_valid`, `C10_invalid_throws`, `C10_seek_for_prev`, `C10_turn_skips`, `C10_seek_for_prev_above` |
| C11 | Table keys sort like the values they encode | proved | widths and pairs of any shape; the hash order is the order of the stored bytes | `C11_uint`, `C11_hash`, `C11_pair`, `C11_pair_order`, `C11_tables`, `C11_uint_order`, `C11_hash_order`, `C11_injective`, `C11_wrong_size`, `C11_comparator`, `C11_table_over_bytes` |
| C12 | Multi-value tables return values in insertion order | proved | over any history of inserts, bulk inserts, commits, reverts and flushes | `C12_find`, `C12_find_range`, `C12_find_from`, `C12_insert` |
| C13 | A damaged log tail never resurrects or corrupts writes | proved | any 64 bit checksum function; one restart. Repeated restarts: see C71 | `C13_roundtrip`, `C13_prefix`, `C13_torn_tail`, `C13_cut`, `C13_crash`, `C13_loop_ends` |
| C14 | Smart contract values survive serialization | proved |  | `C14_round_trip`, `C14_truncation`, `C14_prefix_free`, `C14_any_input`, `C14_constants` |
| C15 | Comparing contract values is a total order consistent with equality | proved |  | `C15_equal_iff_same`, `C15_antisymmetric`, `C15_transitive`, `C15_total`, `C15_congruent`, `C15_pointers` |
| C16 | Compiled bytecode survives serialization | proved | for programs whose unused operand fields are zero (what the compiler emits and what reading any bytes yields); C16_junk_dropped shows why | `C16_round_trip`, `C16_truncation`, `C16_injective`, `C16_any_input`, `C16_junk_dropped` |
| C17 | Gas bounds the length of every contract execution | proved |  | `C17_every_instruction_paid`, `C17_over_limit_fails`, `C17_steps_within_gas`, `C17_bounded_length`, `C17_run_terminates`, `C17_run_stable`, `C17_success_within_limit` |
| C18 | Constants and call context cannot be modified by a running contract | partial | every instruction but POP_BACK leaves constant cells as they are; POP_BACK shortens a constant array (witness proved), which is all that can happen to a constant | `C18_instruction_partial`, `C18_context_partial`, `C18_attempts_abort`, `C18_pop_back_shrinks` |
| C19 | Sends never exceed the contract balance | proved | within one engine; the deposit is part of the balance the backend reports | `C19_sent_plus_left`, `C19_sent_at_most_balance`, `C19_send_effect`, `C19_send_too_large`, `C19_send_insufficient`, `C19_balance_shown`, `C19_outputs_well_formed`, `C19_execution` |
| C20 | A contract can only mint its own token and only below 2^80 per mint | proved |  | `C20_mints_own_token`, `C20_only_mint_mints` |
| C21 | Contract integer arithmetic is exact or aborts | partial | multiplication holds from engine version 1 on; in version 0 the overflow check misses products (witness proved) | `C21_add`, `C21_sub`, `C21_mul_partial`, `C21_mul_version0_wrong`, `C21_div_mod`, `C21_min_max`, `C21_compare` |
| C22 | Contract storage changes are all-or-nothing | partial | layered caches refine whole copies of the storage, for contracts whose addresses differ in the first 20 bytes and keys used once, up to reference counts, which the database drops; witnesses show each restriction is needed, and that a contract can observe the lost count | `C22_refines_copies`, `C22_database_after`, `C22_discarded_leaves_no_trace`, `C22_commit_keeps_answers`, `C22_throws_only_on_keys`, `C22_counts_forgotten`, `C22_prefix_shared`, `C22_key_twice`, `C22_erase_depends_on_layer` |
| C23 | Read-only execution and address checks of contract storage | proved |  | `C23_read`, `C23_read_entry`, `C23_lookup`, `C23_balance`, `C23_commit`, `C23_commit_exact` |
| C24 | A valid transaction neither creates nor destroys coins | partial | proved for each token of which the balance of a contract plus the inputs stays below 2^128; C24_wraps shows that coins appear otherwise | `C24_conserved_partial`, `C24_never_destroyed_partial`, `C24_native_partial`, `C24_inputs_authorised`, `C24_wraps` |
| C25 | Transaction fees stay between the static fee and the declared maximum | proved |  | `C25_fee` |
| C26 | A transaction that fails during execution changes nothing except the fee | proved |  | `C26_failed_leaves_nothing`, `C26_only_fee` |
| C27 | No account spends more than it owns within one block | partial | accounts without code: no assumption. Contracts: supplies below 2^127, and the address of no contract that runs is an account with a key; C24_wraps shows what happens when sums overflow | `C27_accounts`, `C27_no_overspend_partial` |
| C28 | Parallel execution of a block gives the sequential result | proved | the thread pool is a queue; one storage access is one step, justified by C28_no_conflict | `C28_in_order`, `C28_access_locked`, `C28_no_conflict`, `C28_same_result` |
| C29 | Difficulty and reward parameters move only within their bounds | proved |  | `C29_time_difficulty`, `C29_space_difficulty`, `C29_base_reward`, `C29_fee_buffer`, `C29_fee_buffer_drains`, `C29_netspace_ratio` |
| C30 | Block reward never pays out more than base reward plus fees | proved |  | `C30_reward_bounded`, `C30_block_payout` |
| C31 | Cost to fee conversion is monotone, exact up to rounding and never wraps | proved |  | `C31_cost_to_fee_exact`, `C31_fee_to_cost_exact`, `C31_cost_to_fee_mono`, `C31_fee_to_cost_mono`, `C31_round_trip`, `C31_zero_ratio_undefined` |
| C32 | MultiSig needs the required number of distinct valid owner signatures | proved | signature verification is a parameter | `C32_single_key`, `C32_enough_owners`, `C32_never_free`, `C32_signatures_suffice`, `C32_exact`, `C32_version0_malleable` |
| C33 | Canonical hash encoding is injective | proved | the two last theorems show that revision 0 does not have the property | `C33_value_injective`, `C33_args_injective`, `C33_contract_injective`, `C33_operation_injective`, `C33_revision0_collision`, `C33_revision0_same_id` |
| C34 | Transaction id does not depend on witnesses | proved | changed hash input up to collisions of the hash function on the strings hashed for the two transactions (explicit hypothesis) | `C34_id_ignores_witnesses`, `C34_id_binds`, `C34_content_binds`, `C34_result_flags_not_covered` |
| C35 | Chunked VDF verification equals sequential verification | proved | the hash function and the segment comparison are parameters; the thread pool is any interleaving of the chunk tasks | `C35_any_schedule`, `C35_reported_segment`, `C35_completes`, `C35_output` |
| C36 | Plot symbol compression is lossless | partial | round trip proved for lists of symbols below 24; false in general, because the decoder refills once per symbol (witnesses proved); whatever the decoder returns is right | `C36_encoder_exact`, `C36_encoder_refuses`, `C36_decoder`, `C36_round_trip_partial`, `C36_never_wrong_partial`, `C36_round_trip_fails`, `C36_bound_sharp`, `C36_unaligned_start_fails` |
| C37 | Line points identify unordered pairs | proved |  | `C37_pair_round_trip`, `C37_point_round_trip`, `C37_injective`, `C37_square2` |
| C38 | Bit packing is lossless | proved |  | `C38_write_exact`, `C38_read_exact`, `C38_round_trip`, `C38_pack_round_trip` |
| C39 | Offer price conversion never favours the taker | proved | offer_data_t | `C39_bid_rounds_down`, `C39_ask_rounds_up`, `C39_zero_price_undefined` |
| C40 | The swap contract is always solvent | proved |  | `C40_solvent`, `C40_share` |
| C41 | Trading never decreases the product of the pool balances | partial | false as stated: rounding down the new balance lets the product fall, and a trader can gain from buying and selling back (witnesses proved); holds for one trade when its fee is counted | `C41_product_with_fee_partial`, `C41_price`, `C41_product_can_fall`, `C41_round_trip_profit`, `C41_one_sided_drain` |
| C42 | Time locked funds stay locked | proved |  | `C42_locked`, `C42_extended`, `C42_extend_works`, `C42_release`, `C42_accounted` |
| C43 | Decimal amounts print and parse back exactly | partial | print/parse and amount round trips hold; parsing a number that does not fit silently wraps (witness proved) | `C43_print_parse`, `C43_parse_exact_partial`, `C43_parse_int_exact_partial`, `C43_parse_wraps`, `C43_parse_truncates`, `C43_amount_round_trip` |
| C44 | A table call that throws has had no effect | partial | false for a commit whose automatic flush is refused by a live iterator: it throws after the version has advanced (witness proved) | `C44_throw_means_no_effect_partial`, `C44_commit_can_throw_after_committing` |
| C45 | Header counters are exact sums over the chain | proved |  | `C45_accumulators`, `C45_fee_buffer_conserved` |
| C46 | Block time stamps advance within fixed bounds | proved |  | `C46_time_stamps` |
| C47 | Space fork length is bounded | proved |  | `C47_forced_fork` |
| C48 | A node's own block passes its own header checks | proved | a reward address is needed when the reward is not zero (hypothesis); transactions are not part of this claim | `C48_own_block_accepted`, `C48_block_creation_defined` |
| C49 | Assembled transaction lists respect the minimum fee bands | proved | the size hypothesis is guaranteed by max_tx_cost; C49_oversized_breaks shows it is needed | `C49_fee_bands`, `C49_subsequence`, `C49_oversized_breaks` |
| C50 | Unlocked liquidity can always be withdrawn from the exchange contract | proved |  | `C50_withdraw_succeeds` |
| C51 | Liquidity of the exchange contract is locked after being added | partial | the lock holds; the part about dry runs is false: a dry run removes the liquidity for good (witness proved) | `C51_lock`, `C51_add_locks`, `C51_dry_run_burns` |
| C52 | Contract bytecode cannot make the node touch freed or foreign memory | partial | false for COPY, POP_BACK and RET (witnesses proved); proved for all instructions that do not move references, arrays or maps | `C52_defined_partial`, `C52_copy_use_after_free`, `C52_pop_back_use_after_free`, `C52_ret_past_end` |
| C53 | Execution outcome does not depend on the order a compiler evaluates arguments | partial | false with reference operands: the gas of a failed instruction differs (witness proved); proved without reference operands | `C53_order_partial`, `C53_failed_gas_differs` |
| C54 | Native coins only enter through rewards and only leave through fees | proved | coins and rewards below 2^126 together; the address of no contract that runs is an account with a key | `C54_balances`, `C54_total`, `C54_supply`, `C54_native_chain` |
| C55 | A transaction validated for a block passes validation with the result it was given | partial | false when the fee exceeds its maximum, or when the rounded fee is the maximum (witnesses); proved for transactions that fail for another reason, and for those that succeed with a cost that the maximum fee pays for without rounding | `C55_partial`, `C55_overrun`, `C55_rounding` |
| C56 | Validation of a block always comes to an end | proved | contract programs are finite, which gas ensures (C17) | `C56_never_stuck`, `C56_terminates`, `C56_completes` |
| C57 | Validating a received block has no undefined behaviour | partial | false for blocks with a null operation (witness); otherwise proved for the part before transactions are validated | `C57_defined_partial`, `C57_null_operation` |
| C58 | The reported total supply is the sum of all balances | partial | false when a block burns more fees than it pays rewards (witness); proved for all other blocks, which includes all tokens | `C58_supply_partial`, `C58_tokens_partial`, `C58_burnt_fees` |
| C59 | No transaction is executed twice | proved |  | `C59_no_replay` |
| C60 | Coins leave an account only with the agreement of its owner | proved |  | `C60_debits`, `C60_balance_falls` |
| C61 | Custody contracts pay only the parties named | proved |  | `C61_escrow`, `C61_escrow_pays`, `C61_transfer`, `C61_transfer_pays`, `C61_relay`, `C61_relay_handover`, `C61_relay_named` |
| C62 | Withdrawing from a virtual plot costs exactly the stated share | proved |  | `C62_withdraw_factor`, `C62_withdraw_works` |
| C63 | A taker of an offer gets exactly the price named | proved |  | `C63_take`, `C63_owner_covered`, `C63_price_stable`, `C63_price_change`, `C63_who`, `C63_owner_exit`, `C63_accept_works` |
| C64 | An NFT offer swaps one unit for exactly its price | proved |  | `C64_buy`, `C64_paid_for`, `C64_price_stable`, `C64_price_change`, `C64_who` |
| C65 | A locked plot NFT keeps paying its target | proved |  | `C65_locked`, `C65_unlock`, `C65_unlock_once`, `C65_unlocked` |
| C66 | A smart wallet pays plans no faster than agreed | partial | false for plans with interval 0, which the contract accepts (witness); proved for positive intervals | `C66_bounded_partial`, `C66_payment`, `C66_pays`, `C66_accounted`, `C66_zero_interval` |
| C67 | Only the owner creates units of a token | proved | hash and signature check are parameters | `C67_token_call`, `C67_token`, `C67_nft_once`, `C67_template` |
| C68 | Fixed price tokens are paid for and backed | partial | fixed price token proved; liquid token: false when the owner recovers the currency itself (witness), proved otherwise | `C68_buy`, `C68_paid_for`, `C68_earnings`, `C68_backed_partial`, `C68_redeem`, `C68_recover_drains` |
| C69 | The horse market cannot be drained | proved | total of the currency below 2^190 | `C69_solvent`, `C69_wallet_call`, `C69_wallet`, `C69_transfer`, `C69_price_monotone`, `C69_no_profit`, `C69_round_trip` |
| C70 | Range queries of typed tables return exactly the range | proved | find_first and find_last are both covered by C70_find_first | `C70_find`, `C70_find_range`, `C70_find_last_range`, `C70_find_first`, `C70_find_greater_equal` |
| C71 | Log recovery stays correct over repeated restarts and damage | partial | false in general: the torn tail is not removed and its bytes can be read as records at the second restart (C71_stale_tail); a damaged record is skipped while later ones count (C71_damage_drops_committed). Proved for torn writes below 42 bytes and for tails that the new records cover | `C71_overwrite_partial`, `C71_short_tail`, `C71_stale_tail`, `C71_damaged_record`, `C71_damage_drops_committed` |
| C72 | A completed transaction is funded exactly | partial | funding is exact; inputs that are already in the transaction are not counted against the balance, so a transaction that comes with inputs can draw more than there is (witness); the fee the sender is checked for does not include the signatures (witness) | `C72_amounts`, `C72_draws`, `C72_completes_iff`, `C72_sender`, `C72_gather`, `C72_header`, `C72_inputs_not_counted`, `C72_fee_above_max` |
| C73 | A wallet never spends the same coins twice | proved | amounts reserved for pending transactions include the static fee only; as of the last refresh. no_overdraw is for transactions that come without inputs | `C73_available`, `C73_no_overdraw` |
| C74 | A wallet signs only what its keys own and stays locked | proved | keys, hashes and signing are parameters; for unsigned transactions: signing a transaction again that already has signatures can make it invalid (C74_second_pass). keys_in_memory assumes that passphrases with the same first address have the same keys | `C74_lock_restored`, `C74_passphrase`, `C74_signatures`, `C74_addresses`, `C74_is_signed`, `C74_valid`, `C74_keys_in_memory`, `C74_second_pass` |
| C75 | Seed words give back the seed | partial | all but uniqueness: two checksums are accepted, so a seed has up to two phrases (C75_second_phrase) | `C75_wordlist`, `C75_words`, `C75_round_trip`, `C75_accepts`, `C75_at_most_two`, `C75_refuses`, `C75_second_phrase` |
| C76 | Address strings identify addresses | partial | bech32 is a parameter; other texts are accepted for the same address (C76_not_canonical), and typed messages read unreadable texts as the zero address (C76_silent_zero) | `C76_round_trip`, `C76_injective`, `C76_accepts`, `C76_bytes`, `C76_not_canonical`, `C76_silent_zero` |
| C77 | Wallet calls pay exactly what was asked for | proved | sums of the request below 2^128 | `C77_send`, `C77_send_many`, `C77_send_from`, `C77_execute`, `C77_deposit`, `C77_make_offer`, `C77_offer_price_zero` |
| C78 | The state of a node is that of its chain alone | proved | what blocks do to the tables is a parameter (the ledger model covers it); different blocks have different hashes; one thread (the code holds one lock) | `C78_chain_is_replay`, `C78_same_peak_same_tables` |
| C79 | A failed switch leaves the node where it was | partial | proved for forks above the committed height; false for forks off the committed chain (witness) and for blocks that validate but cannot be applied (witness) | `C79_failed_switch_partial`, `C79_deep_switch_fails`, `C79_deep_switch_stuck`, `C79_apply_fails` |
| C80 | A switch ends exactly at the requested fork | proved | blocks whose heights follow their predecessors'; what validates can be applied | `C80_switch`, `C80_switch_succeeds` |
| C81 | Nodes choose the same fork | partial | proved for forks that start from blocks of equal weight, in particular all forks off the root; otherwise the comparison is circular and the choice depends on the order of arrival (witness); a line whose first block was dropped unverified at a commit is never followed (witness) | `C81_best_fork_partial`, `C81_arrival_order`, `C81_cycle`, `C81_lost_sibling` |
| C82 | An update ends on the best valid fork | proved | the second theorem where no fork leaves the committed chain; see C79_deep_switch_fails for the other case | `C82_loop_ends`, `C82_follows_best` |
| C83 | Committed blocks stay | partial | proved where no fork leaves the committed chain (leaving it is intended, for recovery) and heights are honest; a block with a false height commits the whole chain at once (witness) | `C83_finality_partial`, `C83_committed_stays`, `C83_forged_height` |
| C84 | A restart brings back the chain | proved | that the database recovers to one version is C08 | `C84_restart`, `C84_lost_blocks` |
| C85 | Votes counted are votes cast | proved | signatures of votes are checked on arrival and not modelled | `C85_votes` |
| C86 | Every block of the chain has a verified proof | proved |  | `C86_proofs` |
| C87 | A block that a node assembles passes validation by others | partial | Holds when every transaction in the block pays for its cost (C55) and none that was left out before wrote to a contract that one in the block shares. False otherwise: C87_left_out is a pool from which the node makes a block that no node accepts. | `C87_partial`, `C87_all_in`, `C87_parallel`, `C87_left_out` |
| C88 | Assembled blocks hold to the limits and leave out nothing needlessly | proved | Sums are natural numbers (64 bit in the code). Bands need ascending ratios, the first at most 1, and no transaction larger than a band. | `C88_limits`, `C88_order`, `C88_bands`, `C88_funds`, `C88_complete` |
| C89 | Validating the pool ends, whatever the deadline | partial | Holds when no task is skipped, with one thread, or when no two transactions share a contract. False otherwise: C89_stuck, a task waits for ever for one that was skipped. | `C89_in_time`, `C89_one_thread`, `C89_disjoint`, `C89_stuck` |
| C90 | A pending transaction is taken in exactly when its sender can pay for all it has pending | proved | Fees below 2^32 (their type) and less than 2^32 pending transactions. | `C90_admission`, `C90_accepted`, `C90_recorded`, `C90_once` |
| C91 | The pending part of a history query finds exactly what is pending | proved | Which transaction ids the index holds; the entries that the queries make of them are not part of this. | `C91_index` |
| C92 | Purging the pool leaves what can be paid and fits, the best paying first | proved | A sender counts as unable to pay when its fees exceed the balance modulo 2^64, which is how the code stores it; C92_idle needs balances below 2^64. | `C92_purge`, `C92_idle` |
| C93 | A switch of the chain loses no transaction and doubles none | partial | False for a node that is not in sync or reverts below its root: C93_lost. Blocks are taken to apply without an exception (C59 and C56 for validated ones). | `C93_apart`, `C93_switch_partial`, `C93_block`, `C93_lost` |
| C94 | A history query gives the newest entries, complete by block | partial | Holds for get_history when since <= until. False with a memo and a limit (C94_memo_incomplete: a block is cut in two) and when since > until (C94_empty_range: one block is given). | `C94_sound`, `C94_all`, `C94_history`, `C94_memo_incomplete`, `C94_empty_range` |
| C95 | A history query shows each pending input and output once | partial | What is shown is right; each once only if no pending transaction concerns two of the addresses. False otherwise: C95_repeated. The filter is not applied: C95_unfiltered. | `C95_shown`, `C95_once_partial`, `C95_repeated`, `C95_unfiltered` |
| C96 | A time lord publishes only proofs of time that nodes accept | partial | Holds for the requests of one chain when no update runs between a reset and its execution and nothing is stopped while requests are open. False otherwise: C96_race, C96_stale, C96_stop; C96_zero restarts from the zero hash. | `C96_sequential_partial`, `C96_accepted_partial`, `C96_defined`, `C96_taken`, `C96_waits`, `C96_answered`, `C96_race`, `C96_stale`, `C96_stop`, `C96_zero` |
| C97 | SHA-512 of a message does not depend on how it is written | proved | messages below 2^61 bytes; a little-endian machine | `C97_streamed`, `C97_split`, `C97_reset`, `C97_block` |
| C98 | Wallet keys are derived by HMAC-SHA-512 | proved | vnx::to_big_endian (not in the checkout) gives the value whose memory image is big endian | `C98_hmac`, `C98_child`, `C98_kdf`, `C98_distinct` |
| C99 | SHA-512 on the GPU is SHA-512 on the CPU | proved | messages below 2^32 - 144 bytes; one GPU thread | `C99_gpu`, `C99_agrees`, `C99_room` |
| C100 | Every version of SHA-256 is SHA-256 | proved | x86 versions (ARM: C164); the software version (vnx::SHA256, not in the checkout) is a hypothesis where it is used | `C100_ni`, `C100_recursive`, `C100_two`, `C100_avx2`, `C100_avx2_long`, `C100_x8`, `C100_hash` |
| C101 | The GPU judges a proof of time as the CPU does | proved | segment size up to 2^32 - 2500; from 2^32 - 3 on the GPU check does not end (C101_endless) | `C101_gpu`, `C101_same`, `C101_endless` |
| C102 | Recomputing a proof of space finds exactly the proofs in the values | proved | the hash functions are parameters; fewer than 2^32 entries per table | `C102_sound`, `C102_complete`, `C102_fails`, `C102_order` |
| C103 | An accepted proof of space is genuine and cannot be varied | proved | C103_rigid and C103_same assume that no two different trees over the values have the same meta data (a collision of SHA-512 cut to 14 k bits). C103_case: values above 2^ksize are accepted. | `C103_sound`, `C103_unique`, `C103_rigid`, `C103_complete`, `C103_same`, `C103_defined`, `C103_case` |
| C104 | A proof made from a plot is accepted | proved | assumes that no two different trees over the candidate values have the same meta data; decoding the parks of the plot file is C36 and C37 or not modelled | `C104_accepted` |
| C105 | What proof of space a node accepts | proved | space_diff_constant at least 33 (mainnet: 10^11) and below 2^64; hash functions are parameters | `C105_sound`, `C105_threshold`, `C105_easier` |
| C106 | Table 1 of a proof of space is the same on a GPU and on the CPU | proved | the two are the same for distinct values; with a repeated value a node with a GPU may reject what others accept (C106_differs, for toy hashes). rotl_32 by 0 is undefined in C++: both usual outcomes are covered | `C106_entry`, `C106_gpu`, `C106_repeated`, `C106_runs`, `C106_fits`, `C106_buffer`, `C106_accepts`, `C106_agrees`, `C106_differs` |
| C107 | Every node on a chain derives the same challenge for a VDF height | proved | hash functions are parameters; heights do not wrap | `C107_challenge`, `C107_limit`, `C107_height`, `C107_agrees`, `C107_direct`, `C107_final`, `C107_continues`, `C107_published` |
| C108 | The VDFs asked of time lords are those that blocks are checked against | proved | time_diff_divider not zero; heights do not wrap, iterations do | `C108_infusion`, `C108_stable`, `C108_requests`, `C108_expected`, `C108_seamless` |
| C109 | VDF points are chained to blocks as verified | partial | C109_next and C109_made assume that points carry their true position. Nothing in the code checks it: with a wrong `start` the result is wrong (C109_wrong_start), and a copy of an honest proof with another `start` that is verified first keeps the honest one out (C109_displaced, C109_first_only) | `C109_total`, `C109_found`, `C109_finds`, `C109_next`, `C109_made`, `C109_wrong_start`, `C109_first_only`, `C109_displaced` |
| C110 | A node goes on verifying VDFs | partial | false in general: a proof discarded because the chain of points is full keeps its slot for ever (C110_leak), and without a GPU there is only one slot (C110_stuck). C110_owned_partial: it holds for histories without such a discard | `C110_owned_partial`, `C110_free`, `C110_stuck`, `C110_leak` |
| C111 | The proofs in an accepted block are distinct, ordered and for the chain's challenge | proved | the check of one proof is a parameter here and the subject of C102-C105; VDF height below 2^32 | `C111_block`, `C111_kept`, `C111_made` |
| C112 | The VDF reward goes to the time lord who computed most of the last VDFs | partial | the winner is as stated; but no check ties the addresses named in a block to the VDFs, its maker may name any (C112_any_address) | `C112_winner`, `C112_counted`, `C112_any_address` |
| C113 | A compiled contract function gives what its source says | partial | for all programs of the modelled part of the language, except those of C115_falls_through and C117_assert_order, and except shifts by 2^64 or more and declarations that are the whole body of an if or loop; arrays, objects, globals, interfaces and built-in functions are not modelled | `C113_program_partial`, `C113_throws_partial`, `C113_shift_wraps` |
| C114 | The text of a contract expression has one reading, and the compiler takes it | partial | proved for expressions of values; but a chain of assignments is grouped from the left and loses one, and logical operators bind like bitwise ones | `C114_one_reading`, `C114_compiled_as_read`, `C114_chained_assignment`, `C114_logical_like_bitwise` |
| C115 | A contract function is left only by return or at its own end | partial | proved for functions whose last instruction in the text is no return inside an if; false otherwise: execution falls into the next function, proved with a witness | `C115_null_partial`, `C115_falls_through` |
| C116 | A constant of a contract is not assigned to | partial | proved for =, ++ and -- and for names declared twice; false for compound assignments, proved with a witness | `C116_refused_partial`, `C116_const_changes` |
| C117 | assert lets exactly the calls through whose condition holds | partial | proved (as part of C113) for an assert without message when the compiler evaluates C++ arguments from the right, or the condition is a variable or constant; false otherwise, proved with witnesses | `C113_program_partial`, `C113_throws_partial`, `C117_assert_order`, `C117_message` |
| C118 | Optimisation does not change what a contract function gives | partial | for the modelled part of the language; opt_level only decides about division and remainder by powers of two there | `C118_same_value_partial` |
| C119 | A peer is not sent what it already has | proved | the caches are bounded, so a message that was forgotten may go out again; messages are told apart by their content hash; the VDFs sent to a new peer are not counted (on_connect) | `C119_not_again` |
| C120 | A message is put up for sending once and handed to the node once | proved | the cache is bounded, as for C119 | `C120_relayed_once`, `C120_published_once` |
| C121 | What is passed on unverified is covered by credit | proved |  | `C121_blocks`, `C121_vdfs` |
| C122 | Every interested peer is offered what the node verified | partial | false when another item of the peer has the same microsecond: the message is dropped for good, proved with witnesses; proved otherwise | `C122_offered_partial`, `C122_sent`, `C122_time_taken`, `C122_time_taken_later` |
| C123 | A new peer gets the VDFs for the next block | partial | proved for VDFs not relayed before they were verified; false for the others, proved with a witness | `C123_new_peer_partial`, `C123_withheld` |
| C124 | The blocks given for a height are valid and agreed on by enough peers | partial | Valid, sent in reply and distinct: proved. Proved with half of min_sync_peers peers asked and their requests answered; that they answered themselves under the assumption that returns come from the peers asked. The full claim is false, shown by three counterexamples: a return is matched by id alone, a peer can be counted as failed and as succeeded, and the height of a block is not compared. | `C124_valid`, `C124_agreed_partial`, `C124_themselves_partial`, `C124_one_peer`, `C124_counted_twice`, `C124_other_height` |
| C125 | A request for the blocks at a height comes to an end | partial | Proved: there is always a request under way. That the call ends is false: min_sync_peers + 3 peers that name a hash and answer with exceptions keep it open for ever. | `C125_goes_on_partial`, `C125_stalled` |
| C126 | Every call for blocks is answered once | proved | Over the model of process and update; the timer event itself is assumed to come. | `C126_once`, `C126_made`, `C126_in_time` |
| C127 | fetch_block gives the block asked for | partial | Proved: the block came in a return to a request for this hash or height, and null only after the request to every synced peer was answered. False and shown by a counterexample: neither the hash of the block nor the sender is checked. | `C127_block_partial`, `C127_none_partial`, `C127_at_partial`, `C127_unchecked` |
| C128 | Syncing leaves out no height | partial | Proved as long as no call fails and none is open from an earlier sync. False otherwise: C128_gap is a run in which a height is never asked for. | `C128_no_gap_partial`, `C128_calls`, `C128_gap` |
| C129 | While syncing a block is committed only after the network was heard on its height | partial | Proved as long as no call fails and none is open from an earlier sync. False otherwise: C129_unanswered. | `C129_commit_partial`, `C129_when`, `C129_unanswered` |
| C130 | A node takes itself to be in sync only at the end of the chain of the network | partial | Number and spacing of the passes and their ends proved for all runs. That all heights were heard is proved as long as no call fails and none is open from an earlier sync, and false otherwise: C130_hole. | `C130_done`, `C130_complete_partial`, `C130_pause`, `C130_flag`, `C130_positive`, `C130_loop`, `C130_hole` |
| C131 | A sync is limited and comes to an end | partial | The limit is proved as long as no call fails and none is open from an earlier sync, for heights from the start of the sync; the rest for all runs. | `C131_ahead_partial`, `C131_goes_on`, `C131_ends` |
| C132 | A harvester finds all entries of a plot that are in range of a challenge | partial | What is given is right, in all plots. That nothing is missing is proved for plots whose entries are spread evenly to less than 24576, and false in general: C132_missed. | `C132_sound`, `C132_tail`, `C132_even_partial`, `C132_complete_partial`, `C132_missed` |
| C133 | Every proof a harvester publishes is accepted | proved | hash functions are parameters; the plot file holds what the plotter should have put there (Plot.Made) | `C133_accepted` |
| C134 | A harvester publishes every proof that is good enough | partial | For the entries that the search gives (C132) when the meta data of all of them can be read; if that of one cannot, the whole lookup fails (Prover.cpp, by reading). | `C134_found_partial` |
| C135 | A proof that is published reaches the node, signed | partial | Proved for names of harvesters below 1024 characters; with longer names no proof is ever delivered (C135_long_name). | `C135_delivered_partial`, `C135_long_name`, `C135_signed`, `C135_taken` |
| C136 | A harvester looks up every challenge once, the newest first | partial | At most once (and once more after each reload that found new plots), newest first and worked off: proved for all runs. That every challenge is looked up is proved as long as challenges for the same height agree; false otherwise: C136_replaced. | `C136_once`, `C136_accounted`, `C136_timely`, `C136_armed`, `C136_newest`, `C136_drained`, `C136_all_partial`, `C136_replaced` |
| C137 | The signature of a partial covers everything in it | partial | Proved for the text and proofs of plot NFTs if the address of the pool does not contain 'harvester:', and false otherwise (C137_ambiguous); for proofs without contract the text leaves out the values, seed and size of the proof (C137_og). | `C137_signed_partial`, `C137_whole_partial`, `C137_ambiguous`, `C137_og` |
| C138 | A node approves exactly the partials that are worth their difficulty | proved | hash functions and signatures are parameters; whether the contract points to the pool is one (verify_plot_nft_target) | `C138_approved`, `C138_honest` |
| C139 | Before a contract is called, all contracts it can reach are known, within limits | partial | What is found and what is refused: proved. The number of steps is bounded only by the length of the longest chain: the limit on depth is checked after the recursion, and contracts can be deployed before those they depend on, so that chains of any length exist (C139_deep). | `C139_dependencies`, `C139_limits`, `C139_ends`, `C139_cost_partial`, `C139_deep` |
| C140 | All nodes take the same farmers as validators | partial | Proved for nodes with the same max_history; it is a setting of each node, and with different ones they can disagree (C140_setting). | `C140_validators`, `C140_count`, `C140_agree_partial`, `C140_setting` |
| C141 | A node does not vote for two blocks after the same one in short order | partial | Proved for runs without restart: the votes are in memory only. The later vote for a replacement does not look at the best proof (C141_weaker). | `C141_apart`, `C141_when`, `C141_votes`, `C141_weaker` |
| C142 | The best proof for a challenge does not depend on the order in which proofs come | proved | hashes of proofs are numbers; farmer_keys is not modelled | `C142_sorted`, `C142_best`, `C142_forget`, `C142_replay` |
| C143 | Merging two partly signed transactions keeps all signatures and adds those of the other | partial | Proved if every input has a signature or is marked to have none, and signatures and inputs are fewer than 65536 together. False for inputs with the number of a signature not yet there (C143_dangling). | `C143_merged_partial`, `C143_signed_partial`, `C143_dangling` |
| C144 | Every block and transaction that was stored is read back | proved | what was flushed to the file is assumed to stay there (see C145); the serialisation of vnx is a parameter; the hash of a block is assumed to commit to its height and transactions | `C144_block`, `C144_tx`, `C144_heights` |
| C145 | A damaged file of blocks is noticed and mended | partial | Proved: a block that is written again is then found, or else a valid block with as many transactions. False: it can be another block, and the check at start does not compare hashes (C145_other_block). | `C145_rewritten_partial`, `C145_checked`, `C145_other_block` |
| C146 | The liquidity reported to a user is what the exchanges hold for them | partial | Proved for users that never switch pools, name the exchange by its address and give rem_all_liquid its argument; false in each of these cases, proved with witnesses. Calls through other contracts are not recorded either (by reading). | `C146_recorded_partial`, `C146_reported_partial`, `C146_remove_all`, `C146_switch`, `C146_deploy` |
| C147 | The ranking of farmers counts the blocks on the chain | partial | Proved as long as no block fails to be written to the file; then it stays counted (C147_failed_write). A farmer whose blocks were all reverted stays listed with zero blocks (C147_zero). | `C147_ranking_partial`, `C147_top_partial`, `C147_zero`, `C147_failed_write` |
| C148 | The newest blocks of a set of farmers are found | partial | Proved if no key is given twice, and false otherwise (C148_twice). | `C148_farmed_partial`, `C148_twice` |
| C149 | The summary of a farmer adds up their rewards | partial | Proved for rewards below 2^32 and keys given once; larger rewards are recorded modulo 2^32 (C149_large_reward). | `C149_summary_partial`, `C149_large_reward` |
| C150 | The most recent offers are found, however many others are between them | proved | the index is taken not to change during the query; which of several offers of one height are left out is not fixed (C150_same_height) | `C150_recent`, `C150_for`, `C150_same_height` |
| C151 | The most recent trades are found | proved | the index of trades is taken to hold those of the coins; it leaves out trades of offers whose bid_currency cannot be read | `C151_trades`, `C151_for` |
| C152 | The standard library of contracts sorts and compares | proved | maps and numbers above 2^256 are not part of the values | `C152_sort`, `C152_sort_values`, `C152_sort_mixed`, `C152_reverse`, `C152_descending`, `C152_equals`, `C152_compare_equal`, `C152_compare_order`, `C152_compare_numbers`, `C152_compare_mixed` |
| C153 | Poker: the better hand is ranked higher | partial | The kinds are right. Hands of the same kind are compared by all their values in descending order, not by those of the pairs first: two twos with an ace beat two kings (C153_not_poker). | `C153_rank`, `C153_order`, `C153_win_partial`, `C153_not_poker` |
| C154 | Poker: the pot is paid out once | proved | C154_claim is for those with one seat; a payment must be below 2^128. The winner is the first to show (C155). | `C154_pot`, `C154_paid`, `C154_claim`, `C154_winner` |
| C155 | Poker: the best hand shown wins | partial | False: whoever shows first wins, every further show aborts (C155_no_second), and a card can be named four times (C155_repeated). Proved instead: there is at most one winner and it never changes. | `C155_first`, `C155_no_second`, `C155_worse_wins`, `C155_repeated`, `C155_four` |
| C156 | Poker: bets are never stuck | partial | False: leave never works (C156_leave); one seed sent as a binary locks all bets for ever (C156_locked, C156_stuck). For a winner see C154_winner. | `C156_leave`, `C156_locked`, `C156_stuck` |
| C157 | Poker: one seat each, and limits are kept | partial | The limits on seats and bets hold. One seat each: proved for all but the first player, who can have two seats (C157_twice). | `C157_seats_partial`, `C157_twice`, `C157_limits` |
| C158 | Poker: nobody is out without having had a turn | partial | Proved for rounds in which nobody folds; a fold ends a round too early (C158_no_turn). | `C158_turn_partial`, `C158_no_turn` |
| C159 | A minority of price sources cannot decide the vote on the reward | proved | Doubles are numbers with an order; that a mean lies between and quotients compare monotonically is assumed (Arith). | `C159_median`, `C159_vote`, `C159_range` |
| C160 | Price sources are asked sparingly | proved |  | `C160_requests`, `C160_failed` |
| C161 | No vote on the reward from old prices | partial | Proved if no file is old. False otherwise: while downloads fail the last vote stays for ever (C161_stale). | `C161_fresh_partial`, `C161_stale` |
| C162 | A block file gives back what was written | proved | 32 bit versions and sizes, file below 2^63 bytes; default comparator | `C162_reopen`, `C162_find`, `C162_index`, `C162_entries` |
| C163 | A damaged block file is refused | partial | Proved: a file that was cut short is refused. False: a file of zeros is an empty block (C163_zeros), and a changed byte of a value is not noticed (C163_changed). | `C163_cut_partial`, `C163_format`, `C163_zeros`, `C163_changed` |
| C164 | SHA-256 on Arm processors, and on whichever processor | proved | the meaning of the instructions is taken from the Arm manual; little-endian memory; the software version (vnx::SHA256, not in the checkout) is a hypothesis where it is used | `C164_arm`, `C164_recursive`, `C164_two`, `C164_hash`, `C164_x8`, `C164_compute`, `C164_check` |
| C165 | A signature check gives the same answer on every node | partial | Proved for all but one input. False for the hash, key and signature that are all zeros: an untouched slot of the cache equals it (C165_zero), so nodes differ, also on a contract that checks it (C165_fork). secp256k1 is a parameter; that it cannot read a key of zeros is a hypothesis of C165_zero_after. | `C165_right_partial`, `C165_agree_partial`, `C165_once`, `C165_alone`, `C165_zero`, `C165_zero_after`, `C165_differs`, `C165_fork`, `C165_machine_partial` |
| C166 | A proof server gives what the node would compute | proved | the transport of requests and results (vnx) is not modelled; server and client are given the same order of table 1 and sort (for others see C102) | `C166_remote`, `C166_rows`, `C166_complete` |
| C167 | Every proof handed to the GPU is answered once, in its turn | partial | Proved: at most once, own result, bounded overtaking in turns of the devices, no lost wake-up. False: when the last device fails, requests that wait are never answered (C167_left_behind); a device that fails before the initialisation ends leaves the count of devices wrong for ever (C167_lost_count); a shutdown does not wake a caller that waits (C167_shutdown). | `C167_once`, `C167_asked`, `C167_own`, `C167_result`, `C167_turn`, `C167_wake`, `C167_dead`, `C167_left_behind`, `C167_lost_count`, `C167_asleep`, `C167_shutdown` |
| C168 | After a refresh a wallet counts no coins as free that its own transactions still take | partial | Proved while the chain only grows and no block comes during the refresh. False otherwise: a block between two of the calls makes coins that were just spent count again (C168_race), and a transaction whose block was taken back is forgotten (C168_reverted). | `C168_refresh`, `C168_spendable_partial`, `C168_race`, `C168_reverted` |
| C169 | A connection counts as one to a node only if that node is at its other end | partial | Proved: the owner of the id has signed the challenge, one open connection for each id, and the claim unless an outsider has had the challenge signed by the owner. False otherwise: nodes sign whatever a peer asks them to, so an outsider can pass a challenge on (C169_relay). Signatures are symbols (unforgeable), challenges are unique. | `C169_signed`, `C169_node`, `C169_unique`, `C169_end_partial`, `C169_kept_partial`, `C169_relay` |
| C170 | Connections are counted right, and a kicked address stays away | partial | Proved for all histories, with three exceptions shown by witnesses: an address of a fixed peer can be dialled twice, light nodes can count as synced full nodes, and private addresses 172.16. to 172.31. are handed out. Also shown: the list of addresses to try grows without bound, and a peer can have its address taken for our own. | `C170_lists`, `C170_banned`, `C170_settled`, `C170_tasks`, `C170_forgotten`, `C170_cleared`, `C170_kick`, `C170_stays`, `C170_dial`, `C170_share`, `C170_unbounded`, `C170_twice`, `C170_light`, `C170_own`, `C170_private` |
| C171 | The balances a wallet shows add up | partial | The parts: proved for all histories. The total is right as long as pending transactions take no more from an address than the node reported; otherwise it is too large (C171_too_much). Sums within 128 bits. | `C171_parts`, `C171_total_partial`, `C171_at_least`, `C171_too_much` |
| C172 | A harvester farms the plots that are there | partial | Which directories are searched, which plots are farmed after any reloads, one lookup for each plot and independence of the schedule: proved. Not so: a plot stays when its key is gone or its file is replaced (C172_old_key, C172_replaced), a plot in two files counts twice (C172_space), a plot for another key disturbs every reload (C172_unsettled). Reading the size of a file is taken not to fail. | `C172_search`, `C172_which`, `C172_there`, `C172_once`, `C172_schedule`, `C172_again`, `C172_space_partial`, `C172_space`, `C172_old_key`, `C172_replaced`, `C172_unsettled` |
| C173 | A farmer counts its harvesters and partials once | proved | Sums and counts modulo their size (64 and 32 bits). An answer whose JSON cannot be parsed is taken as one that is not understood; how vnx treats an exception there is not in the repository. | `C173_counted`, `C173_sent`, `C173_sum` |
| C174 | Partials are made with the difficulty of the pool | partial | Holds once no request to another pool waits and the pool has answered. Not so right after a change of the pool (C174_old), nor later if the old pool answers late (C174_late). Plot NFTs: holds if no contract goes while the node is asked about it; otherwise C174_nfts, C174_gone. | `C174_settled_partial`, `C174_old`, `C174_late`, `C174_flips`, `C174_nfts_partial`, `C174_nfts`, `C174_gone` |
| C175 | Received proofs are judged once and in time | proved | What is known is for the time between two commits (for these see C142). The address remembered for a proof sent by two farmers does depend on the schedule (C175_farmer). | `C175_known`, `C175_waiting`, `C175_schedule`, `C175_fresh`, `C175_once`, `C175_farmer` |
| C176 | An account of a wallet keeps its number, and its key | partial | Key files: proved for all histories. Numbers: proved if no call fails half-way and the last account is not a removed one at a restart. False otherwise: after a failed creation another account is removed than the one asked for (C176_other_removed); a removed account comes back in place of another (C176_swapped). Also shown: a write outside the list (C176_outside), and an account that is shown although its only key file was deleted (C176_lost). | `C176_kept_partial`, `C176_keys`, `C176_stable`, `C176_other_removed`, `C176_swapped`, `C176_outside`, `C176_lost` |
| C177 | What the node tells about a swap is what the swap does | proved | For indices 0 and 1. With any other index the node reads outside of an array of two (C177_outside). | `C177_trade`, `C177_estimated`, `C177_outside`, `C177_withdraw`, `C177_wallet` |
| C178 | The past state of a contract can be read | partial | Proved for variables, fields, arrays, maps, and for entries by a stored key. False for all fields at once, where the height is not used (C178_ignored), and for entries by a key that is a constant of the contract (C178_constant). Maps and keys: given that contracts never change a key, which the engine refuses. | `C178_var`, `C178_field`, `C178_array`, `C178_map`, `C178_entry_partial`, `C178_storage_partial`, `C178_ignored`, `C178_constant` |
| C179 | A wallet with a passphrase is locked when it is not used | proved | For accounts that have the flag with_passphrase, which import_wallet sets. An account created by create_account with a passphrase but without the flag is never locked again (C179_unmarked). | `C179_locked`, `C179_not_early`, `C179_sign`, `C179_unmarked` |
| C180 | The hash of a block settles what is in it | proved | The hash function is a parameter that must not collide on what is hashed for the two blocks. Transactions of hash revision 1 or later are the same but for what C34 says their content hash leaves out; those of revision 0 have the same content hash (C33). proof_chain before hardfork 2 is not covered (C180_chain_free). | `C180_hash`, `C180_content`, `C180_chain_free`, `C180_header` |
| C181 | A farmer's signature means one thing only | proved | What the signature of a partial covers is C137. The signature scheme itself is C165. | `C181_kind`, `C181_vote`, `C181_response`, `C181_block` |
| C182 | The balances a node reports add up | proved | Sums are modulo 2^128. With a limit, and no whitelist, entries of coins the address has no longer count toward it, so balances can be missing although there are fewer than the limit (C182_limit_hides). | `C182_totals`, `C182_total`, `C182_all`, `C182_contract`, `C182_limited`, `C182_limit_hides` |
| C183 | Offers are shown as they are | partial | Single offers are proved. False of lists: one offer whose price or amount does not fit 128 bits makes every list that looks at it fail, and anybody can deploy one (C183_hide_all); proved without such offers. False of the history: of accept it shows the whole deposit, and an entry that overflows makes it fail (C183_accept_overstated); proved for trade. | `C183_offer`, `C183_amount`, `C183_shown`, `C183_list_partial`, `C183_blocked`, `C183_hide_all`, `C183_trade`, `C183_accept_overstated` |
| C184 | A plot NFT is shown as its contract behaves | proved | For heights below 2^32 - 256. Name and server URL are not modelled. | `C184_info`, `C184_history` |
| C185 | Exchanges are shown as they are | proved | As long as what the contract holds, the volumes, the liquidity and 365 times the fees fit 128 bits. Yields and fee rates as floating point numbers are not modelled. | `C185_info`, `C185_backed`, `C185_unknown`, `C185_user`, `C185_order` |
| C186 | The list of known tokens is what the user made it | partial | False of tokens that are on the list of the network: they cannot be removed, unless added first, and then come back after a restart (C186_comes_back); proved for all others. | `C186_list`, `C186_kept`, `C186_gone_partial`, `C186_fails`, `C186_comes_back` |
| C187 | Requests of peers are answered once and reach only a few queries | partial | That what waits for a peer stays bounded is false (C187_unbounded): overflow answers are queued even while the peer is blocked, and receiving from it is never paused, only marked so. All else is proved. | `C187_once`, `C187_reach`, `C187_blocked`, `C187_resumes`, `C187_unbounded` |
| C188 | Whoever asks for a contract gets what the chain has | partial | Proved for all schedules without revert_sync. False with it, since it changes the tables without taking the lock: C188_stale (a removed contract is put back into the cache, and validation uses it until the next block is applied), C188_moves. | `C188_fresh_partial`, `C188_still_partial`, `C188_small`, `C188_ends`, `C188_stale`, `C188_moves` |
| C189 | A transaction handed to the node is pending until it was judged itself | partial | False when the queue is full: the transaction is not kept and the caller is not told (C189_silent). All else is proved. | `C189_validate`, `C189_bounded`, `C189_kept`, `C189_drains`, `C189_add`, `C189_silent` |
| C190 | What a timelord signs settles its proof of time | proved | The hash function and the signatures are parameters; it must not collide on the inputs named in each theorem. | `C190_signed`, `C190_content`, `C190_finish`, `C190_point`, `C190_point_free`, `C190_made`, `C190_apart` |
| C191 | Contracts are listed by who deployed them and by who owns them | partial | False for owners: the list has the owners at the time of deployment; a plot NFT that was handed over stays with its first owner (C191_moved). All else is proved. | `C191_by`, `C191_owned_partial`, `C191_once`, `C191_wallet`, `C191_moved` |
| C192 | The lists of transactions agree with the chain | proved | C192_cut shows that a limit within a block cuts off its last transactions. | `C192_recent`, `C192_at`, `C192_since`, `C192_height`, `C192_once`, `C192_applied`, `C192_cut` |
| C193 | What the wallet asks of an exchange is what the user asked for | proved | num_iter is not negative in the model; funding of the transaction is C72, and that the address passed as a string is read back is C76. | `C193_trade`, `C193_currency`, `C193_add`, `C193_rem`, `C193_sent` |
| C194 | What the wallet asks of an offer is what the user asked for, whatever happened in between | proved | Funding of the transaction is C72; addresses as strings are C76. | `C194_trade`, `C194_accept`, `C194_whole`, `C194_owner` |
| C195 | An address is found with the wallet that has it | partial | Holds unless the saved list of addresses is longer than the number of addresses set (C195_stale). | `C195_account_partial`, `C195_wallet_partial`, `C195_first`, `C195_stale` |
<!-- status table end -->

## Findings

Behaviour of the code, found while modelling, that a user would not expect. "Proved" names the theorem; the
others were seen when reading and are not formalised.

### Database

* After a flush the log holds no version, so reopening gives the highest version found in a block plus one, which
  can be lower than the committed version: `C07_version_lost_after_flush`, `C07_version_lost_after_empty_flush`.
  `DataBase::recover` then rolls all tables back: `C08_flush_rolls_database_back`.
* `DataBase::commit` is not atomic when one table refuses: `C08_commit_not_atomic`.
* A crash while a compaction has two or more inputs left to delete makes a later revert or merge lose committed
  data: `C06_two_leftovers_lose_data`.
* A flush in the middle of a version can lose data later (`undisciplined_flush_loses_data`). The node does not do it.
* `commit` with automatic flush while an iterator is alive throws after the version has advanced:
  `C44_commit_can_throw_after_committing`.
* `seek_next` of an absent key skips its successor, so `next()` after `prev()` can skip keys: `C10_turn_skips`.
  `seek_for_prev` above all keys gives an invalid iterator: `C10_seek_for_prev_above`.
* A torn log tail is not removed at restart. The marker written over it has 26 bytes; the bytes behind it can be
  read as records at the second restart. A value chosen by a third party can in this way bring in writes and
  commits that never happened: `C71_stale_tail` (for every checksum function).
* A damaged record inside the log is skipped and later records count: `C71_damage_drops_committed`. The checksum
  does not cover the size fields.
* `multi_table::insert_many` that runs out of indices keeps the first of the new values (part of `C12_insert`).
* `find_range` with the greatest possible key as exclusive end never returns that key (Node_api.cpp:732).
* `table::find_greater_equal` with keys does not compile if it is ever used.

### Virtual machine

* `COPY a, [a]` and `POP_BACK a, [a]` read freed memory: `C52_copy_use_after_free`,
  `C52_pop_back_use_after_free`. `RET` with a large offset iterates past the end: `C52_ret_past_end`.
* `POP_BACK` (`C18_pop_back_shrinks`) and `ERASE` do not check `CONST`.
* The unspecified evaluation order of arguments changes the gas of a failed instruction:
  `C53_failed_gas_differs`.
* Engine version 0 misses overflows of `MUL`: `C21_mul_version0_wrong`.
* The database drops reference counts: `C22_counts_forgotten`, `C22_erase_depends_on_layer`. Contracts that share
  the first 20 bytes of their address share storage: `C22_prefix_shared`. One key can get two variables:
  `C22_key_twice`.
* Array keys compare by address in memory but with their size in the database index.
* Bytecode operands that an instruction does not have are dropped on serialisation: `C16_junk_dropped`.
* `CLR` ignores the stack offset; `RCALL` writes its result without a bounds check; constants may contain crafted
  references; a contract can overwrite the cell of the heap pointer; the price of `SHA256` is computed in 32 bit.

### Transactions and blocks

* The cache of checked signatures is filled with zeros at the start, and an entry of zeros counts as checked. A node whose slot was not
  yet overwritten says that a signature of zeros by a key of zeros for a hash of zeros is good (`C165_zero`), any other node throws
  because the key cannot be read (`C165_zero_after`). A contract can ask this with the instruction VERIFY, so one call of one contract
  succeeds on one node and fails on another (`C165_fork`): the nodes then disagree on the block. A plain signature by a user
  is not affected, since no transaction has the id zero.
* A transaction whose execution result reports `TXFEE_OVERRUN` by its i/o cost is put into a block that the node
  itself then rejects: `C55_overrun`.
* The same happens with a transaction whose maximum fee is exactly its fee, when that fee was rounded down:
  `C55_rounding`.
* 128 bit sums wrap: `C24_wraps`. The reported supply is too high after blocks that burn fees: `C58_burnt_fees`.
* A block with a null operation crashes validators: `C57_null_operation`.
* Hash revision 0: argument lists `(1, false)` and `(true, 0)` have the same id: `C33_revision0_same_id`.
* Flags and solution index of inputs in an execution result are not covered by the content hash:
  `C34_result_flags_not_covered`.
* MultiSig of transaction version 0 is malleable: `C32_version0_malleable`.
* `validate_for_block`: a transaction that is dropped has already written to the shared context. A task skipped
  by the deadline returns without a signal, which can leave others waiting.
* `make_block` without a reward address but with a reward gives an invalid header.
* The space difficulty is not bounded by `validate_diff_adjust`; it decreases by one even when exactly the
  expected number of proofs was found.
* The gas of a failed remote call is not charged. Before hardfork 2 implicit deposits follow the order of an
  unordered map. The error message of the VDF check and the reported failed transaction depend on the schedule.
- A block that a node assembles can be invalid (`validate_for_block`, `Node_update.cpp:844-887`): all candidates are
  executed together on one storage, then some are left out for lack of funds or space. A later one that
  saw what a left out one wrote stays in, with a result that cannot be reproduced: `C87_left_out`.
- Tasks that find the deadline passed return without `context->signal` (`Node_update.cpp:712-715, 801-804`). With two
  or more threads, a task that looked at the clock in time can wait for one that is then skipped; `threads->sync()`
  never returns: `C89_stuck`.

### Encodings

* The plot symbol decoder refills its buffer once per symbol and fails on some valid streams:
  `C36_round_trip_fails`, `C36_bound_sharp`, `C36_unaligned_start_fails`.
* Parsing a `fixed128` that does not fit wraps silently: `C43_parse_wraps`, `C43_parse_truncates`.

### Contracts

* Swap: a dry run removes liquidity for good (`C51_dry_run_burns`); the product of the balances can fall and a
  round trip can make a profit (`C41_product_can_fall`, `C41_round_trip_profit`); a pool with one side empty can
  be drained (`C41_one_sided_drain`); fee shares are not proportional.
* Smart wallet: a plan with interval 0 lets anybody drain the wallet to the target: `C66_zero_interval`.
* Liquid token: the owner can take the backing with `recover`: `C68_recover_drains`.
* Horse race: 20 Newton steps only; the holder of most tokens cannot sell all in one call.
* Block files have no checksum: a file of zeros, as a power failure can leave it after the rename, is opened as an empty block
  (`C163_zeros`; the log is already cleared then), and a changed byte is not noticed (`C163_changed`).
* The vote on the reward is not withdrawn when prices get old: `update_control` returns without setting it to 0 whenever a
  file has to be downloaded again, also if that fails each time (`C161_stale`).
* Poker: `show()` passes ranks instead of hands to `check_win`, which aborts, so whoever shows first wins (`C155_no_second`,
  `C155_worse_wins`); a card can be named four times (`C155_repeated`); equal kinds are not compared as in poker (`C153_not_poker`);
  `leave` never works because the deadline is only set when the second player joins (`C156_leave`); a seed sent as a binary makes
  `compute` abort for ever, and with it the end of the last round (`C156_locked`, `C156_stuck`); the first player can join twice
  (`C157_twice`); a fold counts as an action and lowers the number of active players, so a round can end before all were asked
  (`C158_no_turn`); `bet()` is not payable.
* `payable` is not enforced by the engine.
- `get_swap_trade_estimate` takes `info.tokens[i]` of an array of two without a check of `i` (Node_api.cpp:1417, `C177_outside`); the web API does
  the same with an index from the query (WebAPI.cpp:1558). Both are reached by a request with `index=2`.
- `get_offer` throws if the inverse price of an offer does not fit 128 bits (the contract takes 256), or if the amount that buys all of it does not.
  `fetch_offers` does not catch this, and all lists of offers are made by it. Anybody can therefore make `get_offers`, `get_recent_offers`
  and `get_recent_offers_for` fail on every node: deploy an offer with inverse price 1 and send it 2^65 units of a token of one's own
  (`C183_hide_all`). The paging query fails while the offer is among those it reaches. The funds in the offers are not touched.
- The trade history takes the deposit and the price of a call for what was traded. `accept` returns part of the deposit when less is on offer: the
  history then shows more than was traded, on both sides (`C183_accept_overstated`). The product of deposit and price may also not fit
  128 bits although the call succeeded: then `get_trade_history` fails as long as the entry is among those asked for.

### Wallet

* Completing a transaction that already has inputs does not count them against the balance, so it can draw more
  than there is: `C72_inputs_not_counted`.
* The fee limit and the check that the sender can pay use the cost before signatures are added:
  `C72_fee_above_max`. Both are cut to 32 bits.
* Signing again a transaction that has signatures can add one twice, which makes it invalid: `C74_second_pass`.
* If the sender is not an address of the wallet, the first signature belongs to somebody else although the node
  takes it as the sender's.
* The memo of the options is copied to inputs without the length check of outputs.
* `make_offer` accepts prices that round to zero: `C77_offer_price_zero`.
* Seed words are accepted with either of two checksums: `C75_second_phrase`.
* Address texts: the human-readable part and the low four bits of the last symbol are ignored
  (`C76_not_canonical`); a text that cannot be read becomes the zero address when it arrives in a typed message
  (`C76_silent_zero`).
* `Wallet::reserve`, `release` and `mark_spent` do nothing. A transaction confirmed before the window the wallet
  asks the node about stays subtracted until it expires.
- A new account gets the number `max(max_key_files, wallets.size())` (Wallet.cpp:966), but its settings go to the end of `accounts`
  (line 968), and the other functions take the two to agree. They do not after a failed attempt, as `add_account` makes room before it
  reads the key file (line 920): then `remove_account` hides the next account (`C176_other_removed`). They do not after a start at which the
  last account is a removed one: `set_address_count` then brings the removed account back in place of the new one (`C176_swapped`).
- `set_address_count` writes to `wallets[index]` without looking at its size (line 1083, `C176_outside`).
- If the permissions of a key file cannot be set, `add_account` throws after the wallet is in the list; `import_wallet` deletes the key file, the
  wallet stays visible until the next start (`C176_lost`). The seed of `create_wallet` without words is random and nowhere else.
- `create_account` takes a passphrase and, in its settings, a flag for having one, and does not compare them. With the first and without the
  second the account is locked, and once unlocked stays so (`C179_unmarked`). At the next start `add_account` unlocks it with the empty
  passphrase (Wallet.cpp:948): it then has other addresses (not modelled). `import_wallet` sets the flag (line 1008).
- `rem_token` looks only at the user's own list, and takes the token out of memory. A token on the list of the network cannot be removed; if the
  user has added it as well, the removal succeeds, and the token is back after a restart (`C186_comes_back`).
- `ECDSA_Wallet::unlock` shortens the list of addresses to the number set, but leaves the others in `index_map`. An account with a passphrase
  is made with the list saved before (src/Wallet.cpp:928-936), so after `set_address_count` to a smaller number and `unlock`,
  `find_wallet_by_addr` still finds addresses that `get_all_addresses` does not list (`C195_stale`).

### Node

* C79: `fork_to` to a fork that leaves the committed chain, failing after one of its blocks was applied, does not
  come back: the handler looks for the old blocks down to `state_hash`, which by then is the alternate block and
  not among them, so it walks to genesis and throws when validating it. The node stays on the partial alternate
  chain, `reset()` is skipped, and the following rounds mark the blocks of the old chain invalid
  (`C79_deep_switch_fails`, `C79_deep_switch_stuck`). An attacker needs one valid alternate block at the height of a
  committed block, and a heavier invalid one on top.
* C79: an exception of `apply` (not of `validate`) inside `fork_to` leaves the chain cut at the fork point
  (`C79_apply_fails`).
* C83: `verify_proof` does not compare a block's height with its predecessor's. A block on top of the peak that
  claims the height just above the root makes the peak the new root, without any commit delay
  (`C83_forged_height`); the height is checked only after that.
* C81: the comparison of forks that start from different blocks is circular, so the choice depends on the order of
  arrival (`C81_cycle`).
* C81: `commit` drops the siblings of the committed block and stores only those with a verified proof, but children of
  a dropped block stay in the tree and stay `is_connected` (it is only ever set for blocks just above the root).
  `verify_proof` then throws and marks them invalid for good, so a node that got a line of blocks too early never
  follows it, and a node that got it later does (`C81_lost_sibling`).
* `update` divides by `(peak->vdf_height - root->vdf_height) * avg_proof_count`; equal VDF heights would be
  undefined behaviour (`commitDelay` returns `none`).
* C93: a node that is not in sync, or that reverts below its root, does not put the transactions of the reverted
  blocks back into its pool (`C93_lost`).
* Entries put back after a revert are taken without looking at the balance; until the next purge a sender may have
  promised more than it has (the example in `Node/PropsPool`).
* C94: with a memo and a limit, `get_history` may give only a part of a block (`C94_memo_incomplete`); the rest is
  skipped by a query that goes on below that height. A range with `since > until` gives the block at `until`
  (`C94_empty_range`).
* C95: a pending transaction that concerns two of the addresses is shown twice (`C95_repeated`); the wallet asks for
  all its addresses at once. Pending entries are not filtered by type or currency (`C95_unfiltered`).
* C171: what pending transactions take is subtracted from the balance with a lower bound of zero, but shown in full as reserved. If the coins are gone
  otherwise (spent by another wallet with the same seed, or a block taken back), the total shows coins that are not there (`C171_too_much`).
* C168: a wallet asks for height, balances and confirmed transactions in separate calls (Wallet.cpp:644-650). If the block with
  its own transaction comes after the balances and before the list, the transaction is no longer pending but the balances are those
  before it: the coins count as free until the next refresh (`C168_race`). When that block is taken back later, the
  wallet does not remember its transaction, which can still be confirmed (`C168_reverted`). Either way the next payment can be
  one that the node refuses.
* C96: a time lord can publish wrong proofs. A request that arrives late sends the computation back, but an `update`
  already queued takes the old checkpoints with the new infusion (`C96_race`). A request of an abandoned chain that no
  newer one overlaps at its end is answered although its infusion was erased (`C96_stale`). `stop_vdf` forgets the
  infusions but not the requests (`C96_stop`). Nodes reject these proofs.
* `history[start]` at TimeLord.cpp:155 inserts the zero hash when the point is not in the history, and the computation
  restarts from it even if the request carries the right input (`C96_zero`).
- `read_storage(contract, height)` does not use `height` (Node_api.cpp:794 reads without one): all fields are those of now (`C178_ignored`). The
  functions next to it use theirs.
- `read_storage_entry_addr` and `read_storage_entry_string` find a key by `storage->lookup` alone (line 839). Keys that are constants of the contract
  are not in that index, an engine looks among its constants first (Engine.cpp:123-126): such an entry is reported as missing though it is
  in the map (`C178_constant`). `read_storage_map` has a comment about just this (line 870).
- The balance table keeps entries whose balance has become zero, and the limit of `get_balances`, `get_total_balances` and
  `get_all_balances` counts them. An address that once held more kinds of coins than the limit (100 for `/address` and `/balance` of the
  HTTP interface) may thus be shown with none at all, although it holds some (`C182_limit_hides`).
- `revert_sync` calls `revert` and `reset` without `db_mutex` (Node.cpp:538-546), while calls of the API run in other threads. A call can see two
  states of the chain (`C188_moves`), and can put a contract that was reverted back into the cache after it was cleared; validation of the next
  block then finds it (`C188_stale`). Applying a block clears the cache and ends this (`C188_ends`). The accesses are also data races.
- `add_transaction` with a full queue returns as if all was well, but the node does not keep the transaction (Node.cpp:427-430): it only passes it on
  to peers, and only when called by the user. `get_transaction` does not find it (`C189_silent`).
- `get_contracts_owned_by` knows only who owned a contract when it was deployed (Node.cpp:1200-1202, 1217-1219). `transfer` of a plot NFT
  (contract/plot_nft.js:74-79) changes nothing here: the wallet of the first owner goes on showing it, and counts its coins as its own
  (Wallet.cpp:647-655), while the wallet of the new owner does not (`C191_moved`).
- `get_tx_ids` goes through blocks from the newest on, but through the transactions of a block from the first: with a limit that cuts a block
  the newest transactions are the ones left out (`C192_cut`).

### Proofs of space

- `pos::verify` does not check that the 256 values are below `2^ksize`, and no caller does (`C103_case`,
  and the example after C105): a proof for `ksize` 29 may use any 32 bit value for `x`. So a plotter can fill table 1 of a plot
  with up to `2^32` entries whatever `ksize` it claims.
- `compute` allows `xbits = ksize = 32`, for which `compute_f1` (verify.cpp:54) shifts a 32 bit number by 32 and its
  loop never ends; a plot header with these values is enough (not modelled further).

- Repeated values: `compute` on the CPU makes a set of the values, the GPU instead replaces each repetition by the next value
  that is free (cuda_recompute.cu:544-548). The additional value may be part of a second proof, then a node with a GPU rejects
  what every other node accepts (`C106_differs`, for toy hashes). With real hashes a repeated value is expected in about 1 of
  10^5 proofs for `ksize` 32; that the additional value completes a tree is then improbable, not impossible.
- `rotl_32(v, 0)` (util.h:52-59) shifts right by 32, which is undefined in C++; `calc_mem_hash` executes it in every iteration
  (mem_hash.cpp:67 for `i = 0`). Both usual outcomes give the same result (`ShrOk`).
- The GPU path throws for `xbits + 8 >= ksize`, the CPU path for `xbits > ksize` only: for `ksize` 8 a node with a GPU rejects
  every proof.
- A device with at most 512 resident threads would get a buffer of less than 256 entries, then `N = 0` (C106_buffer).
- C167: when a GPU fails, only the requests it was computing are reported as failed (cuda_recompute.cu:594-607). If it was the
  last one, requests still in the queue are never answered and their callers wait for ever (`C167_left_behind`): a node then
  stops verifying proofs instead of going on with its CPU.
- A device thread that fails to get memory before `have_cuda = g_devices.size()` (line 360) has already counted itself out
  (line 626), and the assignment overwrites that. Requests are then accepted with no device (`C167_lost_count`).
- `cuda_recompute_shutdown` gives only the signal for requests, so a caller that waits for a request still in the queue
  never sees the shutdown (`C167_shutdown`).

### Proofs of time and challenges

- Nothing checks `start` (or `vdf_height`) of a proof of time: the verification recomputes `num_iters` iterations from
  `input`, `prev` and `reward_addr` only, and `find_vdf_points` ignores `start`. But `find_next_vdf_points` looks points up by
  `start + num_iters`. A valid proof with a wrong `start` can make a node build a block from it that every node refuses
  (`C109_wrong_start`); and since a proof with known input and output counts as verified already
  (Node_update.cpp:68), a copy of an honest proof with another `start`, signed by anybody, that is verified first keeps the honest
  one out of the index (`C109_first_only`, `C109_displaced`).
- `verify_vdf_success` returns early when the chain of points has `max_vdf_count` entries (Node_verify.cpp:364-367) and does not
  erase the proof from `vdf_verify_pending`. Each time one slot is lost; without a GPU there is only one (Node.cpp:146), and the
  node never verifies a VDF again until it is restarted (`C110_leak`, `C110_stuck`).
- `vdf_reward_addr` of a block is not compared with the points: the comment at Node_validate.cpp:114 says that
  `find_vdf_points` does it, but it does not. A farmer can name their own address for all VDFs of their blocks and so take the
  reward of time lords (`C112_any_address`, `ex112`).
- `commit` erases by output in `vdf_tree` what expires in `vdf_index` (Node.cpp:957): points with the same output and a later
  position go from the tree but stay in the index.

### The contract compiler

- A function gets a final `return` only when the last instruction is not one already (Compiler.cpp:1139-1141). When the text ends in
  `if(x) { return 1; }` the last instruction is a return, but the jump of the `if` leads behind it: with `x` false execution goes on
  in the function that comes next in `function_map`, which may be any public or private function, or past the end of the code
  (`C115_falls_through`).
- The jump of `assert` goes to `code.size() + 2` (Compiler.cpp:1985). The size is taken in the same C++ call as the code for the
  condition is produced, in unspecified order: from the left every `assert` of more than a variable fails (`C117_assert_order`).
  A message or code that needs instructions makes every `assert` fail for either order (`C117_message`).
- A compound assignment does not check whether the variable is a constant (Compiler.cpp:1513-1521): `const c = x + 1; c += 1;`
  compiles and changes `c` (`C116_const_changes`).
- `a = b = c` is grouped from the left; `b` is not assigned (`C114_chained_assignment`). `&&`, `^^`, `||` rank like `&`, `^`, `|`
  (Compiler.cpp:533-538; `C114_logical_like_bitwise`) and do not short-circuit.
- The number of bits to shift by is cut to 64 bits: `x >> 2^64` is `x` (`C113_shift_wraps`).
- A variable to the left of an operator is read after the right operand is computed: in the code `x + x++` uses the new `x` on the left.
  Such expressions are outside of the model's source language (operands have no side effects) except through calls, which cannot
  change local variables. Not a theorem.

### The Router

- C169: to verify the id of a peer a node has it sign a random challenge, but every node signs whatever it is asked to
  (Router.cpp:168-171, 1329-1333) and the message does not say who asks. So an outsider who is connected to both A and B tells A that
  he is B, has B sign the challenge he got from A, and is accepted as B; A closes its connection to the real B (`C169_relay`,
  Router.cpp:1474-1481). With this he can cut any connection between two nodes he can reach.
- C170: answers to `get_peers` are taken whether or not they were asked for (Router.cpp:1489-1500), ten addresses from each, and stay in
  `peer_retry_map` until dialled, which does not happen while enough peers are synced. A peer can fill the memory this way (`C170_unbounded`);
  `max_peer_set` limits only our own requests. `connect` goes through the whole list each time.
- C170: attempts are listed by name, so an address that belongs also to a fixed peer with a name is dialled twice (`C170_twice`). A peer that
  answers about its height before its type is kept among the synced full nodes although it is none (`C170_light`, Router.cpp:1462, 1521). A peer
  that answers `get_id` with our own id has its address put among our own for good (`C170_own`, Router.cpp:1445-1449): several nodes behind
  one address can be cut off that way. `is_public_address` does not know the private range 172.16.0.0/12 (`C170_private`).
- `send_queue` of a peer is a `std::map` keyed by the time in microseconds, filled with `emplace` (Router.cpp:1184, Router.h:104). Two
  messages that become due for a peer in the same microsecond share a key and the second is dropped; it counts as relayed, so that peer
  never gets it from this node (`C122_time_taken`). The times are `now + interval * i`, so the two need not arrive together
  (`C122_time_taken_later`).
- A VDF that was relayed before verification, on the credit of its timelord, does not enter `vdf_history` when it is verified, because
  the entry is made only where the message is relayed (Router.cpp:347-355). A peer that connects then does not get it
  (`C123_withheld`).
- A return is matched to a request by its id alone, and ids count up from zero over all peers (Router.cpp:410, 419, 527, 664, 1431-1435): a peer can
  answer the requests sent to others and so end get_blocks_at or fetch_block alone (`C124_one_peer`, `C127_unchecked`).
- A peer that is lost and comes back while a request is open is asked twice, as `request_map` keeps the first request; with two answers
  it can be counted as failed and as succeeded (Router.cpp:572-585), so one peer can stand for two (`C124_counted_twice`).
- The blocks for get_blocks_at are not compared with the height (Router.cpp:540-557, `C124_other_height`), and the block for fetch_block
  not with the hash (Router.cpp:672-683, `C127_unchecked`).
- An exception in reply to get_block neither counts as failed nor removes the peer from `got_hash`, but resets the timeout. With
  `min_sync_peers + 3` such peers no other peer is asked (Router.cpp:558-566, 589-591) and get_blocks_at stays open (`C125_stalled`).
- `on_request` answers a blocked peer with an overflow, through `send_to` with `reliable` left at true, and then sets `is_paused`; but `pause` is
  called nowhere, although `on_resume` calls `resume` "as well again". So a peer that does not read but goes on sending requests makes the queue of
  answers for it grow without bound, as far as the Router is concerned (`C187_unbounded`).

### Catching up

- When a call of `get_blocks_at` fails, the node lowers `sync_pos` but does not ask again until the next answer or update
  (Node.cpp:575-579). If it was the last call of a pass that already found a height without blocks, the next update starts the next
  pass at that height, or ends the sync (Node_update.cpp:376-390): the failed height is never asked for again, its block can be
  committed without an answer (`C129_unanswered`) and the node takes itself to be in sync (`C130_hole`).
- `start_sync` and `revert_sync` neither clear `sync_pending` nor disown the calls under way (Node.cpp:523-546). An old answer without
  blocks far above the new root becomes the peak; when the limit ahead of the root stops the node from asking, the pass ends there and
  the next goes on just below that peak, leaving out the heights between (`C128_gap`).
- With several blocks of unknown predecessor at the start height the walk back lowers `sync_start` once for each of them and asks for
  all those heights at once (Node.cpp:606-617). Answers for any but the lowest do not continue the walk.
- `max_sync_jobs = 0` is a division by zero (Node.cpp:628).
- `calc_hash` of a block begins with the type hash of the class, and `get_header` makes a `BlockHeader` of a `Block`. The header that
  `get_block_header` gives therefore does not have the hash that its own `calc_hash` computes, and its `is_valid` is false
  (`C180_header`); the node calls `is_valid` on whole blocks only.
- Before hardfork 2 `proof_chain` is neither hashed nor checked, so a peer can put anything there without changing a hash of the block
  (`C180_chain_free`). The first block from hardfork 2 on begins the chain anew (utils.h:152-159), so it has no effect.

### Farming

- `get_qualities` begins at the first park whose first value is below the end of the range, also when it is above its begin
  (Prover.cpp:76-86); entries in range of the park before are not found (`C132_missed`). The shift of 24576 makes up for entries spread
  evenly to less than that; at k32 deviations of some 2^15 are to be expected.
- After 101 parks the search throws (Prover.cpp:57-61); `park_size_y = 0` is a division by zero.
- If the meta data of one entry cannot be read, the lookup of the whole plot fails and all other entries are lost.
- `send_response` cuts the name of the harvester to 1024 characters (Harvester.cpp:77), `ProofResponse::is_valid` wants fewer than 1024
  (ProofResponse.cpp:18). A harvester with such a name never delivers anything (`C135_long_name`).
- The queue of challenges is keyed by height: a second one for the same height within the 10 ms replaces the first, which is not looked
  up when sent again either (`C136_replaced`). Challenges that come while the harvester is not ready are dropped.
- The key of a plot is checked only when it is loaded: it is farmed on when the farmer no longer has the key (`C172_old_key`); a file
  replaced by another plot keeps being farmed as the old one (`C172_replaced`); if a directory cannot be listed once, all its plots are dropped
  until the next reload (`C172_which`).
- The difficulty of a pool is stored when it is answered, without asking if the contract is still at that pool (Farmer.cpp:204-213): it is
  the old pool's until the new one answers (`C174_old`), and again if the old one answers later (`C174_late`), until the next query after
  `difficulty_interval`. While two harvesters name different pools for a contract, each message makes a request (`C174_flips`).
- An answer of the node about a plot NFT that is no longer used puts it back into `plot_nfts` (`C174_nfts`); one that says there is none
  leaves what was known (`C174_gone`). After one failed request the additional update never comes (`job` is not counted down, Harvester.cpp:682-690).
- A plot in two files is asked once but counts twice in the reported space (`C172_space`).
- `reload` drops `is_ready` for three seconds and clears `already_checked` if any file was opened, also if its key is unknown: one such file
  makes every reload do so (`C172_unsettled`, Harvester.cpp:586-594).
- `Partial::calc_hash` puts fields of varying length next to each other: what follows `harvester:` in the address of a pool may as well
  be part of the name of the harvester (`C137_ambiguous`). For proofs without contract the hash leaves out the values, the seed and the
  size of the proof (`C137_og`).
- `verify_partial` takes the difficulty from the proof itself: that it is the one the pool set is for the pool to check (`C138_approved`).
- A response is judged once: one that cannot be verified yet, for example as the challenge is not found, is dropped and not tried again
  (Node_update.cpp:179-188, `C175_once`). Of two farmers who send the same proof the one whose thread comes first is remembered (`C175_farmer`).

### Validators, votes, dependencies

- `get_all_depends` recurses before it checks the depth (Node.cpp:1747-1765), and a contract can be deployed before those it depends on,
  so chains of any length exist and the recursion is as deep as the longest (`C139_deep`). An exception ends it at once.
- `max_history` is a setting of each node: nodes with different ones can take different farmers as validators (`C140_setting`).
- The vote for a block that replaced the one voted for does not look at the best proof (Node_update.cpp:454-466, `C141_weaker`).
  Votes are kept in memory only and never dropped.
- `add_proof` ignores a proof it knows, so that a farmer whose proof came first as part of a block is not recorded (Node_verify.cpp:28-40).
- `merge_sign` takes an input with the number of a signature not yet there for signed as soon as that number exists (`C143_dangling`).
  Nothing in the C++ code calls it but the API.

### Stored blocks and indexes

- Neither `write_block` (Node.cpp:1877-1890) nor the check at start (Node.cpp:1366-1374) compares the hash of the block it reads with
  the one asked for. After the end of the file was lost while the index was kept (`flush` is no `fsync`), the next block lands at the
  offset of the lost one and is served under its hash (`C145_other_block`). Only the top block of the chain is checked at start.
- The hash of a block does not cover the signature of the farmer: the first block stored under a hash stays.
- `swap_liquid_map` is not updated by `rem_all_liquid` without argument, since the number of arguments must be above zero
  (Node.cpp:1243, `C146_remove_all`), nor by `switch_pool` (`C146_switch`; a later `rem_liquid` makes the record wrap to near 2^128).
- The key of the record has the address that the operation names, not the resolved one (Node.cpp:1244 against 1226): liquidity added by
  the transaction that deploys the exchange is recorded for the zero address, and `get_swap_liquidity_by` throws from then on for this
  user (`C146_deploy`), and with it `Wallet::update_cache` (Wallet.cpp:648).
- `farmer_ranking` is raised before `write_block` (Node.cpp:1131-1145): when writing fails, `revert` starts from the old peak and does not
  lower it again (`C147_failed_write`). Farmers that have no blocks left stay in it with zero (`C147_zero`).
- `farmed_block_info_t.reward` has 32 bits, a reward 64: rewards of 4294.967296 MMX and more, which large fees make possible, are recorded
  modulo 2^32 (`C149_large_reward`).
- `get_farmed_blocks` lists blocks twice for keys given twice (`C148_twice`).

## Tests against wrong programs

`tools/mutate.py` applies one edit to a scratch copy, rebuilds and appends the outcome to `seeded/LOG.jsonl`. An
edit that breaks a claim and leaves all theorems standing leads to a stronger theorem (field `tightened`). An
edit counts as found when any proof of the project breaks, that of a helper lemma or of a concrete case included; this alone does not
show that the property theorem itself became false.
