{"id": "C01", "title": "Versioned point reads return the latest surviving write", "statement": "After any sequence of insert, commit, flush and revert calls on a table, find(key, v) returns the value of the most recent insert of that key whose version is at most v and which was not undone by a later revert, and returns nothing when there is no such insert.", "quantifier": "all keys, all read versions, all histories of insert/commit/flush/revert of any length, all numbers and shapes of on-disk blocks", "why_tests_cant": "The answer depends on which of the in-memory map, its index, or any of arbitrarily many blocks at several levels holds the entry; the number of layouts is unbounded.", "anchors": ["src/DataBase.cpp: Table::insert, Table::find, Table::lower_bound, Table::commit, Table::flush, Table::revert, Table::rewrite, Table::check_rewrite"]}
{"id": "C02", "title": "Flush and compaction never change what a reader sees", "statement": "Calling flush, or any number of block merges happening inside it, changes neither the result of any find at any version nor the sequence of key/value pairs produced by a full iteration.", "quantifier": "all table states reachable by any history, all keys and read versions, any merge factor", "why_tests_cant": "Compaction is triggered by block counts at several levels and by reverts that shorten blocks; tests see a handful of layouts.", "anchors": ["src/DataBase.cpp: Table::flush, Table::rewrite, Table::check_rewrite"]}
{"id": "C03", "title": "Revert undoes exactly the newer versions", "statement": "revert(v) leaves every write made at a version below v readable exactly as before and makes every write at version v or later unreadable; histories that differ only in the reverted writes are indistinguishable afterwards, also through further operations.", "quantifier": "all histories before and after the revert, all target versions, all keys and read versions", "why_tests_cant": "Reverts partially rewrite blocks, drop others and patch the memory index; correctness must hold for every split point.", "anchors": ["src/DataBase.cpp: Table::revert"]}
{"id": "C04", "title": "Version discipline: commits only move forward, reverts only backward, refused calls do nothing", "statement": "commit(v) succeeds exactly when v is larger than the current version and is not the reserved value, revert(v) exactly when v is not larger than the current version, and inserts, reverts and flushes are refused while an iterator is alive; a call refused for one of these reasons changes neither the readable content nor the version nor the log.", "quantifier": "all histories and all version arguments", "why_tests_cant": "It is a statement about every interleaving of accepted and refused calls.", "anchors": ["src/DataBase.cpp: Table::commit, Table::revert, Table::insert, Table::flush, Table::Iterator::Iterator"]}
{"id": "C05", "title": "Reopening after a crash between calls recovers exactly the committed writes", "statement": "If the process dies at any moment between two calls and an arbitrary suffix of the not yet flushed log output is lost (possibly cutting a record in half), reopening the table yields every write that was committed and no write of the uncommitted version.", "quantifier": "all histories, all lengths of surviving log prefix not shorter than the last flush of the log, all keys and read versions", "why_tests_cant": "Crash points and history lengths are unbounded and a test cannot enumerate every torn log.", "anchors": ["src/DataBase.cpp: Table::Table, Table::insert, Table::commit, read_entry_sum, write_entry_sum"]}
{"id": "C06", "title": "A crash inside flush, revert or compaction loses nothing that was committed", "statement": "If the process dies between any two file operations of a flush, a revert or a block merge, reopening the table yields exactly the committed writes of the state before or after that call.", "quantifier": "all table states, all crash points within the sequence of file operations, all keys and read versions", "why_tests_cant": "Each operation performs a state dependent number of file creations, renames and removals, and each prefix is a possible disk.", "anchors": ["src/DataBase.cpp: Table::Table, Table::flush, Table::revert, Table::check_rewrite, Table::rename"]}
{"id": "C07", "title": "The committed version number survives a restart", "statement": "After a commit(v) has returned, reopening the table reports current_version() equal to v.", "quantifier": "all histories of insert/commit/flush/revert ending in a successful commit", "why_tests_cant": "The version is recovered from two different sources (blocks and log) depending on the flush history.", "anchors": ["src/DataBase.cpp: Table::Table, Table::commit, Table::flush, Table::current_version"]}
{"id": "C08", "title": "Database recovery brings all tables to one common version", "statement": "recover() leaves every table at the same version, the smallest version any of them had, and every table then reads as it did at that version.", "quantifier": "all numbers of tables, all version skews, all table contents", "why_tests_cant": "Number of tables and skews are unbounded; the property relates all tables at once.", "anchors": ["src/DataBase.cpp: DataBase::recover, DataBase::min_version, DataBase::revert"]}
{"id": "C09", "title": "Forward iteration lists every live key once, in order, with its newest value", "statement": "Starting from seek_begin() or seek(key) and calling next() until the iterator is invalid yields exactly the stored keys (not smaller than key), strictly ascending in comparator order, each with the value find(key) returns.", "quantifier": "all table states, all start keys", "why_tests_cant": "The iterator merges the memory index and arbitrarily many blocks that may hold several versions of the same key.", "anchors": ["src/DataBase.cpp: Table::Iterator::seek, Table::Iterator::next, Table::Iterator::seek_begin"]}
{"id": "C10", "title": "Backward iteration and direction changes enumerate neighbours", "statement": "seek_last()/seek_prev(key) followed by prev() yields the stored keys (smaller than key) strictly descending with newest values; and after any mixture of prev() and next() the iterator stands on the neighbour of the previous key in the requested direction.", "quantifier": "all table states, all start keys, all sequences of prev/next calls", "why_tests_cant": "Which neighbours exist in which block is state dependent; only some layouts show a skipped key.", "anchors": ["src/DataBase.cpp: Table::Iterator::prev, Table::Iterator::seek_prev, Table::Iterator::seek_next, Table::Iterator::seek_last, Table::Iterator::seek_for_prev"]}
{"id": "C11", "title": "Table keys sort like the values they encode", "statement": "For unsigned integers, fixed size hashes and pairs/tuples of them, the byte string written as table key is injective and the table comparator orders two encoded keys exactly like the lexicographic order of the values; decoding an encoded key gives back the value.", "quantifier": "all key values of the supported widths", "why_tests_cant": "2^64 and larger domains.", "anchors": ["include/mmx/table.h: uint_table, uint_uint_table, hash_uint_table, hash_uint_uint_table", "include/mmx/multi_table.h: multi_table", "src/DataBase.cpp: Table::default_comparator"]}
{"id": "C12", "title": "Multi-value tables return values in insertion order", "statement": "After any sequence of inserts into a multi-value table, find(key) returns exactly the values inserted for that key in insertion order, find_last returns the last n of them, and values of other keys are never returned; running out of indices is refused and never overwrites an old value.", "quantifier": "all insertion sequences, all keys, all limits", "why_tests_cant": "Unbounded histories; correctness relies on the order of composite keys and on locating the last index by a reverse seek.", "anchors": ["include/mmx/multi_table.h: multi_table::insert, insert_many, find, find_last, find_range"]}
{"id": "C13", "title": "A damaged log tail never resurrects or corrupts writes", "statement": "Replaying a log that consists of valid records followed by an incomplete record yields exactly the effect of the valid records; parsing what was written gives back the same records, and no strict prefix of a record is accepted as a record.", "quantifier": "all record sequences, all cut positions", "why_tests_cant": "Every byte offset of every log is a case.", "anchors": ["src/DataBase.cpp: read_entry_sum, write_entry_sum, Table::Table"]}
{"id": "C14", "title": "Smart contract values survive serialization", "statement": "Deserializing the bytes produced by serializing any variable yields an equal variable (same type, value and, when requested, reference count and flags), consumes exactly those bytes, and never succeeds on a truncated input.", "quantifier": "all variables of all types and sizes, all option combinations, all truncation points, any trailing bytes", "why_tests_cant": "Unbounded values; a wrong width for one range of integers would corrupt contract state silently.", "anchors": ["src/vm/var_t.cpp: serialize, deserialize", "include/mmx/vm/var_t.h"]}
{"id": "C15", "title": "Comparing contract values is a total order consistent with equality", "statement": "The three-way comparison of contract values is reflexive, antisymmetric, transitive and total, and reports equality only for values of the same type and content, so that using values as map keys is well defined.", "quantifier": "all pairs and triples of values", "why_tests_cant": "Unbounded domain, three-way interplay of types and lengths.", "anchors": ["src/vm/var_t.cpp: compare", "include/mmx/vm/var_t.h: varptr_less_t"]}
{"id": "C16", "title": "Compiled bytecode survives serialization", "statement": "Serializing any instruction sequence with defined opcodes and deserializing it yields the same sequence, for any number of distinct operand values.", "quantifier": "all instruction sequences over all opcodes and 32-bit operands", "why_tests_cant": "Three operand encodings share one byte stream; the switch-over points depend on the frequency table of the whole program.", "anchors": ["src/vm/instr_t.cpp: serialize, deserialize, get_opcode_info"]}
{"id": "C17", "title": "Gas bounds the length of every contract execution", "statement": "Every executed instruction consumes at least the base instruction cost, consumed gas never decreases, execution stops with an error as soon as gas exceeds the limit, so every program with any input terminates within limit/base-cost+1 instructions and never reports success with gas above the limit.", "quantifier": "all programs, inputs, gas limits and storage contents", "why_tests_cant": "Termination for all programs cannot be tested.", "anchors": ["src/vm/Engine.cpp: Engine::run, Engine::step, Engine::check_gas"]}
{"id": "C18", "title": "Constants and call context cannot be modified by a running contract", "statement": "No instruction executed by a contract changes the content of a memory cell marked constant (code constants, caller identity, height, deposit and the other values set by the host before the call); an attempt aborts the execution.", "quantifier": "all programs and inputs, all reachable engine states", "why_tests_cant": "Must hold for every instruction in every addressing mode and every machine state.", "anchors": ["src/vm/Engine.cpp: Engine::assign, Engine::write, Engine::erase, Engine::begin, Engine::init"]}
{"id": "C19", "title": "Sends never exceed the contract balance", "statement": "During one execution the total amount of each currency sent by a contract never exceeds the balance the contract had (plus deposit), each send is recorded as an output with exactly that amount, the remaining balance shown to the program is the initial balance minus what was sent, and zero or oversized amounts abort or do nothing.", "quantifier": "all programs, all sequences of sends, all balances and currencies", "why_tests_cant": "Unbounded sequences of sends with 128/256 bit amounts.", "anchors": ["src/vm/Engine.cpp: Engine::send, Engine::mint, Engine::read_balance"]}
{"id": "C20", "title": "A contract can only mint its own token and only below 2^80 per mint", "statement": "Every mint output produced by an execution carries the executing contract as currency and an amount below 2^80; no other operation creates mint outputs.", "quantifier": "all programs and states", "why_tests_cant": "All-quantified over programs.", "anchors": ["src/vm/Engine.cpp: Engine::mint"]}
{"id": "C21", "title": "Contract integer arithmetic is exact or aborts", "statement": "With overflow checking enabled, addition, subtraction and multiplication of 256-bit values either return the exact mathematical result or abort; division and modulo abort on zero and are otherwise exact.", "quantifier": "all pairs of 256-bit operands", "why_tests_cant": "2^512 operand pairs; the overflow test of the old revision is wrong only on a thin set.", "anchors": ["src/vm/Engine.cpp: Engine::step (OP_ADD, OP_SUB, OP_MUL, OP_DIV, OP_MOD)", "include/mmx/vm/instr_t.h: OPFLAG_CATCH_OVERFLOW"]}
{"id": "C22", "title": "Contract storage changes are all-or-nothing", "statement": "Writes made through a storage cache are visible to reads through it immediately, invisible to the backing store until commit, and after commit the backing store answers every read as the cache did; dropping the cache leaves the backing store unchanged.", "quantifier": "all sequences of reads, writes, balance changes, commits and discards, all addresses", "why_tests_cant": "Unbounded interleavings of operations over layered caches.", "anchors": ["src/vm/StorageCache.cpp: StorageCache::read, write, commit, get_balance, set_balance", "src/vm/StorageRAM.cpp"]}
{"id": "C23", "title": "Read-only execution and address checks of contract storage", "statement": "Through the storage proxy, a read-only execution never writes; deleted entries are never returned; values with references below the static segment are never stored; every accepted read or write increases gas by at least its fixed price.", "quantifier": "all call sequences through the proxy", "why_tests_cant": "Unbounded sequences and all value shapes.", "anchors": ["src/vm/StorageProxy.cpp"]}
{"id": "C24", "title": "A valid transaction neither creates nor destroys coins", "statement": "For every transaction accepted by validation and every currency, the sum of its inputs plus execution inputs equals the sum of its outputs plus execution outputs (execution mints of the contract's own token and the fee are the only differences).", "quantifier": "all transactions, chain states, execution results and currencies", "why_tests_cant": "Sums range over unbounded lists of 128-bit amounts from three sources.", "anchors": ["src/Node_validate.cpp: Node::validate(tx), Node::execute", "include/mmx/utils.h: handle_implicit_deposit"]}
{"id": "C25", "title": "Transaction fees stay between the static fee and the declared maximum", "statement": "For every accepted transaction the charged fee is at least the fee of its static cost, at most max_fee_amount, and the sender had at least the charged amount.", "quantifier": "all transactions and balances", "why_tests_cant": "Interaction of three limits and early exits.", "anchors": ["src/Node_validate.cpp: Node::validate(tx)", "include/mmx/utils.h: cost_to_fee, fee_to_cost"]}
{"id": "C26", "title": "A transaction that fails during execution changes nothing except the fee", "statement": "When execution of a transaction fails, no input is spent, no output is created, no contract storage changes, and only the fee is deducted.", "quantifier": "all transactions, failure points and chain states", "why_tests_cant": "Failure may occur at any instruction of any operation.", "anchors": ["src/Node_validate.cpp: Node::validate(tx), Node::execute"]}
{"id": "C27", "title": "No account spends more than it owns within one block", "statement": "For every block accepted by validation and every (account, currency), the total amount spent by all transactions and fees of the block does not exceed the balance before the block plus what is received in it in order.", "quantifier": "all blocks and all prior ledgers", "why_tests_cant": "Unbounded number of transactions touching the same account.", "anchors": ["src/Node_validate.cpp: Node::validate(block)", "include/mmx/balance_cache_t.h"]}
{"id": "C28", "title": "Parallel execution of a block gives the sequential result", "statement": "Every schedule of the block's transactions that respects the computed wait relation executes transactions sharing a contract in block order, and all such schedules give the same result as executing the block in order.", "quantifier": "all blocks, all schedules allowed by the wait relation", "why_tests_cant": "The number of schedules is exponential.", "anchors": ["src/Node_validate.cpp: Node::prepare_context, Node::validate(block)", "include/mmx/Node.h: execution_context_t"]}
{"id": "C29", "title": "Difficulty and reward parameters move only within their bounds", "statement": "In every accepted block the time difficulty differs from its parent's by at most max(previous >> max_diff_adjust, 1) and is never zero; the space difficulty moves towards the target by at most one adjustment step per block and is never zero; the base reward changes by at most one adjustment step per reward period; the transaction fee buffer never pays out more than it holds.", "quantifier": "all chains of accepted blocks, all previous values and inputs (full integer ranges)", "why_tests_cant": "Full 64-bit ranges and chains of any length.", "anchors": ["src/Node_validate.cpp: Node::validate, Node::validate_diff_adjust", "include/mmx/utils.h: calc_new_space_diff, calc_new_base_reward, calc_new_txfee_buffer, calc_min_reward_deduction"]}
{"id": "C30", "title": "Block reward never pays out more than base reward plus fees", "statement": "Final block reward plus project reward is at most the base reward plus the block's fees, both are non-negative for all inputs.", "quantifier": "all rewards, fee totals and parameter values", "why_tests_cant": "Unsigned subtractions under all inputs.", "anchors": ["include/mmx/utils.h: calc_project_reward, calc_final_block_reward"]}
{"id": "C31", "title": "Cost to fee conversion is monotone, exact up to rounding and never wraps", "statement": "cost_to_fee and fee_to_cost are monotone in the amount, cost_to_fee(fee_to_cost(f)) never exceeds f, and overflow is reported as an error.", "quantifier": "all costs, fees and fee ratios", "why_tests_cant": "Full 64-bit ranges.", "anchors": ["include/mmx/utils.h: cost_to_fee, fee_to_cost"]}
{"id": "C32", "title": "MultiSig needs the required number of distinct valid owner signatures", "statement": "A multi-signature solution is accepted only if at least num_required distinct owners each provided a solution that is valid for the transaction; one owner cannot count twice.", "quantifier": "all owner sets, thresholds and solution maps", "why_tests_cant": "Unbounded sets.", "anchors": ["src/contract/MultiSig.cpp: MultiSig::validate", "src/contract/PubKey.cpp"]}
{"id": "C33", "title": "Canonical hash encoding is injective", "statement": "Two structurally different JSON-like values (revision 1 encoding) never produce the same hash input bytes; likewise two field sequences of a transaction.", "quantifier": "all values, any nesting depth and size", "why_tests_cant": "Unbounded nested structures.", "anchors": ["include/mmx/write_bytes.h", "src/Transaction.cpp: hash_serialize"]}
{"id": "C34", "title": "Transaction id does not depend on witnesses", "statement": "The transaction id is unchanged by any change to solutions, static cost or execution result, and changes of any other field change the hashed bytes.", "quantifier": "all transactions", "why_tests_cant": "All field values.", "anchors": ["src/Transaction.cpp: Transaction::hash_serialize, calc_hash"]}
{"id": "C35", "title": "Chunked VDF verification equals sequential verification", "statement": "Verifying the recorded segments in independent chunks accepts exactly the proofs for which iterating the hash sequentially reproduces every recorded checkpoint.", "quantifier": "all segment lists, lane counts and chunk sizes", "why_tests_cant": "Unbounded lengths.", "anchors": ["src/Node_verify.cpp: verify_vdf_cpu"]}
{"id": "C36", "title": "Plot symbol compression is lossless", "statement": "Decoding the encoded symbol stream returns the original symbols, for every length and every admissible symbol.", "quantifier": "all symbol sequences", "why_tests_cant": "Unbounded sequences with variable length codes over 64-bit words.", "anchors": ["src/pos/encoding.cpp: encode, decode"]}
{"id": "C37", "title": "Line points identify unordered pairs", "statement": "Converting a pair to a line point and back yields the same unordered pair; distinct pairs give distinct line points.", "quantifier": "all pairs of 32-bit (64-bit) values", "why_tests_cant": "2^64 pairs.", "anchors": ["src/pos/encoding.cpp: GetXEnc, LinePointToSquare"]}
{"id": "C38", "title": "Bit packing is lossless", "statement": "Reading back bits written with write_bits at any offset and width returns the value, and other bits are unchanged.", "quantifier": "all offsets, widths up to 64, buffers", "why_tests_cant": "All alignments and buffers.", "anchors": ["include/mmx/pos/util.h: write_bits, read_bits"]}
{"id": "C39", "title": "Offer price conversion never favours the taker", "statement": "The price an offer asks for a wanted amount is rounded up and the amount handed out for a payment is rounded down: paying the asked price always buys at least the wanted amount, and no payment below the asked price buys it; a result that does not fit is an error and never a wrapped number.", "quantifier": "all amounts and prices", "why_tests_cant": "Full 128/256-bit ranges.", "anchors": ["src/offer_data_t.cpp", "src/contract/offer.js"]}
{"id": "C40", "title": "The swap contract is always solvent", "statement": "After any sequence of public calls the swap contract's coin balance covers the pool balances plus unclaimed fees, and no user can take out more liquidity than put in share of.", "quantifier": "all call sequences, users and amounts", "why_tests_cant": "Unbounded histories and rounding.", "anchors": ["src/contract/swap.js"]}
{"id": "C41", "title": "Trading never decreases the product of the pool balances", "statement": "A trade in any pool leaves the product of the two pool balances at least as large as before, so no sequence of trades extracts value from liquidity providers.", "quantifier": "all trade sequences and amounts", "why_tests_cant": "Unbounded histories and rounding.", "anchors": ["src/contract/swap.js: trade"]}
{"id": "C42", "title": "Time locked funds stay locked", "statement": "A time lock contract never releases funds before its unlock height, and the unlock height can only be moved later.", "quantifier": "all call sequences, heights and callers", "why_tests_cant": "Unbounded histories.", "anchors": ["src/contract/time_lock.js"]}
{"id": "C43", "title": "Decimal amounts print and parse back exactly", "statement": "Printing a fixed point amount and parsing it gives the same amount; parsing never silently yields a different number.", "quantifier": "all 128-bit amounts and decimals", "why_tests_cant": "2^128 values.", "anchors": ["include/mmx/fixed128.hpp", "src/fixed128.cpp"]}
{"id": "C44", "title": "A table call that throws has had no effect", "statement": "Whenever insert, commit, flush or revert throws, the version, the readable content, the log and the files are as before the call.", "quantifier": "all histories, all calls and arguments, live iterators included", "why_tests_cant": "It quantifies over every state in which any of the calls throws.", "anchors": ["src/DataBase.cpp: Table::insert, Table::commit, Table::flush, Table::revert"]}
{"id": "C45", "title": "Header counters are exact sums over the chain", "statement": "In every chain of accepted blocks the newest header's height, VDF height, proof counters, support and reward votes and total weight are exactly the sums of the per-block contributions since genesis (or since the last space fork / reward adjustment), and the fee buffer plus everything paid out of it equals everything paid into it.", "quantifier": "all chains of accepted blocks of any length", "why_tests_cant": "Inductive over unbounded chains.", "anchors": ["src/Node_validate.cpp: Node::validate", "src/Node_verify.cpp: Node::verify_proof", "include/mmx/utils.h"]}
{"id": "C46", "title": "Block time stamps advance within fixed bounds", "statement": "In every chain of accepted blocks each time stamp is strictly larger than its parent's and the distance is bounded above and below by the protocol constants, so time stamps are strictly increasing along the chain.", "quantifier": "all chains of accepted blocks", "why_tests_cant": "All time stamps and chain lengths.", "anchors": ["src/Node_validate.cpp: Node::validate"]}
{"id": "C47", "title": "Space fork length is bounded", "statement": "After the second hardfork no two consecutive space forks are further apart than the forced fork length.", "quantifier": "all chains of accepted blocks", "why_tests_cant": "Unbounded chains.", "anchors": ["src/Node_verify.cpp", "src/Node_validate.cpp: Node::validate"]}
{"id": "C48", "title": "A node's own block passes its own header checks", "statement": "Whenever the node creates a block on a valid tip from valid proof and VDF inputs, creation is well defined and the result passes all header rules that the node applies to received blocks.", "quantifier": "all tips reachable in a valid chain, all proofs, VDF points, votes, fees and clock values", "why_tests_cant": "Creation and validation are two separate implementations of the same rules; all inputs matter.", "anchors": ["src/Node_update.cpp: Node::make_block", "src/Node_validate.cpp: Node::validate"]}
{"id": "C49", "title": "Assembled transaction lists respect the minimum fee bands", "statement": "The transaction list the node selects for its block always passes the minimum fee check that is applied to received blocks, and the selection never reorders transactions.", "quantifier": "all candidate lists, all fee ratios and sizes", "why_tests_cant": "The assembly and the check walk the list in opposite directions with different arithmetic.", "anchors": ["src/Node_update.cpp: Node::validate_for_block", "src/Node_validate.cpp: Node::validate"]}
{"id": "C50", "title": "Unlocked liquidity can always be withdrawn from the exchange contract", "statement": "In every state reachable by any calls of any users, a user whose lock has expired can withdraw any part of the liquidity recorded for that user; no trade, deposit or withdrawal of others can make that call abort.", "quantifier": "all call histories of all users, all amounts", "why_tests_cant": "A liveness claim about every reachable state; the arithmetic can underflow only after particular histories.", "anchors": ["src/contract/swap.js: rem_liquid, _rem_liquid"]}
{"id": "C51", "title": "Liquidity of the exchange contract is locked after being added", "statement": "A user's liquidity only decreases through a call by that same user, not before the unlock height, which every addition moves to 8640 blocks in the future; a dry run changes nothing.", "quantifier": "all states and calls", "why_tests_cant": "Must hold for every public method and every state.", "anchors": ["src/contract/swap.js: add_liquid, rem_liquid, rem_all_liquid, switch_pool"]}
{"id": "C52", "title": "Contract bytecode cannot make the node touch freed or foreign memory", "statement": "Whatever bytecode, constants, arguments and storage a contract has, each executed instruction either has its documented effect or aborts the execution; none reads or writes a variable that was already freed, or walks past the end of the memory map.", "quantifier": "all instructions, operands, flags and machine states", "why_tests_cant": "Use after free depends on aliasing between operands and on the reference graph in memory; tests cover a handful of graphs.", "anchors": ["src/vm/Engine.cpp: Engine::exec, Engine::write, Engine::assign, Engine::erase, Engine::clear_stack, Engine::pop_back"]}
{"id": "C53", "title": "Execution outcome does not depend on the order a compiler evaluates arguments", "statement": "The result of every instruction - memory, outputs, consumed gas and whether it aborts - is the same for every order in which the C++ compiler may evaluate the operand expressions, so nodes built with different compilers agree.", "quantifier": "all instructions, operands, flags and machine states, both evaluation orders", "why_tests_cant": "A test binary has a single evaluation order.", "anchors": ["src/vm/Engine.cpp: Engine::exec, Engine::deref_addr, Engine::deref_value"]}
{"id": "C54", "title": "Native coins only enter through rewards and only leave through fees", "statement": "Over a chain of accepted blocks of any length, the sum of all native balances changes by exactly the block, project and timelord rewards less the transaction fees; a token whose contract is not run keeps its total.", "quantifier": "all chains of accepted blocks, all initial ledgers whose supply and rewards stay below 2^126", "why_tests_cant": "A sum over all accounts after an unbounded history of transfers, contract payments and failures.", "anchors": ["src/Node.cpp: Node::apply", "src/Node_validate.cpp: Node::validate", "src/Block.cpp: Block::get_inputs, Block::get_outputs"]}
{"id": "C55", "title": "A transaction validated for a block passes validation with the result it was given", "statement": "When a node executes a transaction and attaches the result to it, every node that validates the transaction with that result in the same state accepts it.", "quantifier": "all transactions, contracts and chain states", "why_tests_cant": "The two runs charge the cost of the result at different times, so that limits bite at different places.", "anchors": ["src/Node_validate.cpp: Node::validate(tx)", "src/Transaction.cpp: Transaction::update", "src/Node_update.cpp: Node::validate_for_block"]}
{"id": "C56", "title": "Validation of a block always comes to an end", "statement": "Whatever transactions a block holds and however few threads the pool has, the validating tasks never wait for each other in a circle and all end after finitely many steps.", "quantifier": "all blocks, all numbers of threads, all schedules", "why_tests_cant": "A deadlock shows only in particular schedules.", "anchors": ["src/Node_validate.cpp: Node::prepare_context, Node::execution_context_t::wait, Node::validate(block)"]}
{"id": "C57", "title": "Validating a received block has no undefined behaviour", "statement": "For every well formed block received from the network, preparing and checking its transactions never dereferences a null pointer.", "quantifier": "all blocks that can be decoded and pass the structural check", "why_tests_cant": "Needs a deliberately malformed block with correct hashes.", "anchors": ["src/Node_validate.cpp: Node::prepare_context, Node::validate(block)", "src/Block.cpp: Block::is_valid"]}
{"id": "C58", "title": "The reported total supply is the sum of all balances", "statement": "After every block the total supply the node reports for a currency equals the sum of its balances over all accounts.", "quantifier": "all chains of accepted blocks, all currencies", "why_tests_cant": "A sum over all accounts after an unbounded history.", "anchors": ["src/Node.cpp: Node::apply, total_supply_map"]}
{"id": "C59", "title": "No transaction is executed twice", "statement": "On a chain of accepted blocks of any length every transaction id occurs at most once, whether it failed or not.", "quantifier": "all chains of accepted blocks", "why_tests_cant": "The second occurrence may be any number of blocks later.", "anchors": ["src/Node_validate.cpp: Node::validate", "src/Node.cpp: Node::write_block"]}
{"id": "C60", "title": "Coins leave an account only with the agreement of its owner", "statement": "If a balance is lower after an accepted block, then the block holds a transaction which its owner signed as sender, or with an input its owner authorised, or which runs the contract that owns the balance.", "quantifier": "all accepted blocks, all accounts and currencies", "why_tests_cant": "Negative claim over all transactions and contract programs.", "anchors": ["src/Node_validate.cpp: Node::validate", "src/Node.cpp: Node::apply"]}
{"id": "C61", "title": "Custody contracts pay only the parties named", "statement": "An escrow pays only its target or its source and only at its agent's call; a transfer contract and a relay pay only the addresses named at creation by their rules; whatever was received and not paid out is still held, and the entitled party can always have it paid out.", "quantifier": "all histories of deposits and calls by anybody", "why_tests_cant": "Negative claim over unbounded histories and callers.", "anchors": ["src/contract/escrow.js", "src/contract/transfer.js", "src/contract/relay.js"]}
{"id": "C62", "title": "Withdrawing from a virtual plot costs exactly the stated share", "statement": "A withdrawal from a virtual plot is made by its owner only, pays the stated share of the amount and burns exactly the rest.", "quantifier": "all histories, amounts and callers", "why_tests_cant": "Rounding over all amounts.", "anchors": ["src/contract/virtual_plot.js"]}
{"id": "C63", "title": "A taker of an offer gets exactly the price named", "statement": "Who takes an offer gets coins at the price named in the call or the call fails; the owner never gets less than that price; change is returned; the price is fixed for 1080 blocks after a change; only the partner, if one is set, can take it; the owner can always take back what is left and what was earned.", "quantifier": "all histories, amounts, prices and callers", "why_tests_cant": "Rounding over all 256-bit amounts and unbounded histories.", "anchors": ["src/contract/offer.js"]}
{"id": "C64", "title": "An NFT offer swaps one unit for exactly its price", "statement": "A buyer pays exactly the price named, straight to the owner, and gets one unit, or nothing happens; the price is fixed for 1080 blocks after a change.", "quantifier": "all histories and callers", "why_tests_cant": "Unbounded histories.", "anchors": ["src/contract/nft_offer.js"]}
{"id": "C65", "title": "A locked plot NFT keeps paying its target", "statement": "While a plot NFT is locked to a target, and for 256 blocks after its owner asked to unlock it, all rewards and coins go to the target, whatever the owner or others do; after that they belong to the owner; the owner can always ask to unlock.", "quantifier": "all histories, heights and callers", "why_tests_cant": "Unbounded histories over heights.", "anchors": ["src/contract/plot_nft.js"]}
{"id": "C66", "title": "A smart wallet pays plans no faster than agreed", "statement": "Whatever anybody but the owner does, a smart wallet pays each plan's target its amount once per interval and nothing else.", "quantifier": "all histories, plans, heights and callers", "why_tests_cant": "Unbounded histories; anybody can trigger payments.", "anchors": ["src/contract/smart_wallet.js"]}
{"id": "C67", "title": "Only the owner creates units of a token", "statement": "Units of a token are created only by its current owner's call; of an NFT at most one unit ever exists, created by its creator; a template gives each serial number to one contract for ever and only with the creator's signature on that number.", "quantifier": "all histories and callers", "why_tests_cant": "Negative claim over unbounded histories.", "anchors": ["src/contract/token.js", "src/contract/nft.js", "src/contract/template.js"]}
{"id": "C68", "title": "Fixed price tokens are paid for and backed", "statement": "Every unit of a fixed price token was paid for at the price; a liquid token always holds enough to pay its owner's share and to take back every unit in existence at the stated discount.", "quantifier": "all histories, prices, amounts and callers", "why_tests_cant": "Rounding and unbounded histories.", "anchors": ["src/contract/fixed_price_token.js", "src/contract/fixed_price_liquid_token.js"]}
{"id": "C69", "title": "The horse market cannot be drained", "statement": "The market always holds the balances of all horses; tokens leave a wallet only by its owner's call; no group of users can, by any sequence of purchases, sales and transfers that leaves it with the tokens it had, take out more coins than it brought in.", "quantifier": "all histories, users, amounts and balances", "why_tests_cant": "Unbounded histories; an iterative price approximation with rounding.", "anchors": ["src/contract/crypto_horse_race.js"]}
{"id": "C70", "title": "Range queries of typed tables return exactly the range", "statement": "find_range(begin, end, limit) returns exactly the stored entries with begin <= key < end in ascending key order, cut to the first `limit`; find_last_range returns the greatest ones of the same range in descending order; find, find_first and find_last return the value of the key, of the smallest and of the greatest key; all after any history.", "quantifier": "all histories of insert/commit/flush/revert, all key types with a faithful encoding, all bounds and limits", "why_tests_cant": "Depends on seek positions in arbitrarily many blocks and on the byte order of encoded keys.", "anchors": ["include/mmx/table.h: table::find, find_range, find_last_range, find_first, find_last"]}
{"id": "C71", "title": "Log recovery stays correct over repeated restarts and damage", "statement": "After a table was opened with a log that ended in an incomplete record, every later restart again gives exactly the complete records plus what was written since; a write that was lost to damage inside the log is never silently left out while later commits count.", "quantifier": "all record sequences, cut positions, damage positions, values and later writes", "why_tests_cant": "Needs two crashes at particular bytes, or particular values.", "anchors": ["src/DataBase.cpp: Table::Table, Table::revert, read_entry_sum"]}
{"id": "C72", "title": "A completed transaction is funded exactly", "statement": "A wallet that completes a transaction leaves outputs and operations as they are, adds inputs for exactly what is missing per currency, takes from no address more than its balance, and fails only if the balances do not suffice; the sender it picks can pay the fee.", "quantifier": "all wallets, balances, transactions, deposits and options", "why_tests_cant": "The choice of inputs depends on all balances and on their order.", "anchors": ["include/mmx/ECDSA_Wallet.h: complete, gather_inputs", "src/Transaction.cpp: calc_cost"]}
{"id": "C73", "title": "A wallet never spends the same coins twice", "statement": "After any history of refreshes and sends the balance a wallet spends from is the reported balance less what its transactions take that are neither confirmed nor expired; transactions sent in a row together never exceed the balance at the start.", "quantifier": "all histories of refresh, send and reset, all balances and transactions", "why_tests_cant": "Depends on the order of sends, refreshes, confirmations and expiries.", "anchors": ["include/mmx/ECDSA_Wallet.h: update_cache, update_from, reset_cache", "src/Wallet.cpp: send_off, update_cache"]}
{"id": "C74", "title": "A wallet signs only what its keys own and stays locked", "statement": "A locked wallet signs nothing without the right passphrase and is locked again after every call, whatever the outcome; a completed transaction carries for every input and operation of the wallet's addresses a signature over its id by that address, no others, and passes the validity checks of a transaction.", "quantifier": "all key derivations, passphrases, sequences of lock, unlock, complete and sign calls, transactions", "why_tests_cant": "Throwing paths and sequences of calls; signatures depend on all inputs together.", "anchors": ["include/mmx/ECDSA_Wallet.h: lock, unlock, sign_off, sign_msg, complete", "src/Transaction.cpp: is_valid, is_signed"]}
{"id": "C75", "title": "Seed words give back the seed", "statement": "The 24 words of a seed, in the built-in list or any list of 2048 different words, give back exactly that seed; words are accepted only if they are 24 words of the list with a right checksum, and one seed has one phrase.", "quantifier": "all seeds, word lists, word sequences and hash functions", "why_tests_cant": "2^256 seeds and more word sequences.", "anchors": ["src/mnemonic.cpp: seed_to_words, words_to_seed", "src/wordlist_en.cpp"]}
{"id": "C76", "title": "Address strings identify addresses", "statement": "Every address reads back from its text, different addresses have different texts, an address has one text, and anything else is refused.", "quantifier": "all addresses and strings", "why_tests_cant": "2^256 addresses; all strings.", "anchors": ["src/addr_t.cpp: to_string, from_string, vnx::read", "include/mmx/bytes_t.hpp: to_uint, from_uint"]}
{"id": "C77", "title": "Wallet calls pay exactly what was asked for", "statement": "A transaction made by send, send_many, send_from, execute, deposit or make_offer contains exactly the requested payments, operation or contract, and inputs for exactly their sum; send_from takes only from the named source and execute takes nothing.", "quantifier": "all wallets, balances, amounts, currencies, addresses and options", "why_tests_cant": "Depends on all balances.", "anchors": ["src/Wallet.cpp: send, send_many, send_from, execute, deposit, make_offer"]}
{"id": "C78", "title": "The state of a node is that of its chain alone", "statement": "In every state a node can get to, the content of its tables is what applying the blocks of its current chain from genesis one after the other gives, each valid on top of its predecessor, and height queries list exactly these blocks; so two nodes with the same peak hash agree on chain and tables, whatever forks, votes, failed switches and restarts each has seen.", "quantifier": "all sequences of received blocks, updates, votes, explicit switches, reverts and restarts, any number of forks of any length", "why_tests_cant": "Depends on the whole history of forks and failures at every point of a switch.", "anchors": ["src/Node.cpp: apply, revert, reset, fork_to, add_block, commit", "src/Node_update.cpp: update"]}
{"id": "C79", "title": "A failed switch leaves the node where it was", "statement": "If switching to another fork fails because one of its blocks is not valid, the node is left with the chain, the tables and the committed height it had before, and a block of that fork is marked invalid that really is: no valid chain contains it.", "quantifier": "all reachable states, all forks, all blocks at which validation fails", "why_tests_cant": "The failing block can be at any position of a fork of any length, after any history.", "anchors": ["src/Node.cpp: fork_to, get_fork_line, revert, apply, reset"]}
{"id": "C80", "title": "A switch ends exactly at the requested fork", "statement": "A switch between forks above the committed height that succeeds ends at the requested block, keeps everything up to the last common block including all committed blocks, and reports that block; it succeeds whenever a valid chain ends in the requested block.", "quantifier": "all reachable states and forks above the committed height", "why_tests_cant": "Any tree of forks, any previous validation results.", "anchors": ["src/Node.cpp: fork_to, get_fork_line"]}
{"id": "C81", "title": "Nodes choose the same fork", "statement": "The fork a node follows is the preferred one among those it may follow: more votes along the line, then height, then smaller hash; in particular it depends only on the blocks and votes known, not on the order in which they arrived.", "quantifier": "all reachable states, trees of forks, votes and arrival orders", "why_tests_cant": "All orders of arrival of any number of blocks and votes.", "anchors": ["src/Node.cpp: find_best_fork"]}
{"id": "C82", "title": "An update ends on the best valid fork", "statement": "The loop that chooses a fork, tries it and chooses again always ends; after an update the node is on a fork that may be chosen, and every other such fork is less preferred or does not end any valid chain. An invalid block cannot keep the node from the best valid fork.", "quantifier": "all reachable states, any number of invalid forks, votes and blocks arriving with the update", "why_tests_cant": "Any number of invalid forks at any depth.", "anchors": ["src/Node_update.cpp: update, verify_block_proofs, verify_votes", "src/Node.cpp: find_best_fork, fork_to"]}
{"id": "C83", "title": "Committed blocks stay", "statement": "An update never removes a committed block, and commits a block only when the peak is the required number of blocks above it.", "quantifier": "all reachable states, blocks, votes and updates", "why_tests_cant": "Must hold after any sequence of forks.", "anchors": ["src/Node_update.cpp: update", "src/Node.cpp: commit, fork_to"]}
{"id": "C84", "title": "A restart brings back the chain", "statement": "A node that stops in any way and starts again has the chain it had up to the version the database recovered to, valid from genesis; its root is the block commit_delay below the peak, and the blocks above it are available as forks. If stored blocks cannot be read any more it starts on a shorter part of the same chain.", "quantifier": "all reachable states, recovered versions and sets of unreadable blocks", "why_tests_cant": "Every history and every crash point.", "anchors": ["src/Node.cpp: main, reset, revert, init_chain"]}
{"id": "C85", "title": "Votes counted are votes cast", "statement": "The number of votes a node counts for a block is the number of distinct validators of that block from whom a vote for it was received.", "quantifier": "all histories of blocks, votes, updates and restarts", "why_tests_cant": "Votes repeat, come early, late and from others, in any order.", "anchors": ["src/Node_update.cpp: verify_votes, verify_block_proofs"]}
{"id": "C86", "title": "Every block of the chain has a verified proof", "statement": "After any sequence of updates, received blocks and votes, restarts and blocks made, every block of the chain a node follows, other than the first, has a proof of space that passed verification.", "quantifier": "all histories of blocks, votes, updates, restarts and moves to blocks that were on the chain before", "why_tests_cant": "Unverified blocks can sit anywhere in the tree of forks and be verified in any order.", "anchors": ["src/Node_update.cpp: update, verify_block_proofs, make_block", "src/Node.cpp: find_best_fork, fork_to"]}
{"id": "C87", "title": "A block that a node assembles passes validation by others", "statement": "The transactions a node selects for its own block, with the results it computed for them, pass what every node checks of the transactions of a block: limits, order, fees, funds, and every transaction with its result.", "quantifier": "every pool of transactions, chain state, contract storage, set of dependencies and late tasks", "why_tests_cant": "whether a block is accepted depends on which transactions are left out after all of them were executed together", "anchors": ["src/Node_update.cpp: Node::validate_for_block", "src/Node_validate.cpp: Node::validate", "src/Transaction.cpp: Transaction::update, reset"]}
{"id": "C88", "title": "Assembled blocks hold to the limits and leave out nothing needlessly", "statement": "The transactions selected for a block are of the pool, none twice, in descending order of fee ratio; their sizes and costs add up to at most the limits of a block; they pass the check of the fee bands; accounts have the funds for all their fees and inputs together. If everything fits, every valid transaction of the pool is selected.", "quantifier": "every pool of transactions, chain state and set of limits", "why_tests_cant": "a greedy selection under five limits has no finite set of cases", "anchors": ["src/Node_update.cpp: Node::validate_for_block", "src/Node_validate.cpp: Node::validate"]}
{"id": "C89", "title": "Validating the pool ends, whatever the deadline", "statement": "When a node validates transactions of its pool or queue with a deadline, it always comes to an end, whichever tasks find the deadline passed and however threads are scheduled.", "quantifier": "every number of threads and transactions, set of shared contracts, and schedule", "why_tests_cant": "the outcome depends on when each thread looks at the clock", "anchors": ["src/Node_update.cpp: Node::validate_for_block, Node::validate_new", "src/Node_validate.cpp: execution_context_t::wait, signal"]}
{"id": "C90", "title": "A pending transaction is taken in exactly when its sender can pay for all it has pending", "statement": "When a validated transaction reaches a node, it becomes pending exactly if the balance of its sender covers its fee and the fees of all other pending transactions of the same sender; if not, nothing changes. A transaction is pending at most once, and the fees kept per sender are always the sum over what is pending.", "quantifier": "every history of incoming transactions, purges, and blocks that are applied or reverted", "why_tests_cant": "the kept sums are updated by differences in four places with wrapping arithmetic, so errors add up over long histories", "anchors": ["src/Node_update.cpp: Node::tx_pool_update, Node::tx_pool_erase", "src/Node.cpp: Node::apply, Node::revert"]}
{"id": "C91", "title": "The pending part of a history query finds exactly what is pending", "statement": "The index behind the pending part of get_history, for an address or for an address with a memo, lists a transaction exactly if it is pending and has an input or output with this address (and memo).", "quantifier": "every history of incoming transactions, purges, and blocks that are applied or reverted; every address and memo", "why_tests_cant": "an entry left behind or removed too early shows only after particular sequences of replacing, erasing and reverting", "anchors": ["src/Node_update.cpp: Node::tx_pool_update, Node::tx_pool_erase", "src/Node_api.cpp: Node::get_history, Node::get_history_memo"]}
{"id": "C92", "title": "Purging the pool leaves what can be paid and fits, the best paying first", "statement": "After a purge every sender can pay the fees of all its pending transactions and the pool is not larger than allowed. Nothing is removed if that was so before; otherwise what is removed has a sender who could not pay all, or the pool was too large and everything kept pays at least the same fee ratio.", "quantifier": "every reachable pool, balance of every account, size limit, and order of transactions with equal ratio", "why_tests_cant": "depends on the order of the whole pool and on sums per sender", "anchors": ["src/Node_update.cpp: Node::purge_tx_pool"]}
{"id": "C93", "title": "A switch of the chain loses no transaction and doubles none", "statement": "While a node that is in sync reverts blocks and applies others, every transaction that was pending or in the chain stays pending or in the chain. At no time is a transaction both pending and in the chain, or twice in the chain.", "quantifier": "every reachable state and every sequence of reverted and applied blocks and incoming transactions", "why_tests_cant": "needs a history over several blocks, with transactions that are in both chains, in one, or in none", "anchors": ["src/Node.cpp: Node::apply, Node::revert", "src/Node_update.cpp: Node::tx_pool_update, Node::tx_pool_erase"]}
{"id": "C94", "title": "A history query gives the newest entries, complete by block", "statement": "Without a limit get_history gives every entry of the log for the addresses, in the range of heights and passing the filter, exactly once, newest first. With a limit n it gives the newest ones, complete down to the block in which the n-th is reached. With a limit on rows searched it gives some of them, none wrong and none twice.", "quantifier": "every log, list of addresses (with repetitions), range, filter and limits", "why_tests_cant": "the search goes through several addresses in turns, in chunks of 100 rows, and the result depends on how chunks and blocks overlap", "anchors": ["src/Node_api.cpp: Node::get_history, Node::get_history_memo, filter_txio", "include/mmx/table.h: find_last_range"]}
{"id": "C95", "title": "A history query shows each pending input and output once", "statement": "With with_pending, get_history also shows the inputs and outputs of pending transactions with one of the addresses, each once and subject to the same filter.", "quantifier": "every pool of pending transactions and list of addresses", "why_tests_cant": "depends on which transactions concern which of the addresses", "anchors": ["src/Node_api.cpp: Node::get_history, Node::get_history_memo"]}
{"id": "C96", "title": "A time lord publishes only proofs of time that nodes accept", "statement": "Whatever requests a time lord receives, whenever they arrive, and however its two threads interleave, each proof of time that it publishes passes the check of a node: its checkpoints are reproduced by hashing from its input and infusion, and there are as many as its number of iterations says. It never reads a null pointer, and it answers a request when both ends are reached.", "quantifier": "every sequence of requests, stops, timer events and steps of both threads", "why_tests_cant": "depends on when a request arrives relative to the running computation and which task is executed first", "anchors": ["src/TimeLord.cpp: TimeLord::handle, update, vdf_loop, start_vdf, stop_vdf", "src/Node_verify.cpp: Node::verify_vdf, verify_vdf_cpu"]}
{"id": "C97", "title": "SHA-512 of a message does not depend on how it is written", "statement": "Writing a message to the SHA-512 object in any pieces and finalizing gives the SHA-512 of FIPS 180-4 of the whole message, whatever was in the memory before and whatever the object was used for before a reset.", "quantifier": "every message below 2^61 bytes, every way to cut it, every content of uninitialised memory", "why_tests_cant": "the code keeps a partial block, and has one path for blocks completed from the buffer, one for blocks in place and one for the rest; lengths and cuts are unbounded", "anchors": ["src/sha512.cpp: SHA512::Write, Finalize, Reset, Transform", "include/sha512.h"]}
{"id": "C98", "title": "Wallet keys are derived by HMAC-SHA-512", "statement": "The key derivation of the wallet is HMAC (RFC 2104) with SHA-512: the child value with an index is the HMAC of the seed followed by the index in big endian, the master value is the given number of nested HMACs, and keys longer than a block are hashed first. No two indexes are derived from the same message.", "quantifier": "every seed, key, index and number of iterations", "why_tests_cant": "the same seed must give the same addresses in every version and on every machine; tests compare some vectors", "anchors": ["src/hmac_sha512.cpp: HMAC_SHA512", "include/mmx/hmac_sha512.hpp: hmac_sha512, hmac_sha512_n, kdf_hmac_sha512"]}
{"id": "C99", "title": "SHA-512 on the GPU is SHA-512 on the CPU", "statement": "For a message in a zeroed buffer of words that has room for the padding, the GPU function leaves the bytes of its SHA-512 in memory and never accesses memory outside of the buffer; so it agrees with the CPU class for every way in which the CPU writes the message.", "quantifier": "every message and buffer size", "why_tests_cant": "works on words in place with a modified end, the padding depends on the length modulo 128; needs a GPU", "anchors": ["include/cuda_sha512.h: cuda_sha512, cuda_sha512_chunk"]}
{"id": "C100", "title": "Every version of SHA-256 is SHA-256", "statement": "On processors with SHA instructions a message of any length hashes to its SHA-256; hashing a hash n times, alone or two at once, gives the n-fold SHA-256 of each; hashing eight messages of up to 55 bytes at once, with SHA instructions or with AVX2, gives the SHA-256 of each, whatever follows the message in its 64 bytes, and longer ones are refused. The hash function of the node is SHA-256, the empty message included.", "quantifier": "every message, number of iterations, input of the eight lanes and content of uninitialised registers", "why_tests_cant": "bit-level vector code with several hundred instructions each, chosen by the processor; a wrong result for rare inputs forks the chain between kinds of processors", "anchors": ["src/sha256_ni.cpp: sha256_ni, compress_digest", "src/sha256_ni_rec.cpp: recursive_sha256_ni, recursive_sha256_ni_x2", "src/sha256_avx2.cpp: sha256_avx2_64_x8, transpose", "src/sha256_64_x8.cpp: sha256_64_x8", "src/hash_t.cpp: hash_t::hash_t"]}
{"id": "C101", "title": "The GPU judges a proof of time as the CPU does", "statement": "The check with OpenCL accepts exactly the proofs that have segments and whose checkpoints are reproduced by iterating SHA-256 sequentially, so it gives the verdict of the CPU check for every schedule of the CPU threads.", "quantifier": "every proof with segment size up to 2^32 - 2500", "why_tests_cant": "work split over launches of 2500 iterations on many lanes; needs a GPU, and the set of proofs is infinite", "anchors": ["kernel/sha256.cl: sha256", "kernel/rsha256.cl: rsha256_kernel", "src/OCL_VDF.cpp: OCL_VDF::compute, OCL_VDF::verify", "src/Node_verify.cpp: Node::verify_vdf_cpu"]}
{"id": "C102", "title": "Recomputing a proof of space finds exactly the proofs in the values", "statement": "Given any values x, the recomputation returns the roots of exactly the complete trees of depth 8 over them in which Y of a right child is one more than Y of its sibling, each once, with the leaves from left to right; it fails exactly if there is none. The result does not depend on the order in which threads or a GPU deliver the first table, nor on how the sort orders equal entries.", "quantifier": "every list of values, every hash function, every order of delivery and every sort", "why_tests_cant": "the number of matches per table varies; the sort is not stable and threads append in any order, so a run shows one order only", "anchors": ["src/pos/verify_full.cpp: compute_full", "src/pos/verify.cpp: compute, compute_f1"]}
{"id": "C103", "title": "An accepted proof of space is genuine and cannot be varied", "statement": "If verification accepts 256 values then they are, in this order, the leaves of a tree whose root lies in the range of the challenge, and after the hard fork passes the filter. All trees over these values have the same root. No other order or selection of the values is accepted, so the hash of a proof cannot be ground by rearranging it. All nodes decide the same, and a tree in range that is the only one over its leaves is accepted.", "quantifier": "every list of values, challenge and hash function; the uniqueness of the list needs that no two trees over the values have the same root meta data", "why_tests_cant": "hostile proofs are chosen by an attacker who searches for one that passes on some nodes only", "anchors": ["src/pos/verify.cpp: verify, check_post_filter, calc_quality"]}
{"id": "C104", "title": "A proof made from a plot is accepted", "statement": "If the full proof can be recomputed from the values stored in a plot, of which the low bits were dropped, then every node accepts it for every challenge in whose range its root lies and whose filter it passes.", "quantifier": "every stored values, every number of dropped bits, every challenge", "why_tests_cant": "the farmer recomputes with many more candidate values than the verifier, who sees only the 256 chosen ones; a difference shows only when it costs a block reward", "anchors": ["src/pos/Prover.cpp: Prover::get_full_proof", "src/pos/verify.cpp: compute, verify"]}
{"id": "C105", "title": "What proof of space a node accepts", "statement": "An accepted proof answers the challenge and difficulty of the chain, with a plot whose id is the hash of its size, seed, farmer key and contract and that passes the plot filter; it is a tree of the functions of that plot in the range of the challenge; its quality is below a limit proportional to (2k+1) 2^k and inverse to the difficulty, computed without overflow; its score is the first byte of its hash. A proof good enough at a difficulty is good enough at every lower one.", "quantifier": "every proof, challenge and difficulty", "why_tests_cant": "consensus: one wrongly accepted proof is a free block; qualities are 256 bit numbers", "anchors": ["src/Node_verify.cpp: Node::verify_proof, verify_proof_impl", "include/mmx/utils.h: check_plot_filter, check_proof_threshold, get_proof_score", "src/ProofOfSpaceOG.cpp: validate", "src/ProofOfSpaceNFT.cpp: validate"]}
{"id": "C106", "title": "Table 1 of a proof of space is the same on a GPU and on the CPU", "statement": "For requests with distinct values that a GPU takes together, however its threads, warps and atomic operations interleave and whatever its memory held before, each request gets for every input exactly once the Y and the meta data that the CPU computes for it; the kernels stay inside their buffers and always give a result. With repeated values the GPU looks at further values: what it accepts the CPU accepts with the same result, and the reverse holds if the further values are in no tree, but not always.", "quantifier": "all plot ids, values, numbers of low bits up to 20, sizes of the device, sets of requests, orders of memory writes and of the lanes of a warp, initial contents of memory", "why_tests_cant": "needs a GPU; a race or a wrong index shows up only for some grid sizes; whether two nodes agree about a block depends on it", "anchors": ["src/pos/cuda_recompute.cu: cuda_gen_mem_array, cuda_calc_mem_hash, cuda_final_mem_hash, cuda_recompute_loop", "src/pos/mem_hash.cpp: gen_mem_array, calc_mem_hash", "src/pos/verify.cpp: compute_f1, compute", "include/mmx/pos/util.h: rotl_32"]}
{"id": "C107", "title": "Every node on a chain derives the same challenge for a VDF height", "statement": "On a chain of blocks the challenge and difficulty for a VDF height are one function of the chain: those of the block at the height `challenge_delay` lower, carried on by hashing for heights between blocks and backwards before genesis. The look-up from a block, the look-up from a peak by height and the published challenges all give this value; it does not change as blocks are added on top; and looking further ahead than `max_vdf_count` gives no answer instead of a wrong one.", "quantifier": "all chains, blocks, peaks, heights, delays and hash functions", "why_tests_cant": "the walk crosses any number of blocks with any VDF counts; a wrong index shows up only where a block spans several VDF heights or near genesis", "anchors": ["src/Node.cpp: find_challenge, get_challenge, find_prev", "src/Node_update.cpp: update (publish challenges)"]}
{"id": "C108", "title": "The VDFs asked of time lords are those that blocks are checked against", "statement": "For every chain the block to infuse and the number of iterations for a VDF height are one function of the chain; requests follow each other without gap or overlap, a new peak's requests continue those of its predecessor unchanged, and a block is accepted only with the sum of exactly these iterations.", "quantifier": "all chains, offsets, delays and numbers of known VDF points", "why_tests_cant": "the infused block is found by walking back over an unbounded chain; an off-by-one leaves time lords computing VDFs that no block can use, and only on some chains", "anchors": ["src/Node.cpp: find_infusion, get_infusion, get_time_diff", "src/Node_update.cpp: update (request next VDF proofs)", "src/Node_verify.cpp: verify_proof"]}
{"id": "C109", "title": "VDF points are chained to blocks as verified", "statement": "Points found for a block form a chain from the predecessor's output to the block's output with the infusions and iterations of the chain. If verified points carry their true position, the points found after a peak are a longest such chain, the first received among the longest, and a block made from them is found complete by every node with the same points.", "quantifier": "all chains, sets of verified points, orders of arrival", "why_tests_cant": "points of many time lords compete; a shortcut shows up only for particular sets of points", "anchors": ["src/Node.cpp: find_vdf_points, find_next_vdf_points, find_vdf_point", "src/Node_verify.cpp: verify_vdf, verify_vdf_success"]}
{"id": "C110", "title": "A node goes on verifying VDFs", "statement": "Whatever proofs of time arrive in whatever order and however their verification ends, every slot taken for verification belongs to a running verification, so that a node without running verifications can start one.", "quantifier": "all sequences of arrivals, updates, results of verification, commits", "why_tests_cant": "needs a history with a full chain of VDF points at the moment of a report", "anchors": ["src/Node_update.cpp: verify_vdfs", "src/Node_verify.cpp: verify_vdf, verify_vdf_success, verify_vdf_task"]}
{"id": "C111", "title": "The proofs in an accepted block are distinct, ordered and for the chain's challenge", "statement": "A block that passes has between one and `max_proof_count` proofs with strictly rising hashes, `proof_hash` is the least of them, each proof answers the challenge and difficulty that the chain has for the block's VDF height, and the block's own challenge continues the chain's with the proof mixed in exactly at a space fork. The list of proofs a node keeps has each hash once in rising order whatever arrives, so that the best proof is first and a block made from the list passes.", "quantifier": "all chains, blocks, lists of proofs, orders of arrival", "why_tests_cant": "the property ranges over all sets of proofs and chains; duplicates and ties are rare", "anchors": ["src/Node_verify.cpp: verify_proof, add_proof", "include/mmx/utils.h: calc_next_challenge, calc_proof_chain"]}
{"id": "C112", "title": "The VDF reward goes to the time lord who computed most of the last VDFs", "statement": "The reward of an interval goes to the address that the blocks of the interval name most often, ties to the least hash, and to nobody exactly if they name none; and blocks name the addresses of the time lords whose VDFs they use.", "quantifier": "all chains, blocks, addresses, intervals", "why_tests_cant": "ties and the order of a map decide about payment; that a farmer can not name another address ranges over all blocks", "anchors": ["src/Node.cpp: get_vdf_reward_winner, find_vdf_points", "src/Node_verify.cpp: verify_proof", "src/BlockHeader.cpp: is_valid", "src/Node_validate.cpp: validate"]}
{"id": "C113", "title": "A compiled contract function gives what its source says", "statement": "For a contract source made of functions over local variables (constants, variables, operators, parentheses, calls with defaults, assert, return, declarations, if, else, while, for, scopes), running the compiled function with given arguments ends with the value the source says, or throws when the source says that the call fails (overflow, division by zero, wrong type, failed assert), whatever the optimisation level, unless gas or call depth runs out.", "quantifier": "all programs of that part of the language, all functions of them, all arguments (numbers, strings, bytes, booleans, null), all gas limits, calls of any depth and loops of any number of rounds that end", "why_tests_cant": "tests run a few contracts; the claim is about every program, with any nesting of scopes, loops and calls sharing one stack", "anchors": ["src/vm/Compiler.cpp: compile, recurse, recurse_expr, copy, get", "src/vm/Engine.cpp: run, step", "src/vm_interface.cpp: load, set_args, execute"]}
{"id": "C114", "title": "The text of a contract expression has one reading, and the compiler takes it", "statement": "Operators are grouped by precedence and from the left; an expression text has at most one such grouping, and the compiler produces code for that one.", "quantifier": "all expressions of values with any nesting of operators, parentheses and calls", "why_tests_cant": "the recursion with ranks has to agree with precedence for every combination of operators and depth; tests cover a few", "anchors": ["src/vm/Compiler.cpp: recurse_expr, get_node_rank, rank_map"]}
{"id": "C115", "title": "A contract function is left only by return or at its own end", "statement": "A function whose text comes to its end without return gives null to its caller and never runs code of another function.", "quantifier": "all programs, all paths through a function", "why_tests_cant": "depends on what instruction happens to be last and where jumps lead for every shape of nested statements", "anchors": ["src/vm/Compiler.cpp: recurse (function, if)"]}
{"id": "C116", "title": "A constant of a contract is not assigned to", "statement": "A source that assigns to a constant in scope, in any nesting of scopes, is refused by the compiler. So is one that declares a name twice in one scope.", "quantifier": "all programs, all nestings of scopes and shadowing declarations", "why_tests_cant": "whether a name is a constant depends on all enclosing scopes; tests try a few assignments", "anchors": ["src/vm/Compiler.cpp: recurse_expr, copy, find_variable, add_variable"]}
{"id": "C117", "title": "assert lets exactly the calls through whose condition holds", "statement": "An assert whose condition holds has no effect; one whose condition does not hold makes the call fail. Also with a message or a code, and however the compiler was itself compiled.", "quantifier": "all conditions, all messages, all states", "why_tests_cant": "the jump target depends on how many instructions condition and message need and on the order in which C++ evaluates arguments", "anchors": ["src/vm/Compiler.cpp: recurse_expr (assert)"]}
{"id": "C118", "title": "Optimisation does not change what a contract function gives", "statement": "The same source compiled with and without optimisation gives the same value, or fails in both, for the same arguments, as long as neither run meets a limit.", "quantifier": "all programs of that part of the language, all arguments", "why_tests_cant": "the replacement of division and remainder by shifts and masks has to be right for every constant and operand", "anchors": ["src/vm/Compiler.cpp: recurse_expr (opt_level)"]}
{"id": "C119", "title": "A peer is not sent what it already has", "statement": "A node does not send a message to a peer that sent it that message, acknowledged it or got it before on the same connection, unless more than max_sent_cache different messages were exchanged on that connection.", "quantifier": "all sequences of received, verified and sent messages, connects, disconnects and clean-ups, all numbers of peers", "why_tests_cant": "depends on the interleaving of queued sends, receive notes and cache clean-up for each peer", "anchors": ["src/Router.cpp: send, send_to, broadcast, on_recv_note, receive_msg_hash, update", "include/mmx/Router.h: peer_t"]}
{"id": "C120", "title": "A message is put up for sending once and handed to the node once", "statement": "Whatever copies arrive and from whom, a message is relayed to peers at most once and handed to the node at most once, unless more than max_hash_cache different messages were met.", "quantifier": "all sequences of callbacks, all copies of a message from all peers and from the node", "why_tests_cant": "the same message comes in any number of copies, before and after it is verified and after clean-up", "anchors": ["src/Router.cpp: relay_msg_hash, receive_msg_hash, update, handle, on_block, on_vdf, on_vote, on_proof, on_transaction"]}
{"id": "C121", "title": "What is passed on unverified is covered by credit", "statement": "At every VDF height a farmer has no more blocks relayed before verification than it has verified proofs at that height; a timelord has no more VDFs relayed before verification than verified VDFs.", "quantifier": "all sequences of callbacks, all farmers, timelords and heights", "why_tests_cant": "an attacker chooses the order and number of messages; credit is given and taken in different callbacks", "anchors": ["src/Router.cpp: on_block, on_vdf, handle"]}
{"id": "C122", "title": "Every interested peer is offered what the node verified", "statement": "A message the node verifies or makes is queued for every peer it is meant for, to go out within relay_target_ms, and what is queued is sent unless the transport refuses.", "quantifier": "all states, all sets of peers, all random orders, all messages", "why_tests_cant": "whether the queue has room at that time depends on all earlier messages and their random order", "anchors": ["src/Router.cpp: handle, broadcast, send_to, send", "include/mmx/Router.h: peer_t"]}
{"id": "C123", "title": "A new peer gets the VDFs for the next block", "statement": "A peer that connects gets every VDF the node verified since its last block.", "quantifier": "all sequences of callbacks before and after the VDF", "why_tests_cant": "depends on how the VDF came, from the own timelord, from a peer, relayed early or not", "anchors": ["src/Router.cpp: on_connect, handle, on_vdf"]}
{"id": "C124", "title": "The blocks given for a height are valid and agreed on by enough peers", "statement": "When the router answers get_blocks_at(height), every block in the answer is valid and was sent by a peer in reply to a request made for this call, no two have the same content hash, and at least min_sync_peers different peers said themselves that they have no block at this height, or a block that is in the answer.", "quantifier": "every sequence of calls, replies (with any content, from any peer, in any order), timer events and changes of the set of synced peers; every choice of peers to ask; every setting", "why_tests_cant": "the peers decide what they send and when; the claim is about all replies of any number of peers over all interleavings with other calls", "anchors": ["src/Router.cpp: Router::get_blocks_at_async", "src/Router.cpp: Router::process", "src/Router.cpp: Router::update", "src/Router.cpp: Router::on_return", "include/mmx/Router.h: sync_job_t"]}
{"id": "C125", "title": "A request for the blocks at a height comes to an end", "statement": "While a call get_blocks_at(height) is not answered and there are at least min_sync_peers synced peers, there is always a request to a peer under way, and after finitely many replies of these peers the call is answered, however some of them behave.", "quantifier": "every sequence of calls, replies, timer events and changes of the set of synced peers; every choice of peers", "why_tests_cant": "a liveness claim about unbounded executions with peers that misbehave; a test has to stop somewhere", "anchors": ["src/Router.cpp: Router::process", "src/Router.cpp: Router::update", "include/mmx/Router.h: sync_job_t"]}
{"id": "C126", "title": "Every call for blocks is answered once", "statement": "No call of get_blocks_at, fetch_block or fetch_block_at gets two answers, none is answered that was not made, and a call of fetch_block or fetch_block_at is answered at the latest by the first timer event more than fetch_timeout_ms after it was made or last got a reply.", "quantifier": "every sequence of calls, replies (repeated, late, with unknown ids), timer events and changes of the set of synced peers", "why_tests_cant": "two answers to one call need a particular order of replies and removals of jobs; the claim is about all orders", "anchors": ["src/Router.cpp: Router::process", "src/Router.cpp: Router::update", "src/Router.cpp: Router::fetch_block_async", "src/Router.cpp: Router::fetch_block_at_async", "include/mmx/Router.h: fetch_job_t"]}
{"id": "C127", "title": "fetch_block gives the block asked for", "statement": "A block given for fetch_block(hash) has that hash and came from a peer that was asked for it; null is given without an address only if every synced peer was asked and answered with no block; what fetch_block_at(height, address) gives came in reply to a request for this height.", "quantifier": "every sequence of calls, replies with any content from any peer, timer events and changes of the set of synced peers", "why_tests_cant": "replies can come from any peer, in any order and for other calls", "anchors": ["src/Router.cpp: Router::fetch_block_async", "src/Router.cpp: Router::fetch_block_at_async", "src/Router.cpp: Router::process", "src/Router.cpp: Router::on_return", "include/mmx/Router.h: fetch_job_t"]}
{"id": "C128", "title": "Syncing leaves out no height", "statement": "From the height after its root, a node that syncs asks the network for the blocks at every height up to the highest one it asks for, and walking back below that height it leaves out none either; it takes an answer for a height only if it asked for it.", "quantifier": "every sequence of starts and restarts of the sync, answers and failures of the calls in any order, and updates; every setting, every root height and limit of open calls at each of them", "why_tests_cant": "the order of answers, failures and restarts decides which height is asked for next; a gap needs a particular order of many events", "anchors": ["src/Node.cpp: Node::sync_more", "src/Node.cpp: Node::sync_height", "src/Node.cpp: Node::sync_result", "src/Node.cpp: Node::start_sync"]}
{"id": "C129", "title": "While syncing a block is committed only after the network was heard on its height", "statement": "Before it is in sync, a node commits a block above the root it started from only after get_blocks_at gave an answer for the height of the block, so that it knows the alternatives.", "quantifier": "every sequence of starts, answers, failures and updates; every fork line, peak height and commit delay at each update", "why_tests_cant": "needs an update between any two of the answers that come in any order", "anchors": ["src/Node_update.cpp: Node::update", "src/Node.cpp: Node::sync_height", "src/Node.cpp: Node::sync_result"]}
{"id": "C130", "title": "A node takes itself to be in sync only at the end of the chain of the network", "statement": "A node declares itself in sync only after num_sync_retries passes since the sync started, each more than half a block interval after the one before and each ending at a height for which the network has no blocks, and when the network was heard on all heights from the start of the sync up to such a height.", "quantifier": "every sequence of starts, answers, failures and updates, at any times", "why_tests_cant": "depends on the whole history of the sync", "anchors": ["src/Node_update.cpp: Node::update", "src/Node.cpp: Node::sync_result", "src/Node.cpp: Node::sync_more"]}
{"id": "C131", "title": "A sync is limited and comes to an end", "statement": "A node that syncs does not ask for heights further ahead of its root than commit_delay + max_sync_ahead and the number of calls open at once; after every update it is in sync, or waits for an answer, or is at this limit, or has found a height without blocks; and when all calls returned, such a height was found and the pause is over, the next update starts the next pass or puts it in sync.", "quantifier": "every sequence of starts, answers, failures and updates; every setting with a limit of open calls above zero", "why_tests_cant": "a liveness claim about unbounded executions", "anchors": ["src/Node.cpp: Node::sync_more", "src/Node_update.cpp: Node::update"]}
{"id": "C132", "title": "A harvester finds all entries of a plot that are in range of a challenge", "statement": "Looking up a challenge in a plot gives exactly the entries of the plot whose first value is in the range that the challenge selects, each once.", "quantifier": "every plot of any size, with any distribution of entries over parks of any size; every challenge", "why_tests_cant": "the start of the search is a guess from an average; whether it is right depends on the distribution of 2^32 entries", "anchors": ["src/pos/Prover.cpp: Prover::get_qualities"]}
{"id": "C133", "title": "Every proof a harvester publishes is accepted", "statement": "Every proof that a harvester publishes for a challenge, for a block or for a pool, passes the verification of every node that knows the challenge, at the difficulty of the challenge or of the pool.", "quantifier": "every correctly made plot, every challenge and difficulty, every setting; all hash functions", "why_tests_cant": "harvester and node compute quality and score on different paths, from the meta data of the file and from the values of the proof", "anchors": ["src/Harvester.cpp: Harvester::lookup_task", "src/pos/Prover.cpp: Prover::get_qualities", "src/pos/Prover.cpp: Prover::get_full_proof", "src/pos/verify.cpp: verify", "src/Node_verify.cpp: Node::verify_proof"]}
{"id": "C134", "title": "A harvester publishes every proof that is good enough", "statement": "When an entry of a plot in range of a challenge passes the quality check and its score is below the limit of the challenge or of the pool, the harvester publishes its proof, whatever fails for other entries.", "quantifier": "every correctly made plot, every challenge and difficulty, every setting; all hash functions; every set of entries that cannot be read", "why_tests_cant": "a missed proof is silent; depends on the entries of the plot and on failures of the reads", "anchors": ["src/Harvester.cpp: Harvester::lookup_task"]}
{"id": "C135", "title": "A proof that is published reaches the node, signed", "statement": "A good proof goes from the harvester through the farmer that has the key of the plot to the node and is taken by it as long as it knows the challenge; a farmer passes on only what it got, signed with the key of the plot; a node takes only responses with a signature for this proof and height.", "quantifier": "all proofs, heights, keys and names of harvesters", "why_tests_cant": "each side has checks of its own on the same message; the claim is that they fit for all messages", "anchors": ["src/Harvester.cpp: Harvester::send_response", "src/Farmer.cpp: Farmer::handle", "src/ProofResponse.cpp: ProofResponse::is_valid", "src/Node.cpp: Node::handle"]}
{"id": "C136", "title": "A harvester looks up every challenge once, the newest first", "statement": "A challenge that a harvester gets is looked up once, unless it is older than the limit when its turn comes; the one with the greatest height goes first; and the queue is worked off.", "quantifier": "every sequence of challenges, in any order and repeated, timer events and reloads of plots, at any times", "why_tests_cant": "depends on the order and times of challenges, timer events and reloads", "anchors": ["src/Harvester.cpp: Harvester::handle", "src/Harvester.cpp: Harvester::check_queue", "src/Harvester.cpp: Harvester::reload"]}
{"id": "C137", "title": "The signature of a partial covers everything in it", "statement": "Two partials with the same hash are the same in height, contract, account, address of the pool, name of the harvester, lookup time and proof.", "quantifier": "all partials with fields of any value and length, as far as the text goes that is hashed", "why_tests_cant": "the text is put together from fields of varying length; two partials with the same text have to be constructed", "anchors": ["src/Partial.cpp: Partial::calc_hash", "src/Farmer.cpp: Farmer::handle"]}
{"id": "C138", "title": "A node approves exactly the partials that are worth their difficulty", "statement": "verify_partial reports no error exactly for partials that have a proof for the challenge of their height, good enough for the difficulty named in it, whose hash is right and signed with the key of the plot, and whose contract is that of the plot and points to the pool; every partial of a harvester, signed by its farmer, is one.", "quantifier": "all partials, all states of the node, all pools; all hash functions and signature schemes", "why_tests_cant": "an exact decision over all inputs of several checks, and the fit of harvester, farmer and node", "anchors": ["src/Node_api.cpp: Node::verify_partial", "src/Node_api.cpp: Node::verify_plot_nft_target", "src/Farmer.cpp: Farmer::handle"]}
{"id": "C139", "title": "Before a contract is called, all contracts it can reach are known, within limits", "statement": "The node finds for a contract exactly the contracts it can call, directly or through others, each once; it refuses exactly if there is a chain of more calls than the limit on depth, or a contract reaches more contracts than the limit on width; this takes a bounded number of steps.", "quantifier": "all graphs of dependencies, all limits, all contracts", "why_tests_cant": "all graphs, of any depth and width, with sharing", "anchors": ["src/Node.cpp: Node::get_all_depends", "src/Node_validate.cpp: Node::validate"]}
{"id": "C140", "title": "All nodes take the same farmers as validators", "statement": "The validators of a block are the first max_validators different farmers found going back from commit_delay blocks before it; nodes that have the same blocks agree on them, whatever they have beyond those.", "quantifier": "all chains of blocks, all settings, all pairs of nodes", "why_tests_cant": "all histories and all pairs of nodes", "anchors": ["src/Node.cpp: Node::get_validators"]}
{"id": "C141", "title": "A node does not vote for two blocks after the same one in short order", "statement": "Any two votes of a node with the same key for blocks with the same predecessor are more than a block interval apart; the first one is for the block made with the best proof the node has seen.", "quantifier": "all runs of a node without restart: all sequences of peaks, fork lines, times and keys", "why_tests_cant": "an invariant over all histories of forks and clocks", "anchors": ["src/Node_update.cpp: Node::update", "src/Node.cpp: Node::vote_for_block"]}
{"id": "C142", "title": "The best proof for a challenge does not depend on the order in which proofs come", "statement": "Of all proofs for a challenge that came since they were last forgotten the node takes the one with the smallest hash, in whatever order and however often they came; a repeated proof changes nothing; a commit forgets exactly the challenges whose first proof was for a height up to that of the block.", "quantifier": "all sequences of proofs and commits", "why_tests_cant": "all orders of arrival and all histories", "anchors": ["src/Node_verify.cpp: Node::add_proof", "src/Node.cpp: Node::find_best_proof", "src/Node.cpp: Node::commit"]}
{"id": "C143", "title": "Merging two partly signed transactions keeps all signatures and adds those of the other", "statement": "After merge_sign every input has the signature it had, or else that of the other transaction, if it has one; signatures are kept in place; the transaction is fully signed exactly if every input is signed in one of the two.", "quantifier": "all pairs of transactions, all numbers of inputs and signatures", "why_tests_cant": "all ways of sharing signatures between inputs, all sizes", "anchors": ["src/Transaction.cpp: Transaction::merge_sign", "src/Transaction.cpp: Transaction::is_signed"]}
{"id": "C144", "title": "Every block and transaction that was stored is read back", "statement": "get_block and get_block_header give for every hash the block first stored under it, and nothing for any other hash; get_transaction and get_tx_height give every transaction of the current chain with the height of its block; the hashes at a height are those of the blocks stored with it, each once; whatever forks came and wherever writing a block was cut off.", "quantifier": "all sequences of blocks written, on the chain or beside it, of reverts, of ends of the process within a write, and of resets; all blocks", "why_tests_cant": "depends on the history of forks and on the place where writing stopped; offsets are right only if every write before was", "anchors": ["src/Node.cpp: Node::write_block", "src/Node.cpp: Node::read_block", "src/Node_api.cpp: Node::get_block_ex", "src/Node_api.cpp: Node::get_transaction"]}
{"id": "C145", "title": "A damaged file of blocks is noticed and mended", "statement": "After the end of the file of blocks was lost, a block that is written again can be read under its hash, and the check at start lets no block pass that is not the one the chain has at that height.", "quantifier": "all states of the file and its indexes, all blocks", "why_tests_cant": "all states a loss of data can leave", "anchors": ["src/Node.cpp: Node::write_block", "src/Node.cpp: Node::reset"]}
{"id": "C146", "title": "The liquidity reported to a user is what the exchanges hold for them", "statement": "get_swap_liquidity_by reports for every exchange the amounts that could be taken out of it by the given addresses.", "quantifier": "all sequences of calls of any users to any exchanges, all sets of addresses", "why_tests_cant": "the record is kept beside the contracts and must follow them through every history of calls", "anchors": ["src/Node.cpp: Node::apply", "src/Node_api.cpp: Node::get_swap_liquidity_by", "src/contract/swap.js: _add_liquid"]}
{"id": "C147", "title": "The ranking of farmers counts the blocks on the chain", "statement": "get_farmer_ranking lists farmers from the one with most blocks on the current chain down, each with the number of their blocks; a limit leaves out none with more blocks than one that is listed.", "quantifier": "all histories of blocks, forks, failures of apply, deep reverts and restarts; all limits", "why_tests_cant": "kept in memory and changed by every block, fork and failure; rebuilt only at times", "anchors": ["src/Node.cpp: Node::apply", "src/Node.cpp: Node::revert", "src/Node_api.cpp: Node::get_farmer_ranking"]}
{"id": "C148", "title": "The newest blocks of a set of farmers are found", "statement": "get_farmed_blocks gives the newest blocks of the given farmers from a height on, newest first, up to the limit; with a negative limit all of them, oldest first.", "quantifier": "all chains, all sets of keys, heights and limits", "why_tests_cant": "the limit applies to each key and then to all of them; all chains and sets of keys", "anchors": ["src/Node_api.cpp: Node::get_farmed_blocks"]}
{"id": "C149", "title": "The summary of a farmer adds up their rewards", "statement": "get_farmed_block_summary gives the number of blocks of the given farmers from a height on, the height of the newest, the sum of their rewards and the sums by address.", "quantifier": "all chains and rewards, all sets of keys and heights", "why_tests_cant": "sums over all chains; sizes of the integer types on the way", "anchors": ["src/Node_api.cpp: Node::get_farmed_block_summary", "src/Node.cpp: Node::apply", "interface/farmed_block_info_t.vni: farmed_block_info_t"]}
{"id": "C150", "title": "The most recent offers are found, however many others are between them", "statement": "get_recent_offers gives the newest offers that are open (or all), newest first, up to the limit; get_recent_offers_for gives offers of the named coins with the wanted balance, up to the limit, and leaves out none of a greater height than one that is given; both end.", "quantifier": "all logs of offers, all filters and limits", "why_tests_cant": "paging through a log of any length with a filter; boundaries of pages", "anchors": ["src/Node_api.cpp: Node::get_recent_offers", "src/Node_api.cpp: Node::get_recent_offers_for", "src/Node_api.cpp: Node::fetch_offers"]}
{"id": "C151", "title": "The most recent trades are found", "statement": "get_trade_history gives the newest trades from a height on, newest first, up to the limit, and get_trade_history_for those of the named coins.", "quantifier": "all logs of trades, all limits and heights", "why_tests_cant": "all logs; conversions of the limit and of the ends of the range", "anchors": ["src/Node_api.cpp: Node::get_trade_history", "src/Node_api.cpp: Node::get_trade_history_for"]}
{"id": "C152", "title": "The standard library of contracts sorts and compares", "statement": "sort gives the elements of an array of values of one type in ascending order, each as often as before, and aborts if the types differ; reverse reverses; equals says whether two values are the same to any depth; compare answers by one order: EQ only for the same values, LT and GT opposite to each other and carried over, shorter arrays before longer ones and then by the first difference.", "quantifier": "all arrays of any length, nested to any depth", "why_tests_cant": "all lengths and depths; a loop over adjacent elements that swaps in place", "anchors": ["src/vm/std/sort.js", "src/vm/std/reverse.js", "src/vm/std/equals.js", "src/vm/std/compare.js"]}
{"id": "C153", "title": "Poker: the better hand is ranked higher", "statement": "get_rank gives five cards of the deck, in whatever order, the best kind of hand that they are; check_win says of two hands which wins by the rules of poker.", "quantifier": "all hands", "why_tests_cant": "2.6 million hands and all pairs of them; kinds that include one another", "anchors": ["src/contract/poker.js: get_rank", "src/contract/poker.js: check_win"]}
{"id": "C154", "title": "Poker: the pot is paid out once", "statement": "Before the game is over nothing is paid and the contract holds at least all bets; afterwards it holds at least what is still to be claimed. Everybody is paid at most once for a seat, and exactly the share of that seat: the pot for the winner, or equal parts for those still in the game if nobody has shown, or the own bets if nobody is in the game. Whoever has a share gets it by calling claim.", "quantifier": "all sequences of calls by anybody, deposits and other payments to the contract, at all heights", "why_tests_cant": "all interleavings of calls and heights; rounding; coins that arrive from outside", "anchors": ["src/contract/poker.js: claim", "src/contract/poker.js: check_finish", "src/contract/poker.js: join", "src/contract/poker.js: bet"]}
{"id": "C155", "title": "Poker: the best hand shown wins", "statement": "Of all players who show a hand made of their cards and those on the table, the one with the best hand wins, with equal hands all who have it.", "quantifier": "all games and orders of showing", "why_tests_cant": "all hands and orders of calls", "anchors": ["src/contract/poker.js: show"]}
{"id": "C156", "title": "Poker: bets are never stuck", "statement": "Whatever the other players do or fail to do, each player can get back what the rules give them: alone by leaving, otherwise after time is over.", "quantifier": "all games, also with players that stop or send anything", "why_tests_cant": "behaviour of other players; permanence", "anchors": ["src/contract/poker.js: leave", "src/contract/poker.js: compute", "src/contract/poker.js: check_action", "src/contract/poker.js: is_timeout"]}
{"id": "C157", "title": "Poker: one seat each, and limits are kept", "statement": "Nobody can join a game twice. A game never has more players than it was deployed for, and nobody can have more in it than the limit it was deployed with.", "quantifier": "all games, with any calls in any order", "why_tests_cant": "all sequences of calls", "anchors": ["src/contract/poker.js: join", "src/contract/poker.js: bet"]}
{"id": "C158", "title": "Poker: nobody is out without having had a turn", "statement": "A player who did not fold is only put out of the game for not meeting a raise, after having had the chance to act since that raise, or for letting their time run out.", "quantifier": "all games with any number of players and orders of actions", "why_tests_cant": "all interleavings of raises, checks and folds", "anchors": ["src/contract/poker.js: check_action", "src/contract/poker.js: get_num_active", "src/contract/poker.js: fold"]}
{"id": "C159", "title": "A minority of price sources cannot decide the vote on the reward", "statement": "If most of the gold prices and most of the MMX prices that a node has lie in some ranges, then no values of the other sources can make it vote otherwise than prices in these ranges call for; and the vote is always one that a block may carry.", "quantifier": "all prices of all sources, all sets of sources that answer, all sequences of updates and downloads", "why_tests_cant": "any values from outside", "anchors": ["src/Node_control.cpp: get_median", "src/Node_control.cpp: Node::update_control"]}
{"id": "C160", "title": "Price sources are asked sparingly", "statement": "A node asks a price source only when what it has from it is missing or older than a day, never twice at the same time, and not again before the next full hour after a failure.", "quantifier": "all interleavings of updates, ends of downloads and timers", "why_tests_cant": "downloads end on other threads at any time", "anchors": ["src/Node_control.cpp: Node::update_control", "src/Node_control.cpp: Node::update_control_hourly", "src/Node_control.cpp: is_expired"]}
{"id": "C161", "title": "No vote on the reward from old prices", "statement": "After an update the vote is that of prices at most a day old, and 0 if there are none.", "quantifier": "all states of the files, all histories of successful and failed downloads", "why_tests_cant": "outages of any length", "anchors": ["src/Node_control.cpp: Node::update_control"]}
{"id": "C162", "title": "A block file gives back what was written", "statement": "After a flush, a merge or a revert, the file that was written is opened with the level, versions and number of its entries; a lookup in it gives for every key and version the newest value up to that version, or nothing if there is none; reading all entries in a row or by the index gives exactly what was written.", "quantifier": "all sets of entries of any number and sizes that fit the fields, all keys and versions", "why_tests_cant": "all sizes and numbers of entries; positions in a binary file", "anchors": ["src/DataBase.cpp: Table::read_block", "src/DataBase.cpp: Table::find", "src/DataBase.cpp: Table::lower_bound", "src/DataBase.cpp: Table::finish_block", "src/DataBase.cpp: Table::flush"]}
{"id": "C163", "title": "A damaged block file is refused", "statement": "A block file that is not as it was written, cut short or changed, is refused when it is opened or read.", "quantifier": "all block files, all places where they can be cut or changed", "why_tests_cant": "all positions; what a power failure leaves", "anchors": ["src/DataBase.cpp: Table::read_block", "src/DataBase.cpp: read_entry"]}
{"id": "C164", "title": "SHA-256 on Arm processors, and on whichever processor", "statement": "On Arm processors with SHA instructions a message of any length hashes to its SHA-256, and hashing a hash n times, alone or two at once, gives the n-fold SHA-256 of each. The hash of the node, the hashing of eight short messages and the work of a time lord give the same on every processor, whichever instructions it has; a node that checks two points of a proof of time at once gets what the time lord computed on another kind of processor.", "quantifier": "every message, number of iterations, set of instructions and content of uninitialised registers", "why_tests_cant": "needs a machine of each kind; bit-level vector code, with a schedule word copied instead of computed, whose rare wrong result would fork the chain between kinds of processors", "anchors": ["src/sha256_arm.cpp: sha256_arm, compress_digest", "src/sha256_arm_rec.cpp: recursive_sha256_arm, recursive_sha256_arm_x2", "src/hash_t.cpp: hash_t::hash_t", "src/sha256_64_x8.cpp: sha256_64_x8", "src/TimeLord.cpp: TimeLord::compute", "src/Node_verify.cpp: Node::verify_vdf_cpu"]}
{"id": "C165", "title": "A signature check gives the same answer on every node", "statement": "Whether a signature is accepted, refused or cannot be read depends only on the signature, the key and the message: not on what the node checked before, on other threads that check signatures at the same time, or on the random salt of its cache. Each call is answered once.", "quantifier": "all messages, keys and signatures, all histories and interleavings of checks by any number of threads, all salts", "why_tests_cant": "depends on which entries share a slot of a cache with a random salt, and on the order in which threads get a lock", "anchors": ["src/signature_t.cpp: signature_t::verify", "include/mmx/bytes_t.hpp: bytes_t", "src/vm/Engine.cpp: Engine::verify"]}
{"id": "C166", "title": "A proof server gives what the node would compute", "statement": "A node that leaves the recomputation of proofs of space to a proof server gets the same entries and the same values in the same order as if it had computed them itself, and fails in the same cases. Each row the server returns is a proof over its own 256 values.", "quantifier": "all values, sizes and numbers of dropped bits, all hash functions and sorts", "why_tests_cant": "the number of proofs in a request varies, and the values of all of them are cut apart by a division", "anchors": ["src/ProofServer.cpp: ProofServer::compute_async", "src/pos/verify.cpp: compute"]}
{"id": "C167", "title": "Every proof handed to the GPU is answered once, in its turn", "statement": "A request to recompute a proof on the GPU that was accepted is answered exactly once, with what was computed from its own values, to a caller that asked for it. It cannot be overtaken for ever by requests of other kinds, and no caller sleeps while its result is there. A shutdown ends every wait.", "quantifier": "all numbers of devices, callers and requests, all interleavings of their threads, failures of devices and a shutdown at any point", "why_tests_cant": "threads of devices, of callers and of the CPU meet under one lock in any order, and devices fail at any time", "anchors": ["src/pos/cuda_recompute.cu: cuda_recompute, cuda_recompute_poll, cuda_recompute_loop, cuda_recompute_shutdown, cuda_finish_cpu"]}
{"id": "C168", "title": "After a refresh a wallet counts no coins as free that its own transactions still take", "statement": "Right after a wallet has asked its node for news, what it can spend from an address is what the chain gives that address, less what those of the wallet's own transactions take that are not in the chain and can still get into it. This holds whatever was sent, confirmed or has expired before, and whatever happens to the chain.", "quantifier": "all histories of blocks, of blocks taken back, of transactions sent and of refreshes, all addresses and currencies", "why_tests_cant": "the node is asked in several calls between which its chain may change", "anchors": ["src/Wallet.cpp: Wallet::update_cache, Wallet::send_off", "include/mmx/ECDSA_Wallet.h: update_cache, update_from", "src/Node_api.cpp: Node::get_tx_ids_since, Node::get_height"]}
{"id": "C169", "title": "A connection counts as one to a node only if that node is at its other end", "statement": "When a node has verified the id of a peer, the owner of that id is at the other end of the connection. There is at most one open connection for each id, and a connection to an honest node is not closed because somebody else says he is that node.", "quantifier": "all numbers of nodes and connections, all interleavings, an outsider who connects to any node, sends anything and passes on what he has seen", "why_tests_cant": "depends on what an attacker sends on several connections to several nodes", "anchors": ["src/Router.cpp: Router::on_return, Router::sign_msg, Router::on_connect, Router::on_disconnect"]}
{"id": "C170", "title": "Connections are counted right, and a kicked address stays away", "statement": "The router's lists of connections agree: the peers it reports are those it finds by address, each once, and only peers are asked for blocks. When a connection has ended and been cleared away nothing about it is left, whatever still arrives from it. Kicking an address ends all connections with it, and no connection with it is open again while it is on the list of banned addresses; it stays there until the list is full. The number of attempts to connect at a time is bounded by the settings, no attempt stays on the list when it is over, and except for fixed peers an attempt goes only to an address with which there is no connection, that is not banned and not our own. Peers are given at most as many addresses as they ask for, none of a private range.", "quantifier": "all histories of dials, connections, failures, ends, kicks and messages in any order, with names that resolve to other addresses over time", "why_tests_cant": "Ends of connections are handled later than they happen, and messages arrive in between; the number of orders is unbounded.", "anchors": ["src/Router.cpp: connect", "src/Router.cpp: connect_to", "src/Router.cpp: on_connect", "src/Router.cpp: on_disconnect", "src/Router.cpp: ban_peer", "src/Router.cpp: kick_peer", "src/Router.cpp: get_peers"]}
{"id": "C171", "title": "The balances a wallet shows add up", "statement": "For each currency the wallet shows as spendable the sum over its addresses of what the node reported less what its pending transactions take, as reserved what these take, and as total the coins reported by the node and those locked in contracts: sending a transaction moves coins from spendable to reserved and changes no total, until it is confirmed or expires.", "quantifier": "all histories of refreshes, sent transactions and resets, all addresses and currencies", "why_tests_cant": "The sums depend on the whole history of sends and refreshes and on any number of addresses.", "anchors": ["src/Wallet.cpp: get_balances", "src/Wallet.cpp: get_balance", "include/mmx/ECDSA_Wallet.h: update_cache", "include/mmx/ECDSA_Wallet.h: update_from"]}
{"id": "C172", "title": "A harvester farms the plots that are there", "statement": "After any number of reloads a harvester farms exactly the plots whose file can be opened, has a permitted size and is for a key of the farmer, in the directories to search and, if asked for, those below them to the permitted depth; each plot is looked up once, however many files have it; the reported space is that of the plots looked up; the order in which threads read the disks does not matter; and a reload that finds nothing new disturbs nothing.", "quantifier": "all disks, links between directories, listing errors, keys, sequences of reloads and schedules of the threads", "why_tests_cant": "Depends on the history of all reloads, on arbitrary directory graphs and on the interleaving of threads.", "anchors": ["src/Harvester.cpp: find_plot_dirs", "src/Harvester.cpp: reload", "src/Harvester.cpp: lookup_task", "include/mmx/Harvester.h: plot_map"]}
{"id": "C173", "title": "A farmer counts its harvesters and partials once", "statement": "The space and number of plots a farmer reports are the sums over the harvesters it has heard of in time, each with its latest message and none twice. Every partial it sent to a pool is either waiting for an answer or counted exactly once, as accepted with its points or as failed with its difficulty and one error, for the contract it was made for.", "quantifier": "all sequences of messages from harvesters, timer events, partials and answers of pools, in any order", "why_tests_cant": "Answers come in any order, late or never, mixed with messages of any number of harvesters.", "anchors": ["src/Farmer.cpp: get_farm_info", "src/Farmer.cpp: handle", "src/Farmer.cpp: update", "interface/pooling_stats_t.vni"]}
{"id": "C174", "title": "Partials are made with the difficulty of the pool", "statement": "The difficulty used for a plot contract is the last one answered by the pool at which the contract is, and what a harvester knows of plot contracts is about contracts of its plots.", "quantifier": "all orders of messages, requests and answers", "why_tests_cant": "Depends on races between requests to several pools and changes of the pool.", "anchors": ["src/Farmer.cpp: query_difficulty", "src/Farmer.cpp: get_partial_diff", "src/Farmer.cpp: handle", "src/Harvester.cpp: update_nfts"]}
{"id": "C175", "title": "Received proofs are judged once and in time", "statement": "A proof of space sent to a node is judged at the first pass at which its challenge is settled; it counts from then on if it is valid at that time, and is forgotten otherwise or when ten block intervals have gone by first. Until then it waits. Which proofs are known for a challenge, and which is the best, does not depend on the order in which the threads finish.", "quantifier": "all sequences of received proofs and passes, all schedules of the threads in a pass", "why_tests_cant": "The order of threads and the times of arrival are unbounded in number.", "anchors": ["src/Node_update.cpp: verify_proofs", "src/Node.cpp: handle", "src/Node_verify.cpp: add_proof"]}
{"id": "C176", "title": "An account of a wallet keeps its number, and its key", "statement": "The number under which an account is created stays that account's, over restarts and whatever other accounts are created, removed or given more addresses; when it is removed there is no account with that number. No operation, also none that fails, changes or deletes a key file that was there before.", "quantifier": "all sequences of created, imported and removed accounts, changes of the number of addresses and restarts; all failures of reading and writing files", "why_tests_cant": "Depends on the whole history of accounts, failed attempts and restarts.", "anchors": ["src/Wallet.cpp: main", "src/Wallet.cpp: add_account", "src/Wallet.cpp: create_account", "src/Wallet.cpp: import_wallet", "src/Wallet.cpp: remove_account", "src/Wallet.cpp: set_address_count"]}
{"id": "C177", "title": "What the node tells about a swap is what the swap does", "statement": "If a node estimates a trade as an amount and a fee, the trade made in that state gives exactly that amount to the recipient, whatever minimum up to it is asked for, and is refused with a higher minimum; every trade that succeeds has an estimate. Whoever takes out all liquidity gets exactly the earned fees and the equivalent liquidity that the node told, and the transaction which a wallet makes to take out all does the same as the contract's own method for it.", "quantifier": "all states of the exchange, all amounts, numbers of iterations, minimum trades, users and heights", "why_tests_cant": "Compares two different computations over every state of a contract and every amount.", "anchors": ["src/Node_api.cpp: get_swap_trade_estimate", "src/Node_api.cpp: get_swap_fees_earned", "src/Node_api.cpp: get_swap_equivalent_liquidity", "src/Wallet.cpp: swap_rem_liquid", "src/contract/swap.js: trade", "src/contract/swap.js: rem_all_liquid"]}
{"id": "C178", "title": "The past state of a contract can be read", "statement": "Asked for the storage of a contract as of some height, a node answers with what the blocks up to that height have left there: the value of a variable, of a field, of an entry, all entries of an array in order, all entries of a map with their keys; whatever blocks were applied, failed or reverted before, and whatever came after.", "quantifier": "all histories of applied, failed and reverted blocks with any writes, all contracts, addresses, names, keys and heights", "why_tests_cant": "Ranges over every history of a chain with reorganisations and every past height.", "anchors": ["src/Node_api.cpp: read_storage", "src/Node_api.cpp: read_storage_field", "src/Node_api.cpp: read_storage_entry_var", "src/Node_api.cpp: read_storage_array", "src/Node_api.cpp: read_storage_map", "src/vm/StorageDB.cpp: read_ex", "src/vm/StorageDB.cpp: find_entries", "src/vm/StorageDB.cpp: lookup"]}
{"id": "C179", "title": "A wallet with a passphrase is locked when it is not used", "statement": "When its timer has had its turn, an account with a passphrase that is unlocked was unlocked, or has sent a transaction, less than the timeout ago. A timer never locks another account, one without passphrase, or one used within the timeout. Signing with a passphrase leaves an account as it was.", "quantifier": "all sequences of accounts added, unlocked, locked, used, removed and replaced under the same number, time passing, timers running late; all timeouts", "why_tests_cant": "Depends on how calls and timers of several accounts interleave in time.", "anchors": ["src/Wallet.cpp: unlock", "src/Wallet.cpp: lock", "src/Wallet.cpp: send_off", "src/Wallet.cpp: add_account", "include/mmx/ECDSA_Wallet.h: lock", "include/mmx/ECDSA_Wallet.h: sign_off"]}
{"id": "C180", "title": "The hash of a block settles what is in it", "statement": "Two valid blocks with the same hash have the same header, with the same proofs of space, and the same transactions in the same order: every field of the header (from hardfork 2 on also proof_chain), and every transaction by its content hash. Two with the same content hash also have the same signature. Unless the hash function collides.", "quantifier": "all pairs of valid blocks, with any number of proofs and transactions; all hash functions; all heights of hardfork 2", "why_tests_cant": "Ranges over all pairs of blocks; a test compares a few that differ in one field.", "anchors": ["src/BlockHeader.cpp: calc_hash", "src/BlockHeader.cpp: calc_content_hash", "src/BlockHeader.cpp: is_valid", "src/Block.cpp: is_valid", "src/Block.cpp: calc_tx_hash", "include/mmx/tree_hash.h: calc_btree_hash", "src/ProofOfSpaceOG.cpp: calc_hash", "src/ProofOfSpaceNFT.cpp: calc_hash"]}
{"id": "C181", "title": "A farmer's signature means one thing only", "statement": "A signature that a farmer gave for a block, a proof, a partial or a vote is not one for anything of another kind; that of a vote is for one block hash and one key, that of a proof for one VDF height and one proof, that of a block for one header.", "quantifier": "all messages that a farmer signs; all hash functions that do not collide on the two messages", "why_tests_cant": "Ranges over all pairs of messages of all kinds.", "anchors": ["src/Farmer.cpp: handle", "src/Farmer.cpp: sign_block", "src/Farmer.cpp: sign_vote", "src/ProofResponse.cpp: calc_hash", "src/ValidatorVote.cpp: is_valid", "src/Partial.cpp: calc_hash"]}
{"id": "C182", "title": "The balances a node reports add up", "statement": "What get_total_balances, get_balances, get_total_balance, get_all_balances and get_contract_balances report for a currency is the sum of the balances of the addresses given, each counted once; currencies they have none of are not listed; with a whitelist only those in it are. A contract's balances are all locked or all spendable, as its is_locked says. A limit never makes a reported balance wrong.", "quantifier": "all contents of the balance table, all lists of addresses with repetitions, all whitelists, all limits", "why_tests_cant": "Ranges over all tables and lists of addresses.", "anchors": ["src/Node_api.cpp: get_balance", "src/Node_api.cpp: get_total_balance", "src/Node_api.cpp: get_balances", "src/Node_api.cpp: get_contract_balances", "src/Node_api.cpp: get_total_balances", "src/Node_api.cpp: get_all_balances", "include/mmx/table.h: find_range"]}
{"id": "C183", "title": "Offers are shown as they are", "statement": "get_offer shows price, balances, owner and partner as they are in the contract, and as ask_amount exactly what buys all that is on offer. The lists of offers have every public offer in the state asked for and no other. The trade history shows what was paid and received.", "quantifier": "all states of all offers; all lists of them; all deposits", "why_tests_cant": "Ranges over all prices and balances of offers and all lists of them; a list fails because of one offer.", "anchors": ["src/Node_api.cpp: get_offer", "src/Node_api.cpp: get_offer_state", "src/Node_api.cpp: fetch_offers", "src/Node_api.cpp: make_trade_entry", "src/offer_data_t.cpp: get_ask_amount", "src/offer_data_t.cpp: is_scam", "src/Node.cpp: apply", "src/contract/offer.js: accept"]}
{"id": "C184", "title": "A plot NFT is shown as its contract behaves", "statement": "get_plot_nft_info says that a plot NFT is locked exactly when its contract is, at the height of the node; its target is then where rewards go and who alone can claim, whichever farmer; otherwise it is the owner who can claim.", "quantifier": "all histories of calls of a plot NFT, all heights", "why_tests_cant": "Ranges over all histories of calls and all heights.", "anchors": ["src/Node_api.cpp: get_plot_nft_info", "src/contract/plot_nft.js: is_locked", "src/contract/plot_nft.js: mmx_reward_target", "src/contract/plot_nft.js: claim_all"]}
{"id": "C185", "title": "Exchanges are shown as they are", "statement": "After any calls of an exchange contract, get_swap_info shows for both tokens what the contract holds, the sums over its pools of balance, liquidity, fees paid and fees claimed, the numbers of each pool, and what was traded and taken as fees since a day and a week ago. What is shown as held covers the balance and the unclaimed fees shown. get_swap_user_info shows pool, liquidity, fees and the amounts that can be taken out as the contract has them, and from the height shown on the liquidity can be taken out. The list of exchanges has an order that can be sorted by.", "quantifier": "all histories of calls by anybody, all earlier points of the history, all users", "why_tests_cant": "Ranges over all histories of calls; that differences with the past do not go below zero, and that sums of four pools fit, depends on all of them.", "anchors": ["src/Node_api.cpp: get_swap_info", "src/Node_api.cpp: get_swap_user_info", "src/Node_api.cpp: get_swaps", "include/mmx/uint128.hpp: uint128", "src/contract/swap.js"]}
{"id": "C186", "title": "The list of known tokens is what the user made it", "statement": "After any calls of add_token and remove_token, failures to write the settings, ends of the program in the middle of a call, and restarts: get_token_list has the native coin and every known token that the chain has; a token is known if it was added last, or was on the list and not removed; a token that was removed last, or never added, is not known; and a restart does not change this.", "quantifier": "all sequences of calls, failures, crashes and restarts; all tokens", "why_tests_cant": "Ranges over all sequences of calls with crashes; the failure appears only after a restart.", "anchors": ["src/Wallet.cpp: get_token_list", "src/Wallet.cpp: add_token", "src/Wallet.cpp: rem_token", "config/mainnet-rc/Wallet.json", "config/local_init/Wallet.json"]}
{"id": "C187", "title": "Requests of peers are answered once and reach only a few queries", "statement": "However connections, requests, answers of the node and ends of connections mix: for each connection and request id a peer is never sent more answers than it made requests, and while the connection is open each of its requests is answered once or the node is still working on it. Peers can make the node execute only nine read-only queries, and each answer fits a request made with that id over that connection. While a peer does not read, its requests do not reach the node but are answered with an overflow; it is paused only during this time and told to go on afterwards; and what waits to be sent to it stays bounded.", "quantifier": "all sequences of events of any number of connections", "why_tests_cant": "Ranges over all interleavings of asynchronous answers with connections and disconnections.", "anchors": ["src/Router.cpp: on_request", "src/Router.cpp: send_to", "src/Router.cpp: on_error", "src/Router.cpp: on_pause", "src/Router.cpp: on_resume", "src/Router.cpp: on_disconnect"]}
{"id": "C188", "title": "Whoever asks for a contract gets what the chain has", "statement": "However calls of the API in their threads, validation in its threads, and updates of the node mix: get_contract, and validation, are given the contract that the chain has at this address, or none if it has none, whatever was asked before; during one call of the API the chain does not change; and the contracts kept in memory for this are at most 65535.", "quantifier": "all interleavings of any number of threads, all histories of the chain", "why_tests_cant": "Ranges over all schedules of threads around locks; the failure needs a thread to stop between two lines.", "anchors": ["src/Node_api.cpp: get_contract_ex", "src/Node_api.cpp: async_api_call", "src/Node.cpp: apply", "src/Node.cpp: revert", "src/Node.cpp: revert_sync", "src/Node_update.cpp: update"]}
{"id": "C189", "title": "A transaction handed to the node is pending until it was judged itself", "statement": "A transaction that add_transaction accepts without an error can be found as pending until it was validated itself or is in a block, whatever other transactions are sent, copies of it with other signatures included; what validation says of such a copy does not count for it; and if nothing is skipped or added, all are judged after as many rounds as there are. The queue never has more than max_tx_queue transactions. If a transaction is to be validated first and fails, or the node is not in sync, the caller is told and nothing happens.", "quantifier": "all sequences of transactions from users and peers, blocks, reverts and validations, in any order of the queue", "why_tests_cant": "Ranges over all histories and all orders of a hash map; the failure needs a full queue.", "anchors": ["src/Node.cpp: add_transaction", "src/Node.cpp: handle", "src/Node.cpp: apply", "src/Node_update.cpp: validate_new", "src/Node_api.cpp: get_transaction"]}
{"id": "C190", "title": "What a timelord signs settles its proof of time", "statement": "Two valid proofs of time with the same hash, which is what the timelord signs, have the same version, height, start, number of iterations, segment size, input, block, reward address and segments; with the same content hash they are equal in all. What a timelord publishes is valid and signed. Two valid VDF points with the same content hash agree in all but the time they came in and the attached proof, and nodes that verified proofs which agree in height, start, iterations, input, output, block and address get the same point. What timelords sign is never the bytes of a block, a header, a proof of space or a response.", "quantifier": "all proofs of time and VDF points, all blocks and proofs, all hash functions that do not collide on the inputs at hand", "why_tests_cant": "Ranges over all pairs of messages; no test can try them all.", "anchors": ["src/ProofOfTime.cpp: calc_hash, calc_content_hash, is_valid, validate, get_output", "src/VDF_Point.cpp: calc_hash, is_valid", "src/TimeLord.cpp: TimeLord::update", "src/Node_verify.cpp: Node::verify_vdf_task"]}
{"id": "C191", "title": "Contracts are listed by who deployed them and by who owns them", "statement": "get_contracts_by lists, address by address and oldest first, exactly the contracts that transactions of that sender deployed on the current chain without failing, of the type asked for if any. get_contracts_owned_by lists in the same way the contracts that the address owns. Blocks that were reverted leave no trace. A wallet shows for its addresses exactly those that the node lists and has, of the type asked for.", "quantifier": "all sequences of blocks and reverts, all transactions in them, all lists of addresses and types", "why_tests_cant": "Ranges over all histories of blocks and reverts; the failure needs an ownership that moves after the contract was deployed.", "anchors": ["src/Node.cpp: apply", "src/Node.cpp: revert", "src/Node_api.cpp: get_contracts_by", "src/Node_api.cpp: get_contracts_owned_by", "src/Wallet.cpp: get_contracts", "src/Wallet.cpp: get_contracts_owned", "src/contract/plot_nft.js: transfer"]}
{"id": "C192", "title": "The lists of transactions agree with the chain", "statement": "get_tx_ids(limit) lists the transactions of the current chain block by block from the newest on, those of a block in their order, and at most limit; get_tx_ids_at(height) lists those of one block and get_tx_ids_since(height) those of all blocks from there on; get_tx_height gives the height of the block that has the transaction and nothing if none has it. No transaction is on a chain twice. All this holds whatever was reverted before.", "quantifier": "all sequences of blocks and reverts, all heights, limits and ids", "why_tests_cant": "Ranges over all histories of blocks and reverts.", "anchors": ["src/Node_api.cpp: get_tx_ids", "src/Node_api.cpp: get_tx_ids_at", "src/Node_api.cpp: get_tx_ids_since", "src/Node_api.cpp: get_tx_height", "src/Node.cpp: apply", "src/Node.cpp: write_block", "src/Node.cpp: revert"]}
{"id": "C193", "title": "What the wallet asks of an exchange is what the user asked for", "statement": "swap_trade takes exactly the amount given, in the currency given, from the wallet; if the trade goes through, the wallet's first address gets coins of the other kind, not less than min_trade, and nobody else gets anything; it refuses just the currencies the exchange does not have. swap_add_liquid takes the two amounts, each in its own currency, and the liquidity of the wallet's first address grows by exactly these. swap_rem_liquid takes nothing from the wallet; if it goes through, the liquidity of that address falls by exactly the amounts given, the fees due are paid first, all that leaves the pools is sent, and all that is sent goes to it. The liquidity of others is as before.", "quantifier": "all exchanges in all states, all amounts, currencies, pools, iteration counts and heights", "why_tests_cant": "Ranges over all states of the exchange and all amounts.", "anchors": ["src/Wallet.cpp: swap_trade", "src/Wallet.cpp: swap_add_liquid", "src/Wallet.cpp: swap_rem_liquid", "src/Wallet.cpp: deposit", "src/contract/swap.js: trade", "src/contract/swap.js: add_liquid", "src/contract/swap.js: rem_liquid", "src/contract/swap.js: payout"]}
{"id": "C194", "title": "What the wallet asks of an offer is what the user asked for, whatever happened in between", "statement": "offer_trade spends exactly the amount given in the coin the offer asks for, and the chosen address gets what it buys at the price given, rounded down. accept_offer spends no more than the ask amount shown when the user asked; the chosen address gets coins at the price given, and the rest of the payment back; if nothing happened since, it takes the whole offer for exactly the amount shown. Neither goes through at another price. cancel_offer and offer_withdraw spend nothing and give the owner all that the offer has.", "quantifier": "all offers, all that may happen to an offer between looking at it and execution, all amounts, prices and heights", "why_tests_cant": "Ranges over all histories between looking at an offer and the execution of the call.", "anchors": ["src/Wallet.cpp: offer_trade", "src/Wallet.cpp: accept_offer", "src/Wallet.cpp: cancel_offer", "src/Wallet.cpp: offer_withdraw", "src/Wallet.cpp: deposit", "src/Wallet.cpp: execute", "src/Node_api.cpp: get_offer", "src/contract/offer.js: trade", "src/contract/offer.js: accept"]}
{"id": "C195", "title": "An address is found with the wallet that has it", "statement": "An account finds exactly its own addresses, each with its number, however often it was locked and unlocked; once it has addresses, it is unlocked only by a passphrase that gives its first one. find_wallet_by_addr gives the first wallet that has the address, and fails only for addresses that get_all_addresses does not list.", "quantifier": "all accounts and lists of accounts, all numbers of addresses, all sequences of unlocking", "why_tests_cant": "Ranges over all lists of accounts and all sequences of unlocking.", "anchors": ["include/mmx/ECDSA_Wallet.h: ECDSA_Wallet", "include/mmx/ECDSA_Wallet.h: unlock", "include/mmx/ECDSA_Wallet.h: find_address", "src/Wallet.cpp: find_wallet_by_addr", "src/Wallet.cpp: get_all_addresses", "src/Wallet.cpp: set_address_count"]}
