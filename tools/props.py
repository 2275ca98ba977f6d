import json
P=[]
def p(id,title,statement,quantifier,why,anchors):
    P.append(dict(id=id,title=title,statement=statement,quantifier=quantifier,why_tests_cant=why,anchors=anchors))
DB="src/DataBase.cpp"
p("C01","Versioned point reads return the latest surviving write",
 "After any sequence of insert, commit, flush and revert calls on a table, find(key, v) returns the value of the most recent insert of that key whose version is at most v and which was not undone by a later revert, and returns nothing when there is no such insert.",
 "all keys, all read versions, all histories of insert/commit/flush/revert of any length, all numbers and shapes of on-disk blocks",
 "The answer depends on which of the in-memory map, its index, or any of arbitrarily many blocks at several levels holds the entry; the number of layouts is unbounded.",
 [DB+": Table::insert, Table::find, Table::lower_bound, Table::commit, Table::flush, Table::revert, Table::rewrite, Table::check_rewrite"])
p("C02","Flush and compaction never change what a reader sees",
 "Calling flush, or any number of block merges happening inside it, changes neither the result of any find at any version nor the sequence of key/value pairs produced by a full iteration.",
 "all table states reachable by any history, all keys and read versions, any merge factor",
 "Compaction is triggered by block counts at several levels and by reverts that shorten blocks; tests see a handful of layouts.",
 [DB+": Table::flush, Table::rewrite, Table::check_rewrite"])
p("C03","Revert undoes exactly the newer versions",
 "revert(v) leaves every write made at a version below v readable exactly as before and makes every write at version v or later unreadable; histories that differ only in the reverted writes are indistinguishable afterwards, also through further operations.",
 "all histories before and after the revert, all target versions, all keys and read versions",
 "Reverts partially rewrite blocks, drop others and patch the memory index; correctness must hold for every split point.",
 [DB+": Table::revert"])
p("C04","Version discipline: commits only move forward, reverts only backward, refused calls do nothing",
 "commit(v) succeeds exactly when v is larger than the current version and is not the reserved value, revert(v) exactly when v is not larger than the current version, and inserts, reverts and flushes are refused while an iterator is alive; a call refused for one of these reasons changes neither the readable content nor the version nor the log.",
 "all histories and all version arguments",
 "It is a statement about every interleaving of accepted and refused calls.",
 [DB+": Table::commit, Table::revert, Table::insert, Table::flush, Table::Iterator::Iterator"])
p("C05","Reopening after a crash between calls recovers exactly the committed writes",
 "If the process dies at any moment between two calls and an arbitrary suffix of the not yet flushed log output is lost (possibly cutting a record in half), reopening the table yields every write that was committed and no write of the uncommitted version.",
 "all histories, all lengths of surviving log prefix not shorter than the last flush of the log, all keys and read versions",
 "Crash points and history lengths are unbounded and a test cannot enumerate every torn log.",
 [DB+": Table::Table, Table::insert, Table::commit, read_entry_sum, write_entry_sum"])
p("C06","A crash inside flush, revert or compaction loses nothing that was committed",
 "If the process dies between any two file operations of a flush, a revert or a block merge, reopening the table yields exactly the committed writes of the state before or after that call.",
 "all table states, all crash points within the sequence of file operations, all keys and read versions",
 "Each operation performs a state dependent number of file creations, renames and removals, and each prefix is a possible disk.",
 [DB+": Table::Table, Table::flush, Table::revert, Table::check_rewrite, Table::rename"])
p("C07","The committed version number survives a restart",
 "After a commit(v) has returned, reopening the table reports current_version() equal to v.",
 "all histories of insert/commit/flush/revert ending in a successful commit",
 "The version is recovered from two different sources (blocks and log) depending on the flush history.",
 [DB+": Table::Table, Table::commit, Table::flush, Table::current_version"])
p("C08","Database recovery brings all tables to one common version",
 "recover() leaves every table at the same version, the smallest version any of them had, and every table then reads as it did at that version.",
 "all numbers of tables, all version skews, all table contents",
 "Number of tables and skews are unbounded; the property relates all tables at once.",
 [DB+": DataBase::recover, DataBase::min_version, DataBase::revert"])
p("C09","Forward iteration lists every live key once, in order, with its newest value",
 "Starting from seek_begin() or seek(key) and calling next() until the iterator is invalid yields exactly the stored keys (not smaller than key), strictly ascending in comparator order, each with the value find(key) returns.",
 "all table states, all start keys",
 "The iterator merges the memory index and arbitrarily many blocks that may hold several versions of the same key.",
 [DB+": Table::Iterator::seek, Table::Iterator::next, Table::Iterator::seek_begin"])
p("C10","Backward iteration and direction changes enumerate neighbours",
 "seek_last()/seek_prev(key) followed by prev() yields the stored keys (smaller than key) strictly descending with newest values; and after any mixture of prev() and next() the iterator stands on the neighbour of the previous key in the requested direction.",
 "all table states, all start keys, all sequences of prev/next calls",
 "Which neighbours exist in which block is state dependent; only some layouts show a skipped key.",
 [DB+": Table::Iterator::prev, Table::Iterator::seek_prev, Table::Iterator::seek_next, Table::Iterator::seek_last, Table::Iterator::seek_for_prev"])
p("C11","Table keys sort like the values they encode",
 "For unsigned integers, fixed size hashes and pairs/tuples of them, the byte string written as table key is injective and the table comparator orders two encoded keys exactly like the lexicographic order of the values; decoding an encoded key gives back the value.",
 "all key values of the supported widths",
 "2^64 and larger domains.",
 ["include/mmx/table.h: uint_table, uint_uint_table, hash_uint_table, hash_uint_uint_table", "include/mmx/multi_table.h: multi_table", DB+": Table::default_comparator"])
p("C12","Multi-value tables return values in insertion order",
 "After any sequence of inserts into a multi-value table, find(key) returns exactly the values inserted for that key in insertion order, find_last returns the last n of them, and values of other keys are never returned; running out of indices is refused and never overwrites an old value.",
 "all insertion sequences, all keys, all limits",
 "Unbounded histories; correctness relies on the order of composite keys and on locating the last index by a reverse seek.",
 ["include/mmx/multi_table.h: multi_table::insert, insert_many, find, find_last, find_range"])
p("C13","A damaged log tail never resurrects or corrupts writes",
 "Replaying a log that consists of valid records followed by an incomplete record yields exactly the effect of the valid records; parsing what was written gives back the same records, and no strict prefix of a record is accepted as a record.",
 "all record sequences, all cut positions",
 "Every byte offset of every log is a case.",
 [DB+": read_entry_sum, write_entry_sum, Table::Table"])
VT="src/vm/var_t.cpp"
p("C14","Smart contract values survive serialization",
 "Deserializing the bytes produced by serializing any variable yields an equal variable (same type, value and, when requested, reference count and flags), consumes exactly those bytes, and never succeeds on a truncated input.",
 "all variables of all types and sizes, all option combinations, all truncation points, any trailing bytes",
 "Unbounded values; a wrong width for one range of integers would corrupt contract state silently.",
 [VT+": serialize, deserialize", "include/mmx/vm/var_t.h"])
p("C15","Comparing contract values is a total order consistent with equality",
 "The three-way comparison of contract values is reflexive, antisymmetric, transitive and total, and reports equality only for values of the same type and content, so that using values as map keys is well defined.",
 "all pairs and triples of values",
 "Unbounded domain, three-way interplay of types and lengths.",
 [VT+": compare", "include/mmx/vm/var_t.h: varptr_less_t"])
p("C16","Compiled bytecode survives serialization",
 "Serializing any instruction sequence with defined opcodes and deserializing it yields the same sequence, for any number of distinct operand values.",
 "all instruction sequences over all opcodes and 32-bit operands",
 "Three operand encodings share one byte stream; the switch-over points depend on the frequency table of the whole program.",
 ["src/vm/instr_t.cpp: serialize, deserialize, get_opcode_info"])
EN="src/vm/Engine.cpp"
p("C17","Gas bounds the length of every contract execution",
 "Every executed instruction consumes at least the base instruction cost, consumed gas never decreases, execution stops with an error as soon as gas exceeds the limit, so every program with any input terminates within limit/base-cost+1 instructions and never reports success with gas above the limit.",
 "all programs, inputs, gas limits and storage contents",
 "Termination for all programs cannot be tested.",
 [EN+": Engine::run, Engine::step, Engine::check_gas"])
p("C18","Constants and call context cannot be modified by a running contract",
 "No instruction executed by a contract changes the content of a memory cell marked constant (code constants, caller identity, height, deposit and the other values set by the host before the call); an attempt aborts the execution.",
 "all programs and inputs, all reachable engine states",
 "Must hold for every instruction in every addressing mode and every machine state.",
 [EN+": Engine::assign, Engine::write, Engine::erase, Engine::begin, Engine::init"])
p("C19","Sends never exceed the contract balance",
 "During one execution the total amount of each currency sent by a contract never exceeds the balance the contract had (plus deposit), each send is recorded as an output with exactly that amount, the remaining balance shown to the program is the initial balance minus what was sent, and zero or oversized amounts abort or do nothing.",
 "all programs, all sequences of sends, all balances and currencies",
 "Unbounded sequences of sends with 128/256 bit amounts.",
 [EN+": Engine::send, Engine::mint, Engine::read_balance"])
p("C20","A contract can only mint its own token and only below 2^80 per mint",
 "Every mint output produced by an execution carries the executing contract as currency and an amount below 2^80; no other operation creates mint outputs.",
 "all programs and states",
 "All-quantified over programs.",
 [EN+": Engine::mint"])
p("C21","Contract integer arithmetic is exact or aborts",
 "With overflow checking enabled, addition, subtraction and multiplication of 256-bit values either return the exact mathematical result or abort; division and modulo abort on zero and are otherwise exact.",
 "all pairs of 256-bit operands",
 "2^512 operand pairs; the overflow test of the old revision is wrong only on a thin set.",
 [EN+": Engine::step (OP_ADD, OP_SUB, OP_MUL, OP_DIV, OP_MOD)", "include/mmx/vm/instr_t.h: OPFLAG_CATCH_OVERFLOW"])
p("C22","Contract storage changes are all-or-nothing",
 "Writes made through a storage cache are visible to reads through it immediately, invisible to the backing store until commit, and after commit the backing store answers every read as the cache did; dropping the cache leaves the backing store unchanged.",
 "all sequences of reads, writes, balance changes, commits and discards, all addresses",
 "Unbounded interleavings of operations over layered caches.",
 ["src/vm/StorageCache.cpp: StorageCache::read, write, commit, get_balance, set_balance", "src/vm/StorageRAM.cpp"])
p("C23","Read-only execution and address checks of contract storage",
 "Through the storage proxy, a read-only execution never writes; deleted entries are never returned; values with references below the static segment are never stored; every accepted read or write increases gas by at least its fixed price.",
 "all call sequences through the proxy",
 "Unbounded sequences and all value shapes.",
 ["src/vm/StorageProxy.cpp"])
NV="src/Node_validate.cpp"
p("C24","A valid transaction neither creates nor destroys coins",
 "For every transaction accepted by validation and every currency, the sum of its inputs plus execution inputs equals the sum of its outputs plus execution outputs (execution mints of the contract's own token and the fee are the only differences).",
 "all transactions, chain states, execution results and currencies",
 "Sums range over unbounded lists of 128-bit amounts from three sources.",
 [NV+": Node::validate(tx), Node::execute", "include/mmx/utils.h: handle_implicit_deposit"])
p("C25","Transaction fees stay between the static fee and the declared maximum",
 "For every accepted transaction the charged fee is at least the fee of its static cost, at most max_fee_amount, and the sender had at least the charged amount.",
 "all transactions and balances",
 "Interaction of three limits and early exits.",
 [NV+": Node::validate(tx)", "include/mmx/utils.h: cost_to_fee, fee_to_cost"])
p("C26","A transaction that fails during execution changes nothing except the fee",
 "When execution of a transaction fails, no input is spent, no output is created, no contract storage changes, and only the fee is deducted.",
 "all transactions, failure points and chain states",
 "Failure may occur at any instruction of any operation.",
 [NV+": Node::validate(tx), Node::execute"])
p("C27","No account spends more than it owns within one block",
 "For every block accepted by validation and every (account, currency), the total amount spent by all transactions and fees of the block does not exceed the balance before the block plus what is received in it in order.",
 "all blocks and all prior ledgers",
 "Unbounded number of transactions touching the same account.",
 [NV+": Node::validate(block)", "include/mmx/balance_cache_t.h"])
p("C28","Parallel execution of a block gives the sequential result",
 "Every schedule of the block's transactions that respects the computed wait relation executes transactions sharing a contract in block order, and all such schedules give the same result as executing the block in order.",
 "all blocks, all schedules allowed by the wait relation",
 "The number of schedules is exponential.",
 [NV+": Node::prepare_context, Node::validate(block)", "include/mmx/Node.h: execution_context_t"])
p("C29","Difficulty and reward parameters move only within their bounds",
 "In every accepted block the time difficulty differs from its parent's by at most max(previous >> max_diff_adjust, 1) and is never zero; the space difficulty moves towards the target by at most one adjustment step per block and is never zero; the base reward changes by at most one adjustment step per reward period; the transaction fee buffer never pays out more than it holds.",
 "all chains of accepted blocks, all previous values and inputs (full integer ranges)",
 "Full 64-bit ranges and chains of any length.",
 [NV+": Node::validate, Node::validate_diff_adjust", "include/mmx/utils.h: calc_new_space_diff, calc_new_base_reward, calc_new_txfee_buffer, calc_min_reward_deduction"])
p("C30","Block reward never pays out more than base reward plus fees",
 "Final block reward plus project reward is at most the base reward plus the block's fees, both are non-negative for all inputs.",
 "all rewards, fee totals and parameter values",
 "Unsigned subtractions under all inputs.",
 ["include/mmx/utils.h: calc_project_reward, calc_final_block_reward"])
p("C31","Cost to fee conversion is monotone, exact up to rounding and never wraps",
 "cost_to_fee and fee_to_cost are monotone in the amount, cost_to_fee(fee_to_cost(f)) never exceeds f, and overflow is reported as an error.",
 "all costs, fees and fee ratios",
 "Full 64-bit ranges.",
 ["include/mmx/utils.h: cost_to_fee, fee_to_cost"])
p("C32","MultiSig needs the required number of distinct valid owner signatures",
 "A multi-signature solution is accepted only if at least num_required distinct owners each provided a solution that is valid for the transaction; one owner cannot count twice.",
 "all owner sets, thresholds and solution maps",
 "Unbounded sets.",
 ["src/contract/MultiSig.cpp: MultiSig::validate", "src/contract/PubKey.cpp"])
p("C33","Canonical hash encoding is injective",
 "Two structurally different JSON-like values (revision 1 encoding) never produce the same hash input bytes; likewise two field sequences of a transaction.",
 "all values, any nesting depth and size",
 "Unbounded nested structures.",
 ["include/mmx/write_bytes.h", "src/Transaction.cpp: hash_serialize"])
p("C34","Transaction id does not depend on witnesses",
 "The transaction id is unchanged by any change to solutions, static cost or execution result, and changes of any other field change the hashed bytes.",
 "all transactions",
 "All field values.",
 ["src/Transaction.cpp: Transaction::hash_serialize, calc_hash"])
p("C35","Chunked VDF verification equals sequential verification",
 "Verifying the recorded segments in independent chunks accepts exactly the proofs for which iterating the hash sequentially reproduces every recorded checkpoint.",
 "all segment lists, lane counts and chunk sizes",
 "Unbounded lengths.",
 ["src/Node_verify.cpp: verify_vdf_cpu"])
p("C36","Plot symbol compression is lossless",
 "Decoding the encoded symbol stream returns the original symbols, for every length and every admissible symbol.",
 "all symbol sequences",
 "Unbounded sequences with variable length codes over 64-bit words.",
 ["src/pos/encoding.cpp: encode, decode"])
p("C37","Line points identify unordered pairs",
 "Converting a pair to a line point and back yields the same unordered pair; distinct pairs give distinct line points.",
 "all pairs of 32-bit (64-bit) values",
 "2^64 pairs.",
 ["src/pos/encoding.cpp: GetXEnc, LinePointToSquare"])
p("C38","Bit packing is lossless",
 "Reading back bits written with write_bits at any offset and width returns the value, and other bits are unchanged.",
 "all offsets, widths up to 64, buffers",
 "All alignments and buffers.",
 ["include/mmx/pos/util.h: write_bits, read_bits"])
p("C39","Offer price conversion never favours the taker",
 "The price an offer asks for a wanted amount is rounded up and the amount handed out for a payment is rounded down: paying the asked price always buys at least the wanted amount, and no payment below the asked price buys it; a result that does not fit is an error and never a wrapped number.",
 "all amounts and prices",
 "Full 128/256-bit ranges.",
 ["src/offer_data_t.cpp", "src/contract/offer.js"])
p("C40","The swap contract is always solvent",
 "After any sequence of public calls the swap contract's coin balance covers the pool balances plus unclaimed fees, and no user can take out more liquidity than put in share of.",
 "all call sequences, users and amounts",
 "Unbounded histories and rounding.",
 ["src/contract/swap.js"])
p("C41","Trading never decreases the product of the pool balances",
 "A trade in any pool leaves the product of the two pool balances at least as large as before, so no sequence of trades extracts value from liquidity providers.",
 "all trade sequences and amounts",
 "Unbounded histories and rounding.",
 ["src/contract/swap.js: trade"])
p("C42","Time locked funds stay locked",
 "A time lock contract never releases funds before its unlock height, and the unlock height can only be moved later.",
 "all call sequences, heights and callers",
 "Unbounded histories.",
 ["src/contract/time_lock.js"])
p("C43","Decimal amounts print and parse back exactly",
 "Printing a fixed point amount and parsing it gives the same amount; parsing never silently yields a different number.",
 "all 128-bit amounts and decimals",
 "2^128 values.",
 ["include/mmx/fixed128.hpp", "src/fixed128.cpp"])
p("C44","A table call that throws has had no effect",
 "Whenever insert, commit, flush or revert throws, the version, the readable content, the log and the files are as before the call.",
 "all histories, all calls and arguments, live iterators included",
 "It quantifies over every state in which any of the calls throws.",
 [DB+": Table::insert, Table::commit, Table::flush, Table::revert"])
p("C45","Header counters are exact sums over the chain",
 "In every chain of accepted blocks the newest header's height, VDF height, proof counters, support and reward votes and total weight are exactly the sums of the per-block contributions since genesis (or since the last space fork / reward adjustment), and the fee buffer plus everything paid out of it equals everything paid into it.",
 "all chains of accepted blocks of any length",
 "Inductive over unbounded chains.",
 [NV+": Node::validate", "src/Node_verify.cpp: Node::verify_proof", "include/mmx/utils.h"])
p("C46","Block time stamps advance within fixed bounds",
 "In every chain of accepted blocks each time stamp is strictly larger than its parent's and the distance is bounded above and below by the protocol constants, so time stamps are strictly increasing along the chain.",
 "all chains of accepted blocks",
 "All time stamps and chain lengths.",
 [NV+": Node::validate"])
p("C47","Space fork length is bounded",
 "After the second hardfork no two consecutive space forks are further apart than the forced fork length.",
 "all chains of accepted blocks",
 "Unbounded chains.",
 ["src/Node_verify.cpp", NV+": Node::validate"])
p("C48","A node's own block passes its own header checks",
 "Whenever the node creates a block on a valid tip from valid proof and VDF inputs, creation is well defined and the result passes all header rules that the node applies to received blocks.",
 "all tips reachable in a valid chain, all proofs, VDF points, votes, fees and clock values",
 "Creation and validation are two separate implementations of the same rules; all inputs matter.",
 ["src/Node_update.cpp: Node::make_block", NV+": Node::validate"])
p("C49","Assembled transaction lists respect the minimum fee bands",
 "The transaction list the node selects for its block always passes the minimum fee check that is applied to received blocks, and the selection never reorders transactions.",
 "all candidate lists, all fee ratios and sizes",
 "The assembly and the check walk the list in opposite directions with different arithmetic.",
 ["src/Node_update.cpp: Node::validate_for_block", NV+": Node::validate"])
p("C50","Unlocked liquidity can always be withdrawn from the exchange contract",
 "In every state reachable by any calls of any users, a user whose lock has expired can withdraw any part of the liquidity recorded for that user; no trade, deposit or withdrawal of others can make that call abort.",
 "all call histories of all users, all amounts",
 "A liveness claim about every reachable state; the arithmetic can underflow only after particular histories.",
 ["src/contract/swap.js: rem_liquid, _rem_liquid"])
p("C51","Liquidity of the exchange contract is locked after being added",
 "A user's liquidity only decreases through a call by that same user, not before the unlock height, which every addition moves to 8640 blocks in the future; a dry run changes nothing.",
 "all states and calls",
 "Must hold for every public method and every state.",
 ["src/contract/swap.js: add_liquid, rem_liquid, rem_all_liquid, switch_pool"])
p("C52","Contract bytecode cannot make the node touch freed or foreign memory",
 "Whatever bytecode, constants, arguments and storage a contract has, each executed instruction either has its documented effect or aborts the execution; none reads or writes a variable that was already freed, or walks past the end of the memory map.",
 "all instructions, operands, flags and machine states",
 "Use after free depends on aliasing between operands and on the reference graph in memory; tests cover a handful of graphs.",
 [EN+": Engine::exec, Engine::write, Engine::assign, Engine::erase, Engine::clear_stack, Engine::pop_back"])
p("C53","Execution outcome does not depend on the order a compiler evaluates arguments",
 "The result of every instruction - memory, outputs, consumed gas and whether it aborts - is the same for every order in which the C++ compiler may evaluate the operand expressions, so nodes built with different compilers agree.",
 "all instructions, operands, flags and machine states, both evaluation orders",
 "A test binary has a single evaluation order.",
 [EN+": Engine::exec, Engine::deref_addr, Engine::deref_value"])
p("C54","Native coins only enter through rewards and only leave through fees",
 "Over a chain of accepted blocks of any length, the sum of all native balances changes by exactly the block, project and timelord rewards less the transaction fees; a token whose contract is not run keeps its total.",
 "all chains of accepted blocks, all initial ledgers whose supply and rewards stay below 2^126",
 "A sum over all accounts after an unbounded history of transfers, contract payments and failures.",
 ["src/Node.cpp: Node::apply", NV+": Node::validate", "src/Block.cpp: Block::get_inputs, Block::get_outputs"])
p("C55","A transaction validated for a block passes validation with the result it was given",
 "When a node executes a transaction and attaches the result to it, every node that validates the transaction with that result in the same state accepts it.",
 "all transactions, contracts and chain states",
 "The two runs charge the cost of the result at different times, so that limits bite at different places.",
 [NV+": Node::validate(tx)", "src/Transaction.cpp: Transaction::update", "src/Node_update.cpp: Node::validate_for_block"])
p("C56","Validation of a block always comes to an end",
 "Whatever transactions a block holds and however few threads the pool has, the validating tasks never wait for each other in a circle and all end after finitely many steps.",
 "all blocks, all numbers of threads, all schedules",
 "A deadlock shows only in particular schedules.",
 [NV+": Node::prepare_context, Node::execution_context_t::wait, Node::validate(block)"])
p("C57","Validating a received block has no undefined behaviour",
 "For every well formed block received from the network, preparing and checking its transactions never dereferences a null pointer.",
 "all blocks that can be decoded and pass the structural check",
 "Needs a deliberately malformed block with correct hashes.",
 [NV+": Node::prepare_context, Node::validate(block)", "src/Block.cpp: Block::is_valid"])
p("C58","The reported total supply is the sum of all balances",
 "After every block the total supply the node reports for a currency equals the sum of its balances over all accounts.",
 "all chains of accepted blocks, all currencies",
 "A sum over all accounts after an unbounded history.",
 ["src/Node.cpp: Node::apply, total_supply_map"])
p("C59","No transaction is executed twice",
 "On a chain of accepted blocks of any length every transaction id occurs at most once, whether it failed or not.",
 "all chains of accepted blocks",
 "The second occurrence may be any number of blocks later.",
 [NV+": Node::validate", "src/Node.cpp: Node::write_block"])
p("C60","Coins leave an account only with the agreement of its owner",
 "If a balance is lower after an accepted block, then the block holds a transaction which its owner signed as sender, or with an input its owner authorised, or which runs the contract that owns the balance.",
 "all accepted blocks, all accounts and currencies",
 "Negative claim over all transactions and contract programs.",
 [NV+": Node::validate", "src/Node.cpp: Node::apply"])
CT="src/contract/"
p("C61","Custody contracts pay only the parties named",
 "An escrow pays only its target or its source and only at its agent's call; a transfer contract and a relay pay only the addresses named at creation by their rules; whatever was received and not paid out is still held, and the entitled party can always have it paid out.",
 "all histories of deposits and calls by anybody",
 "Negative claim over unbounded histories and callers.",
 [CT+"escrow.js", CT+"transfer.js", CT+"relay.js"])
p("C62","Withdrawing from a virtual plot costs exactly the stated share",
 "A withdrawal from a virtual plot is made by its owner only, pays the stated share of the amount and burns exactly the rest.",
 "all histories, amounts and callers",
 "Rounding over all amounts.",
 [CT+"virtual_plot.js"])
p("C63","A taker of an offer gets exactly the price named",
 "Who takes an offer gets coins at the price named in the call or the call fails; the owner never gets less than that price; change is returned; the price is fixed for 1080 blocks after a change; only the partner, if one is set, can take it; the owner can always take back what is left and what was earned.",
 "all histories, amounts, prices and callers",
 "Rounding over all 256-bit amounts and unbounded histories.",
 [CT+"offer.js"])
p("C64","An NFT offer swaps one unit for exactly its price",
 "A buyer pays exactly the price named, straight to the owner, and gets one unit, or nothing happens; the price is fixed for 1080 blocks after a change.",
 "all histories and callers",
 "Unbounded histories.",
 [CT+"nft_offer.js"])
p("C65","A locked plot NFT keeps paying its target",
 "While a plot NFT is locked to a target, and for 256 blocks after its owner asked to unlock it, all rewards and coins go to the target, whatever the owner or others do; after that they belong to the owner; the owner can always ask to unlock.",
 "all histories, heights and callers",
 "Unbounded histories over heights.",
 [CT+"plot_nft.js"])
p("C66","A smart wallet pays plans no faster than agreed",
 "Whatever anybody but the owner does, a smart wallet pays each plan's target its amount once per interval and nothing else.",
 "all histories, plans, heights and callers",
 "Unbounded histories; anybody can trigger payments.",
 [CT+"smart_wallet.js"])
p("C67","Only the owner creates units of a token",
 "Units of a token are created only by its current owner's call; of an NFT at most one unit ever exists, created by its creator; a template gives each serial number to one contract for ever and only with the creator's signature on that number.",
 "all histories and callers",
 "Negative claim over unbounded histories.",
 [CT+"token.js", CT+"nft.js", CT+"template.js"])
p("C68","Fixed price tokens are paid for and backed",
 "Every unit of a fixed price token was paid for at the price; a liquid token always holds enough to pay its owner's share and to take back every unit in existence at the stated discount.",
 "all histories, prices, amounts and callers",
 "Rounding and unbounded histories.",
 [CT+"fixed_price_token.js", CT+"fixed_price_liquid_token.js"])
p("C69","The horse market cannot be drained",
 "The market always holds the balances of all horses; tokens leave a wallet only by its owner's call; no group of users can, by any sequence of purchases, sales and transfers that leaves it with the tokens it had, take out more coins than it brought in.",
 "all histories, users, amounts and balances",
 "Unbounded histories; an iterative price approximation with rounding.",
 [CT+"crypto_horse_race.js"])
p("C70","Range queries of typed tables return exactly the range",
 "find_range(begin, end, limit) returns exactly the stored entries with begin <= key < end in ascending key order, cut to the first `limit`; find_last_range returns the greatest ones of the same range in descending order; find, find_first and find_last return the value of the key, of the smallest and of the greatest key; all after any history.",
 "all histories of insert/commit/flush/revert, all key types with a faithful encoding, all bounds and limits",
 "Depends on seek positions in arbitrarily many blocks and on the byte order of encoded keys.",
 ["include/mmx/table.h: table::find, find_range, find_last_range, find_first, find_last"])
p("C71","Log recovery stays correct over repeated restarts and damage",
 "After a table was opened with a log that ended in an incomplete record, every later restart again gives exactly the complete records plus what was written since; a write that was lost to damage inside the log is never silently left out while later commits count.",
 "all record sequences, cut positions, damage positions, values and later writes",
 "Needs two crashes at particular bytes, or particular values.",
 [DB+": Table::Table, Table::revert, read_entry_sum"])
WH="include/mmx/ECDSA_Wallet.h"
WC="src/Wallet.cpp"
p("C72","A completed transaction is funded exactly",
 "A wallet that completes a transaction leaves outputs and operations as they are, adds inputs for exactly what is missing per currency, takes from no address more than its balance, and fails only if the balances do not suffice; the sender it picks can pay the fee.",
 "all wallets, balances, transactions, deposits and options",
 "The choice of inputs depends on all balances and on their order.",
 [WH+": complete, gather_inputs", "src/Transaction.cpp: calc_cost"])
p("C73","A wallet never spends the same coins twice",
 "After any history of refreshes and sends the balance a wallet spends from is the reported balance less what its transactions take that are neither confirmed nor expired; transactions sent in a row together never exceed the balance at the start.",
 "all histories of refresh, send and reset, all balances and transactions",
 "Depends on the order of sends, refreshes, confirmations and expiries.",
 [WH+": update_cache, update_from, reset_cache", WC+": send_off, update_cache"])
p("C74","A wallet signs only what its keys own and stays locked",
 "A locked wallet signs nothing without the right passphrase and is locked again after every call, whatever the outcome; a completed transaction carries for every input and operation of the wallet's addresses a signature over its id by that address, no others, and passes the validity checks of a transaction.",
 "all key derivations, passphrases, sequences of lock, unlock, complete and sign calls, transactions",
 "Throwing paths and sequences of calls; signatures depend on all inputs together.",
 [WH+": lock, unlock, sign_off, sign_msg, complete", "src/Transaction.cpp: is_valid, is_signed"])
p("C75","Seed words give back the seed",
 "The 24 words of a seed, in the built-in list or any list of 2048 different words, give back exactly that seed; words are accepted only if they are 24 words of the list with a right checksum, and one seed has one phrase.",
 "all seeds, word lists, word sequences and hash functions",
 "2^256 seeds and more word sequences.",
 ["src/mnemonic.cpp: seed_to_words, words_to_seed", "src/wordlist_en.cpp"])
p("C76","Address strings identify addresses",
 "Every address reads back from its text, different addresses have different texts, an address has one text, and anything else is refused.",
 "all addresses and strings",
 "2^256 addresses; all strings.",
 ["src/addr_t.cpp: to_string, from_string, vnx::read", "include/mmx/bytes_t.hpp: to_uint, from_uint"])
p("C77","Wallet calls pay exactly what was asked for",
 "A transaction made by send, send_many, send_from, execute, deposit or make_offer contains exactly the requested payments, operation or contract, and inputs for exactly their sum; send_from takes only from the named source and execute takes nothing.",
 "all wallets, balances, amounts, currencies, addresses and options",
 "Depends on all balances.",
 [WC+": send, send_many, send_from, execute, deposit, make_offer"])
ND="src/Node.cpp"; NU="src/Node_update.cpp"
p("C78","The state of a node is that of its chain alone",
 "In every state a node can get to, the content of its tables is what applying the blocks of its current chain from genesis one after the other gives, each valid on top of its predecessor, and height queries list exactly these blocks; so two nodes with the same peak hash agree on chain and tables, whatever forks, votes, failed switches and restarts each has seen.",
 "all sequences of received blocks, updates, votes, explicit switches, reverts and restarts, any number of forks of any length",
 "Depends on the whole history of forks and failures at every point of a switch.",
 [ND+": apply, revert, reset, fork_to, add_block, commit", NU+": update"])
p("C79","A failed switch leaves the node where it was",
 "If switching to another fork fails because one of its blocks is not valid, the node is left with the chain, the tables and the committed height it had before, and a block of that fork is marked invalid that really is: no valid chain contains it.",
 "all reachable states, all forks, all blocks at which validation fails",
 "The failing block can be at any position of a fork of any length, after any history.",
 [ND+": fork_to, get_fork_line, revert, apply, reset"])
p("C80","A switch ends exactly at the requested fork",
 "A switch between forks above the committed height that succeeds ends at the requested block, keeps everything up to the last common block including all committed blocks, and reports that block; it succeeds whenever a valid chain ends in the requested block.",
 "all reachable states and forks above the committed height",
 "Any tree of forks, any previous validation results.",
 [ND+": fork_to, get_fork_line"])
p("C81","Nodes choose the same fork",
 "The fork a node follows is the preferred one among those it may follow: more votes along the line, then height, then smaller hash; in particular it depends only on the blocks and votes known, not on the order in which they arrived.",
 "all reachable states, trees of forks, votes and arrival orders",
 "All orders of arrival of any number of blocks and votes.",
 [ND+": find_best_fork"])
p("C82","An update ends on the best valid fork",
 "The loop that chooses a fork, tries it and chooses again always ends; after an update the node is on a fork that may be chosen, and every other such fork is less preferred or does not end any valid chain. An invalid block cannot keep the node from the best valid fork.",
 "all reachable states, any number of invalid forks, votes and blocks arriving with the update",
 "Any number of invalid forks at any depth.",
 [NU+": update, verify_block_proofs, verify_votes", ND+": find_best_fork, fork_to"])
p("C83","Committed blocks stay",
 "An update never removes a committed block, and commits a block only when the peak is the required number of blocks above it.",
 "all reachable states, blocks, votes and updates",
 "Must hold after any sequence of forks.",
 [NU+": update", ND+": commit, fork_to"])
p("C84","A restart brings back the chain",
 "A node that stops in any way and starts again has the chain it had up to the version the database recovered to, valid from genesis; its root is the block commit_delay below the peak, and the blocks above it are available as forks. If stored blocks cannot be read any more it starts on a shorter part of the same chain.",
 "all reachable states, recovered versions and sets of unreadable blocks",
 "Every history and every crash point.",
 [ND+": main, reset, revert, init_chain"])
p("C85","Votes counted are votes cast",
 "The number of votes a node counts for a block is the number of distinct validators of that block from whom a vote for it was received.",
 "all histories of blocks, votes, updates and restarts",
 "Votes repeat, come early, late and from others, in any order.",
 [NU+": verify_votes, verify_block_proofs"])
p("C86","Every block of the chain has a verified proof",
 "After any sequence of updates, received blocks and votes, restarts and blocks made, every block of the chain a node follows, other than the first, has a proof of space that passed verification.",
 "all histories of blocks, votes, updates, restarts and moves to blocks that were on the chain before",
 "Unverified blocks can sit anywhere in the tree of forks and be verified in any order.",
 [NU+": update, verify_block_proofs, make_block", ND+": find_best_fork, fork_to"])
p("C87","A block that a node assembles passes validation by others",
  "The transactions a node selects for its own block, with the results it computed for them, pass what every node checks of the transactions of a block: limits, order, fees, funds, and every transaction with its result.",
  "every pool of transactions, chain state, contract storage, set of dependencies and late tasks",
  "whether a block is accepted depends on which transactions are left out after all of them were executed together",
  [NU+": Node::validate_for_block", NV+": Node::validate", "src/Transaction.cpp: Transaction::update, reset"])
p("C88","Assembled blocks hold to the limits and leave out nothing needlessly",
  "The transactions selected for a block are of the pool, none twice, in descending order of fee ratio; their sizes and costs add up to at most the limits of a block; they pass the check of the fee bands; accounts have the funds for all their fees and inputs together. If everything fits, every valid transaction of the pool is selected.",
  "every pool of transactions, chain state and set of limits",
  "a greedy selection under five limits has no finite set of cases",
  [NU+": Node::validate_for_block", NV+": Node::validate"])
p("C89","Validating the pool ends, whatever the deadline",
  "When a node validates transactions of its pool or queue with a deadline, it always comes to an end, whichever tasks find the deadline passed and however threads are scheduled.",
  "every number of threads and transactions, set of shared contracts, and schedule",
  "the outcome depends on when each thread looks at the clock",
  [NU+": Node::validate_for_block, Node::validate_new", NV+": execution_context_t::wait, signal"])
p("C90","A pending transaction is taken in exactly when its sender can pay for all it has pending",
  "When a validated transaction reaches a node, it becomes pending exactly if the balance of its sender covers its fee and the fees of all other pending transactions of the same sender; if not, nothing changes. A transaction is pending at most once, and the fees kept per sender are always the sum over what is pending.",
  "every history of incoming transactions, purges, and blocks that are applied or reverted",
  "the kept sums are updated by differences in four places with wrapping arithmetic, so errors add up over long histories",
  [NU+": Node::tx_pool_update, Node::tx_pool_erase", ND+": Node::apply, Node::revert"])
p("C91","The pending part of a history query finds exactly what is pending",
  "The index behind the pending part of get_history, for an address or for an address with a memo, lists a transaction exactly if it is pending and has an input or output with this address (and memo).",
  "every history of incoming transactions, purges, and blocks that are applied or reverted; every address and memo",
  "an entry left behind or removed too early shows only after particular sequences of replacing, erasing and reverting",
  [NU+": Node::tx_pool_update, Node::tx_pool_erase", "src/Node_api.cpp: Node::get_history, Node::get_history_memo"])
p("C92","Purging the pool leaves what can be paid and fits, the best paying first",
  "After a purge every sender can pay the fees of all its pending transactions and the pool is not larger than allowed. Nothing is removed if that was so before; otherwise what is removed has a sender who could not pay all, or the pool was too large and everything kept pays at least the same fee ratio.",
  "every reachable pool, balance of every account, size limit, and order of transactions with equal ratio",
  "depends on the order of the whole pool and on sums per sender",
  [NU+": Node::purge_tx_pool"])
p("C93","A switch of the chain loses no transaction and doubles none",
  "While a node that is in sync reverts blocks and applies others, every transaction that was pending or in the chain stays pending or in the chain. At no time is a transaction both pending and in the chain, or twice in the chain.",
  "every reachable state and every sequence of reverted and applied blocks and incoming transactions",
  "needs a history over several blocks, with transactions that are in both chains, in one, or in none",
  [ND+": Node::apply, Node::revert", NU+": Node::tx_pool_update, Node::tx_pool_erase"])
p("C94","A history query gives the newest entries, complete by block",
  "Without a limit get_history gives every entry of the log for the addresses, in the range of heights and passing the filter, exactly once, newest first. With a limit n it gives the newest ones, complete down to the block in which the n-th is reached. With a limit on rows searched it gives some of them, none wrong and none twice.",
  "every log, list of addresses (with repetitions), range, filter and limits",
  "the search goes through several addresses in turns, in chunks of 100 rows, and the result depends on how chunks and blocks overlap",
  ["src/Node_api.cpp: Node::get_history, Node::get_history_memo, filter_txio", "include/mmx/table.h: find_last_range"])
p("C95","A history query shows each pending input and output once",
  "With with_pending, get_history also shows the inputs and outputs of pending transactions with one of the addresses, each once and subject to the same filter.",
  "every pool of pending transactions and list of addresses",
  "depends on which transactions concern which of the addresses",
  ["src/Node_api.cpp: Node::get_history, Node::get_history_memo"])
p("C96","A time lord publishes only proofs of time that nodes accept",
  "Whatever requests a time lord receives, whenever they arrive, and however its two threads interleave, each proof of time that it publishes passes the check of a node: its checkpoints are reproduced by hashing from its input and infusion, and there are as many as its number of iterations says. It never reads a null pointer, and it answers a request when both ends are reached.",
  "every sequence of requests, stops, timer events and steps of both threads",
  "depends on when a request arrives relative to the running computation and which task is executed first",
  ["src/TimeLord.cpp: TimeLord::handle, update, vdf_loop, start_vdf, stop_vdf", "src/Node_verify.cpp: Node::verify_vdf, verify_vdf_cpu"])
p("C97","SHA-512 of a message does not depend on how it is written",
  "Writing a message to the SHA-512 object in any pieces and finalizing gives the SHA-512 of FIPS 180-4 of the whole message, whatever was in the memory before and whatever the object was used for before a reset.",
  "every message below 2^61 bytes, every way to cut it, every content of uninitialised memory",
  "the code keeps a partial block, and has one path for blocks completed from the buffer, one for blocks in place and one for the rest; lengths and cuts are unbounded",
  ["src/sha512.cpp: SHA512::Write, Finalize, Reset, Transform", "include/sha512.h"])
p("C98","Wallet keys are derived by HMAC-SHA-512",
  "The key derivation of the wallet is HMAC (RFC 2104) with SHA-512: the child value with an index is the HMAC of the seed followed by the index in big endian, the master value is the given number of nested HMACs, and keys longer than a block are hashed first. No two indexes are derived from the same message.",
  "every seed, key, index and number of iterations",
  "the same seed must give the same addresses in every version and on every machine; tests compare some vectors",
  ["src/hmac_sha512.cpp: HMAC_SHA512", "include/mmx/hmac_sha512.hpp: hmac_sha512, hmac_sha512_n, kdf_hmac_sha512"])
p("C99","SHA-512 on the GPU is SHA-512 on the CPU",
  "For a message in a zeroed buffer of words that has room for the padding, the GPU function leaves the bytes of its SHA-512 in memory and never accesses memory outside of the buffer; so it agrees with the CPU class for every way in which the CPU writes the message.",
  "every message and buffer size",
  "works on words in place with a modified end, the padding depends on the length modulo 128; needs a GPU",
  ["include/cuda_sha512.h: cuda_sha512, cuda_sha512_chunk"])
p("C100","Every version of SHA-256 is SHA-256",
  "On processors with SHA instructions a message of any length hashes to its SHA-256; hashing a hash n times, alone or two at once, gives the n-fold SHA-256 of each; hashing eight messages of up to 55 bytes at once, with SHA instructions or with AVX2, gives the SHA-256 of each, whatever follows the message in its 64 bytes, and longer ones are refused. The hash function of the node is SHA-256, the empty message included.",
  "every message, number of iterations, input of the eight lanes and content of uninitialised registers",
  "bit-level vector code with several hundred instructions each, chosen by the processor; a wrong result for rare inputs forks the chain between kinds of processors",
  ["src/sha256_ni.cpp: sha256_ni, compress_digest","src/sha256_ni_rec.cpp: recursive_sha256_ni, recursive_sha256_ni_x2","src/sha256_avx2.cpp: sha256_avx2_64_x8, transpose","src/sha256_64_x8.cpp: sha256_64_x8","src/hash_t.cpp: hash_t::hash_t"])
p("C101","The GPU judges a proof of time as the CPU does",
  "The check with OpenCL accepts exactly the proofs that have segments and whose checkpoints are reproduced by iterating SHA-256 sequentially, so it gives the verdict of the CPU check for every schedule of the CPU threads.",
  "every proof with segment size up to 2^32 - 2500",
  "work split over launches of 2500 iterations on many lanes; needs a GPU, and the set of proofs is infinite",
  ["kernel/sha256.cl: sha256","kernel/rsha256.cl: rsha256_kernel","src/OCL_VDF.cpp: OCL_VDF::compute, OCL_VDF::verify","src/Node_verify.cpp: Node::verify_vdf_cpu"])
p("C102","Recomputing a proof of space finds exactly the proofs in the values",
  "Given any values x, the recomputation returns the roots of exactly the complete trees of depth 8 over them in which Y of a right child is one more than Y of its sibling, each once, with the leaves from left to right; it fails exactly if there is none. The result does not depend on the order in which threads or a GPU deliver the first table, nor on how the sort orders equal entries.",
  "every list of values, every hash function, every order of delivery and every sort",
  "the number of matches per table varies; the sort is not stable and threads append in any order, so a run shows one order only",
  ["src/pos/verify_full.cpp: compute_full","src/pos/verify.cpp: compute, compute_f1"])
p("C103","An accepted proof of space is genuine and cannot be varied",
  "If verification accepts 256 values then they are, in this order, the leaves of a tree whose root lies in the range of the challenge, and after the hard fork passes the filter. All trees over these values have the same root. No other order or selection of the values is accepted, so the hash of a proof cannot be ground by rearranging it. All nodes decide the same, and a tree in range that is the only one over its leaves is accepted.",
  "every list of values, challenge and hash function; the uniqueness of the list needs that no two trees over the values have the same root meta data",
  "hostile proofs are chosen by an attacker who searches for one that passes on some nodes only",
  ["src/pos/verify.cpp: verify, check_post_filter, calc_quality"])
p("C104","A proof made from a plot is accepted",
  "If the full proof can be recomputed from the values stored in a plot, of which the low bits were dropped, then every node accepts it for every challenge in whose range its root lies and whose filter it passes.",
  "every stored values, every number of dropped bits, every challenge",
  "the farmer recomputes with many more candidate values than the verifier, who sees only the 256 chosen ones; a difference shows only when it costs a block reward",
  ["src/pos/Prover.cpp: Prover::get_full_proof","src/pos/verify.cpp: compute, verify"])
p("C105","What proof of space a node accepts",
  "An accepted proof answers the challenge and difficulty of the chain, with a plot whose id is the hash of its size, seed, farmer key and contract and that passes the plot filter; it is a tree of the functions of that plot in the range of the challenge; its quality is below a limit proportional to (2k+1) 2^k and inverse to the difficulty, computed without overflow; its score is the first byte of its hash. A proof good enough at a difficulty is good enough at every lower one.",
  "every proof, challenge and difficulty",
  "consensus: one wrongly accepted proof is a free block; qualities are 256 bit numbers",
  ["src/Node_verify.cpp: Node::verify_proof, verify_proof_impl","include/mmx/utils.h: check_plot_filter, check_proof_threshold, get_proof_score","src/ProofOfSpaceOG.cpp: validate","src/ProofOfSpaceNFT.cpp: validate"])
p("C106","Table 1 of a proof of space is the same on a GPU and on the CPU",
  "For requests with distinct values that a GPU takes together, however its threads, warps and atomic operations interleave and whatever its memory held before, each request gets for every input exactly once the Y and the meta data that the CPU computes for it; the kernels stay inside their buffers and always give a result. With repeated values the GPU looks at further values: what it accepts the CPU accepts with the same result, and the reverse holds if the further values are in no tree, but not always.",
  "all plot ids, values, numbers of low bits up to 20, sizes of the device, sets of requests, orders of memory writes and of the lanes of a warp, initial contents of memory",
  "needs a GPU; a race or a wrong index shows up only for some grid sizes; whether two nodes agree about a block depends on it",
  ["src/pos/cuda_recompute.cu: cuda_gen_mem_array, cuda_calc_mem_hash, cuda_final_mem_hash, cuda_recompute_loop","src/pos/mem_hash.cpp: gen_mem_array, calc_mem_hash","src/pos/verify.cpp: compute_f1, compute","include/mmx/pos/util.h: rotl_32"])
p("C107","Every node on a chain derives the same challenge for a VDF height",
  "On a chain of blocks the challenge and difficulty for a VDF height are one function of the chain: those of the block at the height `challenge_delay` lower, carried on by hashing for heights between blocks and backwards before genesis. The look-up from a block, the look-up from a peak by height and the published challenges all give this value; it does not change as blocks are added on top; and looking further ahead than `max_vdf_count` gives no answer instead of a wrong one.",
  "all chains, blocks, peaks, heights, delays and hash functions",
  "the walk crosses any number of blocks with any VDF counts; a wrong index shows up only where a block spans several VDF heights or near genesis",
  ["src/Node.cpp: find_challenge, get_challenge, find_prev","src/Node_update.cpp: update (publish challenges)"])
p("C108","The VDFs asked of time lords are those that blocks are checked against",
  "For every chain the block to infuse and the number of iterations for a VDF height are one function of the chain; requests follow each other without gap or overlap, a new peak's requests continue those of its predecessor unchanged, and a block is accepted only with the sum of exactly these iterations.",
  "all chains, offsets, delays and numbers of known VDF points",
  "the infused block is found by walking back over an unbounded chain; an off-by-one leaves time lords computing VDFs that no block can use, and only on some chains",
  ["src/Node.cpp: find_infusion, get_infusion, get_time_diff","src/Node_update.cpp: update (request next VDF proofs)","src/Node_verify.cpp: verify_proof"])
p("C109","VDF points are chained to blocks as verified",
  "Points found for a block form a chain from the predecessor's output to the block's output with the infusions and iterations of the chain. If verified points carry their true position, the points found after a peak are a longest such chain, the first received among the longest, and a block made from them is found complete by every node with the same points.",
  "all chains, sets of verified points, orders of arrival",
  "points of many time lords compete; a shortcut shows up only for particular sets of points",
  ["src/Node.cpp: find_vdf_points, find_next_vdf_points, find_vdf_point","src/Node_verify.cpp: verify_vdf, verify_vdf_success"])
p("C110","A node goes on verifying VDFs",
  "Whatever proofs of time arrive in whatever order and however their verification ends, every slot taken for verification belongs to a running verification, so that a node without running verifications can start one.",
  "all sequences of arrivals, updates, results of verification, commits",
  "needs a history with a full chain of VDF points at the moment of a report",
  ["src/Node_update.cpp: verify_vdfs","src/Node_verify.cpp: verify_vdf, verify_vdf_success, verify_vdf_task"])
p("C111","The proofs in an accepted block are distinct, ordered and for the chain's challenge",
  "A block that passes has between one and `max_proof_count` proofs with strictly rising hashes, `proof_hash` is the least of them, each proof answers the challenge and difficulty that the chain has for the block's VDF height, and the block's own challenge continues the chain's with the proof mixed in exactly at a space fork. The list of proofs a node keeps has each hash once in rising order whatever arrives, so that the best proof is first and a block made from the list passes.",
  "all chains, blocks, lists of proofs, orders of arrival",
  "the property ranges over all sets of proofs and chains; duplicates and ties are rare",
  ["src/Node_verify.cpp: verify_proof, add_proof","include/mmx/utils.h: calc_next_challenge, calc_proof_chain"])
p("C112","The VDF reward goes to the time lord who computed most of the last VDFs",
  "The reward of an interval goes to the address that the blocks of the interval name most often, ties to the least hash, and to nobody exactly if they name none; and blocks name the addresses of the time lords whose VDFs they use.",
  "all chains, blocks, addresses, intervals",
  "ties and the order of a map decide about payment; that a farmer can not name another address ranges over all blocks",
  ["src/Node.cpp: get_vdf_reward_winner, find_vdf_points","src/Node_verify.cpp: verify_proof","src/BlockHeader.cpp: is_valid","src/Node_validate.cpp: validate"])
p("C113","A compiled contract function gives what its source says",
  "For a contract source made of functions over local variables (constants, variables, operators, parentheses, calls with defaults, assert, return, declarations, if, else, while, for, scopes), running the compiled function with given arguments ends with the value the source says, or throws when the source says that the call fails (overflow, division by zero, wrong type, failed assert), whatever the optimisation level, unless gas or call depth runs out.",
  "all programs of that part of the language, all functions of them, all arguments (numbers, strings, bytes, booleans, null), all gas limits, calls of any depth and loops of any number of rounds that end",
  "tests run a few contracts; the claim is about every program, with any nesting of scopes, loops and calls sharing one stack",
  ["src/vm/Compiler.cpp: compile, recurse, recurse_expr, copy, get","src/vm/Engine.cpp: run, step","src/vm_interface.cpp: load, set_args, execute"])
p("C114","The text of a contract expression has one reading, and the compiler takes it",
  "Operators are grouped by precedence and from the left; an expression text has at most one such grouping, and the compiler produces code for that one.",
  "all expressions of values with any nesting of operators, parentheses and calls",
  "the recursion with ranks has to agree with precedence for every combination of operators and depth; tests cover a few",
  ["src/vm/Compiler.cpp: recurse_expr, get_node_rank, rank_map"])
p("C115","A contract function is left only by return or at its own end",
  "A function whose text comes to its end without return gives null to its caller and never runs code of another function.",
  "all programs, all paths through a function",
  "depends on what instruction happens to be last and where jumps lead for every shape of nested statements",
  ["src/vm/Compiler.cpp: recurse (function, if)"])
p("C116","A constant of a contract is not assigned to",
  "A source that assigns to a constant in scope, in any nesting of scopes, is refused by the compiler. So is one that declares a name twice in one scope.",
  "all programs, all nestings of scopes and shadowing declarations",
  "whether a name is a constant depends on all enclosing scopes; tests try a few assignments",
  ["src/vm/Compiler.cpp: recurse_expr, copy, find_variable, add_variable"])
p("C117","assert lets exactly the calls through whose condition holds",
  "An assert whose condition holds has no effect; one whose condition does not hold makes the call fail. Also with a message or a code, and however the compiler was itself compiled.",
  "all conditions, all messages, all states",
  "the jump target depends on how many instructions condition and message need and on the order in which C++ evaluates arguments",
  ["src/vm/Compiler.cpp: recurse_expr (assert)"])
p("C118","Optimisation does not change what a contract function gives",
  "The same source compiled with and without optimisation gives the same value, or fails in both, for the same arguments, as long as neither run meets a limit.",
  "all programs of that part of the language, all arguments",
  "the replacement of division and remainder by shifts and masks has to be right for every constant and operand",
  ["src/vm/Compiler.cpp: recurse_expr (opt_level)"])
p("C119","A peer is not sent what it already has",
  "A node does not send a message to a peer that sent it that message, acknowledged it or got it before on the same connection, unless more than max_sent_cache different messages were exchanged on that connection.",
  "all sequences of received, verified and sent messages, connects, disconnects and clean-ups, all numbers of peers",
  "depends on the interleaving of queued sends, receive notes and cache clean-up for each peer",
  ["src/Router.cpp: send, send_to, broadcast, on_recv_note, receive_msg_hash, update","include/mmx/Router.h: peer_t"])
p("C120","A message is put up for sending once and handed to the node once",
  "Whatever copies arrive and from whom, a message is relayed to peers at most once and handed to the node at most once, unless more than max_hash_cache different messages were met.",
  "all sequences of callbacks, all copies of a message from all peers and from the node",
  "the same message comes in any number of copies, before and after it is verified and after clean-up",
  ["src/Router.cpp: relay_msg_hash, receive_msg_hash, update, handle, on_block, on_vdf, on_vote, on_proof, on_transaction"])
p("C121","What is passed on unverified is covered by credit",
  "At every VDF height a farmer has no more blocks relayed before verification than it has verified proofs at that height; a timelord has no more VDFs relayed before verification than verified VDFs.",
  "all sequences of callbacks, all farmers, timelords and heights",
  "an attacker chooses the order and number of messages; credit is given and taken in different callbacks",
  ["src/Router.cpp: on_block, on_vdf, handle"])
p("C122","Every interested peer is offered what the node verified",
  "A message the node verifies or makes is queued for every peer it is meant for, to go out within relay_target_ms, and what is queued is sent unless the transport refuses.",
  "all states, all sets of peers, all random orders, all messages",
  "whether the queue has room at that time depends on all earlier messages and their random order",
  ["src/Router.cpp: handle, broadcast, send_to, send","include/mmx/Router.h: peer_t"])
p("C123","A new peer gets the VDFs for the next block",
  "A peer that connects gets every VDF the node verified since its last block.",
  "all sequences of callbacks before and after the VDF",
  "depends on how the VDF came, from the own timelord, from a peer, relayed early or not",
  ["src/Router.cpp: on_connect, handle, on_vdf"])

p("C124","The blocks given for a height are valid and agreed on by enough peers",
"When the router answers get_blocks_at(height), every block in the answer is valid and was sent by a peer in reply to a request made for this call, no two have the same content hash, and at least min_sync_peers different peers said themselves that they have no block at this height, or a block that is in the answer.",
"every sequence of calls, replies (with any content, from any peer, in any order), timer events and changes of the set of synced peers; every choice of peers to ask; every setting",
"the peers decide what they send and when; the claim is about all replies of any number of peers over all interleavings with other calls",
["src/Router.cpp: Router::get_blocks_at_async","src/Router.cpp: Router::process","src/Router.cpp: Router::update","src/Router.cpp: Router::on_return","include/mmx/Router.h: sync_job_t"])
p("C125","A request for the blocks at a height comes to an end",
"While a call get_blocks_at(height) is not answered and there are at least min_sync_peers synced peers, there is always a request to a peer under way, and after finitely many replies of these peers the call is answered, however some of them behave.",
"every sequence of calls, replies, timer events and changes of the set of synced peers; every choice of peers",
"a liveness claim about unbounded executions with peers that misbehave; a test has to stop somewhere",
["src/Router.cpp: Router::process","src/Router.cpp: Router::update","include/mmx/Router.h: sync_job_t"])
p("C126","Every call for blocks is answered once",
"No call of get_blocks_at, fetch_block or fetch_block_at gets two answers, none is answered that was not made, and a call of fetch_block or fetch_block_at is answered at the latest by the first timer event more than fetch_timeout_ms after it was made or last got a reply.",
"every sequence of calls, replies (repeated, late, with unknown ids), timer events and changes of the set of synced peers",
"two answers to one call need a particular order of replies and removals of jobs; the claim is about all orders",
["src/Router.cpp: Router::process","src/Router.cpp: Router::update","src/Router.cpp: Router::fetch_block_async","src/Router.cpp: Router::fetch_block_at_async","include/mmx/Router.h: fetch_job_t"])
p("C127","fetch_block gives the block asked for",
"A block given for fetch_block(hash) has that hash and came from a peer that was asked for it; null is given without an address only if every synced peer was asked and answered with no block; what fetch_block_at(height, address) gives came in reply to a request for this height.",
"every sequence of calls, replies with any content from any peer, timer events and changes of the set of synced peers",
"replies can come from any peer, in any order and for other calls",
["src/Router.cpp: Router::fetch_block_async","src/Router.cpp: Router::fetch_block_at_async","src/Router.cpp: Router::process","src/Router.cpp: Router::on_return","include/mmx/Router.h: fetch_job_t"])

p("C128","Syncing leaves out no height",
"From the height after its root, a node that syncs asks the network for the blocks at every height up to the highest one it asks for, and walking back below that height it leaves out none either; it takes an answer for a height only if it asked for it.",
"every sequence of starts and restarts of the sync, answers and failures of the calls in any order, and updates; every setting, every root height and limit of open calls at each of them",
"the order of answers, failures and restarts decides which height is asked for next; a gap needs a particular order of many events",
["src/Node.cpp: Node::sync_more","src/Node.cpp: Node::sync_height","src/Node.cpp: Node::sync_result","src/Node.cpp: Node::start_sync"])
p("C129","While syncing a block is committed only after the network was heard on its height",
"Before it is in sync, a node commits a block above the root it started from only after get_blocks_at gave an answer for the height of the block, so that it knows the alternatives.",
"every sequence of starts, answers, failures and updates; every fork line, peak height and commit delay at each update",
"needs an update between any two of the answers that come in any order",
["src/Node_update.cpp: Node::update","src/Node.cpp: Node::sync_height","src/Node.cpp: Node::sync_result"])
p("C130","A node takes itself to be in sync only at the end of the chain of the network",
"A node declares itself in sync only after num_sync_retries passes since the sync started, each more than half a block interval after the one before and each ending at a height for which the network has no blocks, and when the network was heard on all heights from the start of the sync up to such a height.",
"every sequence of starts, answers, failures and updates, at any times",
"depends on the whole history of the sync",
["src/Node_update.cpp: Node::update","src/Node.cpp: Node::sync_result","src/Node.cpp: Node::sync_more"])
p("C131","A sync is limited and comes to an end",
"A node that syncs does not ask for heights further ahead of its root than commit_delay + max_sync_ahead and the number of calls open at once; after every update it is in sync, or waits for an answer, or is at this limit, or has found a height without blocks; and when all calls returned, such a height was found and the pause is over, the next update starts the next pass or puts it in sync.",
"every sequence of starts, answers, failures and updates; every setting with a limit of open calls above zero",
"a liveness claim about unbounded executions",
["src/Node.cpp: Node::sync_more","src/Node_update.cpp: Node::update"])


p("C132","A harvester finds all entries of a plot that are in range of a challenge",
"Looking up a challenge in a plot gives exactly the entries of the plot whose first value is in the range that the challenge selects, each once.",
"every plot of any size, with any distribution of entries over parks of any size; every challenge",
"the start of the search is a guess from an average; whether it is right depends on the distribution of 2^32 entries",
["src/pos/Prover.cpp: Prover::get_qualities"])
p("C133","Every proof a harvester publishes is accepted",
"Every proof that a harvester publishes for a challenge, for a block or for a pool, passes the verification of every node that knows the challenge, at the difficulty of the challenge or of the pool.",
"every correctly made plot, every challenge and difficulty, every setting; all hash functions",
"harvester and node compute quality and score on different paths, from the meta data of the file and from the values of the proof",
["src/Harvester.cpp: Harvester::lookup_task","src/pos/Prover.cpp: Prover::get_qualities","src/pos/Prover.cpp: Prover::get_full_proof","src/pos/verify.cpp: verify","src/Node_verify.cpp: Node::verify_proof"])
p("C134","A harvester publishes every proof that is good enough",
"When an entry of a plot in range of a challenge passes the quality check and its score is below the limit of the challenge or of the pool, the harvester publishes its proof, whatever fails for other entries.",
"every correctly made plot, every challenge and difficulty, every setting; all hash functions; every set of entries that cannot be read",
"a missed proof is silent; depends on the entries of the plot and on failures of the reads",
["src/Harvester.cpp: Harvester::lookup_task"])
p("C135","A proof that is published reaches the node, signed",
"A good proof goes from the harvester through the farmer that has the key of the plot to the node and is taken by it as long as it knows the challenge; a farmer passes on only what it got, signed with the key of the plot; a node takes only responses with a signature for this proof and height.",
"all proofs, heights, keys and names of harvesters",
"each side has checks of its own on the same message; the claim is that they fit for all messages",
["src/Harvester.cpp: Harvester::send_response","src/Farmer.cpp: Farmer::handle","src/ProofResponse.cpp: ProofResponse::is_valid","src/Node.cpp: Node::handle"])
p("C136","A harvester looks up every challenge once, the newest first",
"A challenge that a harvester gets is looked up once, unless it is older than the limit when its turn comes; the one with the greatest height goes first; and the queue is worked off.",
"every sequence of challenges, in any order and repeated, timer events and reloads of plots, at any times",
"depends on the order and times of challenges, timer events and reloads",
["src/Harvester.cpp: Harvester::handle","src/Harvester.cpp: Harvester::check_queue","src/Harvester.cpp: Harvester::reload"])
p("C137","The signature of a partial covers everything in it",
"Two partials with the same hash are the same in height, contract, account, address of the pool, name of the harvester, lookup time and proof.",
"all partials with fields of any value and length, as far as the text goes that is hashed",
"the text is put together from fields of varying length; two partials with the same text have to be constructed",
["src/Partial.cpp: Partial::calc_hash","src/Farmer.cpp: Farmer::handle"])
p("C138","A node approves exactly the partials that are worth their difficulty",
"verify_partial reports no error exactly for partials that have a proof for the challenge of their height, good enough for the difficulty named in it, whose hash is right and signed with the key of the plot, and whose contract is that of the plot and points to the pool; every partial of a harvester, signed by its farmer, is one.",
"all partials, all states of the node, all pools; all hash functions and signature schemes",
"an exact decision over all inputs of several checks, and the fit of harvester, farmer and node",
["src/Node_api.cpp: Node::verify_partial","src/Node_api.cpp: Node::verify_plot_nft_target","src/Farmer.cpp: Farmer::handle"])

p("C139","Before a contract is called, all contracts it can reach are known, within limits",
"The node finds for a contract exactly the contracts it can call, directly or through others, each once; it refuses exactly if there is a chain of more calls than the limit on depth, or a contract reaches more contracts than the limit on width; this takes a bounded number of steps.",
"all graphs of dependencies, all limits, all contracts",
"all graphs, of any depth and width, with sharing",
["src/Node.cpp: Node::get_all_depends","src/Node_validate.cpp: Node::validate"])
p("C140","All nodes take the same farmers as validators",
"The validators of a block are the first max_validators different farmers found going back from commit_delay blocks before it; nodes that have the same blocks agree on them, whatever they have beyond those.",
"all chains of blocks, all settings, all pairs of nodes",
"all histories and all pairs of nodes",
["src/Node.cpp: Node::get_validators"])
p("C141","A node does not vote for two blocks after the same one in short order",
"Any two votes of a node with the same key for blocks with the same predecessor are more than a block interval apart; the first one is for the block made with the best proof the node has seen.",
"all runs of a node without restart: all sequences of peaks, fork lines, times and keys",
"an invariant over all histories of forks and clocks",
["src/Node_update.cpp: Node::update","src/Node.cpp: Node::vote_for_block"])
p("C142","The best proof for a challenge does not depend on the order in which proofs come",
"Of all proofs for a challenge that came since they were last forgotten the node takes the one with the smallest hash, in whatever order and however often they came; a repeated proof changes nothing; a commit forgets exactly the challenges whose first proof was for a height up to that of the block.",
"all sequences of proofs and commits",
"all orders of arrival and all histories",
["src/Node_verify.cpp: Node::add_proof","src/Node.cpp: Node::find_best_proof","src/Node.cpp: Node::commit"])
p("C143","Merging two partly signed transactions keeps all signatures and adds those of the other",
"After merge_sign every input has the signature it had, or else that of the other transaction, if it has one; signatures are kept in place; the transaction is fully signed exactly if every input is signed in one of the two.",
"all pairs of transactions, all numbers of inputs and signatures",
"all ways of sharing signatures between inputs, all sizes",
["src/Transaction.cpp: Transaction::merge_sign","src/Transaction.cpp: Transaction::is_signed"])

p("C144","Every block and transaction that was stored is read back",
"get_block and get_block_header give for every hash the block first stored under it, and nothing for any other hash; get_transaction and get_tx_height give every transaction of the current chain with the height of its block; the hashes at a height are those of the blocks stored with it, each once; whatever forks came and wherever writing a block was cut off.",
"all sequences of blocks written, on the chain or beside it, of reverts, of ends of the process within a write, and of resets; all blocks",
"depends on the history of forks and on the place where writing stopped; offsets are right only if every write before was",
["src/Node.cpp: Node::write_block","src/Node.cpp: Node::read_block","src/Node_api.cpp: Node::get_block_ex","src/Node_api.cpp: Node::get_transaction"])
p("C145","A damaged file of blocks is noticed and mended",
"After the end of the file of blocks was lost, a block that is written again can be read under its hash, and the check at start lets no block pass that is not the one the chain has at that height.",
"all states of the file and its indexes, all blocks",
"all states a loss of data can leave",
["src/Node.cpp: Node::write_block","src/Node.cpp: Node::reset"])
p("C146","The liquidity reported to a user is what the exchanges hold for them",
"get_swap_liquidity_by reports for every exchange the amounts that could be taken out of it by the given addresses.",
"all sequences of calls of any users to any exchanges, all sets of addresses",
"the record is kept beside the contracts and must follow them through every history of calls",
["src/Node.cpp: Node::apply","src/Node_api.cpp: Node::get_swap_liquidity_by","src/contract/swap.js: _add_liquid"])

p("C147","The ranking of farmers counts the blocks on the chain",
"get_farmer_ranking lists farmers from the one with most blocks on the current chain down, each with the number of their blocks; a limit leaves out none with more blocks than one that is listed.",
"all histories of blocks, forks, failures of apply, deep reverts and restarts; all limits",
"kept in memory and changed by every block, fork and failure; rebuilt only at times",
["src/Node.cpp: Node::apply","src/Node.cpp: Node::revert","src/Node_api.cpp: Node::get_farmer_ranking"])
p("C148","The newest blocks of a set of farmers are found",
"get_farmed_blocks gives the newest blocks of the given farmers from a height on, newest first, up to the limit; with a negative limit all of them, oldest first.",
"all chains, all sets of keys, heights and limits",
"the limit applies to each key and then to all of them; all chains and sets of keys",
["src/Node_api.cpp: Node::get_farmed_blocks"])
p("C149","The summary of a farmer adds up their rewards",
"get_farmed_block_summary gives the number of blocks of the given farmers from a height on, the height of the newest, the sum of their rewards and the sums by address.",
"all chains and rewards, all sets of keys and heights",
"sums over all chains; sizes of the integer types on the way",
["src/Node_api.cpp: Node::get_farmed_block_summary","src/Node.cpp: Node::apply","interface/farmed_block_info_t.vni: farmed_block_info_t"])
p("C150","The most recent offers are found, however many others are between them",
"get_recent_offers gives the newest offers that are open (or all), newest first, up to the limit; get_recent_offers_for gives offers of the named coins with the wanted balance, up to the limit, and leaves out none of a greater height than one that is given; both end.",
"all logs of offers, all filters and limits",
"paging through a log of any length with a filter; boundaries of pages",
["src/Node_api.cpp: Node::get_recent_offers","src/Node_api.cpp: Node::get_recent_offers_for","src/Node_api.cpp: Node::fetch_offers"])
p("C151","The most recent trades are found",
"get_trade_history gives the newest trades from a height on, newest first, up to the limit, and get_trade_history_for those of the named coins.",
"all logs of trades, all limits and heights",
"all logs; conversions of the limit and of the ends of the range",
["src/Node_api.cpp: Node::get_trade_history","src/Node_api.cpp: Node::get_trade_history_for"])

p("C152","The standard library of contracts sorts and compares",
"sort gives the elements of an array of values of one type in ascending order, each as often as before, and aborts if the types differ; reverse reverses; equals says whether two values are the same to any depth; compare answers by one order: EQ only for the same values, LT and GT opposite to each other and carried over, shorter arrays before longer ones and then by the first difference.",
"all arrays of any length, nested to any depth",
"all lengths and depths; a loop over adjacent elements that swaps in place",
["src/vm/std/sort.js","src/vm/std/reverse.js","src/vm/std/equals.js","src/vm/std/compare.js"])
p("C153","Poker: the better hand is ranked higher",
"get_rank gives five cards of the deck, in whatever order, the best kind of hand that they are; check_win says of two hands which wins by the rules of poker.",
"all hands",
"2.6 million hands and all pairs of them; kinds that include one another",
["src/contract/poker.js: get_rank","src/contract/poker.js: check_win"])
p("C154","Poker: the pot is paid out once",
"Before the game is over nothing is paid and the contract holds at least all bets; afterwards it holds at least what is still to be claimed. Everybody is paid at most once for a seat, and exactly the share of that seat: the pot for the winner, or equal parts for those still in the game if nobody has shown, or the own bets if nobody is in the game. Whoever has a share gets it by calling claim.",
"all sequences of calls by anybody, deposits and other payments to the contract, at all heights",
"all interleavings of calls and heights; rounding; coins that arrive from outside",
["src/contract/poker.js: claim","src/contract/poker.js: check_finish","src/contract/poker.js: join","src/contract/poker.js: bet"])
p("C155","Poker: the best hand shown wins",
"Of all players who show a hand made of their cards and those on the table, the one with the best hand wins, with equal hands all who have it.",
"all games and orders of showing",
"all hands and orders of calls",
["src/contract/poker.js: show"])
p("C156","Poker: bets are never stuck",
"Whatever the other players do or fail to do, each player can get back what the rules give them: alone by leaving, otherwise after time is over.",
"all games, also with players that stop or send anything",
"behaviour of other players; permanence",
["src/contract/poker.js: leave","src/contract/poker.js: compute","src/contract/poker.js: check_action","src/contract/poker.js: is_timeout"])
p("C157","Poker: one seat each, and limits are kept",
"Nobody can join a game twice. A game never has more players than it was deployed for, and nobody can have more in it than the limit it was deployed with.",
"all games, with any calls in any order",
"all sequences of calls",
["src/contract/poker.js: join","src/contract/poker.js: bet"])
p("C158","Poker: nobody is out without having had a turn",
"A player who did not fold is only put out of the game for not meeting a raise, after having had the chance to act since that raise, or for letting their time run out.",
"all games with any number of players and orders of actions",
"all interleavings of raises, checks and folds",
["src/contract/poker.js: check_action","src/contract/poker.js: get_num_active","src/contract/poker.js: fold"])

p("C159","A minority of price sources cannot decide the vote on the reward",
"If most of the gold prices and most of the MMX prices that a node has lie in some ranges, then no values of the other sources can make it vote otherwise than prices in these ranges call for; and the vote is always one that a block may carry.",
"all prices of all sources, all sets of sources that answer, all sequences of updates and downloads",
"any values from outside",
["src/Node_control.cpp: get_median","src/Node_control.cpp: Node::update_control"])
p("C160","Price sources are asked sparingly",
"A node asks a price source only when what it has from it is missing or older than a day, never twice at the same time, and not again before the next full hour after a failure.",
"all interleavings of updates, ends of downloads and timers",
"downloads end on other threads at any time",
["src/Node_control.cpp: Node::update_control","src/Node_control.cpp: Node::update_control_hourly","src/Node_control.cpp: is_expired"])
p("C161","No vote on the reward from old prices",
"After an update the vote is that of prices at most a day old, and 0 if there are none.",
"all states of the files, all histories of successful and failed downloads",
"outages of any length",
["src/Node_control.cpp: Node::update_control"])

p("C162","A block file gives back what was written",
"After a flush, a merge or a revert, the file that was written is opened with the level, versions and number of its entries; a lookup in it gives for every key and version the newest value up to that version, or nothing if there is none; reading all entries in a row or by the index gives exactly what was written.",
"all sets of entries of any number and sizes that fit the fields, all keys and versions",
"all sizes and numbers of entries; positions in a binary file",
["src/DataBase.cpp: Table::read_block","src/DataBase.cpp: Table::find","src/DataBase.cpp: Table::lower_bound","src/DataBase.cpp: Table::finish_block","src/DataBase.cpp: Table::flush"])
p("C163","A damaged block file is refused",
"A block file that is not as it was written, cut short or changed, is refused when it is opened or read.",
"all block files, all places where they can be cut or changed",
"all positions; what a power failure leaves",
["src/DataBase.cpp: Table::read_block","src/DataBase.cpp: read_entry"])

p("C164","SHA-256 on Arm processors, and on whichever processor",
  "On Arm processors with SHA instructions a message of any length hashes to its SHA-256, and hashing a hash n times, alone or two at once, gives the n-fold SHA-256 of each. The hash of the node, the hashing of eight short messages and the work of a time lord give the same on every processor, whichever instructions it has; a node that checks two points of a proof of time at once gets what the time lord computed on another kind of processor.",
  "every message, number of iterations, set of instructions and content of uninitialised registers",
  "needs a machine of each kind; bit-level vector code, with a schedule word copied instead of computed, whose rare wrong result would fork the chain between kinds of processors",
  ["src/sha256_arm.cpp: sha256_arm, compress_digest","src/sha256_arm_rec.cpp: recursive_sha256_arm, recursive_sha256_arm_x2","src/hash_t.cpp: hash_t::hash_t","src/sha256_64_x8.cpp: sha256_64_x8","src/TimeLord.cpp: TimeLord::compute","src/Node_verify.cpp: Node::verify_vdf_cpu"])

p("C165","A signature check gives the same answer on every node",
  "Whether a signature is accepted, refused or cannot be read depends only on the signature, the key and the message: not on what the node checked before, on other threads that check signatures at the same time, or on the random salt of its cache. Each call is answered once.",
  "all messages, keys and signatures, all histories and interleavings of checks by any number of threads, all salts",
  "depends on which entries share a slot of a cache with a random salt, and on the order in which threads get a lock",
  ["src/signature_t.cpp: signature_t::verify","include/mmx/bytes_t.hpp: bytes_t","src/vm/Engine.cpp: Engine::verify"])
p("C166","A proof server gives what the node would compute",
  "A node that leaves the recomputation of proofs of space to a proof server gets the same entries and the same values in the same order as if it had computed them itself, and fails in the same cases. Each row the server returns is a proof over its own 256 values.",
  "all values, sizes and numbers of dropped bits, all hash functions and sorts",
  "the number of proofs in a request varies, and the values of all of them are cut apart by a division",
  ["src/ProofServer.cpp: ProofServer::compute_async","src/pos/verify.cpp: compute"])
p("C167","Every proof handed to the GPU is answered once, in its turn",
  "A request to recompute a proof on the GPU that was accepted is answered exactly once, with what was computed from its own values, to a caller that asked for it. It cannot be overtaken for ever by requests of other kinds, and no caller sleeps while its result is there. A shutdown ends every wait.",
  "all numbers of devices, callers and requests, all interleavings of their threads, failures of devices and a shutdown at any point",
  "threads of devices, of callers and of the CPU meet under one lock in any order, and devices fail at any time",
  ["src/pos/cuda_recompute.cu: cuda_recompute, cuda_recompute_poll, cuda_recompute_loop, cuda_recompute_shutdown, cuda_finish_cpu"])
p("C168","After a refresh a wallet counts no coins as free that its own transactions still take",
  "Right after a wallet has asked its node for news, what it can spend from an address is what the chain gives that address, less what those of the wallet's own transactions take that are not in the chain and can still get into it. This holds whatever was sent, confirmed or has expired before, and whatever happens to the chain.",
  "all histories of blocks, of blocks taken back, of transactions sent and of refreshes, all addresses and currencies",
  "the node is asked in several calls between which its chain may change",
  ["src/Wallet.cpp: Wallet::update_cache, Wallet::send_off","include/mmx/ECDSA_Wallet.h: update_cache, update_from","src/Node_api.cpp: Node::get_tx_ids_since, Node::get_height"])
p("C169","A connection counts as one to a node only if that node is at its other end",
  "When a node has verified the id of a peer, the owner of that id is at the other end of the connection. There is at most one open connection for each id, and a connection to an honest node is not closed because somebody else says he is that node.",
  "all numbers of nodes and connections, all interleavings, an outsider who connects to any node, sends anything and passes on what he has seen",
  "depends on what an attacker sends on several connections to several nodes",
  ["src/Router.cpp: Router::on_return, Router::sign_msg, Router::on_connect, Router::on_disconnect"])
p("C170","Connections are counted right, and a kicked address stays away",
"The router's lists of connections agree: the peers it reports are those it finds by address, each once, and only peers are asked for blocks. When a connection has ended and been cleared away nothing about it is left, whatever still arrives from it. Kicking an address ends all connections with it, and no connection with it is open again while it is on the list of banned addresses; it stays there until the list is full. The number of attempts to connect at a time is bounded by the settings, no attempt stays on the list when it is over, and except for fixed peers an attempt goes only to an address with which there is no connection, that is not banned and not our own. Peers are given at most as many addresses as they ask for, none of a private range.",
"all histories of dials, connections, failures, ends, kicks and messages in any order, with names that resolve to other addresses over time",
"Ends of connections are handled later than they happen, and messages arrive in between; the number of orders is unbounded.",
["src/Router.cpp: connect","src/Router.cpp: connect_to","src/Router.cpp: on_connect","src/Router.cpp: on_disconnect","src/Router.cpp: ban_peer","src/Router.cpp: kick_peer","src/Router.cpp: get_peers"])
p("C171","The balances a wallet shows add up",
"For each currency the wallet shows as spendable the sum over its addresses of what the node reported less what its pending transactions take, as reserved what these take, and as total the coins reported by the node and those locked in contracts: sending a transaction moves coins from spendable to reserved and changes no total, until it is confirmed or expires.",
"all histories of refreshes, sent transactions and resets, all addresses and currencies",
"The sums depend on the whole history of sends and refreshes and on any number of addresses.",
["src/Wallet.cpp: get_balances","src/Wallet.cpp: get_balance","include/mmx/ECDSA_Wallet.h: update_cache","include/mmx/ECDSA_Wallet.h: update_from"])
p("C172","A harvester farms the plots that are there",
"After any number of reloads a harvester farms exactly the plots whose file can be opened, has a permitted size and is for a key of the farmer, in the directories to search and, if asked for, those below them to the permitted depth; each plot is looked up once, however many files have it; the reported space is that of the plots looked up; the order in which threads read the disks does not matter; and a reload that finds nothing new disturbs nothing.",
"all disks, links between directories, listing errors, keys, sequences of reloads and schedules of the threads",
"Depends on the history of all reloads, on arbitrary directory graphs and on the interleaving of threads.",
["src/Harvester.cpp: find_plot_dirs","src/Harvester.cpp: reload","src/Harvester.cpp: lookup_task","include/mmx/Harvester.h: plot_map"])
p("C173","A farmer counts its harvesters and partials once",
"The space and number of plots a farmer reports are the sums over the harvesters it has heard of in time, each with its latest message and none twice. Every partial it sent to a pool is either waiting for an answer or counted exactly once, as accepted with its points or as failed with its difficulty and one error, for the contract it was made for.",
"all sequences of messages from harvesters, timer events, partials and answers of pools, in any order",
"Answers come in any order, late or never, mixed with messages of any number of harvesters.",
["src/Farmer.cpp: get_farm_info","src/Farmer.cpp: handle","src/Farmer.cpp: update","interface/pooling_stats_t.vni"])
p("C174","Partials are made with the difficulty of the pool",
"The difficulty used for a plot contract is the last one answered by the pool at which the contract is, and what a harvester knows of plot contracts is about contracts of its plots.",
"all orders of messages, requests and answers",
"Depends on races between requests to several pools and changes of the pool.",
["src/Farmer.cpp: query_difficulty","src/Farmer.cpp: get_partial_diff","src/Farmer.cpp: handle","src/Harvester.cpp: update_nfts"])
p("C175","Received proofs are judged once and in time",
"A proof of space sent to a node is judged at the first pass at which its challenge is settled; it counts from then on if it is valid at that time, and is forgotten otherwise or when ten block intervals have gone by first. Until then it waits. Which proofs are known for a challenge, and which is the best, does not depend on the order in which the threads finish.",
"all sequences of received proofs and passes, all schedules of the threads in a pass",
"The order of threads and the times of arrival are unbounded in number.",
["src/Node_update.cpp: verify_proofs","src/Node.cpp: handle","src/Node_verify.cpp: add_proof"])
p("C176","An account of a wallet keeps its number, and its key",
"The number under which an account is created stays that account's, over restarts and whatever other accounts are created, removed or given more addresses; when it is removed there is no account with that number. No operation, also none that fails, changes or deletes a key file that was there before.",
"all sequences of created, imported and removed accounts, changes of the number of addresses and restarts; all failures of reading and writing files",
"Depends on the whole history of accounts, failed attempts and restarts.",
["src/Wallet.cpp: main","src/Wallet.cpp: add_account","src/Wallet.cpp: create_account","src/Wallet.cpp: import_wallet","src/Wallet.cpp: remove_account","src/Wallet.cpp: set_address_count"])
p("C177","What the node tells about a swap is what the swap does",
"If a node estimates a trade as an amount and a fee, the trade made in that state gives exactly that amount to the recipient, whatever minimum up to it is asked for, and is refused with a higher minimum; every trade that succeeds has an estimate. Whoever takes out all liquidity gets exactly the earned fees and the equivalent liquidity that the node told, and the transaction which a wallet makes to take out all does the same as the contract's own method for it.",
"all states of the exchange, all amounts, numbers of iterations, minimum trades, users and heights",
"Compares two different computations over every state of a contract and every amount.",
["src/Node_api.cpp: get_swap_trade_estimate","src/Node_api.cpp: get_swap_fees_earned","src/Node_api.cpp: get_swap_equivalent_liquidity","src/Wallet.cpp: swap_rem_liquid","src/contract/swap.js: trade","src/contract/swap.js: rem_all_liquid"])
p("C178","The past state of a contract can be read",
"Asked for the storage of a contract as of some height, a node answers with what the blocks up to that height have left there: the value of a variable, of a field, of an entry, all entries of an array in order, all entries of a map with their keys; whatever blocks were applied, failed or reverted before, and whatever came after.",
"all histories of applied, failed and reverted blocks with any writes, all contracts, addresses, names, keys and heights",
"Ranges over every history of a chain with reorganisations and every past height.",
["src/Node_api.cpp: read_storage","src/Node_api.cpp: read_storage_field","src/Node_api.cpp: read_storage_entry_var","src/Node_api.cpp: read_storage_array","src/Node_api.cpp: read_storage_map","src/vm/StorageDB.cpp: read_ex","src/vm/StorageDB.cpp: find_entries","src/vm/StorageDB.cpp: lookup"])
p("C179","A wallet with a passphrase is locked when it is not used",
"When its timer has had its turn, an account with a passphrase that is unlocked was unlocked, or has sent a transaction, less than the timeout ago. A timer never locks another account, one without passphrase, or one used within the timeout. Signing with a passphrase leaves an account as it was.",
"all sequences of accounts added, unlocked, locked, used, removed and replaced under the same number, time passing, timers running late; all timeouts",
"Depends on how calls and timers of several accounts interleave in time.",
["src/Wallet.cpp: unlock","src/Wallet.cpp: lock","src/Wallet.cpp: send_off","src/Wallet.cpp: add_account","include/mmx/ECDSA_Wallet.h: lock","include/mmx/ECDSA_Wallet.h: sign_off"])
p("C180","The hash of a block settles what is in it",
"Two valid blocks with the same hash have the same header, with the same proofs of space, and the same transactions in the same order: every field of the header (from hardfork 2 on also proof_chain), and every transaction by its content hash. Two with the same content hash also have the same signature. Unless the hash function collides.",
"all pairs of valid blocks, with any number of proofs and transactions; all hash functions; all heights of hardfork 2",
"Ranges over all pairs of blocks; a test compares a few that differ in one field.",
["src/BlockHeader.cpp: calc_hash","src/BlockHeader.cpp: calc_content_hash","src/BlockHeader.cpp: is_valid","src/Block.cpp: is_valid","src/Block.cpp: calc_tx_hash","include/mmx/tree_hash.h: calc_btree_hash","src/ProofOfSpaceOG.cpp: calc_hash","src/ProofOfSpaceNFT.cpp: calc_hash"])
p("C181","A farmer's signature means one thing only",
"A signature that a farmer gave for a block, a proof, a partial or a vote is not one for anything of another kind; that of a vote is for one block hash and one key, that of a proof for one VDF height and one proof, that of a block for one header.",
"all messages that a farmer signs; all hash functions that do not collide on the two messages",
"Ranges over all pairs of messages of all kinds.",
["src/Farmer.cpp: handle","src/Farmer.cpp: sign_block","src/Farmer.cpp: sign_vote","src/ProofResponse.cpp: calc_hash","src/ValidatorVote.cpp: is_valid","src/Partial.cpp: calc_hash"])
p("C182","The balances a node reports add up",
"What get_total_balances, get_balances, get_total_balance, get_all_balances and get_contract_balances report for a currency is the sum of the balances of the addresses given, each counted once; currencies they have none of are not listed; with a whitelist only those in it are. A contract's balances are all locked or all spendable, as its is_locked says. A limit never makes a reported balance wrong.",
"all contents of the balance table, all lists of addresses with repetitions, all whitelists, all limits",
"Ranges over all tables and lists of addresses.",
["src/Node_api.cpp: get_balance","src/Node_api.cpp: get_total_balance","src/Node_api.cpp: get_balances","src/Node_api.cpp: get_contract_balances","src/Node_api.cpp: get_total_balances","src/Node_api.cpp: get_all_balances","include/mmx/table.h: find_range"])
p("C183","Offers are shown as they are",
"get_offer shows price, balances, owner and partner as they are in the contract, and as ask_amount exactly what buys all that is on offer. The lists of offers have every public offer in the state asked for and no other. The trade history shows what was paid and received.",
"all states of all offers; all lists of them; all deposits",
"Ranges over all prices and balances of offers and all lists of them; a list fails because of one offer.",
["src/Node_api.cpp: get_offer","src/Node_api.cpp: get_offer_state","src/Node_api.cpp: fetch_offers","src/Node_api.cpp: make_trade_entry","src/offer_data_t.cpp: get_ask_amount","src/offer_data_t.cpp: is_scam","src/Node.cpp: apply","src/contract/offer.js: accept"])
p("C184","A plot NFT is shown as its contract behaves",
"get_plot_nft_info says that a plot NFT is locked exactly when its contract is, at the height of the node; its target is then where rewards go and who alone can claim, whichever farmer; otherwise it is the owner who can claim.",
"all histories of calls of a plot NFT, all heights",
"Ranges over all histories of calls and all heights.",
["src/Node_api.cpp: get_plot_nft_info","src/contract/plot_nft.js: is_locked","src/contract/plot_nft.js: mmx_reward_target","src/contract/plot_nft.js: claim_all"])
p("C185","Exchanges are shown as they are",
"After any calls of an exchange contract, get_swap_info shows for both tokens what the contract holds, the sums over its pools of balance, liquidity, fees paid and fees claimed, the numbers of each pool, and what was traded and taken as fees since a day and a week ago. What is shown as held covers the balance and the unclaimed fees shown. get_swap_user_info shows pool, liquidity, fees and the amounts that can be taken out as the contract has them, and from the height shown on the liquidity can be taken out. The list of exchanges has an order that can be sorted by.",
"all histories of calls by anybody, all earlier points of the history, all users",
"Ranges over all histories of calls; that differences with the past do not go below zero, and that sums of four pools fit, depends on all of them.",
["src/Node_api.cpp: get_swap_info","src/Node_api.cpp: get_swap_user_info","src/Node_api.cpp: get_swaps","include/mmx/uint128.hpp: uint128","src/contract/swap.js"])
p("C186","The list of known tokens is what the user made it",
"After any calls of add_token and remove_token, failures to write the settings, ends of the program in the middle of a call, and restarts: get_token_list has the native coin and every known token that the chain has; a token is known if it was added last, or was on the list and not removed; a token that was removed last, or never added, is not known; and a restart does not change this.",
"all sequences of calls, failures, crashes and restarts; all tokens",
"Ranges over all sequences of calls with crashes; the failure appears only after a restart.",
["src/Wallet.cpp: get_token_list","src/Wallet.cpp: add_token","src/Wallet.cpp: rem_token","config/mainnet-rc/Wallet.json","config/local_init/Wallet.json"])
p("C187","Requests of peers are answered once and reach only a few queries",
"However connections, requests, answers of the node and ends of connections mix: for each connection and request id a peer is never sent more answers than it made requests, and while the connection is open each of its requests is answered once or the node is still working on it. Peers can make the node execute only nine read-only queries, and each answer fits a request made with that id over that connection. While a peer does not read, its requests do not reach the node but are answered with an overflow; it is paused only during this time and told to go on afterwards; and what waits to be sent to it stays bounded.",
"all sequences of events of any number of connections",
"Ranges over all interleavings of asynchronous answers with connections and disconnections.",
["src/Router.cpp: on_request","src/Router.cpp: send_to","src/Router.cpp: on_error","src/Router.cpp: on_pause","src/Router.cpp: on_resume","src/Router.cpp: on_disconnect"])
p("C188","Whoever asks for a contract gets what the chain has",
"However calls of the API in their threads, validation in its threads, and updates of the node mix: get_contract, and validation, are given the contract that the chain has at this address, or none if it has none, whatever was asked before; during one call of the API the chain does not change; and the contracts kept in memory for this are at most 65535.",
"all interleavings of any number of threads, all histories of the chain",
"Ranges over all schedules of threads around locks; the failure needs a thread to stop between two lines.",
["src/Node_api.cpp: get_contract_ex","src/Node_api.cpp: async_api_call","src/Node.cpp: apply","src/Node.cpp: revert","src/Node.cpp: revert_sync","src/Node_update.cpp: update"])
p("C189","A transaction handed to the node is pending until it was judged itself",
"A transaction that add_transaction accepts without an error can be found as pending until it was validated itself or is in a block, whatever other transactions are sent, copies of it with other signatures included; what validation says of such a copy does not count for it; and if nothing is skipped or added, all are judged after as many rounds as there are. The queue never has more than max_tx_queue transactions. If a transaction is to be validated first and fails, or the node is not in sync, the caller is told and nothing happens.",
"all sequences of transactions from users and peers, blocks, reverts and validations, in any order of the queue",
"Ranges over all histories and all orders of a hash map; the failure needs a full queue.",
["src/Node.cpp: add_transaction","src/Node.cpp: handle","src/Node.cpp: apply","src/Node_update.cpp: validate_new","src/Node_api.cpp: get_transaction"])
p("C190","What a timelord signs settles its proof of time",
"Two valid proofs of time with the same hash, which is what the timelord signs, have the same version, height, start, number of iterations, segment size, input, block, reward address and segments; with the same content hash they are equal in all. What a timelord publishes is valid and signed. Two valid VDF points with the same content hash agree in all but the time they came in and the attached proof, and nodes that verified proofs which agree in height, start, iterations, input, output, block and address get the same point. What timelords sign is never the bytes of a block, a header, a proof of space or a response.",
"all proofs of time and VDF points, all blocks and proofs, all hash functions that do not collide on the inputs at hand",
"Ranges over all pairs of messages; no test can try them all.",
["src/ProofOfTime.cpp: calc_hash, calc_content_hash, is_valid, validate, get_output","src/VDF_Point.cpp: calc_hash, is_valid","src/TimeLord.cpp: TimeLord::update","src/Node_verify.cpp: Node::verify_vdf_task"])
p("C191","Contracts are listed by who deployed them and by who owns them",
"get_contracts_by lists, address by address and oldest first, exactly the contracts that transactions of that sender deployed on the current chain without failing, of the type asked for if any. get_contracts_owned_by lists in the same way the contracts that the address owns. Blocks that were reverted leave no trace. A wallet shows for its addresses exactly those that the node lists and has, of the type asked for.",
"all sequences of blocks and reverts, all transactions in them, all lists of addresses and types",
"Ranges over all histories of blocks and reverts; the failure needs an ownership that moves after the contract was deployed.",
["src/Node.cpp: apply","src/Node.cpp: revert","src/Node_api.cpp: get_contracts_by","src/Node_api.cpp: get_contracts_owned_by","src/Wallet.cpp: get_contracts","src/Wallet.cpp: get_contracts_owned","src/contract/plot_nft.js: transfer"])
p("C192","The lists of transactions agree with the chain",
"get_tx_ids(limit) lists the transactions of the current chain block by block from the newest on, those of a block in their order, and at most limit; get_tx_ids_at(height) lists those of one block and get_tx_ids_since(height) those of all blocks from there on; get_tx_height gives the height of the block that has the transaction and nothing if none has it. No transaction is on a chain twice. All this holds whatever was reverted before.",
"all sequences of blocks and reverts, all heights, limits and ids",
"Ranges over all histories of blocks and reverts.",
["src/Node_api.cpp: get_tx_ids","src/Node_api.cpp: get_tx_ids_at","src/Node_api.cpp: get_tx_ids_since","src/Node_api.cpp: get_tx_height","src/Node.cpp: apply","src/Node.cpp: write_block","src/Node.cpp: revert"])
p("C193","What the wallet asks of an exchange is what the user asked for",
"swap_trade takes exactly the amount given, in the currency given, from the wallet; if the trade goes through, the wallet's first address gets coins of the other kind, not less than min_trade, and nobody else gets anything; it refuses just the currencies the exchange does not have. swap_add_liquid takes the two amounts, each in its own currency, and the liquidity of the wallet's first address grows by exactly these. swap_rem_liquid takes nothing from the wallet; if it goes through, the liquidity of that address falls by exactly the amounts given, the fees due are paid first, all that leaves the pools is sent, and all that is sent goes to it. The liquidity of others is as before.",
"all exchanges in all states, all amounts, currencies, pools, iteration counts and heights",
"Ranges over all states of the exchange and all amounts.",
["src/Wallet.cpp: swap_trade","src/Wallet.cpp: swap_add_liquid","src/Wallet.cpp: swap_rem_liquid","src/Wallet.cpp: deposit","src/contract/swap.js: trade","src/contract/swap.js: add_liquid","src/contract/swap.js: rem_liquid","src/contract/swap.js: payout"])
p("C194","What the wallet asks of an offer is what the user asked for, whatever happened in between",
"offer_trade spends exactly the amount given in the coin the offer asks for, and the chosen address gets what it buys at the price given, rounded down. accept_offer spends no more than the ask amount shown when the user asked; the chosen address gets coins at the price given, and the rest of the payment back; if nothing happened since, it takes the whole offer for exactly the amount shown. Neither goes through at another price. cancel_offer and offer_withdraw spend nothing and give the owner all that the offer has.",
"all offers, all that may happen to an offer between looking at it and execution, all amounts, prices and heights",
"Ranges over all histories between looking at an offer and the execution of the call.",
["src/Wallet.cpp: offer_trade","src/Wallet.cpp: accept_offer","src/Wallet.cpp: cancel_offer","src/Wallet.cpp: offer_withdraw","src/Wallet.cpp: deposit","src/Wallet.cpp: execute","src/Node_api.cpp: get_offer","src/contract/offer.js: trade","src/contract/offer.js: accept"])
p("C195","An address is found with the wallet that has it",
"An account finds exactly its own addresses, each with its number, however often it was locked and unlocked; once it has addresses, it is unlocked only by a passphrase that gives its first one. find_wallet_by_addr gives the first wallet that has the address, and fails only for addresses that get_all_addresses does not list.",
"all accounts and lists of accounts, all numbers of addresses, all sequences of unlocking",
"Ranges over all lists of accounts and all sequences of unlocking.",
["include/mmx/ECDSA_Wallet.h: ECDSA_Wallet","include/mmx/ECDSA_Wallet.h: unlock","include/mmx/ECDSA_Wallet.h: find_address","src/Wallet.cpp: find_wallet_by_addr","src/Wallet.cpp: get_all_addresses","src/Wallet.cpp: set_address_count"])
with open('/verif/properties.jsonl','w') as f:
    for x in P: f.write(json.dumps(x)+"\n")
print(len(P))
