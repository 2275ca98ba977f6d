import Verif.Base
/-
  The pool of pending transactions.

  Sources: src/Node_update.cpp (tx_pool_update, tx_pool_erase, purge_tx_pool, validate_new, validate_for_block),
  src/Node.cpp (apply, revert), src/Node_api.cpp (get_history, get_history_memo, get_transaction),
  include/mmx/Node.h (tx_pool, tx_pool_fees, tx_pool_index).
-/
namespace Verif.Node
open Verif

/-- What the pool reads of a transaction.  `keys` are the addresses of inputs and outputs and, for outputs
with a memo, the hash of address and memo: the keys of src/Node_update.cpp:564-572.  Transactions of the pool are
without result (src/Node_update.cpp:719-723, src/Node.cpp:1314-1316), so these are a function of the id: the
id is the hash of all of them (src/Transaction.cpp:128-153). -/
structure PTx where
  id : Nat
  sender : Option Nat
  keys : List Nat
  feeRatio : Nat
deriving DecidableEq, Repr

/-- `tx_pool_t`, include/mmx/Node.h:282-289, without the flags: entries that reach the pool are valid and not
skipped (src/Node_update.cpp:744-749, src/Node.cpp:1319).  `cost` and `luck` play no part here.
`static_cost` of the transaction stands beside it because it counts the solutions, which the id does not
cover (src/Transaction.cpp:155-163). -/
structure PEntry where
  tx : PTx
  fee : Nat
  staticCost : Nat
deriving DecidableEq, Repr

/-- `tx_pool`, `tx_pool_fees` and `tx_pool_index`, include/mmx/Node.h:518-520. -/
structure Pool where
  txs : List PEntry := []
  fees : Nat → Option Nat := fun _ => none
  index : Nat → Nat → Bool := fun _ _ => false

/-- `tx_pool.find(id)`. -/
def Pool.find (p : Pool) (id : Nat) : Option PEntry := p.txs.find? fun e => e.tx.id == id

/-- The new total of line 545-549: what is recorded for the sender, less the fee of the entry that is
replaced, plus the new fee. -/
def Pool.newTotal (p : Pool) (s : Nat) (e : PEntry) : Nat :=
  let t := (p.fees s).getD 0
  let t := match p.find e.tx.id with | some o => sub64 t o.fee | none => t
  u64 (t + e.fee)

/-- What `tx_pool_update` writes once it has agreed, src/Node_update.cpp:554-575. -/
def Pool.put (p : Pool) (s : Nat) (e : PEntry) : Pool :=
  { fees := fun a => if a = s then some (p.newTotal s e) else p.fees a
    txs := match p.find e.tx.id with
      | some _ => p.txs.map fun o => if o.tx.id = e.tx.id then e else o
      | none => e :: p.txs
    index := match p.find e.tx.id with
      | some _ => p.index
      | none => fun k id => if id = e.tx.id ∧ k ∈ e.tx.keys then true else p.index k id }

/-- `Node::tx_pool_update`, src/Node_update.cpp:535-578.  `bal` is the native balance of an account. -/
def Pool.update (bal : Nat → Nat) (force : Bool) (e : PEntry) (p : Pool) : Pool × Bool :=
  match e.tx.sender with
  | none => (p, false)
  | some s => if force = false ∧ p.newTotal s e > bal s then (p, false) else (p.put s e, true)

/-- What is left of the fees of a sender, src/Node_update.cpp:586-591. -/
def lessFee (fees : Nat → Option Nat) (s fee : Nat) : Nat → Option Nat := fun a =>
  if a = s then
    match fees s with
    | none => none
    | some f => if sub64 f fee = 0 then none else some (sub64 f fee)
  else fees a

/-- `Node::tx_pool_erase`, src/Node_update.cpp:580-608. -/
def Pool.erase (id : Nat) (p : Pool) : Pool :=
  match p.find id with
  | none => p
  | some e =>
    { fees := match e.tx.sender with | none => p.fees | some s => lessFee p.fees s e.fee
      index := fun k i => if i = e.tx.id ∧ k ∈ e.tx.keys then false else p.index k i
      txs := p.txs.filter fun o => o.tx.id ≠ id }

/-- The state of the loop of `purge_tx_pool`, src/Node_update.cpp:628-658: the pool, `total_pool_size` and
the totals of `sender_map`. -/
structure Purge where
  pool : Pool
  size : Nat := 0
  total : Nat → Nat := fun _ => 0

/-- The totals after counting the fee, line 642-648. -/
def Purge.count (q : Purge) (e : PEntry) : Nat → Nat :=
  match e.tx.sender with
  | none => q.total
  | some s => fun a => if a = s then u64 (q.total s + e.fee) else q.total a

/-- Is the sender out of balance?  The balance is stored with 64 bits (line 630, 643). -/
def Purge.over (bal : Nat → Nat) (q : Purge) (e : PEntry) : Bool :=
  match e.tx.sender with
  | none => false
  | some s => decide (q.count e s > u64 (bal s))

/-- One round of the loop. -/
def Purge.step (bal : Nat → Nat) (max : Nat) (q : Purge) (e : PEntry) : Purge :=
  let size := if q.over bal e then q.size else u64 (q.size + e.staticCost)
  { pool := if size > max ∨ q.over bal e = true then q.pool.erase e.tx.id else q.pool, size := size, total := q.count e }

/-- `Node::purge_tx_pool`, src/Node_update.cpp:610-667, over the entries in the order it walks them. -/
def Pool.purge (bal : Nat → Nat) (max : Nat) (order : List PEntry) (p : Pool) : Pool :=
  (order.foldl (Purge.step bal max) { pool := p }).pool

/-- An order that sorting gives (line 621-626): all entries, descending by fee ratio. -/
structure Sorted (p : Pool) (order : List PEntry) : Prop where
  perm : order.Perm p.txs
  desc : order.Pairwise fun a b => b.tx.feeRatio ≤ a.tx.feeRatio

/-- Pending transactions and the transactions of the blocks of the chain, the last block first. -/
structure PState where
  pool : Pool := {}
  chain : List (List PEntry) := []

def PState.executed (s : PState) : List Nat := (s.chain.flatMap id).map (·.tx.id)

/-- `apply` erases what the block holds, src/Node.cpp:1079-1088. -/
def PState.apply (s : PState) (blk : List PEntry) : PState :=
  { pool := blk.foldl (fun p e => p.erase e.tx.id) s.pool, chain := blk :: s.chain }

/-- `revert` of the last block puts back what it held if the node is in sync and the block not below the
root, src/Node.cpp:1290-1325.  The entry is made from the result in the block. -/
def PState.revert (back : Bool) (s : PState) : PState :=
  match s.chain with
  | [] => s
  | blk :: rest => { pool := if back then blk.foldl (fun p e => (p.update (fun _ => 0) true e).1) s.pool else s.pool, chain := rest }

/-- What happens to the pool. -/
inductive POp where
  | add (bal : Nat → Nat) (e : PEntry)
  | erase (id : Nat)
  | purge (bal : Nat → Nat) (max : Nat) (order : List PEntry)
  | apply (blk : List PEntry)
  | revert (back : Bool)

def POp.run (s : PState) : POp → PState
  | .add bal e => { s with pool := (s.pool.update bal false e).1 }
  | .erase id => { s with pool := s.pool.erase id }
  | .purge bal max order => { s with pool := s.pool.purge bal max order }
  | .apply blk => s.apply blk
  | .revert back => s.revert back

/-- When it can happen.  `body` says what a transaction is, by its id: ids are hashes of all that the pool
looks at (src/Transaction.cpp:117, 128-153).  A transaction is added after it was validated (src/Node_update.cpp:719-749),
which it is not if it was executed (C59), and a block holds only transactions that were not executed
before, none twice and each with a sender (C59, src/Node_validate.cpp:262-272).  The pool holds less
than 2^32 transactions. -/
def POp.Ok (body : Nat → PTx) (s : PState) : POp → Prop
  | .add _ e => e.tx = body e.tx.id ∧ e.fee < 2 ^ 32 ∧ e.tx.id ∉ s.executed ∧ s.pool.txs.length + 1 < 2 ^ 32
  | .erase _ => True
  | .purge _ _ order => Sorted s.pool order
  | .apply blk => (∀ e ∈ blk, e.tx = body e.tx.id ∧ e.fee < 2 ^ 32 ∧ e.tx.sender.isSome = true ∧ e.tx.id ∉ s.executed) ∧ (blk.map (·.tx.id)).Nodup
  | .revert _ => ∀ blk rest, s.chain = blk :: rest → s.pool.txs.length + blk.length + 1 < 2 ^ 32

/-- The states of a node whose transactions are given by `body`. -/
inductive PReach (body : Nat → PTx) : PState → Prop
  | init : PReach body {}
  | step {s : PState} {o : POp} : PReach body s → o.Ok body s → PReach body (o.run s)

end Verif.Node
