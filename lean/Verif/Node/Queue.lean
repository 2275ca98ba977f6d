/-
  The queue of transactions that were handed to the node and are not validated yet: src/Node.cpp (add_transaction, handle, apply),
  src/Node_update.cpp (validate_new), src/Node_api.cpp (get_transaction).

  What validation says of a transaction, and whether the pool takes it, are inputs here (see `Ledger`, `Pool` and `Graph`): so is the order in which
  the queue, a hash map, is walked. That validation of the queue comes to an end is another matter (C89).
-/
namespace Verif.Node.Queue

/-- A transaction: its id, and the hash of all of it, signatures included (`content_hash`). Two with the same `content` are the same. -/
structure Tx where
  id : Nat
  content : Nat
  deriving DecidableEq, Repr

/-- `tx_queue`, ids of `tx_pool`, ids in the chain, what was passed on to peers on behalf of the user (`output_transactions`), and what was passed on
    after validation (`output_verified_transactions`). -/
structure St where
  queue : List Tx := []
  pool : List Nat := []
  chain : List Nat := []
  sent : List Tx := []
  verified : List Tx := []
  deriving DecidableEq, Repr

inductive Outcome where
  | ok
  | notSynced
  | failed
  deriving DecidableEq, Repr

/-- `tx_queue[tx->content_hash] = tx`, Node.cpp:427-430: only while there is room. -/
def enqueue (max : Nat) (s : St) (t : Tx) : St :=
  if s.queue.length < max then { s with queue := s.queue.filter (fun x => decide (x.content ≠ t.content)) ++ [t] } else s

/-- `publish(tx, output_transactions)`, Node.cpp:431-433, unless the transaction came from there (`vnx_sample`). -/
def passOn (api : Bool) (s : St) (t : Tx) : St := if api then { s with sent := s.sent ++ [t] } else s

/-- `Node::add_transaction`, Node.cpp:411-434. `valid`: what `validate` says if asked to do this first. The result that a transaction may carry is
    removed at the start (lines 413-417), so `t` is without. -/
def add (max : Nat) (synced api pre valid : Bool) (s : St) (t : Tx) : St × Outcome :=
  if pre then
    if synced = false then (s, .notSynced)
    else if valid = false then (s, .failed)
    else (passOn api (enqueue max s t) t, .ok)
  else (passOn api (enqueue max s t) t, .ok)

/-- A transaction that comes from a peer, Node.cpp:471-476. -/
def handle (max : Nat) (synced : Bool) (s : St) (t : Tx) : St := if synced then (add max synced false false true s t).1 else s

/-- `skipped`: not validated before the deadline; `invalid`: not valid, or not even prepared (Node_update.cpp:703-705); `refused`: valid, but the pool did
    not take it; `taken`: it did. -/
inductive Verdict where
  | skipped
  | invalid
  | refused
  | taken
  deriving DecidableEq, Repr

/-- The first of each id, Node_update.cpp:684-693. -/
def pick (seen : List Nat) : List Tx → List Tx
  | [] => []
  | t :: l => if t.id ∈ seen then pick seen l else t :: pick (t.id :: seen) l

/-- One round of the last loop, Node_update.cpp:744-754. -/
def settle (verdict : Tx → Verdict) (s : St) (t : Tx) : St :=
  match verdict t with
  | .skipped => s
  | .taken => { s with queue := s.queue.filter (fun x => decide (x.content ≠ t.content)), pool := t.id :: s.pool, verified := s.verified ++ [t] }
  | _ => { s with queue := s.queue.filter (fun x => decide (x.content ≠ t.content)) }

/-- `Node::validate_new`, Node_update.cpp:669-755, when in sync. `order` is the queue as it is walked. -/
def validateNew (order : List Tx) (verdict : Tx → Verdict) (s : St) : St := (pick [] order).foldl (settle verdict) s

/-- What `apply` does to the queue and the pool, Node.cpp:1079-1099. -/
def apply (ids : List Nat) (s : St) : St :=
  { s with
    queue := s.queue.filter (fun x => decide (x.id ∉ ids))
    pool := s.pool.filter (fun x => decide (x ∉ ids))
    chain := ids ++ s.chain }

/-- Whether `get_transaction(id, true)` finds something, Node_api.cpp:346-372: in the pool, in the queue, or in the chain. -/
def found (s : St) (id : Nat) : Bool := decide (id ∈ s.pool) || s.queue.any (fun t => decide (t.id = id)) || decide (id ∈ s.chain)

/-- `drop`: the pool lets go of a transaction (`purge_tx_pool`, `validate_for_block`); `revert`: blocks are taken back, their transactions go to the
    pool (Node.cpp:1309-1323) or are lost. -/
inductive Ev where
  | add (synced api pre valid : Bool) (t : Tx)
  | handle (synced : Bool) (t : Tx)
  | validate (order : List Tx) (verdict : Tx → Verdict)
  | apply (ids : List Nat)
  | drop (id : Nat)
  | revert (back : Bool) (ids : List Nat)

def step (max : Nat) (s : St) : Ev → St
  | .add synced api pre valid t => (Queue.add max synced api pre valid s t).1
  | .handle synced t => Queue.handle max synced s t
  | .validate order verdict => validateNew order verdict s
  | .apply ids => Queue.apply ids s
  | .drop id => { s with pool := s.pool.filter (fun x => decide (x ≠ id)) }
  | .revert back ids => { s with chain := s.chain.filter (fun x => decide (x ∉ ids)), pool := if back then ids ++ s.pool else s.pool }

def run (max : Nat) (s : St) (l : List Ev) : St := l.foldl (step max) s

end Verif.Node.Queue
