import Verif.Ledger.Block
import Verif.Chain.Bands
/-
  Assembling a block: Node::validate_for_block, src/Node_update.cpp:757-921.
-/
namespace Verif.Ledger
open Verif Verif.Chain

/-- `tx_pool_t`, include/mmx/Node.h:282-289: a transaction of the pool and what it cost when it was
    validated last. -/
structure Entry where
  tx : Tx
  cost : Nat

/-- `max_block_size`, `max_block_cost` and `min_fee_ratio` of the chain. -/
structure Limits where
  maxSize : Nat
  maxCost : Nat
  ratios : List Nat

/-- Selecting transactions to verify, Node_update.cpp:778-783. The sum is 64 bit; it is at most the limit
    plus one cost of 32 bit. -/
def selectCost (max : Nat) : Nat → List Entry → List Entry
  | _, [] => []
  | n, e :: l => if n + e.cost ≤ max then e :: selectCost max (n + e.cost) l else selectCost max n l

/-- A transaction with a result is reset before it is validated, Node_update.cpp:809-813 and
    Transaction.cpp:34-39. -/
def Tx.fresh (p : Params) (tx : Tx) : Tx :=
  match tx.result with
  | none => tx
  | some _ => { tx with result := none, staticCost := ({ tx with result := none } : Tx).calcCost p }

/-- `prepare_context` of each, Node_update.cpp:786-793: one that throws is not run. Undefined behaviour in one is
    that of the node. -/
def prepAll (depends : Addr → Option (List Addr)) : Ctx → List Tx → Res (Ctx × List Tx)
  | x, [] => .ok (x, [])
  | x, tx :: l =>
    match x.prepare depends tx with
    | .ok y =>
      match prepAll depends y l with
      | .ok (z, r) => .ok (z, tx :: r)
      | .throw => .throw
      | .ub => .ub
    | .throw => prepAll depends x l
    | .ub => .ub

/-- Those accepted, with their results. -/
def accepted : List Tx → List Verdict → List (Tx × ExecRes)
  | tx :: l, .accept r _ :: vs => (tx, r) :: accepted l vs
  | _ :: l, .reject :: vs => accepted l vs
  | _, _ => []

/-- Taking the fee and the inputs from `tmp_cache`, Node_update.cpp:860-879: `none` when not `passed`. The
    code goes on after a failure, without effect, since `tmp_cache` is dropped. -/
def spendTx (b : Bals) (tx : Tx) (r : ExecRes) : Option Bals :=
  match tx.sender with
  | none => none
  | some a => (take b a 0 r.fee).bind fun b => if r.didFail then some b else takeAll b tx.inputs

/-- Selecting the final set, Node_update.cpp:844-887, after invalid and skipped ones have been left out. -/
def choose (p : Params) (lim : Limits) : Bals → Nat → Nat → List (Tx × ExecRes) → List (Tx × ExecRes)
  | _, _, _, [] => []
  | b, size, cost, (tx, r) :: l =>
    if size + (tx.produced p r).staticCost > lim.maxSize ∨ cost + r.cost > lim.maxCost then choose p lim b size cost l
    else
      match spendTx b tx r with
      | none => choose p lim b size cost l
      | some b => (tx, r) :: choose p lim b (size + (tx.produced p r).staticCost) (cost + r.cost) l

/-- A transaction as the fee bands see it. -/
def bandOf (p : Params) (e : Tx × ExecRes) : BandTx := ⟨e.1.feeRatio, (e.1.produced p e.2).staticCost⟩

/-- The loop of `selectLoop`, Node_update.cpp:902-919, on the transactions themselves. -/
def bandLoop (p : Params) (ratios : List Nat) : List (Tx × ExecRes) → (Nat → Nat) → Nat → List (Tx × ExecRes)
  | [], _, _ => []
  | e :: rest, avail, i =>
    let i := lowerBand ratios avail (bandOf p e).feeRatio i
    if (bandOf p e).size > avail i then
      if i ≠ 0 then
        e :: bandLoop p ratios rest (fun j => if j = i - 1 then sub64 (avail (i - 1)) ((bandOf p e).size - avail i) else if j = i then 0 else avail j) i
      else bandLoop p ratios rest avail i
    else e :: bandLoop p ratios rest (fun j => if j = i then avail i - (bandOf p e).size else avail j) i

def bandPick (p : Params) (lim : Limits) (l : List (Tx × ExecRes)) : List (Tx × ExecRes) :=
  if lim.ratios.length = 0 then l else bandLoop p lim.ratios l (bandInit lim.maxSize lim.ratios.length) (lim.ratios.length - 1)

/-- The transactions that are validated, Node_update.cpp:796-838, and their context. `late` tells which
    tasks found the deadline passed. -/
def runnable (depends : Addr → Option (List Addr)) (w : World) (lim : Limits) (late : Tx → Bool) (pool : List Entry) : Res (Ctx × List Tx) :=
  match prepAll depends Ctx.empty ((selectCost lim.maxCost 0 pool).map fun e => e.tx.fresh w.params) with
  | .ok (x, txs) => .ok (x, txs.filter fun t => !late t)
  | .throw => .throw
  | .ub => .ub

/-- `Node::validate_for_block`, Node_update.cpp:757-921. `pool` is the pool in the order of line 769-772.
    All are validated on the same storage, in parallel, which is as if one after the other
    (`C87_parallel`). Resetting comes before preparing here, after it in the code: preparing does not look at
    the result. -/
def assemble (depends : Addr → Option (List Addr)) (w : World) (g : Sto) (lim : Limits) (late : Tx → Bool) (pool : List Entry) : Res (List Tx) :=
  match runnable depends w lim late pool with
  | .ok (x, ran) =>
    let ok := accepted ran (seqRun (w.withCtx x) g ran).2
    .ok ((bandPick w.params lim (choose w.params lim w.bal 0 0 ok)).map fun e => e.1.produced w.params e.2)
  | .throw => .throw
  | .ub => .ub

/-! ### The deadline -/

/-- A task of the pool of threads during assembly: queued; taken by a thread; waiting in
    `context->wait`; ended with `context->signal`; skipped. -/
inductive Task where
  | queued
  | taken
  | waiting
  | ended
  | skipped
  deriving DecidableEq, Repr

def Task.busy : Task → Bool
  | .taken => true
  | .waiting => true
  | _ => false

def Task.over : Task → Bool
  | .ended => true
  | .skipped => true
  | _ => false

/-- Steps of `k` threads, Node_update.cpp:800-836. `wait i` are the tasks that task `i` waits for. A task
    reads the clock once, when it starts: before the deadline it goes on to wait, after it is skipped,
    and returns without `context->signal`. Once one found the deadline passed, so do all that look
    later. Waiting and validating is one step; validation itself ends (C56). -/
inductive Task.Step (wait : Nat → List Nat) (k : Nat) : List Task → List Task → Prop
  | take {s : List Task} {i : Nat} : s[i]? = some .queued → (∀ j, j < i → s[j]? ≠ some .queued) → s.countP Task.busy < k → Step wait k s (s.set i .taken)
  | early {s : List Task} {i : Nat} : s[i]? = some .taken → .skipped ∉ s → Step wait k s (s.set i .waiting)
  | late {s : List Task} {i : Nat} : s[i]? = some .taken → Step wait k s (s.set i .skipped)
  | finish {s : List Task} {i : Nat} : s[i]? = some .waiting → (∀ p ∈ wait i, s[p]? = some .ended) → Step wait k s (s.set i .ended)

inductive Task.Steps (wait : Nat → List Nat) (k : Nat) : List Task → List Task → Prop
  | refl (s : List Task) : Steps wait k s s
  | step {s t u : List Task} : Steps wait k s t → Task.Step wait k t u → Steps wait k s u

end Verif.Ledger
