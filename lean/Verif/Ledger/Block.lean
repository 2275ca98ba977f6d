import Verif.Ledger.Model
/-
  Validation of the transactions of a block, in parallel, and the ledger afterwards:
  src/Node_validate.cpp:28-104, 251-344, src/Block.cpp:80-131, src/Node.cpp:1055-1120.
-/
namespace Verif.Ledger
open Verif Verif.Chain
open Verif.VM (mfind mput)

/-! ### Locks -/

/-- `mutate_set` of `prepare_context`, Node_validate.cpp:78-96, as a list. `depends` is
    `get_all_depends(address, 1)` and `none` when it throws; `deps` of a deployed executable is
    `get_all_depends(exec)`. Dereferencing a null operation is undefined. -/
def mutateSet (depends : Addr → Option (List Addr)) (tx : Tx) : Res (List Addr) :=
  if tx.nullOp then .ub
  else
    let set := (if tx.deploy.isSome then [tx.id] else []) ++ tx.ops.map fun o => if o.addr = 0 then tx.id else o.addr
    let more := set.map fun a => if a = tx.id then (match tx.deploy with | some d => d.allDepends | none => some []) else depends a
    if more.all (·.isSome) then .ok (set ++ more.flatMap fun o => o.getD []) else .throw

/-- `execution_context_t`: `mutate_map` and `wait_map`, Node_validate.cpp:28-66. Every transaction with a lock has an entry in
    `signal_map`, so that a wait is a wait for the end of that transaction. -/
structure Ctx where
  mutate : Addr → List Addr
  wait : Addr → List Addr

def Ctx.empty : Ctx := ⟨fun _ => [], fun _ => []⟩

/-- `setup_wait` and the entry in `mutate_map`, Node_validate.cpp:60-66 and 97-100. -/
def Ctx.lock (x : Ctx) (id c : Addr) : Ctx :=
  { mutate := fun a => if a = c then x.mutate c ++ [id] else x.mutate a
    wait := fun j => if j = id then (match (x.mutate c).getLast? with | some p => p :: x.wait id | none => x.wait id) else x.wait j }

/-- The elements of a `std::set`. Their order does not matter here. -/
def uniq : List Addr → List Addr
  | [] => []
  | a :: l => if a ∈ uniq l then uniq l else a :: uniq l

def Ctx.lockAll (x : Ctx) (id : Addr) : List Addr → Ctx
  | [] => x
  | c :: l => (x.lock id c).lockAll id l

/-- `prepare_context` for one transaction, Node_validate.cpp:76-104. -/
def Ctx.prepare (x : Ctx) (depends : Addr → Option (List Addr)) (tx : Tx) : Res Ctx := do
  let set ← mutateSet depends tx
  return x.lockAll tx.id (uniq set)

/-! ### Funds -/

abbrev Bals := Addr → Addr → Option Nat

/-- Taking an amount from `balance_cache`, Node_validate.cpp:280-285 and 290-294: `none` when the block
    is rejected. -/
def take (b : Bals) (a q n : Addr) : Option Bals :=
  match b a q with
  | none => none
  | some m => if n > m then none else some fun x y => if x = a ∧ y = q then some (m - n) else b x y

def takeAll (b : Bals) : List TxIn → Option Bals
  | [] => some b
  | x :: l => (take b x.addr x.cur x.amount).bind fun b => takeAll b l

/-- The loop over the transactions of a block, Node_validate.cpp:260-299, without the order of fee
    ratios. A null transaction is not modelled: `Block::is_valid`, Block.cpp:18-41, refused it before. `seen` is `tx_set`. -/
def checkFunds (depends : Addr → Option (List Addr)) : Bals → Ctx → List Addr → List Tx → Res Ctx
  | _, x, _, [] => .ok x
  | b, x, seen, tx :: l =>
    match tx.sender, tx.result with
    | some a, some r =>
      if tx.id ∈ seen then .throw
      else
        match take b a 0 r.fee with
        | none => .throw
        | some b =>
          match (if r.didFail then some b else takeAll b tx.inputs) with
          | none => .throw
          | some b =>
            match x.prepare depends tx with
            | .ok x => checkFunds depends b x (tx.id :: seen) l
            | .throw => .throw
            | .ub => .ub
    | _, _ => .throw

/-! ### In order -/

def Sto.setVar (g : Sto) (c : Addr) (l v : Nat) : Sto := { g with var := fun a k => if a = c ∧ k = l then some v else g.var a k }
def Sto.setBal (g : Sto) (c q : Addr) (n : Nat) : Sto := { g with bal := fun a k => if a = c ∧ k = q then some n else g.bal a k }

/-- One write of `StorageCache::commit`. -/
inductive Wr where
  | var (c l v : Nat)
  | bal (c q n : Nat)
  deriving DecidableEq, Repr

def Sto.put (g : Sto) : Wr → Sto
  | .var c l v => g.setVar c l v
  | .bal c q n => g.setBal c q n

def Sto.puts (g : Sto) : List Wr → Sto
  | [] => g
  | w :: l => (g.put w).puts l

/-- What a verdict writes to the storage of the block. -/
def Verdict.writes : Verdict → List Wr
  | .accept _ (some w) => (w.vars.map fun p => .var p.1.1 p.1.2 p.2) ++ w.bals.map fun p => .bal p.1.1 p.1.2 p.2
  | _ => []

/-- One transaction after the other: the storage of the block and the verdicts. -/
def seqRun (w : World) (g : Sto) : List Tx → Sto × List Verdict
  | [] => (g, [])
  | tx :: l =>
    let v := (validate w tx).run g
    let r := seqRun w (g.puts v.writes) l
    (r.1, v :: r.2)

/-- The chain state as the block finds it, with the locks of the context. -/
def World.withCtx (w : World) (x : Ctx) : World := { w with locked := fun id c => id ∈ x.mutate c }

/-! ### In parallel -/

/-- A task of the thread pool: queued, taken by a thread and waiting for others, validating, writing to
    the storage of the block, ended. -/
inductive Status where
  | queued
  | waiting
  | run (p : Proc Verdict)
  | commit (ws : List Wr) (v : Verdict)
  | done (v : Verdict)

structure Par where
  status : List Status
  sto : Sto

/-- Tasks that hold a thread. -/
def Status.busy : Status → Bool
  | .queued => false
  | .done _ => false
  | _ => true

def Status.isDone : Status → Bool
  | .done _ => true
  | _ => false

/-- Whether the transaction `id` has ended. -/
def ended (txs : List Tx) (st : List Status) (id : Addr) : Prop :=
  ∃ (i : Nat) (tx : Tx) (v : Verdict), txs[i]? = some tx ∧ tx.id = id ∧ st[i]? = some (Status.done v)

/-- A step of the pool with `k` threads, Node_validate.cpp:329-344. Tasks are taken in the order in
    which they were added (`vnx::ThreadPool`, not part of the checkout, is a queue). `context->wait`
    returns when all of `wait_map[id]` have ended. A read or a write of the storage of the block is one
    step: `StorageRAM` holds its lock during each; `StorageCache` above it has none, and looks at its
    cache first and its backend second, so that only one access at a time to the same contract makes
    it one step (`C28_no_conflict`). A rejected transaction ends too. -/
inductive Par.Step (w : World) (x : Ctx) (txs : List Tx) (k : Nat) : Par → Par → Prop
  | take {s : Par} {i : Nat} : s.status[i]? = some .queued → (∀ j, j < i → s.status[j]? ≠ some .queued) → s.status.countP Status.busy < k →
      Step w x txs k s { s with status := s.status.set i .waiting }
  | start {s : Par} {i : Nat} {tx : Tx} : s.status[i]? = some .waiting → txs[i]? = some tx → (∀ p ∈ x.wait tx.id, ended txs s.status p) →
      Step w x txs k s { s with status := s.status.set i (.run (validate w tx)) }
  | rdVar {s : Par} {i : Nat} {c : Addr} {l : Nat} {f : Option Nat → Proc Verdict} : s.status[i]? = some (.run (.rdVar c l f)) →
      Step w x txs k s { s with status := s.status.set i (.run (f (s.sto.var c l))) }
  | rdBal {s : Par} {i : Nat} {c q : Addr} {f : Option Nat → Proc Verdict} : s.status[i]? = some (.run (.rdBal c q f)) →
      Step w x txs k s { s with status := s.status.set i (.run (f (s.sto.bal c q))) }
  | ret {s : Par} {i : Nat} {v : Verdict} : s.status[i]? = some (.run (.ret v)) →
      Step w x txs k s { s with status := s.status.set i (.commit v.writes v) }
  | put {s : Par} {i : Nat} {a : Wr} {ws : List Wr} {v : Verdict} : s.status[i]? = some (.commit (a :: ws) v) →
      Step w x txs k s { status := s.status.set i (.commit ws v), sto := s.sto.put a }
  | signal {s : Par} {i : Nat} {v : Verdict} : s.status[i]? = some (.commit [] v) →
      Step w x txs k s { s with status := s.status.set i (.done v) }

/-- Any number of steps. -/
inductive Par.Steps (w : World) (x : Ctx) (txs : List Tx) (k : Nat) : Par → Par → Prop
  | refl (s : Par) : Steps w x txs k s s
  | step {s t u : Par} : Steps w x txs k s t → Par.Step w x txs k t u → Steps w x txs k s u

def Par.init (g : Sto) (txs : List Tx) : Par := { status := txs.map fun _ => .queued, sto := g }

/-! ### The ledger -/

/-- `Block::get_inputs`, Block.cpp:80-97. -/
def txDebits (tx : Tx) : List TxIn :=
  match tx.result with
  | none => tx.inputs
  | some r =>
    (match tx.sender with | some a => [{ addr := a, cur := 0, amount := r.fee }] | none => []) ++
    (if r.didFail then [] else tx.inputs ++ r.inputs)

/-- The part of `Block::get_outputs` for transactions, Block.cpp:123-129. -/
def txCredits (tx : Tx) : List TxOut :=
  match tx.result with
  | none => tx.outputs
  | some r => if r.didFail then [] else tx.outputs ++ r.outputs

/-- `balance_cache.get(a, q) += n`. -/
def credit (b : Bals) (o : TxOut) : Bals :=
  fun x y => if x = o.addr ∧ y = o.cur then some (u128 ((b x y).getD 0 + o.amount)) else b x y

/-- `clamped_sub_assign` where an entry exists. -/
def debit (b : Bals) (i : TxIn) : Bals :=
  fun x y => if x = i.addr ∧ y = i.cur then (b x y).map fun n => clampedSub n i.amount else b x y

/-- Balances after `Node::apply`, Node.cpp:1055-1078 and 1101-1103. `rewards` are the outputs of the
    block itself, Block.cpp:103-122. -/
def applyLedger (b : Bals) (rewards : List TxOut) (txs : List Tx) : Bals :=
  (txs.flatMap txDebits).foldl debit ((rewards ++ txs.flatMap txCredits).foldl credit b)

/-- `supply_delta` of a block for one token, Node.cpp:1053, 1063 and 1076. -/
def supplyDelta (rewards : List TxOut) (txs : List Tx) (q : Addr) : Nat :=
  (txs.flatMap txDebits).foldl (fun n i => if i.cur = q then clampedSub n i.amount else n)
    ((rewards ++ txs.flatMap txCredits).foldl (fun n o => if o.cur = q then u128 (n + o.amount) else n) 0)

/-! ### Results -/

/-- The transaction a block producer puts into its block: with the result of its validation and the
    cost updated, Transaction.cpp:41-46 (called at Node_update.cpp:820). -/
def Tx.produced (p : Params) (tx : Tx) (r : ExecRes) : Tx :=
  { tx with result := some r, staticCost := ({ tx with result := some r } : Tx).calcCost p }

/-! ### A chain -/

/-- What a node knows of the chain up to some block: the balance table, the storage of contracts,
    the ids in `tx_index`, and `total_supply_map`. -/
structure Node where
  bal : Bals
  var : Addr → Nat → Option Nat
  ids : List Addr
  supply : Addr → Nat

/-- A block with what its validation reads of the chain. -/
structure Blk where
  depends : Addr → Option (List Addr)
  w : World
  ctx : Ctx
  rewards : List TxOut
  txs : List Tx

/-- `Node::apply` after validation, Node.cpp:1029-1162: the balances, the storage of the block
    (1114-1120; `write_balance` of `StorageDB` is not set, so that balances are not written twice), the
    index of transactions (`write_block`, 1891-1895 and 1907-1916) and the supply (1104-1112). Logs and
    the ranking of farmers are left out. -/
def Node.apply (s : Node) (b : Blk) : Node :=
  { bal := applyLedger s.bal b.rewards b.txs
    var := (seqRun (b.w.withCtx b.ctx) ⟨s.var, s.bal⟩ b.txs).1.var
    ids := b.txs.map (·.id) ++ s.ids
    supply := fun q => u128 (s.supply q + supplyDelta b.rewards b.txs q) }

end Verif.Ledger
