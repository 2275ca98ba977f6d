import Verif.Chain.Params
import Verif.VM.Storage
/-
  Validation of transactions and blocks and the balances that follow: src/Node_validate.cpp,
  src/Block.cpp, src/Node.cpp:1029-1120, include/mmx/utils.h, include/mmx/balance_cache_t.h.

  A contract is any program that talks to storage and to other contracts (`Prog`); the engine that
  runs it is the subject of the VM chapter. Storage caches appear as what C22 shows them to be:
  values written so far in front of the storage of the block.
-/
namespace Verif.Ledger
open Verif Verif.Chain
open Verif.VM (mfind mput)

/-- `addr_t` as a number; 0 is `addr_t()`, also the native currency. -/
abbrev Addr := Nat

/-! ### Transactions -/

/-- `txin_t`. `sol` tells whether the solution exists, `auth` whether `PubKey` or `MultiSig::validate`
    accepts it (see the chapter on signatures). -/
structure TxIn where
  addr : Addr
  cur : Addr
  amount : Nat
  memo : Option (List Nat) := none
  isExec : Bool := false
  sol : Bool := false
  auth : Bool := false
  deriving DecidableEq, Repr

/-- `txout_t`. -/
structure TxOut where
  addr : Addr
  cur : Addr
  amount : Nat
  memo : Option (List Nat) := none
  deriving DecidableEq, Repr

/-- What a running contract does, as a strategy: it reads its own storage and balances, uses gas,
    checks it, reads contracts for gas (`get_contract_ex`), calls other contracts, and in the end fails or leaves writes, payments and mints.
    Every engine run unfolds to such a tree: it is deterministic and gas bounds its length (C17).
    Mints are of the contract's own token (C20). Locations and contents of variables are numbers;
    so is an error, which stands for its code and position. -/
inductive Prog where
  | rdVar (l : Nat) (k : Option Nat → Prog)
  | rdBal (q : Addr) (k : Option Nat → Prog)
  | gas (n : Nat) (k : Prog)
  | check (k : Prog)
  | read (n : Nat) (k : Prog)
  | call (c : Addr) (child : Prog) (k : Nat → Prog)
  | done (w : List (Nat × Nat)) (outs : List TxOut) (mints : List (Addr × Nat)) (ret : Nat)
  | fail (code : Nat)

/-- `operation::Execute`; `deposit` is set for `operation::Deposit`. `user` is the declared user and
    whether the solution is accepted for that user. -/
structure Op where
  addr : Addr
  valid : Bool
  user : Option (Addr × Bool)
  deposit : Option (Addr × Nat)
  prog : Prog

/-- `tx->deploy`. `allDepends` is `get_all_depends(exec)`, Node.cpp:1728-1746, `none` when it throws. `init` is the constructor call when it is a `contract::Executable`. -/
structure Deploy where
  valid : Bool
  depends : List Addr
  allDepends : Option (List Addr)
  init : Option Prog

/-- `exec_error_t`, the fields that consensus compares. -/
structure Err where
  code : Nat
  addr : Int
  op : Int
  deriving DecidableEq, Repr

/-- `exec_result_t`. -/
structure ExecRes where
  didFail : Bool
  cost : Nat
  fee : Nat
  inputs : List TxIn
  outputs : List TxOut
  error : Option Err
  deriving DecidableEq, Repr

/-- `Transaction`. `wf` stands for the checks of `is_valid` not stated below (Transaction.cpp:58-119),
    `sig` for the check of the sender's signature. `base` is the cost of all but the result.
    `nullOp` tells whether `execute` contains a null pointer. -/
structure Tx where
  id : Addr
  wf : Bool
  base : Nat
  staticCost : Nat
  maxFee : Nat
  feeRatio : Nat
  sender : Option Addr
  sig : Bool
  expires : Nat
  inputs : List TxIn
  outputs : List TxOut
  deploy : Option Deploy
  ops : List Op
  nullOp : Bool := false
  result : Option ExecRes

structure Params where
  maxTxCost : Nat
  minIo : Nat
  minMemo : Nat
  minExec : Nat
  minRead : Nat
  hardfork2 : Nat
  deriving DecidableEq, Repr

/-- What does not change while a block is validated. `kind` is `contract_map`: `some true` for an
    executable. `umap` is the order in which an `unordered_map` is walked. `locked` tells whether a
    transaction is in `mutate_map` of a contract. -/
structure World where
  params : Params
  height : Nat
  bal : Addr → Addr → Option Nat
  known : Addr → Bool
  readCost : Addr → Nat
  kind : Addr → Option Bool
  umap : List (Addr × Nat) → List (Addr × Nat)
  locked : Addr → Addr → Bool

/-! ### Reading the storage of the block -/

/-- The storage of the block as transactions see it. -/
structure Sto where
  var : Addr → Nat → Option Nat
  bal : Addr → Addr → Option Nat

/-- A computation that reads the storage of the block. -/
inductive Proc (α : Type) where
  | ret (a : α)
  | rdVar (c : Addr) (l : Nat) (k : Option Nat → Proc α)
  | rdBal (c q : Addr) (k : Option Nat → Proc α)

def Proc.bind {α β : Type} : Proc α → (α → Proc β) → Proc β
  | .ret a, f => f a
  | .rdVar c l k, f => .rdVar c l fun o => (k o).bind f
  | .rdBal c q k, f => .rdBal c q fun o => (k o).bind f

/-- With nobody else writing. -/
def Proc.run {α : Type} (g : Sto) : Proc α → α
  | .ret a => a
  | .rdVar c l k => (k (g.var c l)).run g
  | .rdBal c q k => (k (g.bal c q)).run g

/-! ### Working state of a validation -/

/-- Order of the keys of `std::map<std::pair<addr_t, addr_t>, _>`. -/
def ltPair (a b : Addr × Addr) : Bool := a.1 < b.1 ∨ (a.1 = b.1 ∧ a.2 < b.2)
def ltA (a b : Addr) : Bool := a < b

/-- The local variables of `Node::validate(tx, context)`, Node_validate.cpp:630-640. `vars` and `cbal`
    are the content of `storage_cache`, `bals` of `balance_cache`. -/
structure St where
  cost : Nat
  bals : Addr → Addr → Option Nat
  amounts : List (Addr × Nat)
  dep : List ((Addr × Addr) × Nat)
  spend : List ((Addr × Addr) × Nat)
  outs : List TxOut
  vars : List ((Addr × Nat) × Nat)
  cbal : List ((Addr × Addr) × Nat)

/-- How a step ends: normally, by an exception that makes the transaction fail, or by
    `static_failure`, which rejects it. -/
inductive Out (α : Type) where
  | ok (a : α)
  | fail (e : Err)
  | static
  deriving DecidableEq, Repr

/-- A step of validation. The state is kept in every case. -/
def M (α : Type) : Type := St → Proc (Out α × St)

def M.pure {α : Type} (a : α) : M α := fun s => .ret (.ok a, s)

def M.bind {α β : Type} (m : M α) (f : α → M β) : M β := fun s =>
  (m s).bind fun r =>
    match r with
    | (.ok a, t) => f a t
    | (.fail e, t) => .ret (.fail e, t)
    | (.static, t) => .ret (.static, t)

instance : Monad M where
  pure := M.pure
  bind := M.bind

def throwE {α : Type} (e : Err) : M α := fun s => .ret (.fail e, s)
def throwS {α : Type} : M α := fun s => .ret (.static, s)
def getS : M St := fun s => .ret (.ok s, s)
def modS (f : St → St) : M Unit := fun s => .ret (.ok (), f s)
def needE (c : Prop) [Decidable c] (e : Err) : M Unit := if c then M.pure () else throwE e
def needS (c : Prop) [Decidable c] : M Unit := if c then M.pure () else throwS

/-- A conversion that throws `static_failure`. Division by a zero ratio is ruled out by `is_valid`. -/
def liftS (r : Res Nat) : M Nat :=
  match r with
  | .ok n => M.pure n
  | _ => throwS

def forM' {α : Type} : List α → (α → M Unit) → M Unit
  | [], _ => M.pure ()
  | a :: l, f => M.bind (f a) fun _ => forM' l f

/-- `map[k] += n` of a map of `uint128`. -/
def madd {K : Type} [DecidableEq K] (lt : K → K → Bool) (m : List (K × Nat)) (k : K) (n : Nat) : List (K × Nat) :=
  mput lt m k (u128 ((mfind m k).getD 0 + n))

/-- `storage_cache->get_balance`. What it keeps for later is not observable (C22). -/
def getBal (c q : Addr) : M (Option Nat) := fun s =>
  match mfind s.cbal (c, q) with
  | some n => .ret (.ok (some n), s)
  | none => .rdBal c q fun o => .ret (.ok o, s)

/-- `storage_cache->set_balance`. -/
def setBal (c q : Addr) (n : Nat) : M Unit := modS fun s => { s with cbal := mput ltPair s.cbal (c, q) n }

/-- `storage_cache->read`. -/
def getVar (c : Addr) (l : Nat) : M (Option Nat) := fun s =>
  match mfind s.vars (c, l) with
  | some n => .ret (.ok (some n), s)
  | none => .rdVar c l fun o => .ret (.ok o, s)

/-- `storage_cache->write`, by the commit of an engine. -/
def setVars (c : Addr) : List (Nat × Nat) → M Unit
  | [] => M.pure ()
  | (l, v) :: w => M.bind (modS fun s => { s with vars := mput ltPair s.vars (c, l) v }) fun _ => setVars c w

/-! ### Execution -/

/-- Errors carry the position; where no code is set it is 0. -/
def errAt (code : Nat) (addr op : Int) : Err := ⟨code, addr, op⟩

/-- The loop over `engine->outputs`, Node_validate.cpp:592-603. -/
def payOuts (c : Addr) (e : Err) : List TxOut → M Unit
  | [] => M.pure ()
  | o :: l =>
    M.bind (getBal c o.cur) fun b =>
      match b with
      | none => throwE e
      | some n =>
        if o.amount > n then throwE e
        else M.bind (setBal c o.cur (n - o.amount)) fun _ =>
          M.bind (modS fun s => { s with outs := s.outs ++ [o], spend := madd ltPair s.spend (c, o.cur) o.amount }) fun _ => payOuts c e l

/-- `engine->mint_outputs`: of the contract's own token. -/
def mintOut (c : Addr) (m : Addr × Nat) : TxOut := { addr := m.1, cur := c, amount := m.2 }

/-- How an engine ended, and its `gas_used`. An engine never throws `static_failure`. -/
inductive ERes where
  | ok (ret : Nat)
  | fail (code : Nat)
  deriving DecidableEq, Repr

def EM (α : Type) : Type := St → Proc (α × St)

/-- Whether `c` is an executable for `remote_call`, Node_validate.cpp:509-527: the contract deployed by
    the transaction, which is running, or one in `contract_map`. -/
def World.isExec (w : World) (id c : Addr) : Prop := c = id ∨ w.kind c = some true
instance (w : World) (id c : Addr) : Decidable (w.isExec id c) := by unfold World.isExec; infer_instance

/-- `Node::execute(tx, context, executable, ...)` after the check of the lock, and `remote_call`:
    Node_validate.cpp:459-605. `gas` is `engine->gas_used`, `lim` its `gas_limit`. The gas of a called
    contract is added after it returned (538); when it throws, it is not. The gas counter does not
    overflow because it is checked against the limit (C17), so it is a plain number here. -/
def execProg (w : World) (id c : Addr) : Prog → Nat → Nat → St → Proc ((ERes × Nat) × St)
  | .rdVar l k, gas, lim, s =>
    (getVar c l s).bind fun r =>
      match r with
      | (.ok o, t) => execProg w id c (k o) gas lim t
      | (_, t) => .ret ((.fail 0, gas), t)
  | .rdBal q k, gas, lim, s =>
    (getBal c q s).bind fun r =>
      match r with
      | (.ok o, t) => execProg w id c (k o) gas lim t
      | (_, t) => .ret ((.fail 0, gas), t)
  | .gas n k, gas, lim, s => execProg w id c k (gas + n) lim s
  | .check k, gas, lim, s => if gas > lim then .ret ((.fail 0, gas), s) else execProg w id c k gas lim s
  | .read n k, gas, lim, s => if gas + n > lim then .ret ((.fail 0, gas), s) else execProg w id c k (gas + n) lim s
  | .call c' child k, gas, lim, s =>
    if ¬ w.isExec id c' then .ret ((.fail 0, gas), s)
    else if gas + w.params.minExec > lim then .ret ((.fail 0, gas + w.params.minExec), s)
    else if ¬ w.locked id c' then .ret ((.fail 0, gas + w.params.minExec), s)
    else
      (execProg w id c' child 0 (lim - min (gas + w.params.minExec) lim) s).bind fun r =>
        match r with
        | ((.ok v, g), t) =>
          if gas + w.params.minExec + g > lim then .ret ((.fail 0, gas + w.params.minExec + g), t)
          else execProg w id c (k v) (gas + w.params.minExec + g) lim t
        | ((.fail e, _), t) => .ret ((.fail e, gas + w.params.minExec), t)
  | .done ws outs mints v, gas, _, s =>
    (M.bind (setVars c ws) (fun _ => M.bind (payOuts c ⟨0, 0, 0⟩ outs) fun _ =>
      modS fun s => { s with outs := s.outs ++ mints.map (mintOut c) }) s).bind fun r =>
      match r with
      | (.ok _, t) => .ret ((.ok v, gas), t)
      | (_, t) => .ret ((.fail 0, gas), t)
  | .fail e, gas, _, s => .ret ((.fail e, gas), s)

/-- The part of `Node::execute(tx, context, op, ...)` that runs the engine, Node_validate.cpp:435-442:
    the cost is added whether it failed or not. -/
def runEngine (w : World) (id c : Addr) (p : Prog) (gas lim : Nat) (e : Err) : M Unit := fun s =>
  (if w.locked id c then execProg w id c p gas lim s else .ret ((.fail 0, gas), s)).bind fun r =>
    match r with
    | ((.ok _, g), t) => .ret (.ok (), { t with cost := u64 (t.cost + min g lim) })
    | ((.fail code, g), t) => .ret (.fail { e with code := code }, { t with cost := u64 (t.cost + min g lim) })

/-- The deposit is added to the balance, Node_validate.cpp:418-425. -/
def creditDeposit (c : Addr) (d : Option (Addr × Nat)) : M Unit :=
  match d with
  | none => M.pure ()
  | some (q, n) => M.bind (getBal c q) fun b => setBal c q (u128 (n + b.getD 0))

/-- `Node::execute(tx, context, op, ...)`, Node_validate.cpp:388-457. `isExec` tells whether the
    contract is an executable. -/
def executeOp (w : World) (tx : Tx) (c : Addr) (isExec : Bool) (user : Option (Addr × Bool)) (deposit : Option (Addr × Nat))
    (p : Prog) (e : Err) : M Unit := do
  needE (isExec = true) e
  let avail ← liftS (feeToCost tx.maxFee tx.feeRatio)
  let s ← getS
  let lim := min (avail - min s.cost avail) w.params.maxTxCost
  let gas ← (match user with
    | none => M.pure 0
    | some (a, ok) =>
      M.bind (needE (¬ w.params.minRead + w.readCost a > lim) e) fun _ =>
        M.bind (needE (w.kind a ≠ some true) e) fun _ =>
          M.bind (needS (ok = true)) fun _ => M.pure (w.params.minRead + w.readCost a))
  creditDeposit c deposit
  runEngine w tx.id c p gas lim e

/-! ### A transaction -/

/-- `get_contract_ex(address, &tx_cost, gas_limit)`, Node_api.cpp:591-602. -/
def readContract (w : World) (a : Addr) (lim : Nat) (e : Err) : M (Option Bool) := do
  let s ← getS
  needE (¬ u64 (s.cost + (w.params.minRead + w.readCost a)) > lim) e
  modS fun s => { s with cost := u64 (s.cost + (w.params.minRead + w.readCost a)) }
  M.pure (w.kind a)

/-- The loop over the inputs, Node_validate.cpp:675-703. `Contract::validate` of an executable throws
    (Contract.cpp:39-42); an invalid solution is a `static_failure` (exception.h:23-31). -/
def takeInputs (w : World) (lim : Nat) (i : Nat) : List TxIn → M Unit
  | [] => M.pure ()
  | x :: l => do
    let s ← getS
    (match s.bals x.addr x.cur with
      | none => throwE ⟨1, i, -1⟩
      | some b => needE (¬ x.amount > b) ⟨1, i, -1⟩)
    needS (x.sol = true)
    (if x.isExec then
      M.bind (readContract w x.addr lim ⟨0, i, -1⟩) fun k =>
        match k with
        | none => throwE ⟨0, i, -1⟩
        | some b => needE (b = false) ⟨0, i, -1⟩
     else M.pure ())
    needS (x.auth = true)
    modS fun s => { s with
      bals := fun a q => if a = x.addr ∧ q = x.cur then (s.bals a q).map (· - x.amount) else s.bals a q
      amounts := madd ltA s.amounts x.cur x.amount }
    takeInputs w lim (i + 1) l

/-- The loop over the outputs, Node_validate.cpp:706-717. -/
def giveOutputs (i : Nat) : List TxOut → M Unit
  | [] => M.pure ()
  | x :: l => do
    needE (x.amount ≠ 0) ⟨0, i, -1⟩
    let s ← getS
    needE (¬ x.amount > (mfind s.amounts x.cur).getD 0) ⟨0, i, -1⟩
    modS fun s => { s with amounts := mput ltA s.amounts x.cur ((mfind s.amounts x.cur).getD 0 - x.amount) }
    giveOutputs (i + 1) l

/-- Deploying, Node_validate.cpp:720-742. -/
def runDeploy (w : World) (tx : Tx) : M Unit :=
  match tx.deploy with
  | none => M.pure ()
  | some d => do
    needE (d.valid = true) ⟨2, -1, -1⟩
    (match d.init with
      | none => M.pure ()
      | some p =>
        M.bind (needE (d.depends.all w.known = true) ⟨2, -1, -1⟩) fun _ =>
          executeOp w tx tx.id true none none p ⟨0, -1, -1⟩)

/-- A deposit is taken from the inputs, Node_validate.cpp:754-763. -/
def takeDeposit (c : Addr) (d : Option (Addr × Nat)) (e : Err) : M Unit :=
  match d with
  | none => M.pure ()
  | some (q, n) =>
    M.bind getS fun s =>
    M.bind (needE (¬ n > (mfind s.amounts q).getD 0) e) fun _ =>
    modS fun s => { s with amounts := mput ltA s.amounts q ((mfind s.amounts q).getD 0 - n), dep := madd ltPair s.dep (c, q) n }

/-- The loop over the operations, Node_validate.cpp:745-775. -/
def runOps (w : World) (tx : Tx) (lim : Nat) (i : Nat) : List Op → M Unit
  | [] => M.pure ()
  | o :: l => do
    needE (o.valid = true) ⟨3, -1, i⟩
    let c := if o.addr = 0 then tx.id else o.addr
    let k ← (if c = tx.id then M.pure (tx.deploy.map fun d => d.init.isSome) else readContract w c lim ⟨0, -1, i⟩)
    (match k with
      | none => throwE ⟨0, -1, i⟩
      | some isExec =>
        M.bind (takeDeposit c o.deposit ⟨0, -1, i⟩) fun _ => executeOp w tx c isExec o.user o.deposit o.prog ⟨0, -1, i⟩)
    runOps w tx lim (i + 1) l

/-- Inputs of the execution and what is left of the deposits, Node_validate.cpp:779-795. -/
def netSpend : List ((Addr × Addr) × Nat) → List ((Addr × Addr) × Nat) → List TxIn × List ((Addr × Addr) × Nat)
  | [], dep => ([], dep)
  | (k, n) :: l, dep =>
    let d := (mfind dep k).getD 0
    let r := netSpend l (mput ltPair dep k (d - min d n))
    if n - min d n ≠ 0 then ({ addr := k.1, cur := k.2, amount := n - min d n } :: r.1, r.2) else r

/-- Outputs for what is left of the deposits, Node_validate.cpp:798-806. -/
def depositOuts (dep : List ((Addr × Addr) × Nat)) : List TxOut :=
  (dep.filter fun p => p.2 ≠ 0).map fun p => { addr := p.1.1, cur := p.1.2, amount := p.2 }

/-- `handle_implicit_deposit`, utils.h:358-382: `none` when it throws. -/
def implicitDeposit (w : World) (am : List (Addr × Nat)) (id : Addr) (haveDeploy : Bool) : Option (List TxOut) :=
  let am := if w.height ≥ w.params.hardfork2 then am else w.umap am
  if am.all (fun p => p.2 = 0) then some []
  else if haveDeploy then some ((am.filter fun p => p.2 ≠ 0).map fun p => { addr := id, cur := p.1, amount := p.2 })
  else none

/-- `txio_t::calc_cost`, txio_t.hpp:13-17. -/
def memoCost (p : Params) (m : Option (List Nat)) : Nat :=
  p.minIo + (match m with | none => 0 | some b => max ((b.length + 31) / 32) 1 * p.minMemo)

def ioCost (p : Params) (ins : List TxIn) (outs : List TxOut) : Nat :=
  (ins.map fun x => memoCost p x.memo).sum + (outs.map fun x => memoCost p x.memo).sum

/-- `Transaction::calc_cost`, Transaction.cpp:217-252, with the part of the result
    (`exec_result_t::calc_cost`, exec_result_t.cpp:48-58). -/
def Tx.calcCost (p : Params) (tx : Tx) : Nat :=
  tx.base + (match tx.result with | none => 0 | some r => ioCost p r.inputs r.outputs)

/-- Inputs, outputs, deployment and operations, Node_validate.cpp:668-774. -/
def core (w : World) (tx : Tx) (lim : Nat) : M Unit := do
  needE (¬ tx.expires < w.height) ⟨4, -1, -1⟩
  takeInputs w lim 0 tx.inputs
  giveOutputs 0 tx.outputs
  runDeploy w tx
  runOps w tx lim 0 tx.ops

/-- The inputs and outputs of the execution and their cost, Node_validate.cpp:776-824. The sum of the
    costs is not reduced to 64 bits: it would take more outputs than there is memory. -/
def finish (w : World) (tx : Tx) : M (List TxIn × List TxOut) := do
  let s ← getS
  let r := netSpend s.spend s.dep
  (match implicitDeposit w s.amounts tx.id tx.deploy.isSome with
    | none => throwE ⟨0, -1, -1⟩
    | some l => do
      let outs := s.outs ++ depositOuts r.2 ++ l
      modS fun s => { s with cost := s.cost + (if tx.result.isNone then ioCost w.params r.1 outs else 0) }
      let s ← getS
      needS (¬ s.cost > w.params.maxTxCost)
      needS (s.cost / 2 ^ 32 = 0)
      M.pure (r.1, outs))

/-- The first `try` of `Node::validate(tx, context)`, Node_validate.cpp:667-829. -/
def body (w : World) (tx : Tx) (lim : Nat) : M (List TxIn × List TxOut) :=
  M.bind (core w tx lim) fun _ => finish w tx

/-- The checks before it, Node_validate.cpp:611-665. Gives the limit for reading contracts and the
    static fee. -/
def prelude (w : World) (tx : Tx) : M (Nat × Nat) := do
  needS (tx.wf = true)
  needS (tx.feeRatio ≥ 1024)
  needS (tx.staticCost = tx.calcCost w.params)
  needS (¬ tx.staticCost > w.params.maxTxCost)
  needS (tx.maxFee / 2 ^ 32 = 0)
  needS (¬ w.known tx.id = true)
  let avail ← liftS (feeToCost tx.maxFee tx.feeRatio)
  let staticFee ← liftS (costToFee tx.staticCost tx.feeRatio)
  needS (¬ staticFee > tx.maxFee)
  (match tx.sender with
    | none => throwS
    | some a =>
      M.bind (needS (tx.sig = true)) fun _ =>
      match w.bal a 0 with
      | none => throwS
      | some b =>
        M.bind (needS (¬ staticFee > b)) fun _ =>
        modS fun s => { s with bals := fun x q => if x = a ∧ q = 0 then some (b - staticFee) else s.bals x q })
  M.pure (min avail w.params.maxTxCost, staticFee)

def St.init (w : World) (tx : Tx) : St :=
  { cost := tx.staticCost, bals := w.bal, amounts := [], dep := [], spend := [], outs := [], vars := [], cbal := [] }

/-- The second `try`, Node_validate.cpp:832-856. Gives the fee; `static` when the fee is not covered.
    `ex` is the failure so far. -/
def charge (tx : Tx) (staticFee : Nat) (s : St) (ex : Option Err) : Option (Nat × Option Err) :=
  match costToFee s.cost tx.feeRatio with
  | .ok total =>
    let fee := min total tx.maxFee
    match tx.sender with
    | none => none
    | some a =>
      match s.bals a 0 with
      | none => none
      | some b =>
        if sub64 fee staticFee > b then none
        else if total > tx.maxFee ∧ ex = none then some (fee, some ⟨5, -1, -1⟩)
        else some (fee, ex)
  | _ => none

/-- Inputs and outputs of the execution as compared, Node_validate.cpp:893-906. -/
def sameIn (a b : TxIn) : Bool := a.cur = b.cur ∧ a.addr = b.addr ∧ a.amount = b.amount ∧ a.memo = b.memo ∧ a.isExec = b.isExec
def sameOut (a b : TxOut) : Bool := a.cur = b.cur ∧ a.addr = b.addr ∧ a.amount = b.amount ∧ a.memo = b.memo

def allSame {α : Type} (f : α → α → Bool) : List α → List α → Bool
  | [], [] => true
  | a :: l, b :: m => f a b && allSame f l m
  | _, _ => false

/-- The comparison with the result the transaction came with, Node_validate.cpp:859-922. -/
def agrees (r : ExecRes) (ex : Option Err) (cost fee : Nat) (ins : List TxIn) (outs : List TxOut) : Bool :=
  r.didFail == ex.isSome && (r.cost == cost && (r.fee == fee &&
    ((if r.didFail then r.inputs.isEmpty && r.outputs.isEmpty else allSame sameIn ins r.inputs && allSame sameOut outs r.outputs) &&
    (match r.error with | some e => e == ex.getD ⟨0, -1, -1⟩ | none => !r.didFail))))

/-- What is left in `storage_cache` when it is committed. -/
structure Writes where
  vars : List ((Addr × Nat) × Nat)
  bals : List ((Addr × Addr) × Nat)
  deriving DecidableEq, Repr

/-- How `Node::validate(tx, context)` ends: rejected, or accepted with the result it computed and what
    it commits to the storage of the block. -/
inductive Verdict where
  | reject
  | accept (r : ExecRes) (commit : Option Writes)
  deriving DecidableEq, Repr

/-- `Node::validate(tx, context)`, Node_validate.cpp:607-946. The result is the one returned, or the
    one the transaction came with. The cost and the fee of a result are 32 bit. -/
def validate (w : World) (tx : Tx) : Proc Verdict :=
  (prelude w tx (St.init w tx)).bind fun r =>
    match r with
    | (.ok (lim, staticFee), s) =>
      (body w tx lim s).bind fun r =>
        let go (ex : Option Err) (t : St) (ins : List TxIn) (outs : List TxOut) : Proc Verdict :=
          match charge tx staticFee t ex with
          | none => .ret .reject
          | some (fee, ex) =>
            let wr : Option Writes := if ex = none then some ⟨t.vars, t.cbal⟩ else none
            match tx.result with
            | some r => if agrees r ex t.cost fee ins outs then .ret (.accept r wr) else .ret .reject
            | none =>
              match ex with
              | some e => .ret (.accept ⟨true, u32 t.cost, u32 fee, [], [], some e⟩ none)
              | none => .ret (.accept ⟨false, u32 t.cost, u32 fee, ins, outs, none⟩ wr)
        match r with
        | (.ok (ins, outs), t) => go none t ins outs
        | (.fail e, t) => go (some e) t [] []
        | (.static, _) => .ret .reject
    | (_, _) => .ret .reject

end Verif.Ledger
