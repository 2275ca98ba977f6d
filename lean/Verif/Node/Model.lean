import Verif.Base
/-
  Fork choice, chain reorganisation, commitment and restart of a node.

  Sources: src/Node.cpp (add_block, add_fork, fork_to, find_best_fork, get_fork_line, commit, apply, revert,
  reset, find_fork, find_prev, write_block, revert_sync), src/Node_update.cpp (verify_votes,
  verify_block_proofs, update), src/Node_validate.cpp (validate, the checks that tie a block to its
  predecessor), src/Node_api.cpp (get_block, get_header, get_block_hash), include/mmx/Node.h (fork_t).

  What is kept abstract is listed in `Rules`: what a block does to the ledger, and which checks it has to pass
  beyond those on its position in the chain.  Those parts are modelled elsewhere (Verif/Ledger, Verif/Chain).
-/
namespace Verif.Node

/-- The fields of a block that fork choice reads (generated/include/mmx/BlockHeader.hxx through
src/BlockHeader.cpp:41-90): `hash` identifies the block, `prev` names its predecessor, `weight` is
`total_weight`, `proofs` is `proof.size()`, `vdf` is `vdf_height`.  Everything else is `body`. -/
structure Block where
  hash : Nat
  prev : Nat
  height : Nat
  weight : Nat
  proofs : Nat := 1
  vdf : Nat := 0
  body : Nat := 0
deriving DecidableEq, Repr

/-- The parts of a node that fork choice calls without looking inside.
`S` is the content of the database tables after a block, `C` an execution context.

* `init`: the empty tables;
* `genesis`: the block made by `init_chain` (src/Node.cpp:288-357);
* `static`: `block->is_valid(params)` and `block->validate()` (src/Node.cpp:369-373);
* `proof`: `verify_proof(block)` once the predecessor is known (src/Node_verify.cpp:74-180).  It reads only
  headers of ancestors, so it is a function of the block;
* `check`: `validate(block)` (src/Node_validate.cpp:139-141 and 145 on) besides the checks on predecessor and height;
* `exec`: what `apply` writes (src/Node.cpp:1036-1147), `none` where it throws;
* `validators`: `get_validators(block)` (src/Node.cpp:1713);
* `delay`: `params->commit_delay`; `weakDelay`: `3 * max_future_sync` (src/Node_update.cpp:323);
* `minWeight`: `commit_threshold`; `avgProofs`: `params->avg_proof_count`. -/
structure Rules (S C : Type) where
  init : S
  genesis : Block
  static : Block → Bool
  proof : Block → Bool
  check : S → Block → Block → Option C
  exec : S → Block → Option C → Option S
  validators : Block → List Nat
  delay : Nat
  weakDelay : Nat
  minWeight : Nat
  avgProofs : Nat

/-- include/mmx/Node.h:258-275.  Not kept: `recv_time_ms`, `fork_length` and `vdf_points`, which only reach
log lines and published messages.  The weak pointer `prev` is looked up by hash (see `prevFork`). -/
structure Fork (C : Type) where
  block : Block
  invalid : Bool := false
  validated : Bool := false
  connected : Bool := false
  vdfOk : Bool := false
  proved : Bool := false
  allProved : Bool := false
  votes : Nat := 0
  totalVotes : Nat := 0
  root : Option Block := none
  ctx : Option C := none
  validators : List (Nat × Bool) := []

/-- One committed version of the database: the block that was applied and the tables after it.  The version
number is `block.height + 1` (src/Node.cpp:1152). -/
structure Entry (S : Type) where
  block : Block
  state : S

/-- The members of `Node` involved.  `db`: the versions of the database, newest first (reverting to an older
version and reading it back is what C03 states about tables).  `disk`: the block file with `block_index`,
oldest first.  `forks`: `fork_tree` and `fork_index`, which hold the same forks, in the order of `fork_index`
(by height, then by arrival).  `history` is a cache of headers that are also on disk and is left out.
`astray` is not part of the code: it records, for the theorems only, that a fork off the committed chain failed
and the old chain could not be put back (see `restoreOld`). -/
structure St (S C : Type) where
  db : List (Entry S)
  disk : List Block
  forks : List (Fork C)
  root : Block
  astray : Bool := false

variable {S C : Type}

/-! ### The database as seen by fork choice -/

/-- The tables as of the newest version. -/
def ledger (R : Rules S C) : List (Entry S) → S
  | [] => R.init
  | e :: _ => e.state

/-- `state_hash`: set to the block's hash by `apply` (src/Node.cpp:1150), to the last entry of `height_map` by
`revert` and `reset` (src/Node.cpp:1329, 1365), which is that of the newest version; zero when there is none. -/
def tip : List (Entry S) → Nat
  | [] => 0
  | e :: _ => e.block.hash

/-- `db->version()`. -/
def version : List (Entry S) → Nat
  | [] => 0
  | e :: _ => e.block.height + 1

/-- `db->revert(height)` (src/Node.cpp:1326, src/DataBase.cpp:1034-1043): versions above `height` go. -/
def revertDb (height : Nat) (db : List (Entry S)) : List (Entry S) :=
  db.filter fun e => e.block.height + 1 ≤ height

/-- `height_map.find(height)` (src/Node_api.cpp:221-228). -/
def hashAt (db : List (Entry S)) (height : Nat) : Option Nat :=
  (db.find? fun e => e.block.height == height).map fun e => e.block.hash

/-! ### Looking up forks and blocks -/

/-- src/Node.cpp:1441-1448. -/
def findFork (forks : List (Fork C)) (hash : Nat) : Option (Fork C) :=
  forks.find? fun f => f.block.hash == hash

/-- src/Node_api.cpp:175-196, for headers and full blocks alike: the fork tree first, then the block file. -/
def getBlock (st : St S C) (hash : Nat) : Option Block :=
  match findFork st.forks hash with
  | some f => some f.block
  | none => st.disk.find? fun b => b.hash == hash

/-- `find_prev(block)` (src/Node.cpp:1458-1465 with distance one). -/
def findPrev (st : St S C) (b : Block) : Option Block := getBlock st b.prev

/-- `fork->prev.lock()`.  The weak pointer is set when the fork is added or, if the predecessor came later,
by the next `verify_block_proofs` (src/Node.cpp:404, src/Node_update.cpp:208-210), and expires with the
predecessor's removal from the tree.  `update` runs that function before any other use, so the pointer and the
look-up by hash agree there. -/
def prevFork (forks : List (Fork C)) (f : Fork C) : Option (Fork C) := findFork forks f.block.prev

/-- Replaces the fork of the same block: writing through a `shared_ptr<fork_t>`. -/
def setFork (forks : List (Fork C)) (f : Fork C) : List (Fork C) :=
  forks.map fun g => if g.block.hash = f.block.hash then f else g

/-- `fork->is_invalid = true` for the fork with this hash, if it is in the tree. -/
def markInvalid (forks : List (Fork C)) (hash : Nat) : List (Fork C) :=
  forks.map fun g => if g.block.hash = hash then { g with invalid := true } else g

/-- `fork_index.emplace`: behind the forks of the same height. -/
def insertFork : List (Fork C) → Fork C → List (Fork C)
  | [], f => [f]
  | g :: gs, f => if g.block.height ≤ f.block.height then g :: insertFork gs f else f :: g :: gs

/-- src/Node.cpp:394-409. -/
def addFork (root : Block) (forks : List (Fork C)) (f : Fork C) : List (Fork C) :=
  if f.block.height ≤ root.height then forks
  else if (findFork forks f.block.hash).isSome then forks
  else insertFork forks f

/-- src/Node.cpp:1868-1929 with `is_main = false`, for a readable file: a block already stored is not written
again.  `tx_index`, written when `is_main` holds, is part of the tables (`Rules.exec`). -/
def writeBlock (disk : List Block) (b : Block) : List Block :=
  if (disk.find? fun x => x.hash == b.hash).isSome then disk else disk ++ [b]

/-- src/Node.cpp:366-392. -/
def addBlock (R : Rules S C) (st : St S C) (b : Block) : St S C :=
  if !R.static b then st
  else if b.height ≤ st.root.height then { st with disk := writeBlock st.disk b }
  else { st with forks := addFork st.root st.forks { block := b } }

/-! ### Applying, validating, reverting -/

/-- src/Node.cpp:1289-1353.  The farmer ranking and the transactions put back into the pool are left out. -/
def revert (st : St S C) (height : Nat) : St S C := { st with db := revertDb height st.db }

/-- src/Node_validate.cpp:106-144 and, behind `check`, the rest of that function. -/
def validate (R : Rules S C) (st : St S C) (b : Block) : Option C :=
  if !R.static b then none
  else match findPrev st b with
    | none => none
    | some p =>
      if p.hash ≠ tip st.db then none
      else if b.height ≠ p.height + 1 then none
      else R.check (ledger R st.db) p b

/-- src/Node.cpp:1029-1162; the flag says whether it returned normally.  A throw inside the `try` reverts to
the version before the block.  (The block may by then have been written to the block file; the model only
writes it on success.) -/
def apply (R : Rules S C) (st : St S C) (b : Block) (ctx : Option C) : St S C × Bool :=
  if b.prev ≠ tip st.db then (st, false)
  else match R.exec (ledger R st.db) b ctx with
    | none => (revert st b.height, false)
    | some s =>
      if b.height + 1 ≤ version st.db then (revert st b.height, false)
      else ({ st with db := ⟨b, s⟩ :: st.db, disk := writeBlock st.disk b }, true)

/-! ### Fork lines -/

/-- The loop of src/Node.cpp:887-894, collecting towards the root.  `fuel` bounds the number of forks visited;
running out means a cycle of predecessor hashes. -/
def lineFrom (st : St S C) : Nat → Fork C → List Block → Option (List Block)
  | 0, _, _ => none
  | n + 1, f, acc =>
    if f.block.height = st.root.height + 1 ∧ (findPrev st f.block).isSome then some (f.block :: acc)
    else match prevFork st.forks f with
      | none => none
      | some g => lineFrom st n g (f.block :: acc)

/-- `get_fork_line(peak)` for a fork, oldest block first; `none` where it throws. -/
def forkLine (st : St S C) (f : Fork C) : Option (List Block) :=
  lineFrom st (st.forks.length + 1) f []

/-- `get_fork_line()` without argument (src/Node.cpp:879-896): the line of the current peak. -/
def mainLine (st : St S C) : Option (List Block) :=
  if tip st.db = st.root.hash then some []
  else match findFork st.forks (tip st.db) with
    | none => none
    | some f => forkLine st f

/-! ### Loading the chain from disk -/

/-- `get_block_at` (src/Node_api.cpp:198-209). -/
def getBlockAt (st : St S C) (height : Nat) : Option Block :=
  (hashAt st.db height).bind (getBlock st)

/-- The consistency loop of src/Node.cpp:1370-1386, from `height` down. -/
def settle (R : Rules S C) : Nat → St S C → St S C × Nat
  | 0, st => (st, 0)
  | h + 1, st =>
    match getBlockAt st (h + 1) with
    | some b => if R.static b ∧ b.height = h + 1 then (st, h + 1) else settle R h (revert st (h + 1))
    | none => settle R h (revert st (h + 1))

/-- A node whose tables are empty: `init_chain` (src/Node.cpp:352-353).  `none` where genesis cannot be
applied. -/
def start (R : Rules S C) : Option (St S C) :=
  match R.exec R.init R.genesis none with
  | none => none
  | some s => some { db := [⟨R.genesis, s⟩], disk := [R.genesis], forks := [], root := R.genesis }

/-- src/Node.cpp:1355-1426; `none` where the root cannot be loaded.  The blocks loaded as forks come in the
order of `height_index`.  Without any block in the tables, the block index is emptied and the chain starts
from genesis. -/
def reset (R : Rules S C) (st : St S C) : Option (St S C) :=
  match st.db with
  | [] => start R
  | e :: _ =>
    let r := settle R e.block.height { st with forks := [] }
    match getBlockAt r.1 (r.2 - min R.delay r.2) with
    | none => none
    | some root =>
      some { r.1 with
        astray := false
        root := root
        forks := (r.1.disk.filter fun b => root.height ≤ b.height ∧ b.height < r.2 + 1).foldl
          (fun fs b => addFork root fs { block := b, vdfOk := true }) [] }

/-! ### Switching to a fork -/

/-- How `fork_to` ends: with the block it forked at, if it did, or by an exception. -/
inductive Out where
  | ok (forkedAt : Option Block)
  | err
deriving DecidableEq, Repr

/-- The loop of src/Node.cpp:786-812.  `restore` is the call `fork_to(prev_state)` made when a block turns out
invalid. -/
def applyLine (R : Rules S C) (restore : St S C → St S C) : St S C → List Block → St S C × Bool
  | st, [] => (st, true)
  | st, b :: bs =>
    if b.prev ≠ tip st.db then applyLine R restore st bs
    else match findFork st.forks b.hash with
      | none => (st, false)
      | some f =>
        if f.validated then
          let r := apply R st b f.ctx
          if r.2 then applyLine R restore r.1 bs else (r.1, false)
        else match validate R st b with
          | none => (restore { st with forks := markInvalid st.forks b.hash }, false)
          | some c =>
            let st1 := { st with forks := setFork st.forks { f with ctx := some c, validated := true } }
            let r := apply R st1 b (some c)
            if r.2 then applyLine R restore r.1 bs else (r.1, false)

/-- The loop of src/Node.cpp:696-703: from the alternate root down to a block of the current chain. -/
def altLine (st : St S C) : Nat → Block → List Block → Option (Block × List Block)
  | 0, _, _ => none
  | n + 1, b, acc =>
    if hashAt st.db b.height = some b.hash then some (b, acc)
    else match findPrev st b with
      | none => none
      | some p => altLine st n p (b :: acc)

/-- The loop of src/Node.cpp:713-726: `false` when a block cannot be read, verified, validated or applied. -/
def applyAlt (R : Rules S C) : St S C → List Block → St S C × Bool
  | st, [] => (st, true)
  | st, b :: bs =>
    match getBlock st b.hash with
    | none => (st, false)
    | some b =>
      if (findPrev st b).isSome ∧ R.proof b then
        match validate R st b with
        | none => (st, false)
        | some c =>
          let r := apply R st b (some c)
          if r.2 then applyAlt R r.1 bs else (r.1, false)
      else (st, false)

/-- The first loop of src/Node.cpp:737-745: from the old peak down to the current state, or as far as blocks
can be found. -/
def oldLine (st : St S C) : Nat → Nat → List Block → List Block
  | 0, _, acc => acc
  | n + 1, hash, acc =>
    match getBlock st hash with
    | none => acc
    | some b => if b.prev = tip st.db then b :: acc else oldLine st n b.prev (b :: acc)

/-- The second loop of src/Node.cpp:747-749. -/
def applyOld (R : Rules S C) : St S C → List Block → St S C × Bool
  | st, [] => (st, true)
  | st, b :: bs =>
    match validate R st b with
    | none => (st, false)
    | some c =>
      let r := apply R st b (some c)
      if r.2 then applyOld R r.1 bs else (r.1, false)

/-- Notes (ghost field) that the old peak was not restored. -/
def St.strand (st : St S C) (prevState : Nat) : St S C :=
  { st with astray := st.astray || tip st.db != prevState }

/-- The handler of src/Node.cpp:732-762.  It leaves `fork_to` by an exception in any case, but if one of the
blocks to restore does not validate the rest of the handler is skipped. -/
def restoreOld (R : Rules S C) (st : St S C) (prevState : Nat) (line : List Block) : St S C :=
  let r := applyOld R st (oldLine st (st.forks.length + st.disk.length + 1) prevState [])
  if r.2 then
    match reset R r.1 with
    | none => r.1.strand prevState
    | some st1 => { st1 with forks := line.foldl (fun fs b => markInvalid fs b.hash) st1.forks }
  else r.1.strand prevState

/-- The block the new line leaves the current chain at (src/Node.cpp:770-778). -/
def forkPoint (main : List Block) : Block → List Block → Block
  | at_, [] => at_
  | at_, b :: bs => if main.any (fun x => x.hash == b.hash) then forkPoint main b bs else at_

/-- `fork_to(hash)` (src/Node.cpp:657-671), given `fork_to(fork)`. -/
def forkToHash (go : St S C → Fork C → St S C × Out) (st : St S C) (hash : Nat) : St S C × Out :=
  if hash = tip st.db then (st, .ok none)
  else match findFork st.forks hash with
    | some f => go st f
    | none =>
      if hash = st.root.hash then (revert st (st.root.height + 1), .ok none)
      else (st, .err)

/-- The part of `fork_to(peak)` for a fork that leaves the committed chain (src/Node.cpp:685-762). -/
def deepFork (R : Rules S C) (st : St S C) (line : List Block) (f0 : Block) : St S C × Option (Option Block) :=
  match getBlock st f0.prev with
  | none => (st, none)
  | some newRoot =>
    match altLine st (st.forks.length + st.disk.length + 1) newRoot [] with
    | none => (restoreOld R st (tip st.db) line, none)
    | some (forkedAt, list) =>
      let r := applyAlt R (revert st (forkedAt.height + 1)) list
      if r.2 then ({ r.1 with root := newRoot }, some (some forkedAt))
      else (restoreOld R r.1 (tip st.db) line, none)

/-- The part of `fork_to(peak)` for a fork off the uncommitted blocks (src/Node.cpp:764-782). -/
def nearFork (st : St S C) (line : List Block) : St S C × Option (Option Block) :=
  match mainLine st with
  | none => (st, none)
  | some main =>
    let at_ := forkPoint main st.root line
    if at_.hash ≠ tip st.db then (revert st (at_.height + 1), some (some at_)) else (st, some none)

/-- `fork_to(peak)` (src/Node.cpp:673-814).  `fuel` bounds how often it calls itself to restore the old
peak. -/
def forkTo (R : Rules S C) : Nat → St S C → Fork C → St S C × Out
  | 0, st, _ => (st, .err)
  | n + 1, st, peak =>
    match forkLine st peak with
    | none => (st, .err)
    | some [] => (st, .ok none)
    | some (f0 :: rest) =>
      let r := if f0.prev ≠ st.root.hash then deepFork R st (f0 :: rest) f0 else nearFork st (f0 :: rest)
      match r.2 with
      | none => (r.1, .err)
      | some at_ =>
        let restore := fun s => (forkToHash (forkTo R n) s (tip st.db)).1
        let r2 := applyLine R restore r.1 (f0 :: rest)
        (r2.1, if r2.2 then .ok at_ else .err)

/-! ### Choosing a fork -/

/-- What src/Node.cpp:826-838 computes for a fork from its predecessor's values. -/
def tally (st : St S C) (forks : List (Fork C)) (f : Fork C) : Fork C :=
  if f.block.height = st.root.height + 1 then
    { f with root := findPrev st f.block, totalVotes := f.votes, allProved := f.proved }
  else match prevFork forks f with
    | some p => { f with
        root := p.root
        invalid := p.invalid || f.invalid
        totalVotes := p.totalVotes + f.votes
        allProved := p.allProved && f.proved }
    | none => { f with allProved := false }

/-- src/Node.cpp:840-842: `wait` says that blocks below the root are still being fetched. -/
def skipped (st : St S C) (wait : Bool) (f : Fork C) : Bool :=
  wait && (match f.root with | some r => r.hash != st.root.hash | none => false)

/-- src/Node.cpp:844. -/
def eligible (f : Fork C) : Bool := f.allProved && f.root.isSome && !f.invalid

/-- `fork->root->total_weight` of an eligible fork. -/
def rootWeight (f : Fork C) : Nat := match f.root with | some r => r.weight | none => 0

/-- src/Node.cpp:849-872: whether `f` replaces `best`. -/
def better (f best : Fork C) : Bool :=
  if f.block.weight ≥ best.block.weight ∧ rootWeight f > rootWeight best then true
  else if f.block.weight ≥ best.block.weight ∨ rootWeight f ≥ rootWeight best then
    if f.totalVotes > best.totalVotes then true
    else if f.totalVotes = best.totalVotes then
      if f.block.height > best.block.height then true
      else if f.block.height = best.block.height then decide (f.block.hash < best.block.hash)
      else false
    else false
  else false

/-- One round of the loop of src/Node.cpp:821-875, for the fork with this hash. -/
def bestStep (st : St S C) (wait : Bool) (acc : List (Fork C) × Option (Fork C)) (f0 : Fork C) :
    List (Fork C) × Option (Fork C) :=
  match findFork acc.1 f0.block.hash with
  | none => acc
  | some g =>
    let f := tally st acc.1 g
    let forks := setFork acc.1 f
    if skipped st wait f then (forks, acc.2)
    else if eligible f then
      match acc.2 with
      | none => (forks, some f)
      | some b => if better f b then (forks, some f) else (forks, some b)
    else (forks, acc.2)

/-- `find_best_fork` (src/Node.cpp:816-877): the forks with their values updated, and the choice. -/
def findBest (st : St S C) (wait : Bool) : List (Fork C) × Option (Fork C) :=
  (st.forks.filter fun f => st.root.height < f.block.height).foldl (bestStep st wait) (st.forks, none)

/-! ### Verification of forks and votes -/

/-- src/Node_update.cpp:204-220: whether the fork connects to the chain.  `far` says whether the ancestors needed
to verify a block on top of the root are known (`find_prev(block, commit_delay + infuse_delay, true)`). -/
def linkFork (st : St S C) (far : Block → Bool) (forks : List (Fork C)) (f : Fork C) : Fork C :=
  if f.block.height = st.root.height + 1 then { f with connected := f.connected || far f.block }
  else match prevFork forks f with
    | some p => { f with invalid := p.invalid || f.invalid, connected := p.connected }
    | none => { f with connected := false }

/-- src/Node_update.cpp:224-234.  `vdf` says whether the block's VDF points have been verified
(`find_vdf_points(block)` is not empty). -/
def vdfFork (synced : Bool) (vdf : Block → Bool) (f : Fork C) : Fork C :=
  if f.vdfOk then f else { f with vdfOk := vdf f.block || !synced }

/-- src/Node_update.cpp:236-252.  `verify_proof` throws unless the predecessor is known
(src/Node_verify.cpp:77-80). -/
def proveFork (R : Rules S C) (st : St S C) (f : Fork C) : Fork C :=
  if f.vdfOk then
    if (findPrev st f.block).isSome ∧ R.proof f.block then
      { f with proved := true, validators := (R.validators f.block).eraseDups.map fun k => (k, false) }
    else { f with invalid := true }
  else f

/-- One round of the loop of src/Node_update.cpp:200-254. -/
def verifyFork (R : Rules S C) (st : St S C) (synced : Bool) (vdf far : Block → Bool)
    (forks : List (Fork C)) (f0 : Fork C) : List (Fork C) :=
  match findFork forks f0.block.hash with
  | none => forks
  | some f =>
    let f1 := linkFork st far forks f
    setFork forks (if !f1.connected || f1.invalid || f1.proved then f1 else proveFork R st (vdfFork synced vdf f1))

/-- `verify_block_proofs` (src/Node_update.cpp:195-258).  The checks of one fork run as tasks of their own, but
read only block headers, so they are done in turn here. -/
def verifyBlocks (R : Rules S C) (st : St S C) (synced : Bool) (vdf far : Block → Bool) : St S C :=
  { st with forks := st.forks.foldl (verifyFork R st synced vdf far) st.forks }

/-- A vote: for which block and by whom.  Its signature was checked on arrival. -/
structure Vote where
  hash : Nat
  key : Nat
deriving DecidableEq, Repr

/-- One vote of the queue that has not timed out (src/Node_update.cpp:114-154): the forks after it, and whether
it stays in the queue.  `best` says whether the block carries the best proof seen for its challenge. -/
def castVote (best : Block → Bool) (forks : List (Fork C)) (v : Vote) : List (Fork C) × Bool :=
  match findFork forks v.hash with
  | none => (forks, true)
  | some f =>
    if f.proved then
      if !best f.block then (forks, false)
      else match f.validators.find? fun e => e.1 == v.key with
        | none => (forks, false)
        | some e =>
          if e.2 then (forks, false)
          else (setFork forks { f with
            validators := f.validators.map fun x => if x.1 = v.key then (x.1, true) else x
            votes := f.votes + 1 }, false)
    else (forks, true)

/-- `verify_votes` (src/Node_update.cpp:107-158) on the votes that have not timed out. -/
def castVotes (best : Block → Bool) (forks : List (Fork C)) : List Vote → List (Fork C) × List Vote
  | [] => (forks, [])
  | v :: vs =>
    let r := castVote best forks v
    let s := castVotes best r.1 vs
    (s.1, if r.2 then v :: s.2 else s.2)

/-! ### Commitment -/

/-- The forks left and the blocks written by src/Node.cpp:969-980: the committed block and its siblings leave
the tree; siblings whose proof was verified are stored. -/
def commitForks (b : Block) (forks : List (Fork C)) (disk : List Block) : List (Fork C) × List Block :=
  let rest := forks.filter fun f => f.block.hash ≠ b.hash
  let gone := rest.filter fun f => f.block.height = b.height
  (rest.filter fun f => f.block.height ≠ b.height,
    (gone.filter fun f => f.proved).foldl (fun d f => writeBlock d f.block) disk)

/-- src/Node.cpp:935-1012; `none` where it throws.  Left out: the maps of proofs and VDF points, `history`,
log lines. -/
def commit (st : St S C) (b : Block) : Option (St S C) :=
  if b.height ≠ 0 ∧ b.prev ≠ st.root.hash then none
  else
    let r := commitForks b st.forks st.disk
    some { st with forks := r.1, disk := r.2, root := b }

/-- The commit loop of src/Node_update.cpp:325-335; the flag is false if `commit` threw.  `ready` is the
condition on synchronisation. -/
def commitLine (delay peak : Nat) (ready : Block → Bool) : St S C → List Block → St S C × Bool
  | st, [] => (st, true)
  | st, b :: bs =>
    if b.height + delay ≤ peak ∧ ready b then
      match commit st b with
      | none => (st, false)
      | some st1 => commitLine delay peak ready st1 bs
    else (st, true)

/-- What `update` reads from the rest of the node. -/
structure Env where
  synced : Bool
  wait : Bool
  vdf : Block → Bool
  far : Block → Bool
  best : Block → Bool
  ready : Block → Bool
  votes : List Vote

/-- The loop of src/Node_update.cpp:277-296.  `fuel` bounds the number of failed attempts. -/
def choose (R : Rules S C) (wait : Bool) : Nat → St S C → St S C × Option Out
  | 0, st => (st, none)
  | n + 1, st =>
    let r := findBest st wait
    let st1 := { st with forks := r.1 }
    match r.2 with
    | none => (st1, some (.ok none))
    | some f =>
      if f.block.hash = tip st1.db then (st1, some (.ok none))
      else
        let q := forkTo R 3 st1 f
        match q.2 with
        | .ok a => (q.1, some (.ok a))
        | .err => choose R wait n { q.1 with forks := markInvalid q.1.forks f.block.hash }

/-- The delay applied to commitments (src/Node_update.cpp:313-323), for a peak whose VDF height is not below the
root's; `none` for the division by zero when they are equal. -/
def commitDelay (R : Rules S C) (st : St S C) (peak : Block) (line : List Block) : Option Nat :=
  let d := (peak.vdf - st.root.vdf) * R.avgProofs
  if d = 0 then none
  else if (line.map (·.proofs)).sum * 100 / d ≥ R.minWeight then some R.delay else some R.weakDelay

/-- `get_fork_line(fork)` where the pointer may be null (src/Node.cpp:879-896). -/
def lineOf (st : St S C) (fork : Option (Fork C)) : Option (List Block) :=
  match fork with
  | some f => forkLine st f
  | none => mainLine st

/-- The part of `update` that commits (src/Node_update.cpp:308-336); the flag is false if it threw. -/
def commitPart (R : Rules S C) (ready : Block → Bool) (st : St S C) (peak : Block) : St S C × Bool :=
  if peak.height > st.root.height then
    match lineOf st (findFork st.forks peak.hash) with
    | none => (st, false)
    | some line =>
      match commitDelay R st peak line with
      | none => (st, false)
      | some d => commitLine d peak.height ready st line
  else (st, true)

/-- `update` up to the point where the new fork line is read back (src/Node_update.cpp:260-340).  The flag tells
whether it got there without an exception.  The rest of `update` publishes messages, votes, and makes blocks; a
block made re-enters through `add_block`, and `make_block` moves the state with `fork_to(hash)`. -/
def update (R : Rules S C) (env : Env) (st : St S C) : St S C × Bool :=
  let st1 := verifyBlocks R st env.synced env.vdf env.far
  let st2 := { st1 with forks := (castVotes env.best st1.forks env.votes).1 }
  let st3 := (choose R env.wait (st2.forks.length + 2) st2).1
  match getBlock st3 (tip st3.db) with
  | none => (st3, true)
  | some peak =>
    let r := commitPart R env.ready st3 peak
    (r.1, r.2 && (lineOf r.1 (findFork st3.forks peak.hash)).isSome)

/-! ### Histories -/

/-- What can happen to a node.  `restart keep lost`: the process ends in any way and is started again; `keep` is
the version found in the database (src/Node.cpp:211-213), `lost` the blocks that can no longer be read. -/
inductive Op where
  | add (b : Block)
  | update (env : Env)
  | forkTo (hash : Nat)
  | revertSync (height : Nat)
  | restart (keep : Nat) (lost : Nat → Bool)

/-- One operation; `none` when the node cannot go on (`reset` threw: there is no root).  `revert_sync`
(src/Node.cpp:538-546) only acts below the root. -/
def step (R : Rules S C) (st : St S C) : Op → Option (St S C)
  | .add b => some (addBlock R st b)
  | .update env => some (update R env st).1
  | .forkTo h => some (forkToHash (forkTo R 3) st h).1
  | .revertSync h => if h ≤ st.root.height then reset R (revert st h) else some st
  | .restart keep lost =>
    reset R { (revert st keep) with disk := st.disk.filter fun b => !lost b.hash }

/-- A history. -/
def run (R : Rules S C) (st : St S C) : List Op → Option (St S C)
  | [] => some st
  | o :: os =>
    match step R st o with
    | none => none
    | some st1 => run R st1 os

end Verif.Node
