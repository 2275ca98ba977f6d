/-
  The requests for blocks the Router makes on behalf of its node (src/Router.cpp,
  include/mmx/Router.h): `get_blocks_at`, `fetch_block` and `fetch_block_at`.

  As in `Verif.Router.Gossip` a state is what the module keeps between callbacks, an operation is one
  callback, and the log lists what came in and went out so far, the newest first.
-/
import Verif.Router.Gossip

namespace Verif.Router.Sync

open Verif.Router (Hash Client)

/-- What the Router looks at in a block: `content_hash`, `height` and `is_valid(params)`. -/
structure Block where
  hash : Hash
  height : Nat
  valid : Bool
  deriving DecidableEq, Repr

/-- The content of a `Return` as far as `process` tells it apart (Router.cpp:530-563, 667-689):
    `Node_get_block_hash_ex_return` (block hash and content hash), `Node_get_block_return`,
    `Node_get_block_at_return`, `vnx::Exception`, anything else. -/
inductive Result
  | hash (r : Option (Hash × Hash))
  | block (b : Option Block)
  | blockAt (b : Option Block)
  | exception
  | other
  deriving DecidableEq, Repr

/-- The methods of the requests sent to peers (Router.cpp:601, 624, 724, 730, 751). -/
inductive Ask
  | hash (height : Nat)
  | block (hash : Hash)
  | blockAt (height : Nat)
  deriving DecidableEq, Repr

/-- What the node asks the Router for (Router.cpp:271-300).  `peer` says that an address was given. -/
inductive Query
  | blocksAt (height : Nat)
  | block (hash : Hash) (peer : Bool)
  | blockAt (height : Nat)
  deriving DecidableEq, Repr

/-- What came in and went out.  `opened`: the node asks, with the number of its request; `asked`: a
    request with the given id went to a peer on behalf of a request of the node; `reply`: a return
    with an id came from a peer; `blocks`, `block`, `refused`: the answers to the node (`refused` is
    an error); `sync`, `lost`: a peer enters or leaves `synced_peers`. -/
inductive Ev
  | opened (rid : Nat) (q : Query) (now : Nat)
  | asked (rid id : Nat) (c : Client) (a : Ask)
  | reply (now : Nat) (src : Client) (id : Nat) (r : Result)
  | blocks (rid : Nat) (bs : List Block)
  | block (rid : Nat) (b : Option Block)
  | refused (rid : Nat)
  | sync (c : Client)
  | lost (c : Client)
  deriving DecidableEq, Repr

/-- `min_sync_peers` and `fetch_timeout_ms` (modules/Router.vni:26, 35). -/
structure Cfg where
  minPeers : Nat
  timeout : Nat

/-- The surroundings of a callback: time in milliseconds, the random choices of `get_subset`
    (Router.cpp:191-200; of peers, and the order of the block requests), and the peer found for the
    address of a request of the node (`find_peers`, Router.cpp:1723-1731). -/
structure World where
  now : Nat
  pick : Nat → List Client → List Client
  order : List (Client × Hash × Hash) → List (Client × Hash × Hash)
  peerOf : Nat → Option Client

/-- `sync_job_t` (Router.h:108-121) without `is_done` and `num_fetch`.  Sets and maps are lists;
    `got` is `got_hash`, `reqs` is `request_map`, `waiting` is `pending_blocks`. -/
structure Job where
  height : Nat
  start : Nat
  last : Nat := 0
  failed : List Client := []
  pending : List Client := []
  succeeded : List Client := []
  got : List (Client × Hash × Hash) := []
  reqs : List (Nat × Client) := []
  waiting : List (Hash × Nat) := []
  blocks : List (Hash × Block) := []
  deriving DecidableEq, Repr

/-- `fetch_job_t` (Router.h:123-134); `query` stands for `hash`, `height` and `from_peer`. -/
structure Fetch where
  query : Query
  start : Nat
  last : Nat := 0
  failed : List Client := []
  pending : List Client := []
  reqs : List (Nat × Client) := []
  deriving DecidableEq, Repr

/-- State: `synced_peers`, `next_request_id` (as a natural number: no wrap at 2^32), the jobs with the
    numbers of the node's requests, and the number of the next request of the node (vnx numbers them
    uniquely). -/
structure St where
  synced : List Client := []
  next : Nat := 0
  jobs : List (Nat × Job) := []
  fetches : List (Nat × Fetch) := []
  rid : Nat := 0
  log : List Ev := []
  deriving DecidableEq, Repr

/-- The counter of request ids and the log, handed from job to job. -/
structure Acc where
  next : Nat
  log : List Ev
  deriving DecidableEq, Repr

/-- `std::unordered_set::insert`. -/
def ins (c : Client) (l : List Client) : List Client := if c ∈ l then l else c :: l

/-- `std::unordered_set::erase`. -/
def del (c : Client) (l : List Client) : List Client := l.filter (· != c)

/-- `map[key] = value`. -/
def put {α : Type} (k : Nat) (v : α) (l : List (Nat × α)) : List (Nat × α) :=
  (k, v) :: l.filter (·.1 != k)

/-- `map.erase(key)`. -/
def rm {α : Type} (k : Nat) (l : List (Nat × α)) : List (Nat × α) := l.filter (·.1 != k)

/-- `map.count(key)`. -/
def has {α : Type} (k : Nat) (l : List (Nat × α)) : Bool := l.any (·.1 == k)

/-- `Router::send_request` (Router.cpp:407-423): the id of the request is the counter. -/
def ask (rid : Nat) (a : Ask) (c : Client) (x : Acc) : Acc :=
  { next := x.next + 1, log := .asked rid x.next c a :: x.log }

/-! ### `get_blocks_at` -/

/-- A valid block is entered, and all peers that named its hash succeed (Router.cpp:543-551). -/
def Job.enter (c : Client) (b : Block) (j : Job) : Job :=
  { j with
    succeeded := ins c ((j.got.filter (·.2.2 == b.hash)).foldl (fun l e => ins e.1 l) j.succeeded)
    blocks := put b.hash b j.blocks }

/-- A valid block is entered, any other is not (Router.cpp:543). -/
def Job.accept (c : Client) (b : Block) (j : Job) : Job := if b.valid then j.enter c b else j

/-- A block in a reply to `get_block` (Router.cpp:541-553). -/
def Job.receive (c : Client) (b : Option Block) (j : Job) : Job :=
  match b with
  | none => j
  | some b => { j.accept c b with waiting := rm b.hash (j.accept c b).waiting }

/-- `failed.insert` unless the peer succeeded (Router.cpp:554-556). -/
def Job.blame (c : Client) (j : Job) : Job :=
  if c ∈ j.succeeded then j else { j with failed := ins c j.failed }

/-- The reply to `get_block` (Router.cpp:540-557). -/
def Job.takeBlock (c : Client) (b : Option Block) (j : Job) : Job := (j.receive c b).blame c

/-- `succeeded.insert` if the block is there already (Router.cpp:532-534). -/
def Job.praise (c : Client) (h : Hash) (j : Job) : Job :=
  if has h j.blocks then { j with succeeded := ins c j.succeeded } else j

/-- The reply to `get_block_hash_ex` (Router.cpp:530-539). -/
def Job.takeHash (c : Client) (h : Option (Hash × Hash)) (j : Job) : Job :=
  match h with
  | none => { j with failed := ins c j.failed }
  | some h => { j.praise c h.2 with got := put c h (j.praise c h.2).got }

/-- An exception instead of a reply (Router.cpp:558-563). -/
def Job.takeError (c : Client) (j : Job) : Job :=
  match j.got.lookup c with
  | none => j
  | some h => { j with waiting := rm h.2 j.waiting }

/-- The kinds of replies (Router.cpp:530-563). -/
def Job.take (c : Client) (r : Result) (j : Job) : Job :=
  match r with
  | .hash h => j.takeHash c h
  | .block b => j.takeBlock c b
  | .exception => j.takeError c
  | _ => j

/-- A reply with an id of this job (Router.cpp:528-567). -/
def Job.settle (now id : Nat) (c : Client) (r : Result) (j : Job) : Job :=
  let j1 := j.take c r
  { j1 with pending := del c j1.pending, reqs := rm id j1.reqs, last := now }

/-- A pending peer that is no longer synced is taken out (Router.cpp:578-583). -/
def Job.lose (c : Client) (j : Job) : Job :=
  let j1 :=
    match j.got.lookup c with
    | none => j
    | some h => { j with waiting := rm h.2 j.waiting, got := rm c j.got }
  { j1 with pending := del c j1.pending }

/-- "check for disconnects" (Router.cpp:572-585). -/
def Job.prune (synced : List Client) (j : Job) : Job :=
  (j.pending.filter (fun c => !synced.contains c)).foldl (fun j c => j.lose c) j

/-- `num_returns` (Router.cpp:586). -/
def Job.returns (j : Job) : Nat := j.failed.length + j.succeeded.length

/-- One request for a hash (Router.cpp:601-605). -/
def askHash (rid : Nat) (r : Job × Acc) (c : Client) : Job × Acc :=
  ({ r.1 with reqs := (r.2.next, c) :: r.1.reqs, pending := ins c r.1.pending },
    ask rid (.hash r.1.height) c r.2)

/-- The peers to be asked for a hash (Router.cpp:593-599). -/
def Job.fresh (synced : List Client) (j : Job) : List Client :=
  synced.filter fun c =>
    !j.failed.contains c && !j.pending.contains c && !j.succeeded.contains c && !has c j.got

/-- "fetch block hashes" (Router.cpp:588-607). -/
def askHashes (cfg : Cfg) (w : World) (synced : List Client) (rid : Nat) (r : Job × Acc) : Job × Acc :=
  let n := r.1.pending.length + r.1.got.length
  if n < cfg.minPeers + 3 then
    (w.pick (cfg.minPeers + 3 - n) (r.1.fresh synced)).foldl (askHash rid) r
  else r

/-- The peers to be asked for their block (Router.cpp:609-618). -/
def Job.open (j : Job) : List (Client × Hash × Hash) :=
  j.got.filter fun e =>
    !has e.2.2 j.blocks && !j.failed.contains e.1 && !j.pending.contains e.1 &&
      !j.succeeded.contains e.1

/-- Whether a block is being fetched from another peer (Router.cpp:622-623). -/
def Job.waits (now : Nat) (h : Hash) (j : Job) : Bool :=
  match j.waiting.lookup h with
  | none => false
  | some t => decide (now ≤ t)

/-- One request for a block (Router.cpp:619-632). -/
def askBlock (cfg : Cfg) (w : World) (rid : Nat) (r : Job × Acc) (e : Client × Hash × Hash) : Job × Acc :=
  if r.1.waits w.now e.2.2 then r
  else
    ({ r.1 with
        reqs := (r.2.next, e.1) :: r.1.reqs
        pending := ins e.1 r.1.pending
        waiting := put e.2.2 (w.now + cfg.timeout / 8) r.1.waiting },
      ask rid (.block e.2.1) e.1 r.2)

/-- "fetch blocks" (Router.cpp:608-632). -/
def askBlocks (cfg : Cfg) (w : World) (rid : Nat) (r : Job × Acc) : Job × Acc :=
  (w.order r.1.open).foldl (askBlock cfg w rid) r

/-- What a job does next (Router.cpp:572-648); `none` means that it is done. -/
def Job.go (cfg : Cfg) (w : World) (synced : List Client) (rid : Nat) (j : Job) (x : Acc) :
    Option Job × Acc :=
  let j1 := j.prune synced
  if j1.returns < cfg.minPeers then
    let r := askBlocks cfg w rid (askHashes cfg w synced rid (j1, x))
    (some r.1, r.2)
  else (none, { x with log := .blocks rid (j1.blocks.map (·.2)) :: x.log })

/-- One job in `Router::process` (Router.cpp:520-649). -/
def Job.process (cfg : Cfg) (w : World) (synced : List Client) (ret : Option (Nat × Result))
    (rid : Nat) (j : Job) (x : Acc) : Option Job × Acc :=
  match ret with
  | none => j.go cfg w synced rid x
  | some (id, r) =>
    match j.reqs.lookup id with
    | none => (some j, x)
    | some c => (j.settle w.now id c r).go cfg w synced rid x

/-- The loop over the jobs, with the removal of those that are done (Router.cpp:520-656). -/
def processJobs (cfg : Cfg) (w : World) (synced : List Client) (ret : Option (Nat × Result)) :
    List (Nat × Job) → Acc → List (Nat × Job) × Acc
  | [], x => ([], x)
  | (rid, j) :: l, x =>
    let r := j.process cfg w synced ret rid x
    let q := processJobs cfg w synced ret l r.2
    match r.1 with
    | none => q
    | some j' => ((rid, j') :: q.1, q.2)

/-! ### `fetch_block` and `fetch_block_at` -/

/-- What a reply does to a job (Router.cpp:664-692): it ends with a block or null, ends with an error,
    or goes on, with the peer marked as failed or not. -/
inductive Verdict
  | give (b : Option Block)
  | refuse
  | fail
  | ignore
  deriving DecidableEq, Repr

/-- `from_peer`. -/
def Query.toPeer : Query → Bool
  | .blocksAt _ => false
  | .block _ p => p
  | .blockAt _ => true

/-- Router.cpp:667-689. -/
def Fetch.judge (q : Query) (r : Result) : Verdict :=
  match r with
  | .blockAt b =>
    match q with
    | .blockAt _ => .give b
    | _ => .ignore
  | .block b =>
    match q with
    | .block _ p => if b.isSome || p then .give b else .fail
    | _ => .ignore
  | _ => if q.toPeer then .refuse else .fail

/-- Bookkeeping after a reply (Router.cpp:681, 688, 690-692). -/
def Fetch.settle (now id : Nat) (c : Client) (bad : Bool) (f : Fetch) : Fetch :=
  { f with
    failed := if bad then ins c f.failed else f.failed
    pending := del c f.pending, reqs := rm id f.reqs, last := now }

/-- One request for a block (Router.cpp:751-755). -/
def Fetch.askOne (rid : Nat) (h : Hash) (r : Fetch × Acc) (c : Client) : Fetch × Acc :=
  ({ r.1 with reqs := (r.2.next, c) :: r.1.reqs, pending := ins c r.1.pending },
    ask rid (.block h) c r.2)

/-- The request to the peer with the given address (Router.cpp:723-734). -/
def Fetch.askPeer (rid : Nat) (c : Client) (f : Fetch) (x : Acc) : Fetch × Acc :=
  match f.query with
  | .block h _ => ({ f with reqs := (x.next, c) :: f.reqs }, ask rid (.block h) c x)
  | .blockAt n => ({ f with reqs := (x.next, c) :: f.reqs }, ask rid (.blockAt n) c x)
  | .blocksAt _ => (f, x)

/-- The peers that can still be asked (Router.cpp:737-743). -/
def Fetch.fresh (synced : List Client) (f : Fetch) : List Client :=
  synced.filter fun c => !f.failed.contains c && !f.pending.contains c

/-- What a job does next (Router.cpp:698-761). -/
def Fetch.go (cfg : Cfg) (w : World) (synced : List Client) (rid : Nat) (f : Fetch) (x : Acc) :
    Option Fetch × Acc :=
  let f1 := { f with pending := f.pending.filter (fun c => synced.contains c) }
  if f1.query.toPeer then
    if f1.reqs.isEmpty then
      match w.peerOf rid with
      | none => (none, { x with log := .refused rid :: x.log })
      | some c => let r := f1.askPeer rid c x; (some r.1, r.2)
    else (some f1, x)
  else
    match f1.query with
    | .block h _ =>
      let cs := f1.fresh synced
      if cs.isEmpty && f1.pending.isEmpty then (none, { x with log := .block rid none :: x.log })
      else if f1.pending.length < cfg.minPeers then
        let r := (w.pick (cfg.minPeers - f1.pending.length) cs).foldl (Fetch.askOne rid h) (f1, x)
        (some r.1, r.2)
      else (some f1, x)
    | _ => (none, { x with log := .refused rid :: x.log })

/-- One job in the second loop of `Router::process` (Router.cpp:658-762). -/
def Fetch.process (cfg : Cfg) (w : World) (synced : List Client) (ret : Option (Nat × Result))
    (rid : Nat) (f : Fetch) (x : Acc) : Option Fetch × Acc :=
  match ret with
  | none => f.go cfg w synced rid x
  | some (id, r) =>
    match f.reqs.lookup id with
    | none => (some f, x)
    | some c =>
      match Fetch.judge f.query r with
      | .give b => (none, { x with log := .block rid b :: x.log })
      | .refuse => (none, { x with log := .refused rid :: x.log })
      | .fail => (f.settle w.now id c true).go cfg w synced rid x
      | .ignore => (f.settle w.now id c false).go cfg w synced rid x

/-- The second loop, with the removal of jobs that are done (Router.cpp:658-769). -/
def processFetches (cfg : Cfg) (w : World) (synced : List Client) (ret : Option (Nat × Result)) :
    List (Nat × Fetch) → Acc → List (Nat × Fetch) × Acc
  | [], x => ([], x)
  | (rid, f) :: l, x =>
    let r := f.process cfg w synced ret rid x
    let q := processFetches cfg w synced ret l r.2
    match r.1 with
    | none => q
    | some f' => ((rid, f') :: q.1, q.2)

/-- `Router::process` (Router.cpp:515-771). -/
def process (cfg : Cfg) (w : World) (ret : Option (Nat × Result)) (s : St) : St :=
  let r := processJobs cfg w s.synced ret s.jobs ⟨s.next, s.log⟩
  let q := processFetches cfg w s.synced ret s.fetches r.2
  { s with jobs := r.1, fetches := q.1, next := q.2.next, log := q.2.log }

/-! ### Callbacks -/

/-- A job of `get_blocks_at` is too old (Router.cpp:483). -/
def Job.late (cfg : Cfg) (now : Nat) (j : Job) : Bool :=
  decide (max j.start j.last + cfg.timeout < now)

/-- "check for sync job timeouts" (Router.cpp:478-499): the pending peers of late jobs are no longer
    synced, and the job starts again from nothing. -/
def expireJobs (cfg : Cfg) (now : Nat) (s : St) : St :=
  if cfg.minPeers ≤ s.synced.length then
    let gone := (s.jobs.filter (·.2.late cfg now)).flatMap (·.2.pending)
    { s with
      synced := s.synced.filter (fun c => !gone.contains c)
      log := gone.map Ev.lost ++ s.log
      jobs := s.jobs.map fun e =>
        if e.2.late cfg now then (e.1, { height := e.2.height, start := now }) else e }
  else s

/-- A fetch is too old (Router.cpp:504). -/
def Fetch.late (cfg : Cfg) (now : Nat) (f : Fetch) : Bool :=
  decide (max f.start f.last + cfg.timeout < now)

/-- "check for fetch job timeouts" (Router.cpp:501-510). -/
def expireFetches (cfg : Cfg) (now : Nat) (s : St) : St :=
  { s with
    fetches := s.fetches.filter fun e => !e.2.late cfg now
    log := (s.fetches.filter (·.2.late cfg now)).map (fun e => Ev.refused e.1) ++ s.log }

/-- The part of `Router::update` on jobs (Router.cpp:478-512). -/
def update (cfg : Cfg) (w : World) (s : St) : St :=
  process cfg w none (expireFetches cfg w.now (expireJobs cfg w.now s))

/-- `get_blocks_at_async`, `fetch_block_async`, `fetch_block_at_async` (Router.cpp:271-300). -/
def start (cfg : Cfg) (w : World) (q : Query) (s : St) : St :=
  let s1 := { s with rid := s.rid + 1, log := .opened s.rid q w.now :: s.log }
  process cfg w none
    (match q with
    | .blocksAt h => { s1 with jobs := (s.rid, { height := h, start := w.now }) :: s1.jobs }
    | _ => { s1 with fetches := (s.rid, { query := q, start := w.now }) :: s1.fetches })

/-- `Router::on_return` (Router.cpp:1431-1435): the client that sent the return plays no part in
    `process`. -/
def reply (cfg : Cfg) (w : World) (src : Client) (id : Nat) (r : Result) (s : St) : St :=
  process cfg w (some (id, r)) { s with log := .reply w.now src id r :: s.log }

/-- One callback.  `synced` and `unsynced` are the changes of `synced_peers` by replies to
    `get_synced_height` and by disconnects (Router.cpp:1522, 1530, 1696). -/
inductive Op
  | start (w : World) (q : Query)
  | reply (w : World) (src : Client) (id : Nat) (r : Result)
  | update (w : World)
  | synced (c : Client)
  | unsynced (c : Client)

def step (cfg : Cfg) (s : St) : Op → St
  | .start w q => start cfg w q s
  | .reply w src id r => reply cfg w src id r s
  | .update w => update cfg w s
  | .synced c => { s with synced := ins c s.synced, log := .sync c :: s.log }
  | .unsynced c => { s with synced := del c s.synced, log := .lost c :: s.log }

/-- The state after a sequence of callbacks. -/
def run (cfg : Cfg) (ops : List Op) : St := ops.foldl (step cfg) {}

end Verif.Router.Sync
