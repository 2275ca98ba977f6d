import Verif.Chain.Params
/-
  Model of the look-ups that tie blocks to proofs of time and of space: challenges, infusions, VDF points
  (src/Node.cpp:1467-1711, 1800-1828), the requests and challenges a node publishes
  (src/Node_update.cpp:397-441), block verification (src/Node_verify.cpp:24-180) and the bookkeeping of
  VDF verification (src/Node_update.cpp:25-105, src/Node_verify.cpp:239-264, 349-455).

  `H` is the type of 32-byte hashes, `A` of addresses, `P` of proofs of space. Hash functions are
  parameters. Heights are natural numbers: that a height wraps at 2^32 is not modelled here, except in the
  numeric part of block verification, which is `Chain.verifyProof`.
-/
namespace Verif.Time

/-- The hash computations used below (arguments of `hash_t(...)` are string constants and hashes). -/
structure Fns (H : Type) where
  /-- `hash_t("next_challenge" + x)`, include/mmx/utils.h:134, src/Node.cpp:1477, 1506 -/
  next : H → H
  /-- `hash_t("prev_challenge" + x)`, src/Node.cpp:1519 -/
  before : H → H
  /-- `hash_t("challenge_infusion" + x + proof_hash)`, include/mmx/utils.h:145-147 -/
  infuse : H → H → H
  /-- `check_space_fork`, include/mmx/utils.h:116-123 -/
  fork : H → H → Bool
  /-- `hash_t("proof_chain" + prev + proof_hash)`, include/mmx/utils.h:155 -/
  chain : H → H → H
  /-- a hash as the big-endian number that `operator<` compares (memcmp), include/mmx/bytes_t.hpp:183-186 -/
  key : H → Nat

/-- Chain parameters used by the modelled functions (interface/ChainParams.vni), on top of those in
    `Chain.Params`. -/
structure Params where
  base : Chain.Params
  commitDelay : Nat         -- uint
  infuseDelay : Nat         -- uint
  challengeDelay : Nat      -- uint
  maxHistory : Nat          -- `max_history` of the node
  deriving Repr

/-- A block header (interface/BlockHeader.vni): the hash-like fields used here and the numbers `num`.
    The fields `proofs` and `difficulty` of `num` are taken from `proof`, see `Hdr.full`. -/
structure Hdr (H A P : Type) where
  hash : H
  prev : H
  challenge : H
  vdfOutput : H
  vdfRewardAddr : List A
  proof : List P
  proofHash : H
  proofChain : H
  num : Chain.Header
  deriving Repr

variable {H A P : Type}

abbrev Hdr.height (b : Hdr H A P) : Nat := b.num.height
abbrev Hdr.vdfHeight (b : Hdr H A P) : Nat := b.num.vdfHeight
abbrev Hdr.vdfCount (b : Hdr H A P) : Nat := b.num.vdfCount
abbrev Hdr.vdfIters (b : Hdr H A P) : Nat := b.num.vdfIters
abbrev Hdr.spaceDiff (b : Hdr H A P) : Nat := b.num.spaceDiff
abbrev Hdr.timeDiff (b : Hdr H A P) : Nat := b.num.timeDiff

/-- `get_header`, src/Node_api.cpp:211-214: the header with a given hash, if the node has it. -/
abbrev Store (H A P : Type) := H → Option (Hdr H A P)

/-- `f` applied `n` times. -/
def iter {α : Type} (f : α → α) : Nat → α → α
  | 0, x => x
  | n + 1, x => f (iter f n x)

/-- `Node::find_prev(block, distance, clamped)`, src/Node.cpp:1458-1465, with `clamped = true`. -/
def findPrevClamped (get : Store H A P) : Nat → Hdr H A P → Option (Hdr H A P)
  | 0, b => some b
  | n + 1, b =>
    if b.height = 0 then some b
    else match get b.prev with
      | none => none
      | some p => findPrevClamped get n p

/-- The loop that collects at most `n` predecessors, src/Node.cpp:1485-1497 (newest first): `none` when a
    header is missing above height zero. -/
def gather (get : Store H A P) : Nat → Hdr H A P → Option (List (Hdr H A P))
  | 0, b => some [b]
  | n + 1, b =>
    match get b.prev with
    | some p => (gather get n p).map (b :: ·)
    | none => if b.height ≠ 0 then none else some [b]

/-- The challenges between two blocks, src/Node.cpp:1504-1510. -/
def between (fn : Fns H) (prev : Option (Hdr H A P)) (b : Hdr H A P) : List (H × Nat) :=
  match prev with
  | none => []
  | some p => (List.range (b.vdfCount - 1)).map fun i => (iter fn.next (i + 1) p.challenge, p.spaceDiff)

/-- The loop over the chain, oldest block first, src/Node.cpp:1502-1513. -/
def build (fn : Fns H) : Option (Hdr H A P) → List (Hdr H A P) → List (H × Nat)
  | _, [] => []
  | prev, b :: rest => between fn prev b ++ (b.challenge, b.spaceDiff) :: build fn (some b) rest

/-- `n` rounds of the loop for the time before genesis, src/Node.cpp:1516-1520. `list.back()` of an empty
    list is undefined; the list starts with at least one entry, so `none` does not occur. -/
def pad (fn : Fns H) : Nat → List (H × Nat) → List (H × Nat)
  | 0, l => l
  | n + 1, l =>
    match l.getLast? with
    | none => l
    | some x => pad fn n (l ++ [(fn.before x.1, x.2)])

/-- `Node::find_challenge(block, offset)`, src/Node.cpp:1467-1525. -/
def findChallenge (fn : Fns H) (p : Params) (get : Store H A P) (b : Hdr H A P) (offset : Nat) :
    Option (H × Nat) :=
  if offset > p.challengeDelay then
    let adv := offset - p.challengeDelay
    if adv > p.base.maxVdfCount then none
    else some (iter fn.next adv b.challenge, b.spaceDiff)
  else
    let target := p.challengeDelay - offset
    match gather get target b with
    | none => none
    | some chain =>
      let list := (build fn none chain.reverse).reverse
      (pad fn (target + 1 - list.length) list)[target]?

/-- `while(block && block->vdf_height > target) block = find_prev(block)`, src/Node.cpp:1539-1541 and
    1572-1574. The loop ends because heights fall along a chain; running out of `fuel` stands for a loop
    that does not end. -/
def walk (get : Store H A P) (target : Nat) : Nat → Option (Hdr H A P) → Res (Option (Hdr H A P))
  | _, none => .ok none
  | 0, some _ => .ub
  | fuel + 1, some b => if b.vdfHeight > target then walk get target fuel (get b.prev) else .ok (some b)

/-- `Node::find_challenge(vdf_height)`, src/Node.cpp:1527-1546, for a node with the given peak. -/
def findChallengeAt (fn : Fns H) (p : Params) (get : Store H A P) (peak : Hdr H A P) (v : Nat) :
    Res (Option (H × Nat)) :=
  if (v > peak.vdfHeight ∧ v - peak.vdfHeight > p.base.maxVdfCount) ∨
      (¬ v > peak.vdfHeight ∧ peak.vdfHeight - v > p.maxHistory) then .ok none
  else
    walk get v (peak.vdfHeight + 1) (some peak) >>= fun o =>
      match o with
      | none => .ok none
      | some b => .ok (findChallenge fn p get b (v - b.vdfHeight))

/-- `get_block_iters`, include/mmx/utils.h:205-209. -/
def blockIters (p : Params) (timeDiff : Nat) : Res Nat :=
  if p.base.timeDiffDivider = 0 then .ub
  else .ok (u64 (timeDiff / p.base.timeDiffDivider * p.base.timeDiffConstant))

/-- `Node::get_time_diff`, src/Node.cpp:1557-1563. -/
def timeDiffOf (p : Params) (get : Store H A P) (infused : Hdr H A P) : Res Nat :=
  match findPrevClamped get p.commitDelay infused with
  | some b => .ok b.timeDiff
  | none => .throw

/-- `Node::find_infusion`, src/Node.cpp:1565-1582: the infused block's hash and the iterations. -/
def findInfusion (p : Params) (get : Store H A P) (b : Hdr H A P) (offset : Nat) :
    Res (Option (H × Nat)) :=
  (if offset < p.infuseDelay then
    let delta := p.infuseDelay - offset
    let target := if b.vdfHeight > delta then b.vdfHeight - delta else 0
    walk get target (b.vdfHeight + 1) (some b)
  else .ok (some b)) >>= fun o =>
    match o with
    | none => .ok none
    | some x => timeDiffOf p get x >>= fun d => blockIters p d >>= fun n => .ok (some (x.hash, n))

/-- `Node::get_infusion`, src/Node.cpp:1584-1591. -/
def getInfusion (p : Params) (get : Store H A P) (b : Hdr H A P) (offset : Nat) : Res (H × Nat) :=
  findInfusion p get b offset >>= fun o =>
    match o with
    | none => .throw
    | some x => .ok x

/-- A verified VDF (interface/VDF_Point.vni). -/
structure Point (H A : Type) where
  start : Nat               -- ulong
  numIters : Nat            -- ulong
  input : H
  output : H
  prev : H                  -- infused block
  rewardAddr : A
  recvTime : Int            -- long
  deriving DecidableEq, Repr

variable [DecidableEq H]

/-- `Node::find_vdf_point`, src/Node.cpp:1606-1617. `vdf_tree` is a multimap by output; entries with the
    same key stay in the order of insertion, so the tree is modelled as the list of its points in that
    order. -/
def findVdfPoint (tree : List (Point H A)) (input output : H) : Option (Point H A) :=
  tree.find? fun q => decide (q.output = output ∧ q.input = input)

/-- The loop of `find_vdf_points`, src/Node.cpp:1630-1659, with `n` points still to find: from the last
    point back to the first. `none` stands for `return {}`. -/
def pointsBack (p : Params) (get : Store H A P) (tree : List (Point H A)) (prev : Hdr H A P) :
    Nat → H → Res (Option (List (Point H A)))
  | 0, out => .ok (if out = prev.vdfOutput then some [] else none)
  | n + 1, out =>
    findInfusion p get prev n >>= fun o =>
      match o with
      | none => .ok none
      | some (inf, iters) =>
        match tree.find? fun q => decide (q.output = out ∧ q.prev = inf ∧ q.numIters = iters) with
        | none => .ok none
        | some q => pointsBack p get tree prev n q.input >>= fun r => .ok (r.map (· ++ [q]))

/-- `Node::find_vdf_points(block)`, src/Node.cpp:1619-1662. The empty list means "not found". -/
def findVdfPoints (p : Params) (get : Store H A P) (tree : List (Point H A)) (b : Hdr H A P) :
    Res (List (Point H A)) :=
  match get b.prev with
  | none => .ok []
  | some prev => pointsBack p get tree prev b.vdfCount b.vdfOutput >>= fun r => .ok (r.getD [])

/-- `fork_map` of `find_next_vdf_points`: the newest entry for a key is the first in the list. -/
abbrev ForkMap (H A : Type) := List (H × Option (Point H A))

def ForkMap.find (m : ForkMap H A) (k : H) : Option (Option (Point H A)) := m.lookup k

/-- The loop over the points with the right number of iterations, src/Node.cpp:1679-1690: the new
    `fork_map` and the new peaks (last found first). -/
def layer (inf : H) (iters : Nat) : List (Point H A) → ForkMap H A → List (Point H A) →
    ForkMap H A × List (Point H A)
  | [], m, peaks => (m, peaks)
  | q :: rest, m, peaks =>
    if (m.find q.input).isSome ∧ q.prev = inf ∧ q.numIters = iters then
      layer inf iters rest ((q.output, some q) :: m) (q :: peaks)
    else layer inf iters rest m peaks

/-- `vdf_index.equal_range(vdf_iters)`: the points whose `start + num_iters` (64 bit) is `total`, in the
    order of insertion (src/Node.cpp:464-465, src/Node_verify.cpp:376-379). -/
def atIters (index : List (Point H A)) (total : Nat) : List (Point H A) :=
  index.filter fun q => decide (u64 (q.start + q.numIters) = total)

/-- The loop over the VDF heights after a block, src/Node.cpp:1671-1696, with `n` rounds to go. -/
def nextLoop (p : Params) (get : Store H A P) (index : List (Point H A)) (b : Hdr H A P) :
    Nat → Nat → Nat → ForkMap H A → List (Point H A) → Res (ForkMap H A × List (Point H A))
  | 0, _, _, m, peaks => .ok (m, peaks)
  | n + 1, i, total, m, peaks =>
    getInfusion p get b i >>= fun x =>
      let total := u64 (total + x.2)
      let r := layer x.1 x.2 (atIters index total) m []
      if r.2 = [] then .ok (r.1, peaks) else nextLoop p get index b n (i + 1) total r.1 r.2

/-- `for(point = peaks[0]; point; point = fork_map[point->input])`, src/Node.cpp:1706-1708 (last point
    first). Running out of `fuel` stands for a loop that does not end. -/
def walkMap (m : ForkMap H A) : Nat → Option (Point H A) → Res (List (Point H A))
  | _, none => .ok []
  | 0, some _ => .ub
  | fuel + 1, some q => walkMap m fuel ((m.find q.input).getD none) >>= fun r => .ok (q :: r)

/-- `Node::find_next_vdf_points(block)`, src/Node.cpp:1664-1711. `pick` is the first element after
    `std::sort` by `recv_time`: some element with the least time, which one among equals is not
    specified. The walk visits every point at most once unless it goes round in circles. -/
def findNext (p : Params) (get : Store H A P) (pick : List (Point H A) → Option (Point H A))
    (index : List (Point H A)) (b : Hdr H A P) : Res (List (Point H A)) :=
  nextLoop p get index b p.base.maxVdfCount 0 b.vdfIters [(b.vdfOutput, none)] [] >>= fun r =>
    walkMap r.1 (index.length + 1) (pick r.2) >>= fun l => .ok l.reverse

/-- What a node asks of a time lord (interface/IntervalRequest.vni). -/
structure Request (H : Type) where
  vdfHeight : Nat
  start : Nat
  stop : Nat                -- `end`
  infuse : H
  input : Option H
  deriving DecidableEq, Repr

/-- The loop that publishes the requests, src/Node_update.cpp:404-423, with `n` rounds to go; `points` is
    the number of VDF points already verified after the peak, `output` the last output. -/
def requestLoop (p : Params) (get : Store H A P) (peak : Hdr H A P) (points : Nat) (output : H) :
    Nat → Nat → Nat → Res (List (Request H))
  | 0, _, _ => .ok []
  | n + 1, i, iters =>
    getInfusion p get peak i >>= fun x =>
      requestLoop p get peak points output n (i + 1) (u64 (iters + x.2)) >>= fun r =>
        .ok ({ vdfHeight := peak.vdfHeight + i + 1, start := iters, stop := u64 (iters + x.2),
               infuse := x.1, input := if i = points then some output else none } :: r)

/-- The requests for a peak, src/Node_update.cpp:397-423; `points` are those of `find_next_vdf_points`. -/
def requests (p : Params) (get : Store H A P) (peak : Hdr H A P) (points : List (Point H A)) :
    Res (List (Request H)) :=
  let output := match points.getLast? with
    | none => peak.vdfOutput
    | some q => q.output
  let adv := min (points.length + p.infuseDelay) p.base.maxVdfCount
  requestLoop p get peak points.length output (adv + 1) 0 peak.vdfIters

/-- What a node publishes for farmers (interface/Challenge.vni). -/
structure Challenge (H : Type) where
  vdfHeight : Nat
  challenge : H
  difficulty : Nat
  deriving DecidableEq, Repr

/-- The challenges for a peak, src/Node_update.cpp:425-441: `none` when `get_challenge` throws. -/
def challenges (fn : Fns H) (p : Params) (get : Store H A P) (peak : Hdr H A P) (points : Nat) :
    Option (List (Challenge H)) :=
  let adv := min (points + p.challengeDelay - 1) p.base.maxVdfCount
  (List.range adv).mapM fun k =>
    (findChallenge fn p get peak (k + 1)).map fun c =>
      { vdfHeight := peak.vdfHeight + (k + 1), challenge := c.1, difficulty := c.2 }

/-- How a node reads and checks a proof of space: `calc_proof_hash()`, `difficulty` and
    `verify_proof(proof, challenge, space_diff, vdf_height)` returning (src/Node_verify.cpp:205-237; what
    that takes is the subject of `Verif.Pos`). -/
structure Space (H P : Type) where
  hashOf : P → H
  difficultyOf : P → Nat
  verify : P → H → Nat → Nat → Bool

/-- The header with the number of its proofs and the difficulty of its first proof filled in. -/
def Hdr.full (sp : Space H P) (b : Hdr H A P) : Chain.Header :=
  { b.num with
    proofs := b.proof.length
    difficulty := match b.proof with
      | [] => 0
      | x :: _ => sp.difficultyOf x }

/-- `calc_next_challenge`, include/mmx/utils.h:125-149. -/
def nextChallenge (fn : Fns H) (p : Params) (prev b : Hdr H A P) : H × Bool :=
  let out := iter fn.next b.vdfCount prev.challenge
  let proofHash := if b.height ≥ p.base.hardfork2Height then b.proofChain else b.proofHash
  let isForced : Bool := u32 (prev.num.spaceForkLen + b.vdfCount) >
    u32 (p.base.maxSpaceForkLen * p.base.challengeInterval)
  let isFork := fn.fork out proofHash ||
    (isForced && decide (u32 (prev.height + 1) ≥ p.base.hardfork2Height))
  (if isFork then fn.infuse out proofHash else out, isFork)

/-- `calc_proof_chain`, include/mmx/utils.h:151-159. -/
def proofChain (fn : Fns H) (p : Params) (prev : Hdr H A P) (proofHash : H) : H :=
  if prev.height ≥ p.base.hardfork2Height then fn.chain prev.proofChain proofHash else proofHash

/-- The loop over the proofs of a block, src/Node_verify.cpp:95-111. `prev` starts as the zero hash,
    whose number is zero; `set` holds the hashes seen. -/
def orderLoop (fn : Fns H) (sp : Space H P) (proofHash : H) : List P → Nat → List H → Res Unit
  | [], _, _ => .ok ()
  | x :: rest, prev, set => do
    let hash := sp.hashOf x
    Res.chk (¬ fn.key hash < prev)
    Res.chk (¬ (set = [] ∧ proofHash ≠ hash))
    Res.chk (¬ hash ∈ set)
    orderLoop fn sp proofHash rest (fn.key hash) (hash :: set)

/-- `prev->vdf_iters` plus the iterations of the steps `i, i+1, …` (`n` of them),
    src/Node_verify.cpp:118-123. -/
def expectedIters (p : Params) (get : Store H A P) (prev : Hdr H A P) : Nat → Nat → Nat → Res Nat
  | 0, _, total => .ok total
  | n + 1, i, total =>
    getInfusion p get prev i >>= fun x => expectedIters p get prev n (i + 1) (u64 (total + x.2))

/-- `Node::verify_proof(block)`, src/Node_verify.cpp:74-180. The checks on numbers are
    `Chain.verifyProof`; the order of checks that throw is not kept. -/
def verifyProof (fn : Fns H) (sp : Space H P) (p : Params) (get : Store H A P) (b : Hdr H A P) :
    Res Unit :=
  match get b.prev with
  | none => .throw
  | some prev => do
    orderLoop fn sp b.proofHash b.proof 0 []
    Res.chk (¬ (b.proofChain ≠ proofChain fn p prev b.proofHash ∧ b.height ≥ p.base.hardfork2Height))
    let iters ← expectedIters p get prev b.vdfCount 0 prev.vdfIters
    let env : Chain.Env := {
      hashFork := fn.fork (iter fn.next b.vdfCount prev.challenge)
        (if b.height ≥ p.base.hardfork2Height then b.proofChain else b.proofHash)
      expectedIters := iters
      vdfWinner := false
      other := true }
    Chain.verifyProof p.base env (prev.full sp) (b.full sp)
    Res.chk (b.challenge = (nextChallenge fn p prev b).1)
    match findChallenge fn p get b 0 with
    | none => .throw
    | some c => Res.chk (b.proof.all (fun x => sp.verify x c.1 c.2 b.vdfHeight) = true)

/-- An entry of `proof_map[challenge]` (`proof_data_t`); the farmer's address is left out. -/
abbrev ProofList (P : Type) := List P

/-- `std::sort` by hash, src/Node_verify.cpp:46-49, as an insertion into a sorted list: the hashes in the
    list are distinct, so the sorted order is unique. -/
def insertProof (fn : Fns H) (sp : Space H P) (x : P) : ProofList P → ProofList P
  | [] => [x]
  | y :: rest =>
    if fn.key (sp.hashOf x) < fn.key (sp.hashOf y) then x :: y :: rest
    else y :: insertProof fn sp x rest

/-- `Node::add_proof`, src/Node_verify.cpp:24-50, on the list of the proof's challenge. -/
def addProof (fn : Fns H) (sp : Space H P) (l : ProofList P) (x : P) : ProofList P :=
  if l.any fun y => decide (sp.hashOf x = sp.hashOf y) then l else insertProof fn sp x l

/-- Counting of `get_vdf_reward_winner`, src/Node.cpp:1802-1812: the addresses named by the last `n`
    predecessors of a block, and the block where the loop ended. -/
def namedBy (get : Store H A P) : Nat → Hdr H A P → List A × Hdr H A P
  | 0, b => ([], b)
  | n + 1, b =>
    match get b.prev with
    | none => ([], b)
    | some prev =>
      let r := namedBy get n prev
      (prev.vdfRewardAddr ++ r.1, r.2)

variable [DecidableEq A]

/-- The loop over `win_map`, src/Node.cpp:1813-1826: `keyOf` is `hash_t(address + proof_hash)` as a
    number, `named` all addresses with repetition, and the list the distinct addresses in the order of
    the map. State: best address, its count and its number. -/
def winnerLoop (keyOf : A → Nat) (named : List A) : List A → Option A × Nat × Nat → Option A × Nat × Nat
  | [], best => best
  | a :: rest, best =>
    let n := named.count a
    let k := keyOf a
    winnerLoop keyOf named rest
      (if n > best.2.1 ∨ (n = best.2.1 ∧ k < best.2.2) then (some a, n, k) else best)

/-- `Node::get_vdf_reward_winner(block)`, src/Node.cpp:1800-1828. `order` lists the distinct addresses in
    the order of `std::map`; `keyOf` is the hash of an address with the `proof_hash` of the block where
    the counting loop ended (src/Node.cpp:1820). -/
def vdfWinner (get : Store H A P) (interval : Nat) (keyOf : H → A → Nat) (order : List A → List A)
    (b : Hdr H A P) : Option A :=
  let r := namedBy get interval b
  (winnerLoop (keyOf r.2.proofHash) r.1 (order r.1) (none, 0, 0)).1

/-- A proof of time as received (interface/ProofOfTime.vni): the fields used here. What the verification
    task recomputes from `input`, `prev` and `reward_addr` is the subject of C35, C100 and C101. -/
structure Vdf (H A : Type) where
  hash : H
  start : Nat
  numIters : Nat
  input : H
  output : H                -- `get_output()`
  prev : H
  rewardAddr : A
  deriving DecidableEq, Repr

/-- The node's bookkeeping of proofs of time (include/mmx/Node.h:526-527, 571, and the queue). -/
structure Books (H A : Type) where
  queue : List (Vdf H A × Int)      -- `vdf_queue` with the time of arrival
  pending : List H                  -- `vdf_verify_pending` (a set)
  running : List (Vdf H A × Int)    -- tasks handed to `vdf_threads` that have not reported back
  tree : List (Point H A)           -- `vdf_tree`
  index : List (Point H A)          -- `vdf_index`
  deriving DecidableEq, Repr

/-- What `verify_vdfs` decides about a queued proof before anything else (src/Node_update.cpp:61-80):
    drop it as too old or timed out, keep it until its input and infused block are known, or try it. -/
inductive Ready where
  | drop | wait | try
  deriving DecidableEq, Repr

/-- The point recorded for a verified proof, src/Node_verify.cpp:433-443. -/
def Vdf.point (q : Vdf H A) (recv : Int) : Point H A :=
  { start := q.start, numIters := q.numIters, input := q.input, output := q.output, prev := q.prev,
    rewardAddr := q.rewardAddr, recvTime := recv }

/-- The second loop of `verify_vdfs`, src/Node_update.cpp:88-103, over the proofs to try; `okStatic` tells
    whether `verify_vdf` starts a task (src/Node_verify.cpp:239-264: well-formed, signed, number of
    iterations of the infused block; it throws otherwise and the proof is gone). -/
def tryLoop (limit : Nat) (okStatic : Vdf H A → Bool) : List (Vdf H A × Int) → Books H A → Books H A
  | [], s => s
  | (q, t) :: rest, s =>
    tryLoop limit okStatic rest
      (if q.hash ∈ s.pending then s
       else if s.pending.length ≥ limit then { s with queue := s.queue ++ [(q, t)] }
       else if okStatic q then { s with pending := q.hash :: s.pending, running := (q, t) :: s.running }
       else s)

/-- Whether a queued proof is tried, kept or dropped, src/Node_update.cpp:61-80: `ready` gives the
    answers that depend on time and on other blocks; the check for a verified point with the same input
    and output (line 68) comes after the first two and before the third. -/
def decideOne (ready : Vdf H A → Ready) (tree : List (Point H A)) (q : Vdf H A) : Ready :=
  match ready q with
  | .drop => .drop
  | r => if (findVdfPoint tree q.input q.output).isSome then .drop else r

/-- `Node::verify_vdfs`, src/Node_update.cpp:25-105. `order` is the order in which the proofs are tried
    (sorted by height and trust of the time lord, lines 83-86). -/
def verifyVdfs (limit : Nat) (ready : Vdf H A → Ready) (order : List (Vdf H A × Int) → List (Vdf H A × Int))
    (okStatic : Vdf H A → Bool) (s : Books H A) : Books H A :=
  if s.queue = [] ∨ s.pending.length ≥ limit then s
  else
    let now := s.queue.filter fun e => decide (decideOne ready s.tree e.1 = .try)
    let later := s.queue.filter fun e => decide (decideOne ready s.tree e.1 = .wait)
    tryLoop limit okStatic (order now) { s with queue := later }

/-- `is_advance`, src/Node_verify.cpp:355-361: the proof continues the longest chain of points. -/
def advances (peakOut : H) (chain : List (Point H A)) (q : Vdf H A) : Bool :=
  match chain.getLast? with
  | none => decide (q.input = peakOut)
  | some x => decide (q.input = x.output)

/-- `Node::verify_vdf_success`, src/Node_verify.cpp:349-409; `chain` is the result of
    `find_next_vdf_points(peak)`. -/
def success (maxVdfCount : Nat) (peakOut : H) (chain : List (Point H A)) (q : Vdf H A) (t : Int)
    (s : Books H A) : Books H A :=
  if advances peakOut chain q ∧ chain.length ≥ maxVdfCount then s
  else { s with
    tree := s.tree ++ [q.point t]
    index := s.index ++ [q.point t]
    pending := s.pending.filter fun h => decide (h ≠ q.hash) }

/-- What can happen to the bookkeeping. -/
inductive Event (H A P : Type) where
  /-- a proof of time arrives, src/Node.cpp:450-454 -/
  | recv (q : Vdf H A) (t : Int)
  /-- an update of the node runs `verify_vdfs` -/
  | update (ready : Vdf H A → Ready) (order : List (Vdf H A × Int) → List (Vdf H A × Int))
      (okStatic : Vdf H A → Bool)
  /-- a verification task reports success; the node's peak at that moment -/
  | good (q : Vdf H A) (t : Int) (peak : Hdr H A P)
  /-- a verification task reports failure, src/Node_verify.cpp:447-455 -/
  | bad (q : Vdf H A) (t : Int)
  /-- a point arrives from a trusted node, src/Node.cpp:456-471 -/
  | point (x : Point H A)
  /-- a block with this number of iterations is committed, src/Node.cpp:953-960 -/
  | commit (iters : Nat)

/-- What the node knows besides its bookkeeping. -/
structure Cfg (H A P : Type) where
  params : Params
  get : Store H A P
  pick : List (Point H A) → Option (Point H A)
  /-- `max_vdf_verify_pending`: 1 without a GPU (src/Node.cpp:143-147) -/
  limit : Nat

/-- One event. A task can only report if it is running; reports go through the node's task queue, so
    events do not overlap. -/
def step (c : Cfg H A P) (s : Books H A) : Event H A P → Res (Books H A)
  | .recv q t => .ok { s with queue := s.queue ++ [(q, t)] }
  | .update ready order okStatic => .ok (verifyVdfs c.limit ready order okStatic s)
  | .good q t peak =>
    if (q, t) ∈ s.running then
      findNext c.params c.get c.pick s.index peak >>= fun chain =>
        .ok (success c.params.base.maxVdfCount peak.vdfOutput chain q t
          { s with running := s.running.erase (q, t) })
    else .ok s
  | .bad q t =>
    if (q, t) ∈ s.running then
      .ok { s with
        running := s.running.erase (q, t)
        pending := s.pending.filter fun h => decide (h ≠ q.hash) }
    else .ok s
  | .point x =>
    if (findVdfPoint s.tree x.input x.output).isSome then .ok s
    else .ok { s with tree := s.tree ++ [x], index := s.index ++ [x] }
  | .commit iters =>
    let gone := s.index.filter fun x => decide (u64 (x.start + x.numIters) ≤ iters)
    .ok { s with
      tree := s.tree.filter fun x => gone.all fun y => decide (y.output ≠ x.output)
      index := s.index.filter fun x => decide (¬ u64 (x.start + x.numIters) ≤ iters) }

/-- A sequence of events. -/
def run (c : Cfg H A P) : Books H A → List (Event H A P) → Res (Books H A)
  | s, [] => .ok s
  | s, e :: rest => step c s e >>= fun s => run c s rest

end Verif.Time
