import Verif.Base
/-
  Model of the chain arithmetic in include/mmx/utils.h, of Node::calc_block_reward and of the numeric
  checks a block header must pass (Node::verify_proof, Node::validate, BlockHeader::is_valid).
-/
namespace Verif.Chain

/-- The chain parameters used by the modelled functions (interface/ChainParams.vni).
    C++ widths are recorded in `Params.Typed`. -/
structure Params where
  challengeInterval : Nat   -- uint
  maxDiffAdjust : Nat       -- uint
  maxVdfCount : Nat         -- uint
  maxSpaceForkLen : Nat     -- uint
  avgProofCount : Nat       -- uint
  maxProofCount : Nat       -- uint
  minReward : Nat           -- ulong
  vdfReward : Nat           -- ulong
  vdfRewardInterval : Nat   -- uint
  rewardAdjustDiv : Nat     -- uint
  rewardAdjustTick : Nat    -- uint
  rewardAdjustInterval : Nat -- uint
  timeDiffDivider : Nat     -- ulong
  timeDiffConstant : Nat    -- ulong
  maxBlockSize : Nat        -- ulong
  maxBlockCost : Nat        -- ulong
  blockIntervalMs : Nat     -- long, modelled as a non-negative number
  fixedProjectReward : Nat  -- ulong
  projectValue : Nat        -- uint  (project_ratio.value)
  projectInverse : Nat      -- uint  (project_ratio.inverse)
  rewardActivation : Nat    -- uint
  transactionActivation : Nat -- uint
  hardfork2Height : Nat     -- uint
  initialTimeDiff : Nat     -- ulong
  initialSpaceDiff : Nat    -- ulong
  initialTimeStamp : Nat    -- ulong
  deriving Repr

/-- `calc_project_reward`, include/mmx/utils.h:222-227. The product is `uint * uint64_t`, so it
    wraps at 2^64; the sum wraps as well. A zero denominator is undefined behaviour. -/
def calcProjectReward (p : Params) (txFees : Nat) : Res Nat := do
  Res.defd (p.projectInverse ≠ 0)
  let dynamic := u64 (p.projectValue * txFees) / p.projectInverse
  return min (u64 (p.fixedProjectReward + dynamic)) (txFees / 2)

/-- `calc_min_reward_deduction`, include/mmx/utils.h:229-235. -/
def calcMinRewardDeduction (txfeeBuffer : Nat) : Nat :=
  min (max (txfeeBuffer / 8640) 1000) txfeeBuffer

/-- `calc_final_block_reward`, include/mmx/utils.h:237-243. -/
def calcFinalBlockReward (p : Params) (reward txFees : Nat) : Res Nat := do
  let feeBurn := txFees / 2
  let feeDeduction ← calcProjectReward p txFees
  return u64 (reward + sub64 txFees (max feeBurn feeDeduction))

/-- The limit literal of include/mmx/utils.h:262. -/
def rewardCap : Int := 4200000000000

/-- A value converted to `int64_t` (two's complement). -/
def i64 (n : Int) : Int := (n + 2 ^ 63) % 2 ^ 64 - 2 ^ 63

/-- Signed 64-bit range; leaving it in an addition is undefined behaviour. -/
def isI64 (n : Int) : Prop := -(2 ^ 63) ≤ n ∧ n < 2 ^ 63
instance (n : Int) : Decidable (isI64 n) := by unfold isI64; infer_instance

/-- `calc_new_base_reward`, include/mmx/utils.h:245-263. -/
def calcNewBaseReward (p : Params) (baseReward voteCount : Nat) (voteSum : Int) : Res Nat :=
  if voteCount < p.rewardAdjustInterval / 2 then
    .ok baseReward
  else do
    Res.defd (p.rewardAdjustDiv ≠ 0)
    let stepSize := max (i64 (baseReward / p.rewardAdjustDiv : Nat)) (i64 p.rewardAdjustTick)
    let reward := i64 baseReward
    let reward := if voteSum > 0 then reward + stepSize
      else if voteSum < 0 then reward - stepSize else reward
    Res.defd (isI64 reward)
    return (max (min reward rewardCap) 0).toNat

/-- `calc_new_space_diff`, include/mmx/utils.h:271-293. `expected_count` is a `uint32_t` product,
    `new_diff` a 128-bit quotient truncated to 64 bits; `16 * challenge_interval` is 32 bit. -/
def calcNewSpaceDiff (p : Params) (diff forkLen forkProofs : Nat) : Res Nat :=
  if diff >>> 48 ≠ 0 then
    .ok (sub64 diff (diff / 1024))
  else if forkLen = 0 then
    .ok diff
  else do
    let expected := u32 (forkLen * p.avgProofCount)
    Res.defd (expected ≠ 0)
    let newDiff := u64 (u128 (diff * forkProofs) / expected)
    let increase : Bool := forkProofs > expected
    let delta := if increase then sub64 newDiff diff else sub64 diff newDiff
    let divider := max (u32 (16 * p.challengeInterval) / forkLen) 1
    let adjustment := max (delta / divider) 1
    if increase then
      return u64 (diff + adjustment)
    else
      return (if diff > adjustment then diff - adjustment else 1)

/-- `calc_new_netspace_ratio`, include/mmx/utils.h:295-300 (64-bit wrap; a shift by 64 or more is
    undefined). -/
def calcNewNetspaceRatio (maxDiffAdjust prevRatio : Nat) (isOg : Bool) : Res Nat := do
  Res.defd (2 * maxDiffAdjust < 64)
  let value := if isOg then 2 ^ (2 * maxDiffAdjust) else 0
  return u64 (prevRatio * (2 ^ maxDiffAdjust - 1) + value) / 2 ^ maxDiffAdjust

/-- `calc_new_txfee_buffer`, include/mmx/utils.h:302-306. -/
def calcNewTxfeeBuffer (txfeeBuffer txFees : Nat) : Nat :=
  u64 (sub64 txfeeBuffer (calcMinRewardDeduction txfeeBuffer) + txFees)

/-- `cost_to_fee`, include/mmx/utils.h:384-392. -/
def costToFee (cost feeRatio : Nat) : Res Nat :=
  let fee := u128 (cost * feeRatio) / 1024
  if fee / 2 ^ 64 ≠ 0 then .throw else .ok fee

/-- `fee_to_cost`, include/mmx/utils.h:394-402. A zero ratio divides a 128-bit integer by zero; the
    integer library is not part of the checkout, so this is recorded as undefined. -/
def feeToCost (fee feeRatio : Nat) : Res Nat :=
  if feeRatio = 0 then .ub else
  let cost := u128 (fee * 1024) / feeRatio
  if cost / 2 ^ 64 ≠ 0 then .throw else .ok cost

/-- `clamped_sub`, include/mmx/utils.h:404-411. -/
def clampedSub (l r : Nat) : Nat := if l > r then l - r else 0

/-- `Node::validate_diff_adjust`, src/Node_validate.cpp:948-957. -/
def validateDiffAdjust (p : Params) (block prev : Nat) : Res Unit := do
  Res.defd (p.maxDiffAdjust < 64)
  let maxUpdate := max (prev >>> p.maxDiffAdjust) 1
  Res.chk (¬ (block > prev ∧ block - prev > maxUpdate))
  Res.chk (¬ (prev > block ∧ prev - block > maxUpdate))

/-- The numeric fields of a block header (interface/BlockHeader.vni). -/
structure Header where
  height : Nat              -- uint
  vdfHeight : Nat           -- uint
  timeStamp : Int           -- long
  timeDiff : Nat            -- ulong
  spaceDiff : Nat           -- ulong
  weight : Nat              -- uint128
  totalWeight : Nat         -- uint128
  vdfCount : Nat            -- uint
  vdfIters : Nat            -- ulong
  proofs : Nat              -- proof.size()
  difficulty : Nat          -- proof[0]->difficulty (ulong)
  isSpaceFork : Bool
  spaceForkLen : Nat        -- uint
  spaceForkProofs : Nat     -- uint
  hasReward : Bool          -- reward_addr is set
  rewardAmount : Nat        -- ulong
  hasVdfPayout : Bool       -- vdf_reward_payout is set
  rewardVote : Int          -- char (signed)
  rewardVoteSum : Int       -- int
  rewardVoteCount : Nat     -- uint
  baseReward : Nat          -- ulong
  staticCost : Nat          -- ulong
  totalCost : Nat           -- ulong
  txCount : Nat             -- uint
  txFees : Nat              -- ulong
  txfeeBuffer : Nat         -- ulong
  deriving Repr

/-- What the modelled checks take from hashes, signatures and other blocks. -/
structure Env where
  /-- `check_space_fork` of the next challenge, utils.h:116-123 -/
  hashFork : Bool
  /-- `prev->vdf_iters` plus the iterations demanded by `get_infusion`, Node_verify.cpp:118-123 -/
  expectedIters : Nat
  /-- whether `get_vdf_reward_winner` names a winner, Node_validate.cpp:195-205 -/
  vdfWinner : Bool
  /-- every check not modelled here (hashes, signatures, proofs, reward contract, transactions) -/
  other : Bool

/-- `is_space_fork` as computed by `calc_next_challenge`, include/mmx/utils.h:125-149. -/
def nextIsFork (p : Params) (e : Env) (prev b : Header) : Bool :=
  let isForced : Bool :=
    u32 (prev.spaceForkLen + b.vdfCount) > u32 (p.maxSpaceForkLen * p.challengeInterval)
  e.hashFork || (isForced && decide (u32 (prev.height + 1) ≥ p.hardfork2Height))

/-- `calc_block_weight`, include/mmx/utils.h:308-318. -/
def calcBlockWeight (p : Params) (b prev : Header) : Res Nat :=
  if b.proofs = 0 then .ok 0 else do
    Res.defd (b.vdfCount ≠ 0)
    Res.defd (p.timeDiffConstant ≠ 0)
    let timeDiff := sub64 b.vdfIters prev.vdfIters / b.vdfCount / p.timeDiffConstant
    return u128 (timeDiff * b.difficulty * p.avgProofCount)

/-- `Node::calc_block_reward`, src/Node.cpp:1779-1798; `prev` is the block's predecessor (the case of
    a missing predecessor is excluded by the callers). -/
def calcBlockReward (p : Params) (b prev : Header) (totalFees : Nat) : Res Nat :=
  if b.proofs = 0 then .ok 0
  else if b.height < p.rewardActivation then .ok 0
  else
    let deduction := calcMinRewardDeduction prev.txfeeBuffer
    let reward := prev.baseReward
    let reward := if p.minReward > deduction then u64 (reward + (p.minReward - deduction)) else reward
    calcFinalBlockReward p reward totalFees

/-- Numeric part of `BlockHeader::is_valid`, src/BlockHeader.cpp:15-32. -/
def headerIsValid (b : Header) : Prop :=
  (b.height ≠ 0 → b.proofs ≠ 0 ∧ 1 ≤ b.vdfCount) ∧ (b.rewardAmount = 0 ∨ b.hasReward)
instance (b : Header) : Decidable (headerIsValid b) := by unfold headerIsValid; infer_instance

/-- Numeric part of `Node::verify_proof(block)`, src/Node_verify.cpp:74-180. -/
def verifyProof (p : Params) (e : Env) (prev b : Header) : Res Unit := do
  Res.chk (b.vdfCount ≤ p.maxVdfCount)
  Res.chk (b.vdfHeight = u32 (prev.vdfHeight + b.vdfCount))
  Res.chk (b.proofs ≠ 0)
  Res.chk (b.proofs ≤ p.maxProofCount)
  Res.chk (b.vdfIters = e.expectedIters)
  Res.chk (¬ b.timeDiff < p.timeDiffDivider)
  validateDiffAdjust p b.timeDiff prev.timeDiff
  let isSpaceFork := nextIsFork p e prev b
  Res.chk (b.isSpaceFork = isSpaceFork)
  if isSpaceFork then do
    let d ← calcNewSpaceDiff p prev.spaceDiff prev.spaceForkLen prev.spaceForkProofs
    Res.chk (b.spaceDiff = d)
    Res.chk (b.spaceForkLen = b.vdfCount)
    Res.chk (b.spaceForkProofs = b.proofs)
  else do
    Res.chk (b.spaceDiff = prev.spaceDiff)
    Res.chk (b.spaceForkLen = u32 (prev.spaceForkLen + b.vdfCount))
    Res.chk (b.spaceForkProofs = prev.spaceForkProofs + b.proofs)
  let w ← calcBlockWeight p b prev
  Res.chk (b.weight = w)
  Res.chk (b.totalWeight = u128 (prev.totalWeight + b.weight))

/-- Numeric part of `Node::validate(block)`, src/Node_validate.cpp:127-241 and 353-363. -/
def validate (p : Params) (e : Env) (prev b : Header) : Res Unit := do
  Res.chk (headerIsValid b)
  Res.chk (b.height = u32 (prev.height + 1))
  Res.chk (b.spaceForkLen ≤ u32 (p.challengeInterval * 100))
  Res.chk (0 ≤ b.timeStamp)
  Res.chk (b.timeStamp - prev.timeStamp ≤ (b.vdfCount * p.blockIntervalMs * 2 : Nat))
  Res.chk (¬ b.timeStamp - prev.timeStamp < (b.vdfCount * p.blockIntervalMs / 2 : Nat))
  Res.chk (¬ (b.timeDiff < p.timeDiffDivider ∨ b.spaceDiff = 0))
  Res.chk (b.staticCost ≤ p.maxBlockSize)
  Res.chk (b.totalCost ≤ p.maxBlockCost)
  Res.chk (b.txfeeBuffer = calcNewTxfeeBuffer prev.txfeeBuffer prev.txFees)
  Res.chk (-1 ≤ b.rewardVote ∧ b.rewardVote ≤ 1)
  Res.defd (p.vdfRewardInterval ≠ 0)
  Res.chk (if b.height % p.vdfRewardInterval = 0 then b.hasVdfPayout = e.vdfWinner
    else b.hasVdfPayout = false)
  Res.defd (p.rewardAdjustInterval ≠ 0)
  if b.height % p.rewardAdjustInterval = 0 then do
    let r ← calcNewBaseReward p prev.baseReward prev.rewardVoteCount prev.rewardVoteSum
    Res.chk (b.baseReward = r)
    Res.chk (b.rewardVoteSum = b.rewardVote)
    Res.chk (b.rewardVoteCount = if b.rewardVote ≠ 0 then 1 else 0)
  else do
    Res.chk (b.baseReward = prev.baseReward)
    Res.chk (b.rewardVoteSum = prev.rewardVoteSum + b.rewardVote)
    Res.chk (b.rewardVoteCount = u32 (prev.rewardVoteCount + if b.rewardVote ≠ 0 then 1 else 0))
  Res.chk (¬ (b.height < p.transactionActivation ∧ b.txCount ≠ 0))
  Res.chk e.other
  if b.hasReward then do
    let amount ← calcBlockReward p b prev b.txFees
    Res.chk (b.rewardAmount = amount)
  else
    Res.chk (b.rewardAmount = 0)

/-- A header is accepted on top of `prev`: both `Node::verify_proof` and `Node::validate` return. -/
def accept (p : Params) (e : Env) (prev b : Header) : Res Unit := do
  verifyProof p e prev b
  validate p e prev b

/-- `BlockHeader::set_space_diff`, src/BlockHeader.cpp:139-152 (block creation). -/
def setSpaceDiff (p : Params) (prev b : Header) : Res Header :=
  if b.isSpaceFork then do
    let d ← calcNewSpaceDiff p prev.spaceDiff prev.spaceForkLen prev.spaceForkProofs
    return { b with spaceDiff := d, spaceForkLen := b.vdfCount, spaceForkProofs := u32 b.proofs }
  else
    .ok { b with spaceDiff := prev.spaceDiff,
                 spaceForkLen := u32 (prev.spaceForkLen + b.vdfCount),
                 spaceForkProofs := u32 (prev.spaceForkProofs + b.proofs) }

/-- `BlockHeader::set_base_reward`, src/BlockHeader.cpp:154-165 (block creation). -/
def setBaseReward (p : Params) (prev b : Header) : Res Header := do
  Res.defd (p.rewardAdjustInterval ≠ 0)
  if b.height % p.rewardAdjustInterval = 0 then do
    let r ← calcNewBaseReward p prev.baseReward prev.rewardVoteCount prev.rewardVoteSum
    return { b with baseReward := r, rewardVoteSum := b.rewardVote,
                    rewardVoteCount := if b.rewardVote ≠ 0 then 1 else 0 }
  else
    return { b with baseReward := prev.baseReward,
                    rewardVoteSum := prev.rewardVoteSum + b.rewardVote,
                    rewardVoteCount := u32 (prev.rewardVoteCount + if b.rewardVote ≠ 0 then 1 else 0) }

/-- What a node puts into a new block besides values computed from the previous header. -/
structure BlockInput where
  vdfPoints : Nat           -- number of VDF points extending the previous block
  iters : Nat               -- their total iterations
  proofsFound : Nat         -- proofs known for the challenge
  difficulty : Nat          -- difficulty of the best proof
  /-- `none`: no reference block 100 blocks back. `some none`: no begin/end block.
      `some (some d)`: `avg_diff * factor + 0.5` converted to an integer (floating point, any value). -/
  timeCandidate : Option (Option Int)
  now : Int                 -- time_begin
  vote : Int
  txCount : Nat
  txFees : Nat
  staticCost : Nat
  totalCost : Nat
  hasReward : Bool          -- reward address present after signing (plot NFT target or farmer address)

/-- Time difficulty of a new block, src/Node_update.cpp:941, 980-1002. `std::max<int64_t>` compares as
    signed; the clamp works on `uint64_t`. -/
def newTimeDiff (p : Params) (prev : Nat) (cand : Option (Option Int)) : Nat :=
  match cand with
  | none => prev
  | some c =>
    let d := match c with
      | none => prev
      | some x => (max x p.timeDiffDivider).toNat
    let maxUpdate := max (prev >>> p.maxDiffAdjust) 1
    let d := if prev > maxUpdate then max d (prev - maxUpdate) else d
    min d (u64 (prev + maxUpdate))

/-- Time stamp of a new block, src/Node_update.cpp:1003-1009. -/
def newTimeStamp (p : Params) (prev now : Int) (vdfCount : Nat) : Int :=
  let delta := now - prev
  let delta := min delta (vdfCount * p.blockIntervalMs * 2 : Nat)
  let delta := max delta (vdfCount * p.blockIntervalMs / 2 : Nat)
  prev + delta

/-- `Node::make_block`, src/Node_update.cpp:923-1049 (numeric fields; `e.hashFork` and `e.vdfWinner`
    stand for the hash and history look-ups). `none` when there is no VDF point or no proof. -/
def makeBlock (p : Params) (e : Env) (prev : Header) (x : BlockInput) : Res (Option Header) :=
  if x.vdfPoints = 0 ∨ x.proofsFound = 0 then .ok none else do
    Res.defd (p.vdfRewardInterval ≠ 0)
    let active := ¬ u32 (prev.height + 1) < p.transactionActivation
    let b : Header := {
      height := u32 (prev.height + 1)
      vdfHeight := u32 (prev.vdfHeight + x.vdfPoints)
      timeStamp := newTimeStamp p prev.timeStamp x.now x.vdfPoints
      timeDiff := newTimeDiff p prev.timeDiff x.timeCandidate
      spaceDiff := 0, weight := 0, totalWeight := 0
      vdfCount := x.vdfPoints
      vdfIters := u64 (prev.vdfIters + x.iters)
      proofs := min x.proofsFound p.maxProofCount
      difficulty := x.difficulty
      isSpaceFork := false, spaceForkLen := 0, spaceForkProofs := 0
      hasReward := x.hasReward, rewardAmount := 0
      hasVdfPayout := if u32 (prev.height + 1) % p.vdfRewardInterval = 0 then e.vdfWinner else false
      rewardVote := x.vote, rewardVoteSum := 0, rewardVoteCount := 0, baseReward := 0
      staticCost := if active then x.staticCost else 0
      totalCost := if active then x.totalCost else 0
      txCount := if active then x.txCount else 0
      txFees := if active then x.txFees else 0
      txfeeBuffer := calcNewTxfeeBuffer prev.txfeeBuffer prev.txFees }
    let b := { b with isSpaceFork := nextIsFork p e prev b }
    let w ← calcBlockWeight p b prev
    let b := { b with weight := w, totalWeight := u128 (prev.totalWeight + w) }
    let r ← calcBlockReward p b prev b.txFees
    let b := { b with rewardAmount := r }
    let b ← setSpaceDiff p prev b
    let b ← setBaseReward p prev b
    return some b

/-- The numeric fields of the genesis block, `Node::init_chain`, src/Node.cpp:288-345; fields that are
    not assigned keep the default zero. Genesis transactions carry no execution result, so
    `Block::finalize` leaves cost and fees at zero (static cost and transaction count, which no later
    block refers to, are recorded as zero here). -/
def genesis (p : Params) : Header where
  height := 0
  vdfHeight := 0
  timeStamp := p.initialTimeStamp
  timeDiff := u64 (p.initialTimeDiff * p.timeDiffDivider)
  spaceDiff := p.initialSpaceDiff
  weight := 0
  totalWeight := 0
  vdfCount := 0
  vdfIters := 0
  proofs := 0
  difficulty := 0
  isSpaceFork := false
  spaceForkLen := 0
  spaceForkProofs := 0
  hasReward := false
  rewardAmount := 0
  hasVdfPayout := false
  rewardVote := 0
  rewardVoteSum := 0
  rewardVoteCount := 0
  baseReward := 0
  staticCost := 0
  totalCost := 0
  txCount := 0
  txFees := 0
  txfeeBuffer := 0

/-- The chain parameters of config/mainnet/chain/params.json (missing entries: defaults of
    interface/ChainParams.vni). -/
def mainnet : Params where
  challengeInterval := 256
  maxDiffAdjust := 10
  maxVdfCount := 100
  maxSpaceForkLen := 8
  avgProofCount := 4
  maxProofCount := 20
  minReward := 500000
  vdfReward := 200000
  vdfRewardInterval := 20
  rewardAdjustDiv := 100
  rewardAdjustTick := 10000
  rewardAdjustInterval := 8640
  timeDiffDivider := 100
  timeDiffConstant := 1000000
  maxBlockSize := 250000000
  maxBlockCost := 1000000000
  blockIntervalMs := 10000
  fixedProjectReward := 50000
  projectValue := 1
  projectInverse := 100
  rewardActivation := 10000
  transactionActivation := 20000
  hardfork2Height := 5050000
  initialTimeDiff := 600
  initialSpaceDiff := 100
  initialTimeStamp := 1737119420000

end Verif.Chain
