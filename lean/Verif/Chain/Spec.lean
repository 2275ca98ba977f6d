import Verif.Chain.Params
/-
  Specification vocabulary for header chains, independent of the accumulator fields of the headers.
-/
namespace Verif.Chain

/-- Parameter sets for which the node's 32 and 64-bit arithmetic cannot wrap; `mainnet` is one. -/
structure Params.Sane (p : Params) : Prop where
  ci : 1 ≤ p.challengeInterval
  avg : 1 ≤ p.avgProofCount
  expected : p.challengeInterval * 100 * p.avgProofCount < 2 ^ 32
  forkLen : p.maxSpaceForkLen * p.challengeInterval < 2 ^ 32
  vdf : p.challengeInterval * 100 + p.maxVdfCount < 2 ^ 32
  proofs : p.maxProofCount < 2 ^ 15
  proofSum : p.maxProofCount * (p.challengeInterval * 100 + 1) < 2 ^ 32
  adj : p.maxDiffAdjust < 64
  div : 1 ≤ p.rewardAdjustDiv
  tick : p.rewardAdjustTick < 2 ^ 32
  interval : 1 ≤ p.rewardAdjustInterval
  intervalLt : p.rewardAdjustInterval < 2 ^ 32
  inv : 1 ≤ p.projectInverse
  space : 1 ≤ p.initialSpaceDiff
  spaceLt : p.initialSpaceDiff < 2 ^ 48
  timeLt : p.initialTimeDiff * p.timeDiffDivider < 2 ^ 64
  time : 1 ≤ p.initialTimeDiff

/-- Ranges of the header fields that a peer may choose freely (their C++ types). -/
structure Header.Typed (b : Header) : Prop where
  txFees : b.txFees < 2 ^ 64
  timeDiff : b.timeDiff < 2 ^ 64

/-- A chain of accepted headers, newest first, starting at the genesis block. -/
inductive Chain (p : Params) : List Header → Prop
  | genesis : Chain p [genesis p]
  | step {e : Env} {b prev : Header} {rest : List Header} :
      Chain p (prev :: rest) → b.Typed → accept p e prev b = .ok () → Chain p (b :: prev :: rest)

/-- The newest blocks up to and including the first one satisfying `q` (all blocks if none does). -/
def since (q : Header → Bool) : List Header → List Header
  | [] => []
  | b :: rest => if q b then [b] else b :: since q rest

/-- Blocks since the last space fork, that one included. -/
def sinceFork (l : List Header) : List Header := since (fun b => b.isSpaceFork) l

/-- Blocks of the current reward voting period: back to the last multiple of the interval. -/
def sinceAdjust (p : Params) (l : List Header) : List Header :=
  since (fun b => b.height % p.rewardAdjustInterval == 0) l

def sumNat (f : Header → Nat) (l : List Header) : Nat := (l.map f).sum
def sumInt (f : Header → Int) (l : List Header) : Int := (l.map f).sum

/-- Votes for a higher / lower base reward. -/
def upVotes (l : List Header) : Nat := l.countP (fun b => b.rewardVote == 1)
def downVotes (l : List Header) : Nat := l.countP (fun b => b.rewardVote == -1)

/-- Coins created by the block for farmers and the project (native currency). The project reward is
    paid whenever it is non-zero, the farmer reward is `reward_amount` (src/Block.cpp:103-122). -/
def paidOut (p : Params) (b : Header) : Res Nat := do
  let project ← calcProjectReward p b.txFees
  return b.rewardAmount + project + (if b.hasVdfPayout then p.vdfReward else 0)

end Verif.Chain
