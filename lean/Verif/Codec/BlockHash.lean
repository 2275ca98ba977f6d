import Verif.Codec.HashSpec
/-
  What the hashes of a block cover: src/BlockHeader.cpp, src/Block.cpp, include/mmx/tree_hash.h, and the proofs of space in it.

  The type hashes here are the constants of the generated code.
-/
namespace Verif.Codec

/-- `VNX_TYPE_HASH`, generated/src/BlockHeader.cpp:24. -/
def TH_HEADER : Nat := 0xcaae941a2fc712a6
/-- generated/src/Block.cpp:18. -/
def TH_BLOCK : Nat := 0x94965d816d328467
/-- generated/src/ProofOfSpaceOG.cpp:15. -/
def TH_OG : Nat := 0x6def5518efc37b4
/-- generated/src/ProofOfSpaceNFT.cpp:16. -/
def TH_NFT : Nat := 0x22a4d97166711bd9

/-- What the two kinds of proofs have in common, interface/ProofOfSpace.vni:5-13, ProofOfSpaceOG.vni:5-9, ProofOfSpaceNFT.vni:5-9. -/
structure SpaceFields where
  score : Nat
  plotId : Bytes
  challenge : Bytes
  difficulty : Nat
  farmerKey : Bytes
  ksize : Nat
  seed : Bytes
  xs : List Nat
  deriving DecidableEq

/-- A proof of space with a `calc_hash` that does not throw, interface/ProofOfSpaceOG.vni, ProofOfSpaceNFT.vni:5-11. -/
inductive Space where
  | og (f : SpaceFields)
  | nft (f : SpaceFields) (contract : Bytes)
  deriving DecidableEq

def Space.f : Space → SpaceFields
  | .og f => f
  | .nft f _ => f

/-- ProofOfSpaceOG.cpp:29-36, ProofOfSpaceNFT.cpp:29-36. -/
def encSpaceFields (f : SpaceFields) : Bytes :=
  fld b!"score" ++ encU f.score ++ fld b!"plot_id" ++ encBytes f.plotId ++ fld b!"challenge" ++ encBytes f.challenge
    ++ fld b!"difficulty" ++ encU f.difficulty ++ fld b!"farmer_key" ++ encBytes f.farmerKey ++ fld b!"ksize" ++ encU f.ksize
    ++ fld b!"seed" ++ encBytes f.seed ++ fld b!"proof_xs" ++ encVec encU f.xs

/-- Hash input of `calc_hash`, ProofOfSpaceOG.cpp:20-40, ProofOfSpaceNFT.cpp:20-41. -/
def encSpace : Space → Bytes
  | .og f => encU TH_OG ++ encSpaceFields f
  | .nft f contract => encU TH_NFT ++ (encSpaceFields f ++ (fld b!"contract" ++ encBytes contract))

/-- The fields of a block header that `calc_hash` looks at, interface/BlockHeader.vni:5-57. -/
structure Head where
  version : Nat
  supportFlags : Nat
  prev : Bytes
  height : Nat
  vdfHeight : Nat
  nonce : Nat
  timeStamp : Int
  timeDiff : Nat
  spaceDiff : Nat
  weight : Nat
  totalWeight : Nat
  vdfCount : Nat
  vdfIters : Nat
  vdfOutput : Bytes
  vdfRewardAddr : List Bytes
  vdfRewardPayout : Option Bytes
  proof : List Space
  proofHash : Bytes
  proofChain : Bytes
  challenge : Bytes
  isSpaceFork : Bool
  spaceForkLen : Nat
  spaceForkProofs : Nat
  rewardAmount : Nat
  rewardAddr : Option Bytes
  rewardContract : Option Bytes
  rewardAccount : Option Bytes
  rewardVote : Int
  rewardVoteSum : Int
  rewardVoteCount : Nat
  baseReward : Nat
  projectAddr : Bytes
  staticCost : Nat
  totalCost : Nat
  txCount : Nat
  txFees : Nat
  txfeeBuffer : Nat
  txHash : Bytes
  deriving DecidableEq

/-- BlockHeader.cpp:46-61. -/
def encHead1 (h : Head) : Bytes :=
  fld b!"version" ++ encU h.version ++ fld b!"support_flags" ++ encU h.supportFlags ++ fld b!"prev" ++ encBytes h.prev
    ++ fld b!"height" ++ encU h.height ++ fld b!"vdf_height" ++ encU h.vdfHeight ++ fld b!"nonce" ++ encU h.nonce
    ++ fld b!"time_stamp" ++ encI h.timeStamp ++ fld b!"time_diff" ++ encU h.timeDiff ++ fld b!"space_diff" ++ encU h.spaceDiff
    ++ fld b!"weight" ++ encU128 h.weight ++ fld b!"total_weight" ++ encU128 h.totalWeight ++ fld b!"vdf_count" ++ encU h.vdfCount
    ++ fld b!"vdf_iters" ++ encU h.vdfIters ++ fld b!"vdf_output" ++ encBytes h.vdfOutput
    ++ fld b!"vdf_reward_addr" ++ encVec encBytes h.vdfRewardAddr ++ fld b!"vdf_reward_payout" ++ encOpt encBytes h.vdfRewardPayout

/-- BlockHeader.cpp:62-72; `H` is the hash function. -/
def encHead2 (H : Bytes → Bytes) (hardfork2 : Nat) (h : Head) : Bytes :=
  fld b!"proof" ++ encVec encBytes (h.proof.map fun p => H (encSpace p)) ++ fld b!"proof_hash" ++ encBytes h.proofHash
    ++ (if h.height ≥ hardfork2 then fld b!"proof_chain" ++ encBytes h.proofChain else [])

/-- BlockHeader.cpp:73-91. -/
def encHead3 (h : Head) : Bytes :=
  fld b!"challenge" ++ encBytes h.challenge ++ fld b!"is_space_fork" ++ encBool h.isSpaceFork
    ++ fld b!"space_fork_len" ++ encU h.spaceForkLen ++ fld b!"space_fork_proofs" ++ encU h.spaceForkProofs
    ++ fld b!"reward_amount" ++ encU h.rewardAmount ++ fld b!"reward_addr" ++ encOpt encBytes h.rewardAddr
    ++ fld b!"reward_contract" ++ encOpt encBytes h.rewardContract ++ fld b!"reward_account" ++ encOpt encBytes h.rewardAccount
    ++ fld b!"reward_vote" ++ encI h.rewardVote ++ fld b!"reward_vote_sum" ++ encI h.rewardVoteSum
    ++ fld b!"reward_vote_count" ++ encU h.rewardVoteCount ++ fld b!"base_reward" ++ encU h.baseReward
    ++ fld b!"project_addr" ++ encBytes h.projectAddr ++ fld b!"static_cost" ++ encU h.staticCost
    ++ fld b!"total_cost" ++ encU h.totalCost ++ fld b!"tx_count" ++ encU h.txCount ++ fld b!"tx_fees" ++ encU h.txFees
    ++ fld b!"txfee_buffer" ++ encU h.txfeeBuffer ++ fld b!"tx_hash" ++ encBytes h.txHash

/-- Hash input of `BlockHeader::calc_hash`, BlockHeader.cpp:34-95; `ty` is what the virtual `get_type_hash()` gives. -/
def encHead (H : Bytes → Bytes) (hardfork2 ty : Nat) (h : Head) : Bytes :=
  encU ty ++ (encHead1 h ++ (encHead2 H hardfork2 h ++ encHead3 h))

/-- Input of `calc_content_hash`, BlockHeader.cpp:97-103: `hash + *farmer_sig` puts the bytes one after the other. -/
def encContent (hash : Bytes) : Option Bytes → Bytes
  | some sig => hash ++ sig
  | none => hash

/-- One round of `calc_btree_hash`, tree_hash.h:23-32. -/
def level (H : Bytes → Bytes) : List Bytes → List Bytes
  | a :: b :: l => H (a ++ b) :: level H l
  | [a] => [a]
  | [] => []

/-- The loop, tree_hash.h:22-33, with at most `n` rounds. -/
def rounds (H : Bytes → Bytes) : Nat → List Bytes → List Bytes
  | 0, l => l
  | n + 1, l => if l.length > 1 then rounds H n (level H l) else l

/-- `calc_btree_hash`, tree_hash.h:18-35. As many rounds as there are elements are enough, `rounds_done`. -/
def treeHash (H : Bytes → Bytes) (l : List Bytes) : Bytes :=
  match rounds H l.length l with
  | [] => zeroHash
  | a :: _ => a

/-- A block, interface/Block.vni and BlockHeader.vni:5-61. -/
structure Blk where
  head : Head
  hash : Bytes
  farmerSig : Option Bytes
  contentHash : Bytes
  txs : List Tx

/-- `calc_tx_hash`, Block.cpp:43-50; the content hash of each transaction is what line 24 compares it with. -/
def txHashOf (E : Env) (txs : List Tx) : Bytes := treeHash E.H (txs.map (calcHash E true))

/-- The hashes that `Block::is_valid` checks, Block.cpp:35-40, BlockHeader.cpp:27-31; the sums of costs and fees and the other
    conditions are left out. -/
def hashesValid (E : Env) (hardfork2 : Nat) (b : Blk) : Bool :=
  decide (b.head.version = 0) && decide (b.head.vdfCount = b.head.vdfRewardAddr.length)
    && decide (b.hash = E.H (encHead E.H hardfork2 TH_BLOCK b.head))
    && decide (b.contentHash = E.H (encContent b.hash b.farmerSig))
    && decide (b.head.txCount = b.txs.length) && decide (b.head.txHash = txHashOf E b.txs)

end Verif.Codec
