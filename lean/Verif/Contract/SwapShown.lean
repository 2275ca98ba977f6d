/-
  What a node tells about an exchange contract and its users: src/Node_api.cpp:1227-1351.

  The contract is that of Contract/Swap.lean. Reading its storage, now and at an earlier height, is C178. The name and address, the addresses of
  the tokens, and the fee rates and yields as floating point numbers are left out; of the yields the numbers that are divided are kept. The
  128-bit type comes from a library that is not in the repository: its `+=` is taken to wrap, and the difference with a 256-bit number is taken
  to be one of 256 bits, which is checked when it is narrowed.
-/
import Verif.Contract.SwapQuery
import Verif.Contract.Shown

namespace Verif.Contract

/-- `swap_pool_info_t`. -/
structure PoolInfo where
  bal : P2
  tot : P2
  paid : P2
  claimed : P2
  deriving DecidableEq, Repr

/-- `swap_info_t`, as far as it is about numbers of tokens; `yearly1` and `yearly7` are what is divided by `user_total` to give the yields. -/
structure SwapInfo where
  wallet : P2
  balance : P2
  volume : P2
  paid : P2
  claimed : P2
  tot : P2
  volume1 : P2
  volume7 : P2
  yearly1 : P2
  yearly7 : P2
  pools : List PoolInfo
  deriving DecidableEq, Repr

/-- A loop over both tokens that fills an array. -/
def both (f : Bool → Res Nat) : Res P2 := do
  let a ← f false
  let b ← f true
  .ok ⟨a, b⟩

/-- Reading two numbers into 128 bits each, e.g. lines 1266-1268. -/
def readPair (p : P2) : Res P2 := both fun i => toU128 (p.get i)

/-- The numbers of one pool, lines 1259-1277. -/
def poolInfo (p : Pool) : Res PoolInfo := do
  let bal ← readPair p.bal
  let paid ← readPair p.paid
  let claimed ← readPair p.claimed
  let tot ← readPair p.tot
  .ok ⟨bal, tot, paid, claimed⟩

/-- The loop over the pools, lines 1258-1298, without the sums. -/
def poolInfos : List Pool → Res (List PoolInfo)
  | [] => .ok []
  | p :: l => do
    let a ← poolInfo p
    let r ← poolInfos l
    .ok (a :: r)

/-- `+=` on 128 bits, lines 1279-1282. -/
def add128 (a b : P2) : P2 := ⟨(a.t + b.t) % 2 ^ 128, (a.c + b.c) % 2 ^ 128⟩

/-- The sums over the pools, lines 1278-1283. -/
def overPools (f : PoolInfo → P2) (l : List PoolInfo) : P2 := l.foldl (fun a p => add128 a (f p)) .zero

/-- The fees of all pools at an earlier height, lines 1284-1296; nothing if the contract was not there then. -/
def prevPaid (i : Bool) : Option Swap → Nat
  | none => 0
  | some s => s.pools.foldl (fun a p => (a + p.paid.get i) % 2 ^ 256) 0

/-- `out.volume[i] - to_uint(prev_volume[i])`, lines 1302-1313. -/
def volumeSince (now : P2) (past : Option Swap) (i : Bool) : Res Nat :=
  match past with
  | none => .ok (now.get i)
  | some s => toU128 ((now.get i + 2 ^ 256 - s.volume.get i) % 2 ^ 256)

/-- The numerator of the yields, lines 1314-1319. -/
def yearly (k : Nat) (now : P2) (past : Option Swap) (i : Bool) : Res Nat :=
  toU128 (k * ((now.get i + 2 ^ 256 - prevPaid i past) % 2 ^ 256) % 2 ^ 256)

/-- `Node::get_swap_info`, lines 1227-1321, given the contract 8640 and 60480 blocks ago. -/
def getSwapInfo (s : Swap) (day week : Option Swap) : Res SwapInfo := do
  let volume ← readPair s.volume
  let pools ← poolInfos s.pools
  let paid := overPools PoolInfo.paid pools
  let v1 ← both (volumeSince volume day)
  let v7 ← both (volumeSince volume week)
  let y1 ← both (yearly 365 paid day)
  let y7 ← both (yearly 52 paid week)
  .ok ⟨s.coins, overPools PoolInfo.bal pools, volume, paid, overPools PoolInfo.claimed pools, overPools PoolInfo.tot pools, v1, v7, y1, y7, pools⟩

/-- `swap_user_info_t`; no pool is the number −1. -/
structure UserInfo where
  pool : Option Nat
  bal : P2
  lastTot : P2
  lastPaid : P2
  earned : P2
  equivalent : P2
  unlock : Nat
  deriving DecidableEq, Repr

/-- `Node::get_swap_user_info`, lines 1323-1351; `unlock_height` has 32 bits. -/
def getUserInfo (s : Swap) (user height : Nat) : Res UserInfo :=
  match lookupU s.users user with
  | none => .ok ⟨none, .zero, .zero, .zero, .zero, .zero, 0⟩
  | some u => do
    let bal ← readPair u.bal
    let tot ← readPair u.lastTot
    let paid ← readPair u.lastPaid
    let e ← feesEarned s user
    let q ← equivalent s user height
    .ok ⟨some u.pool, bal, tot, paid, e, q, u.unlock % 2 ^ 32⟩

/-- The order in which `Node::get_swaps` lists exchanges when neither token is given, lines 1214-1222: whether there is liquidity of both
    tokens, and the yield; a yield of an exchange with liquidity of both is finite, and stands here as a number. -/
def swapBefore (l r : (Nat × Nat) × Nat) : Bool :=
  if l.1.1 = 0 ∨ l.1.2 = 0 then false
  else if r.1.1 = 0 ∨ r.1.2 = 0 then true
  else decide (l.2 > r.2)

end Verif.Contract
