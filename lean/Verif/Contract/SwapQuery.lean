/-
  What a node tells of an exchange contract without a transaction: `get_swap_trade_estimate`, `get_swap_fees_earned` and
  `get_swap_equivalent_liquidity`, src/Node_api.cpp:1408-1429, which run the contract (`call_contract`, lines 889-932,
  without commit, and without crediting a deposit); and the calls `Wallet::swap_rem_liquid` makes, src/Wallet.cpp:481-505.
  Here the values returned by swap.js are needed, which Swap.lean leaves out.
-/
import Verif.Contract.SwapLemmas

namespace Verif.Contract

/-- `tradeLoop` with `out`, swap.js:289-302. -/
def tradeLoopR (i : Bool) (chunk : Nat) : Nat → Swap → Nat → Nat → P2 → Res (Swap × Nat × Nat × P2)
  | 0, s, left, total, out => .ok (s, left, total, out)
  | n + 1, s, left, total, out =>
    if left > 0 then
      bestQuote i (min chunk left) s.pools 0 none >>= fun b =>
      match b with
      | none => tradeLoopR i chunk n s left total out
      | some q => do
        let total ← cadd total q.actual
        let o0 ← cadd (out.get false) q.trade
        let o1 ← cadd (out.get true) q.fee
        let s ← applyQuote i (min chunk left) q s
        let left ← csub left (min chunk left)
        tradeLoopR i chunk n s left total ⟨o0, o1⟩
    else .ok (s, left, total, out)

/-- `trade` with the value returned, swap.js:249-315. -/
def tradeR (s : Swap) (i dst : Nat) (minTrade : Option Nat) (numIter : Nat) (tok : Bool)
    (amount : Nat) : Res (Swap × P2) := do
  let i ← side i
  Res.chk (numIter > 0)
  Res.chk (tok = i)
  let n ← cadd amount numIter
  let n ← csub n 1
  let chunk ← cdiv n numIter
  let r ← tradeLoopR i chunk numIter s amount 0 .zero
  Res.chk (r.2.1 = 0)
  Res.chk (minOk minTrade r.2.2.1 = true)
  Res.chk (r.2.2.1 > 0)
  Res.chk (r.2.2.1 < 2 ^ 128)
  let c ← csub (r.1.coins.get (!i)) r.2.2.1
  .ok ({ r.1 with coins := r.1.coins.set (!i) c, outs := r.1.outs ++ [⟨dst, !i, r.2.2.1⟩] }, r.2.2.2)

/-- `get_swap_trade_estimate`, lines 1408-1419.  `info.tokens[i]` of an array of two: undefined for another `i`.  The
    address of the contract itself is the recipient.  The two numbers are below 2^128, as balances are. -/
def estimate (s : Swap) (self i amount numIter : Nat) : Res (Nat × Nat) :=
  if i ≥ 2 then .ub else do
    let r ← tradeR s i self none numIter (decide (i = 1)) amount
    .ok (r.2.get false - r.2.get true, r.2.get true)

/-- One round of the loop in `rem_all_liquid` with `out`, swap.js:199-207. -/
def remAllSideR (me height : Nat) (dry : Bool) (i : Bool) (a : P2 × Ctx) : Res (P2 × Ctx) :=
  if a.2.user.bal.get i > 0 then do
    let r ← remLiquidCtx me height i (a.2.user.bal.get i) dry a.2
    let u ← cadd (a.1.get i) r.1.1
    let v ← cadd (a.1.get (!i)) r.1.2
    .ok ((a.1.set i u).set (!i) v, r.2)
  else .ok a

/-- `rem_all_liquid`, swap.js:191-209, with the value returned. -/
def remAllR (s : Swap) (me height : Nat) (dry : Bool) : Res (P2 × Swap) := do
  let x ← loadCtx s me
  let x ← payoutC me x
  let r ← remAllSideR me height dry false (.zero, x)
  let r ← remAllSideR me height dry true r
  .ok (r.1, storeCtx s me r.2)

/-- `get_swap_equivalent_liquidity`, lines 1426-1429: a dry run. -/
def equivalent (s : Swap) (user height : Nat) : Res P2 := do
  let r ← remAllR s user height true
  .ok r.1

/-- `get_swap_fees_earned`, lines 1421-1424, by `get_earned_fees`, swap.js:57-62. -/
def feesEarned (s : Swap) (user : Nat) : Res P2 := do
  let x ← loadCtx s user
  let a ← earned x.pool x.user false
  let b ← earned x.pool x.user true
  .ok ⟨a, b⟩

/-- The call for one token of `Wallet::swap_rem_liquid`, Wallet.cpp:496-505. -/
def remCall (me height i amount : Nat) (s : Swap) : Res Swap :=
  if amount ≠ 0 then remLiquid s me height i amount false else .ok s

/-- The operations of the transaction made by `Wallet::swap_rem_liquid`, Wallet.cpp:489-505, one after another; if one
    fails there is no effect. -/
def walletRemove (s : Swap) (me height : Nat) (amount : P2) : Res Swap := do
  let s ← payout s me
  let s ← remCall me height 0 (amount.get false) s
  remCall me height 1 (amount.get true) s

end Verif.Contract
