import Verif.Base
/-
  The exchange contract src/contract/swap.js.

  Numbers are the contract's 256-bit unsigned integers; `+ - *` abort when the result does not fit
  (compile flag `catch_overflow`, see C21) and `/` aborts on zero. An aborted call has no effect.
  Arguments are unsigned integers; `bech32(..)` of an argument is the identity on addresses.
  References (`const balance = entry.balance`) are written back explicitly.
-/
namespace Verif.Contract

def cadd (a b : Nat) : Res Nat := if a + b < 2 ^ 256 then .ok (a + b) else .throw
def csub (a b : Nat) : Res Nat := if b ≤ a then .ok (a - b) else .throw
def cmul (a b : Nat) : Res Nat := if a * b < 2 ^ 256 then .ok (a * b) else .throw
def cdiv (a b : Nat) : Res Nat := if b = 0 then .throw else .ok (a / b)

/-- A two-element array, indexed by `false` (token) and `true` (currency). -/
structure P2 where
  t : Nat
  c : Nat
  deriving DecidableEq, Repr

def P2.get (p : P2) (i : Bool) : Nat := if i then p.c else p.t
def P2.set (p : P2) (i : Bool) (v : Nat) : P2 := if i then { p with c := v } else { p with t := v }
def P2.zero : P2 := ⟨0, 0⟩

/-- One element of `state`, swap.js:28-33. -/
structure Pool where
  bal : P2
  tot : P2
  rate : Nat
  paid : P2
  claimed : P2
  deriving DecidableEq, Repr

/-- One element of `users`, swap.js:97-101, 119. -/
structure User where
  pool : Nat
  bal : P2
  lastPaid : P2
  lastTot : P2
  unlock : Nat
  deriving DecidableEq, Repr

/-- A `send`: recipient, token, amount. -/
structure Out where
  to : Nat
  tok : Bool
  amount : Nat
  deriving DecidableEq, Repr

/-- The contract: storage, the coins it holds on chain, and every send so far. -/
structure Swap where
  pools : List Pool
  users : List (Nat × User)
  volume : P2
  coins : P2
  outs : List Out
  deriving DecidableEq, Repr

/-- swap.js:5-10. -/
def feeRates : List Nat :=
  [9223372036854776, 46116860184273879, 184467440737095516, 922337203685477581]

/-- `init`, swap.js:21-36. -/
def swapInit : Swap where
  pools := feeRates.map fun r => ⟨.zero, .zero, r, .zero, .zero⟩
  users := []
  volume := .zero
  coins := .zero
  outs := []

/-- `assert(i < 2)` and the index. -/
def side (i : Nat) : Res Bool := if i = 0 then .ok false else if i = 1 then .ok true else .throw

def lookupU : List (Nat × User) → Nat → Option User
  | [], _ => none
  | (a, u) :: l, k => if a = k then some u else lookupU l k

def insertU : List (Nat × User) → Nat → User → List (Nat × User)
  | [], k, v => [(k, v)]
  | (a, u) :: l, k, v => if a = k then (a, v) :: l else (a, u) :: insertU l k v

/-- What one call works on: the pool, the calling user's record, coins and sends. -/
structure Ctx where
  idx : Nat
  pool : Pool
  user : User
  coins : P2
  outs : List Out
  deriving DecidableEq, Repr

/-- `users[this.user]`, `assert(user)`, `state[user.pool_idx]`. -/
def loadCtx (s : Swap) (me : Nat) : Res Ctx :=
  match lookupU s.users me with
  | none => .throw
  | some u =>
    match s.pools[u.pool]? with
    | none => .throw
    | some p => .ok ⟨u.pool, p, u, s.coins, s.outs⟩

/-- Writing the references back. -/
def storeCtx (s : Swap) (me : Nat) (x : Ctx) : Swap :=
  { s with pools := s.pools.set x.idx x.pool, users := insertU s.users me x.user,
           coins := x.coins, outs := x.outs }

/-- `send(to, amount, tokens[i])` (Engine::send): aborts if the contract does not hold the amount or
    the amount has more than 128 bits. -/
def sendC (x : Ctx) (dst : Nat) (i : Bool) (amount : Nat) : Res Ctx := do
  Res.chk (amount < 2 ^ 128)
  let left ← csub (x.coins.get i) amount
  .ok { x with coins := x.coins.set i left, outs := x.outs ++ [⟨dst, i, amount⟩] }

/-- One side of `_get_earned_fees`, swap.js:43-53. -/
def earned (p : Pool) (u : User) (i : Bool) : Res Nat :=
  if u.bal.get i > 0 then do
    let total ← csub (p.paid.get i) (u.lastPaid.get i)
    if total > 0 then do
      let n ← cmul 2 total
      let n ← cmul n (u.bal.get i)
      let d ← cadd (p.tot.get i) (u.lastTot.get i)
      let q ← cdiv n d
      let r ← csub (p.paid.get i) (p.claimed.get i)
      .ok (min q r)
    else .ok 0
  else .ok 0

/-- One side of the loop in `_payout`, swap.js:69-77. -/
def payoutSide (me : Nat) (i : Bool) (amount : Nat) (x : Ctx) : Res Ctx := do
  let x ← (if amount > 0 then do
      let cl ← cadd (x.pool.claimed.get i) amount
      sendC { x with pool := { x.pool with claimed := x.pool.claimed.set i cl } } me i amount
    else .ok x)
  .ok { x with user := { x.user with
    lastPaid := x.user.lastPaid.set i (x.pool.paid.get i),
    lastTot := x.user.lastTot.set i (x.pool.tot.get i) } }

/-- `_payout`, swap.js:64-79. -/
def payoutC (me : Nat) (x : Ctx) : Res Ctx := do
  let a ← earned x.pool x.user false
  let b ← earned x.pool x.user true
  let x ← payoutSide me false a x
  payoutSide me true b x

/-- `payout`, swap.js:81-86. -/
def payout (s : Swap) (me : Nat) : Res Swap := do
  let x ← loadCtx s me
  let x ← payoutC me x
  .ok (storeCtx s me x)

/-- The end of `_add_liquid`, swap.js:111-119. -/
def creditC (height : Nat) (i : Bool) (amount : Nat) (x : Ctx) : Res Ctx := do
  let b ← cadd (x.pool.bal.get i) amount
  let t ← cadd (x.pool.tot.get i) amount
  let pool := { x.pool with bal := x.pool.bal.set i b, tot := x.pool.tot.set i t }
  let ub ← cadd (x.user.bal.get i) amount
  let un ← cadd height 8640
  .ok { x with pool := pool, user := { x.user with
    lastPaid := pool.paid, lastTot := pool.tot, bal := x.user.bal.set i ub, unlock := un } }

/-- `_add_liquid`, swap.js:88-120. -/
def addLiquidC (s : Swap) (me height : Nat) (i : Bool) (idx amount : Nat) : Res Swap := do
  let x ← (match s.pools[idx]? with
    | none => .throw
    | some p =>
      match lookupU s.users me with
      | none => .ok ⟨idx, p, ⟨idx, .zero, .zero, .zero, 0⟩, s.coins, s.outs⟩
      | some u =>
        if u.bal.get false > 0 ∨ u.bal.get true > 0 then
          if idx = u.pool then payoutC me ⟨idx, p, u, s.coins, s.outs⟩ else .throw
        else .ok ⟨idx, p, { u with pool := idx }, s.coins, s.outs⟩)
  let x ← creditC height i amount x
  .ok (storeCtx s me x)

/-- `add_liquid`, swap.js:122-128. The deposit has been credited to the contract before. -/
def addLiquid (s : Swap) (me height i idx : Nat) (tok : Bool) (amount : Nat) : Res Swap := do
  let i ← side i
  Res.chk (tok = i)
  addLiquidC s me height i idx amount

/-- The amounts computed by `_rem_liquid`, swap.js:134-150. -/
def remAmounts (p : Pool) (i : Bool) (amount : Nat) : Res (Nat × Nat) := do
  let k := !i
  let n ← cmul (p.bal.get i) amount
  let ret ← cdiv n (p.tot.get i)
  if p.bal.get i < p.tot.get i then
    if p.bal.get k > p.tot.get k then do
      let d ← csub (p.bal.get k) (p.tot.get k)
      let m ← cmul d amount
      let tr ← cdiv m (p.tot.get i)
      .ok (ret, tr)
    else .ok (ret, 0)
  else if p.bal.get k < p.tot.get k then .ok (amount, 0)
  else .ok (ret, 0)

/-- One of the two blocks in `_rem_liquid`, swap.js:152-163. -/
def takeOut (me : Nat) (i : Bool) (amount : Nat) (doSend : Bool) (x : Ctx) : Res Ctx :=
  if amount > 0 then do
    let x ← (if doSend then sendC x me i amount else .ok x)
    let b ← csub (x.pool.bal.get i) amount
    .ok { x with pool := { x.pool with bal := x.pool.bal.set i b } }
  else .ok x

/-- `_rem_liquid`, swap.js:130-171: the amounts returned and the new context. -/
def remLiquidC (me : Nat) (i : Bool) (amount : Nat) (doSend : Bool) (x : Ctx) :
    Res ((Nat × Nat) × Ctx) := do
  let (ret, tr) ← remAmounts x.pool i amount
  let x ← takeOut me i ret doSend x
  let x ← takeOut me (!i) tr doSend x
  let ub ← csub (x.user.bal.get i) amount
  let t ← csub (x.pool.tot.get i) amount
  .ok ((ret, tr), { x with pool := { x.pool with tot := x.pool.tot.set i t },
                           user := { x.user with bal := x.user.bal.set i ub } })

/-- `rem_liquid` once `users[this.user]` is loaded, swap.js:173-189. -/
def remLiquidCtx (me height : Nat) (i : Bool) (amount : Nat) (dry : Bool) (x : Ctx) :
    Res ((Nat × Nat) × Ctx) := do
  Res.chk (amount ≠ 0)
  Res.chk (dry = true ∨ x.user.unlock ≤ height)
  Res.chk (amount ≤ x.user.bal.get i)
  remLiquidC me i amount (!dry) x

/-- `rem_liquid`, swap.js:173-189. -/
def remLiquid (s : Swap) (me height i amount : Nat) (dry : Bool) : Res Swap := do
  let i ← side i
  let x ← loadCtx s me
  let (_, x) ← remLiquidCtx me height i amount dry x
  .ok (storeCtx s me x)

/-- One side of the loop in `rem_all_liquid`, swap.js:199-207. -/
def remAllSide (me height : Nat) (dry : Bool) (i : Bool) (x : Ctx) : Res Ctx :=
  if x.user.bal.get i > 0 then do
    let (_, x) ← remLiquidCtx me height i (x.user.bal.get i) dry x
    .ok x
  else .ok x

/-- `rem_all_liquid`, swap.js:191-209 (the sum returned is left out). -/
def remAllLiquid (s : Swap) (me height : Nat) (dry : Bool) : Res Swap := do
  let x ← loadCtx s me
  let x ← payoutC me x
  let x ← remAllSide me height dry false x
  let x ← remAllSide me height dry true x
  .ok (storeCtx s me x)

/-- One side of the first loop in `switch_pool`, swap.js:223-230, with `new_amount`. -/
def switchOut (me : Nat) (i : Bool) (acc : P2) (x : Ctx) : Res (P2 × Ctx) :=
  if x.user.bal.get i > 0 then do
    let ((ret, tr), x) ← remLiquidC me i (x.user.bal.get i) false x
    let a ← cadd (acc.get i) ret
    let acc := acc.set i a
    let b ← cadd (acc.get (!i)) tr
    .ok (acc.set (!i) b, x)
  else .ok (acc, x)

/-- One side of the second loop in `switch_pool`, swap.js:231-235. -/
def switchIn (me height idx : Nat) (i : Bool) (amount : Nat) (s : Swap) : Res Swap :=
  if amount > 0 then addLiquidC s me height i idx amount else .ok s

/-- `switch_pool`, swap.js:211-237. -/
def switchPool (s : Swap) (me height idx : Nat) : Res Swap := do
  Res.chk (idx < s.pools.length)
  let x ← loadCtx s me
  Res.chk (x.user.unlock ≤ height)
  let x ← payoutC me x
  let (acc, x) ← switchOut me false .zero x
  let (acc, x) ← switchOut me true acc x
  let s := storeCtx s me x
  let s ← switchIn me height idx false (acc.get false) s
  switchIn me height idx true (acc.get true) s

/-- A possible trade: the pool's number, fee, traded and handed out amounts. -/
structure Quote where
  idx : Nat
  fee : Nat
  trade : Nat
  actual : Nat
  deriving DecidableEq, Repr

/-- The amounts for one pool, swap.js:274-280: fee, traded and handed out. -/
def quote (p : Pool) (i : Bool) (a : Nat) : Res (Nat × Nat × Nat) := do
  let k := !i
  let n ← cmul (p.bal.get i) (p.bal.get k)
  let d ← cadd (p.bal.get i) a
  let q ← cdiv n d
  let tr ← csub (p.bal.get k) q
  let f ← cmul tr p.rate
  let f ← cadd (f >>> 64) 1
  let fee := min f tr
  let act ← csub tr fee
  .ok (fee, tr, act)

/-- `actual_amount_i`, which starts at zero. -/
def bestActual : Option Quote → Nat
  | none => 0
  | some b => b.actual

/-- The loop over the pools, swap.js:272-288: keeps the best quote. -/
def bestQuote (i : Bool) (a : Nat) : List Pool → Nat → Option Quote → Res (Option Quote)
  | [], _, best => .ok best
  | p :: l, j, best =>
    if p.bal.get (!i) > 0 then do
      let (fee, tr, act) ← quote p i a
      bestQuote i a l (j + 1) (if act > bestActual best then some ⟨j, fee, tr, act⟩ else best)
    else bestQuote i a l (j + 1) best

/-- The update with the chosen pool, swap.js:289-302. -/
def applyQuote (i : Bool) (a : Nat) (q : Quote) (s : Swap) : Res Swap :=
  let k := !i
  match s.pools[q.idx]? with
  | none => .throw
  | some p => do
    let v ← cadd (s.volume.get k) q.trade
    let bi ← cadd (p.bal.get i) a
    let bk ← csub ((p.bal.set i bi).get k) q.trade
    let pk ← cadd (p.paid.get k) q.fee
    .ok { s with volume := s.volume.set k v,
                 pools := s.pools.set q.idx { p with bal := (p.bal.set i bi).set k bk,
                                                     paid := p.paid.set k pk } }

/-- The main loop of `trade`, swap.js:263-303: (state, amount_left, total_actual_amount). The fuel is
    `num_iter`. -/
def tradeLoop (i : Bool) (chunk : Nat) : Nat → Swap → Nat → Nat → Res (Swap × Nat × Nat)
  | 0, s, left, total => .ok (s, left, total)
  | n + 1, s, left, total =>
    if left > 0 then do
      let a := min chunk left
      match ← bestQuote i a s.pools 0 none with
      | none => tradeLoop i chunk n s left total
      | some q => do
        let total ← cadd total q.actual
        let s ← applyQuote i a q s
        let left ← csub left a
        tradeLoop i chunk n s left total
    else .ok (s, left, total)

/-- The check against `min_trade`, swap.js:307-309. -/
def minOk (minTrade : Option Nat) (total : Nat) : Bool :=
  match minTrade with
  | some m => decide (m = 0 ∨ total ≥ m)
  | none => true

/-- `trade`, swap.js:249-315. The deposit has been credited to the contract before. -/
def trade (s : Swap) (i dst : Nat) (minTrade : Option Nat) (numIter : Nat) (tok : Bool)
    (amount : Nat) : Res Swap := do
  let i ← side i
  Res.chk (numIter > 0)
  Res.chk (tok = i)
  let n ← cadd amount numIter
  let n ← csub n 1
  let chunk ← cdiv n numIter
  let (s, left, total) ← tradeLoop i chunk numIter s amount 0
  Res.chk (left = 0)
  Res.chk (minOk minTrade total = true)
  Res.chk (total > 0)
  Res.chk (total < 2 ^ 128)
  let c ← csub (s.coins.get (!i)) total
  .ok { s with coins := s.coins.set (!i) c, outs := s.outs ++ [⟨dst, !i, total⟩] }

/-- The public calls that change something, and a plain transfer to the contract's address. -/
inductive SwapCall where
  | transfer (tok : Bool) (amount : Nat)
  | addLiquid (me height i idx : Nat) (tok : Bool) (amount : Nat)
  | payout (me : Nat)
  | remLiquid (me height i amount : Nat) (dry : Bool)
  | remAll (me height : Nat) (dry : Bool)
  | switchPool (me height idx : Nat)
  | trade (i dst : Nat) (minTrade : Option Nat) (numIter : Nat) (tok : Bool) (amount : Nat)
  deriving DecidableEq, Repr

/-- Crediting a deposit (before the call is executed). -/
def credit (s : Swap) (tok : Bool) (amount : Nat) : Swap :=
  { s with coins := s.coins.set tok (s.coins.get tok + amount) }

def swapExec (s : Swap) : SwapCall → Res Swap
  | .transfer tok amount => .ok (credit s tok amount)
  | .addLiquid me height i idx tok amount => addLiquid (credit s tok amount) me height i idx tok amount
  | .payout me => payout s me
  | .remLiquid me height i amount dry => remLiquid s me height i amount dry
  | .remAll me height dry => remAllLiquid s me height dry
  | .switchPool me height idx => switchPool s me height idx
  | .trade i dst m n tok amount => trade (credit s tok amount) i dst m n tok amount

/-- An aborted call leaves everything as it was. -/
def swapStep (s : Swap) (c : SwapCall) : Swap :=
  match swapExec s c with
  | .ok s' => s'
  | _ => s

def swapRun (s : Swap) : List SwapCall → Swap
  | [] => s
  | c :: l => swapRun (swapStep s c) l

end Verif.Contract
