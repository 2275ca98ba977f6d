import Verif.Contract.Small
/-
  src/contract/crypto_horse_race.js. See Contract/Kit.lean for the conventions.
  Simplified: `index` is a number (any other value aborts at `index < size(balance)`); a wallet without an entry
  reads as 0 (get_wallet_balance, 68-75), so `wallets` is a function; `init` only runs at deployment.
-/
namespace Verif.Contract

open Res

/-- crypto_horse_race.js:6-12. `balance[i]` is the currency behind horse `i`, `wallets u i` the tokens of user `u`. -/
structure Race where
  currency : Nat
  precision : Nat
  scale : Nat
  activation : Nat
  wallets : Nat → Nat → Nat
  balance : List Nat

/-- One iteration of crypto_horse_race.js:36; the shifts drop high bits, the sum is checked. -/
def priceStep (x y : Nat) : Res Nat := do
  let q ← cdiv (u256 (x * 2 ^ 64)) y
  let s ← cadd (u256 (y * 2 ^ 64)) q
  .ok (s / 2 ^ 65)

/-- The loop in crypto_horse_race.js:35-37, `n` iterations left. -/
def priceLoop (x : Nat) : Nat → Nat → Res Nat
  | 0, y => .ok y
  | n + 1, y => if 0 < y then priceStep x y >>= priceLoop x n else .ok y

/-- crypto_horse_race.js:31-39. -/
def calcPrice (precision x : Nat) : Res Nat := do
  let x ← cdiv x precision
  let y ← priceLoop x 20 x
  cmul y precision

/-- `balance[index]` after the bounds check. -/
def horse (s : Race) (i : Nat) : Res Nat :=
  match s.balance[i]? with
  | some b => .ok b
  | none => .throw

/-- crypto_horse_race.js:46-49. -/
def buyPrice (s : Race) (i amount : Nat) : Res Nat := do
  let b ← horse s i
  let x ← cadd b amount
  calcPrice s.precision x

/-- crypto_horse_race.js:51-54. -/
def sellPrice (s : Race) (i amount : Nat) : Res Nat := do
  let b ← horse s i
  let p ← calcPrice s.precision b
  let n ← cmul amount p
  let q ← cdiv n s.scale
  let x ← csub b q
  calcPrice s.precision x

/-- `wallet[index] = v` for the wallet of `u`. -/
def setWallet (f : Nat → Nat → Nat) (u i v : Nat) : Nat → Nat → Nat :=
  fun u' i' => if u' = u ∧ i' = i then v else f u' i'

inductive RaceCall where
  | buy (index : Nat)
  | sell (index amount : Nat)
  | transfer (target amount index : Nat)
  deriving DecidableEq, Repr

/-- `get_wallet(this.user)` asserts a user, crypto_horse_race.js:56-59. -/
def theUser (e : Env) : Res Nat :=
  match e.user with
  | some u => .ok u
  | none => .throw

/-- crypto_horse_race.js:77-132. In `transfer` both wallets may be the same map: the second line reads
    what the first one wrote. -/
def raceExec (e : Env) (c : RaceCall) (w : W Race) : Res (W Race) :=
  match c with
  | .buy i => do
    chk (i < w.st.balance.length)
    chk (w.st.activation ≤ e.height)
    let amount ← depositIn e w.st.currency
    let price ← buyPrice w.st i amount
    let n ← cmul amount w.st.scale
    let tokens ← cdiv n price
    let u ← theUser e
    let have' ← cadd (w.st.wallets u i) tokens
    let b ← horse w.st i
    let b' ← cadd b amount
    .ok { w with st := { w.st with wallets := setWallet w.st.wallets u i have', balance := w.st.balance.set i b' } }
  | .sell i amount => do
    chk (0 < amount)
    chk (i < w.st.balance.length)
    let u ← theUser e
    chk (amount ≤ w.st.wallets u i)
    let price ← sellPrice w.st i amount
    let n ← cmul amount price
    let ret ← cdiv n w.st.scale
    let b ← horse w.st i
    let b' ← csub b ret
    send e u ret w.st.currency
      { w with st := { w.st with wallets := setWallet w.st.wallets u i (w.st.wallets u i - amount), balance := w.st.balance.set i b' } }
  | .transfer target amount i => do
    chk (0 < amount)
    chk (i < w.st.balance.length)
    let u ← theUser e
    chk (amount ≤ w.st.wallets u i)
    let f := setWallet w.st.wallets u i (w.st.wallets u i - amount)
    let t ← cadd (f target i) amount
    .ok { w with st := { w.st with wallets := setWallet f target i t } }

/-- crypto_horse_race.js:15-29, with `precision` and `scale` the powers of ten computed there. -/
def raceInit (horses currency precision scale activation : Nat) : W Race :=
  fresh ⟨currency, precision, scale, activation, fun _ _ => 0, List.replicate horses 0⟩

end Verif.Contract
