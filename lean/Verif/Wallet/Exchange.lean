/-
  What the wallet asks of an exchange: `Wallet::swap_trade`, `swap_add_liquid` and `swap_rem_liquid` (src/Wallet.cpp:417-520), and how
  the contract src/contract/swap.js takes it.

  Left out: how the transaction is funded (C72), signed and sent; and that the address goes to the contract as a string (C76).
-/
import Verif.Contract.Swap

namespace Verif.Wallet.Exchange

open Verif.Contract

/-- An argument of a call: a number, an address, a truth value, or none. -/
inductive Arg where
  | num (n : Nat)
  | addr (a : Nat)
  | bool (b : Bool)
  | null
  deriving DecidableEq

/-- An operation of a transaction, `Execute` or `Deposit` (currency and amount). -/
structure Op where
  address : Nat
  method : String
  args : List Arg
  user : Option Nat
  deposit : Option (Nat × Nat)
  deriving DecidableEq

/-- One round of the loop at src/Wallet.cpp:424-428. -/
def matchToken (currency token : Nat) (i : Nat) (found : Option Nat) : Option Nat := if currency = token then some i else found

/-- The loop, src/Wallet.cpp:423-428; `none` is -1. -/
def tokenIndex (tokens : Nat × Nat) (currency : Nat) : Option Nat :=
  matchToken currency tokens.2 1 (matchToken currency tokens.1 0 none)

/-- src/Wallet.cpp:435. -/
def optArg : Option Nat → Arg
  | some m => .num m
  | none => .null

/-- `Wallet::swap_trade`, src/Wallet.cpp:417-441, with `deposit`, lines 281-314; `none`: it throws. `tokens` is what `get_swap_info` says
    (see C185), `me` the first address of the wallet. `num_iter` is not negative here. -/
def swapTrade (tokens : Nat × Nat) (me address amount currency : Nat) (minTrade : Option Nat) (numIter : Nat) (user : Option Nat) :
    Option (List Op) :=
  match tokenIndex tokens currency with
  | some i => some [⟨address, "trade", [.num i, .addr me, optArg minTrade, .num numIter], user, some (currency, amount)⟩]
  | none => none

/-- One round of the loop of `swap_add_liquid`, src/Wallet.cpp:453-464. -/
def addOp (me address pool token i amount : Nat) : List Op :=
  if amount ≠ 0 then [⟨address, "add_liquid", [.num i, .num pool], some me, some (token, amount)⟩] else []

/-- `Wallet::swap_add_liquid`, src/Wallet.cpp:443-479. -/
def swapAddLiquid (tokens : Nat × Nat) (me address : Nat) (amount : Nat × Nat) (pool : Nat) : List Op :=
  addOp me address pool tokens.1 0 amount.1 ++ addOp me address pool tokens.2 1 amount.2

/-- One round of the loop of `swap_rem_liquid`, src/Wallet.cpp:496-505. -/
def remOp (me address i amount : Nat) : List Op :=
  if amount ≠ 0 then [⟨address, "rem_liquid", [.num i, .num amount, .bool false], some me, none⟩] else []

/-- `Wallet::swap_rem_liquid`, src/Wallet.cpp:481-520. -/
def swapRemLiquid (me address : Nat) (amount : Nat × Nat) : List Op :=
  ⟨address, "payout", [], some me, none⟩ :: (remOp me address 0 amount.1 ++ remOp me address 1 amount.2)

/-- Which of its two coins a deposit is in, for a contract that was made with two different ones (swap.js:25). -/
def sideOf (tokens : Nat × Nat) (currency : Nat) : Option Bool :=
  if currency = tokens.1 then some false else if currency = tokens.2 then some true else none

/-- An optional number, swap.js:307. -/
def readOpt : Arg → Option (Option Nat)
  | .num m => some (some m)
  | .null => some none
  | _ => none

/-- How the contract reads a call, by the signatures of swap.js (lines 81, 122, 173, 249); `none`: there is no such method, or the
    arguments are of another kind. Only the methods that the wallet uses. -/
def readCall (tokens : Nat × Nat) (height : Nat) (op : Op) : Option SwapCall :=
  match op.method, op.args, op.user, op.deposit with
  | "trade", [.num i, .addr dst, m, .num n], _, some (c, amount) =>
    match sideOf tokens c, readOpt m with
    | some tok, some m => some (.trade i dst m n tok amount)
    | _, _ => none
  | "add_liquid", [.num i, .num pool], some me, some (c, amount) =>
    match sideOf tokens c with
    | some tok => some (.addLiquid me height i pool tok amount)
    | none => none
  | "payout", [], some me, none => some (.payout me)
  | "rem_liquid", [.num i, .num amount, .bool dry], some me, none => some (.remLiquid me height i amount dry)
  | _, _, _, _ => none

/-- The operations of a transaction, one after the other; it fails as a whole (C26). `none`: it fails. -/
def exec (tokens : Nat × Nat) (height : Nat) : List Op → Swap → Option Swap
  | [], s => some s
  | op :: l, s =>
    match readCall tokens height op with
    | none => none
    | some c =>
      match swapExec s c with
      | .ok s' => exec tokens height l s'
      | _ => none

/-- What a transaction takes from the wallet for the exchange, by currency. -/
def paid (ops : List Op) (currency : Nat) : Nat :=
  (ops.map fun op => match op.deposit with
    | some (c, n) => if c = currency then n else 0
    | none => 0).sum

end Verif.Wallet.Exchange
