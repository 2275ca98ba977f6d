/-
  What a node records about liquidity in exchanges: `swap_liquid_map` in `Node::apply` of a transaction
  (src/Node.cpp:1223-1264) and `Node::get_swap_liquidity_by` (src/Node_api.cpp:1431-1454).
-/
import Verif.Contract.Swap

namespace Verif.Index

open Verif.Contract

/-- `swap_liquid_map` (include/mmx/Node.h:515): liquidity by user and exchange. -/
abbrev Liquid := List ((Nat × Nat) × P2)

def findL (k : Nat × Nat) : Liquid → Option P2
  | [] => none
  | (a, b) :: l => if a = k then some b else findL k l

def putL (k : Nat × Nat) (v : P2) : Liquid → Liquid
  | [] => [(k, v)]
  | (a, b) :: l => if a = k then (a, v) :: l else (a, b) :: putL k v l

/-- `std::array<uint128, 2> balance; swap_liquid_map.find(key, balance)`, src/Node.cpp:1247-1248. -/
def balL (k : Nat × Nat) (r : Liquid) : P2 :=
  match findL k r with
  | some v => v
  | none => .zero

/-- An `Execute` or `Deposit` of a transaction that did not fail: the exchange it is for; whether the operation names it
    by the zero address, as the contract deployed by the same transaction (src/Node.cpp:1226); the call, with the user that
    is named; and for `rem_all_liquid` whether the argument was left to its default. -/
structure Call where
  addr : Nat
  self : Bool
  call : SwapCall
  bare : Bool

/-- The key of the record, src/Node.cpp:1244: it has the address that the operation names. -/
def Call.key (c : Call) (me : Nat) : Nat × Nat := (me, if c.self then 0 else c.addr)

/-- `balance[index] += amount`, src/Node.cpp:1250; `uint128` is a number of 128 bits (its code is not part of the
    repository). -/
def plusAt (p : P2) (i : Bool) (n : Nat) : P2 := p.set i ((p.get i + n) % 2 ^ 128)

/-- `balance[index] -= amount`, src/Node.cpp:1254. -/
def minusAt (p : P2) (i : Bool) (n : Nat) : P2 := p.set i ((p.get i + (2 ^ 128 - n % 2 ^ 128)) % 2 ^ 128)

/-- The record after a call, src/Node.cpp:1241-1262: nothing if there are no arguments or the first is not below 2.  The
    first argument of `rem_all_liquid` is whether it is a dry run. -/
def record (c : Call) (r : Liquid) : Liquid :=
  match c.call with
  | .addLiquid me _ i _ _ amount =>
    if i < 2 then putL (c.key me) (plusAt (balL (c.key me) r) (i == 1) amount) r else r
  | .remLiquid me _ i amount _ =>
    if i < 2 then putL (c.key me) (minusAt (balL (c.key me) r) (i == 1) amount) r else r
  | .remAll me _ _ => if c.bare then r else putL (c.key me) .zero r
  | _ => r

/-- The exchanges by address, and the record. -/
structure World where
  swaps : Nat → Swap
  liquid : Liquid

def World.init : World := { swaps := fun _ => swapInit, liquid := [] }

/-- A transaction with one call: it fails as a whole if the call does (C26). -/
def World.step (w : World) (c : Call) : World :=
  match swapExec (w.swaps c.addr) c.call with
  | .ok s => { swaps := fun a => if a = c.addr then s else w.swaps a, liquid := record c w.liquid }
  | _ => w

def World.run (cs : List Call) : World := cs.foldl World.step World.init

/-- The sum over the addresses, src/Node_api.cpp:1433-1444, for one exchange and side. -/
def total (addresses : List Nat) (r : Liquid) (swap : Nat) (i : Bool) : Nat :=
  (addresses.map fun a => (balL (a, swap) r).get i).sum % 2 ^ 128

/-- `Node::get_swap_liquidity_by`, src/Node_api.cpp:1431-1454; `none`: an exception, as `get_swap_info` throws for an
    address that is not that of an exchange (src/Node_api.cpp:1229-1232). -/
def liquidityBy (exists_ : Nat → Bool) (addresses : List Nat) (r : Liquid) : Option (Nat → Bool → Nat) :=
  if r.all (fun e => !addresses.contains e.1.1 || exists_ e.1.2) then some (total addresses r) else none

/-! ### specification -/

/-- The liquidity that an exchange has for a user. -/
def held (s : Swap) (me : Nat) (i : Bool) : Nat :=
  match lookupU s.users me with
  | some u => u.bal.get i
  | none => 0

/-- Who calls. -/
def caller : SwapCall → Option Nat
  | .addLiquid me _ _ _ _ _ => some me
  | .payout me => some me
  | .remLiquid me _ _ _ _ => some me
  | .remAll me _ _ => some me
  | .switchPool me _ _ => some me
  | _ => none

/-- Calls that are recorded as they are: not of `switch_pool`, not of `rem_all_liquid` without argument, and to the
    exchange by its address. -/
def Call.plain (c : Call) : Bool :=
  !c.self && match c.call with
    | .switchPool _ _ _ => false
    | .remAll _ _ _ => !c.bare
    | _ => true

end Verif.Index
