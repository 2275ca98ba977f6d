import Verif.Wallet.PendingSpec
/-
  How a wallet keeps up with its node: `Wallet::update_cache` (src/Wallet.cpp:637-664) asks the node in
  separate calls, between which the chain can change.

  A block is the list of the ids of its transactions, the chain is the list of blocks up to the peak.  What
  the node reports as balances for a chain is a parameter.
-/
namespace Verif.Wallet
open Verif

abbrev Blocks := List (List Nat)

/-- `Node::get_tx_ids_since`, src/Node_api.cpp:264-274. -/
def idsSince (c : Blocks) (height : Nat) : List Nat := (c.drop height).flatten

/-- The wallet, the chain of the node, a refresh that is under way, and (for the claims only) what was sent. -/
structure World where
  chain : Blocks
  w : W
  /-- The height, and the balances, that a refresh under way has got. -/
  reading : Option (Nat × Option (AMap Key Nat)) := none
  sent : List Tx := []

inductive NEv where
  /-- A block is added to the chain. -/
  | block (ids : List Nat)
  /-- The newest blocks are taken back (`Node::revert`); others may follow. -/
  | revert (n : Nat)
  /-- `Wallet::send_off`. -/
  | send (tx : Tx)
  /-- `node->get_height()`, src/Wallet.cpp:644 with src/Node_api.cpp:146-152. -/
  | readHeight
  /-- `node->get_all_balances(…)`, src/Wallet.cpp:646. -/
  | readBalances
  /-- `node->get_tx_ids_since(…)` and `update_cache`, src/Wallet.cpp:649-661. -/
  | finish

/-- `Wallet::send_off`, src/Wallet.cpp:578-601, of a transaction that is new: its id is a hash over a random
nonce.  The wallet does one thing at a time, so nothing is sent during a refresh.  Nothing is recorded if
`update_from` throws. -/
def World.send (u : World) (tx : Tx) : World :=
  if u.reading = none ∧ tx.id ∉ u.chain.flatten ∧ tx.id ∉ u.sent.map (·.id) then
    match u.w.updateFrom tx with
    | .ok w' => { u with w := w', sent := u.sent ++ [tx] }
    | _ => u
  else u

/-- src/Wallet.cpp:649-650; `delay` is `commit_delay`. -/
def World.history (delay : Nat) (u : World) : List Nat :=
  if u.w.pendingTx.isEmpty then [] else idsSince u.chain (u.w.height - min delay u.w.height)

/-- One event.  That a refresh is made only once in a while (line 642) is left to the events; external balances
are left out. -/
def World.step (bal : Blocks → AMap Key Nat) (delay : Nat) (u : World) : NEv → World
  | .block ids => { u with chain := u.chain ++ [ids] }
  | .revert n => { u with chain := u.chain.take (u.chain.length - n) }
  | .send tx => u.send tx
  | .readHeight => if u.reading = none then { u with reading := some (u.chain.length - 1, none) } else u
  | .readBalances => match u.reading with
    | some (h, none) => { u with reading := some (h, some (bal u.chain)) }
    | _ => u
  | .finish => match u.reading with
    | some (h, some b) => { u with w := u.w.updateCache b (u.history delay) h, reading := none }
    | _ => u

def World.run (bal : Blocks → AMap Key Nat) (delay : Nat) (u : World) (evs : List NEv) : World :=
  evs.foldl (World.step bal delay) u

/-- The static fee of a transaction. -/
def feeOf (tx : Tx) : Nat :=
  match tx.sender, Chain.costToFee tx.staticCost tx.feeRatio with
  | some _, .ok fee => fee
  | _, _ => 0

/-- What the transactions that were sent take from an address, those only that a block can still confirm: they are not in the
chain, and have not expired at this height. -/
def openTakes (mine : Addr → Bool) (sent : List Tx) (chain : Blocks) (height : Nat) (k : Key) : Nat :=
  ((sent.filter fun t => decide (t.id ∉ chain.flatten ∧ height ≤ t.expires)).map fun t => takes mine (feeOf t) t k).sum

/-- Events of a chain that only grows, and of transactions in range. -/
def NEv.Ok (mine : Addr → Bool) : NEv → Prop
  | .revert _ => False
  | .send tx => ∀ k, takes mine (feeOf tx) tx k < 2 ^ 128
  | _ => True

end Verif.Wallet
