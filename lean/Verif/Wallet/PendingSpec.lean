import Verif.Wallet.Spec
/-
  Vocabulary of the claims about pending transactions: what the wallet is told, and the account it should
  keep of it.
-/
namespace Verif.Wallet
open Verif

/-- What happens to the balances of a wallet: the node reports balances, confirmed transactions and the
height (`update_cache`); a transaction is sent or marked as spent (`update_from`); the cache is reset. -/
inductive Ev where
  | refresh (balances : AMap Key Nat) (history : List Nat) (height : Nat)
  | submit (tx : Tx)
  | reset

/-- The wallet after one event.  A `submit` that throws changes nothing. -/
def W.step (w : W) : Ev → W
  | .refresh b h n => w.updateCache b h n
  | .submit tx => match w.updateFrom tx with | .ok w' => w' | _ => w
  | .reset => w.resetCache

def W.run (w : W) (evs : List Ev) : W := evs.foldl W.step w

/-- What a transaction takes from the addresses that are ours: its static fee from the sender, and its
inputs. -/
def takes (mine : Addr → Bool) (fee : Nat) (tx : Tx) (k : Key) : Nat :=
  (if tx.sender = some k.1 ∧ k.2 = 0 then fee else 0) + drawn (tx.inputs.filter fun i => mine i.address) k

/-- One pending transaction of the account. -/
structure Pend where
  id : Nat
  expires : Nat
  own : Key → Nat

/-- The account: the balances last reported, and the transactions that are not confirmed or expired. -/
structure Acct where
  reported : Key → Nat
  live : List Pend

/-- The account after one event. -/
def Acct.step (mine : Addr → Bool) (a : Acct) : Ev → Acct
  | .refresh b h n =>
    ⟨fun k => (b.find k).getD 0, a.live.filter fun p => !(decide (p.expires < n)) && !(h.contains p.id)⟩
  | .submit tx =>
    if a.live.any (fun p => decide (p.id = tx.id)) then a
    else
      match tx.sender, Chain.costToFee tx.staticCost tx.feeRatio with
      | none, _ => ⟨a.reported, a.live ++ [⟨tx.id, tx.expires, takes mine 0 tx⟩]⟩
      | some _, .ok fee => ⟨a.reported, a.live ++ [⟨tx.id, tx.expires, takes mine fee tx⟩]⟩
      | some _, _ => a
  | .reset => ⟨fun _ => 0, []⟩

def Acct.run (mine : Addr → Bool) (a : Acct) (evs : List Ev) : Acct := evs.foldl (Acct.step mine) a

/-- What the pending transactions of the account take. -/
def Acct.pending (a : Acct) (k : Key) : Nat := (a.live.map fun p => p.own k).sum

/-- Events in range: reported balances are a map of 128-bit numbers, what one transaction takes from one
address fits into 128 bits. -/
def Ev.Ok (mine : Addr → Bool) : Ev → Prop
  | .refresh b _ _ => AMap.Ok b ∧ ∀ e ∈ b, e.2 < 2 ^ 128
  | .submit tx => ∀ fee, (tx.sender = none ∨ Chain.costToFee tx.staticCost tx.feeRatio = .ok fee) →
      ∀ k, takes mine fee tx k < 2 ^ 128
  | .reset => True

/-- A request to `Wallet::complete` and similar calls. -/
structure Req where
  opts : Opts
  deposit : List (Addr × Nat)
  tx : Tx

/-- A row of requests, each completed and sent (`Wallet::send_off`, src/Wallet.cpp:578-601, where the node
accepts everything); failing ones are skipped.  Returns the transactions that were new. -/
def sendAll (E : Env) : W → List Req → W × List Tx
  | w, [] => (w, [])
  | w, r :: rs =>
    match w.complete E r.opts r.deposit r.tx with
    | (w1, .ok t) =>
      match w1.updateFrom t with
      | .ok w2 =>
        let x := sendAll E w2 rs
        (x.1, if (w1.pendingTx.find t.id).isSome then x.2 else t :: x.2)
      | _ => sendAll E w1 rs
    | (w1, _) => sendAll E w1 rs

end Verif.Wallet
