import Verif.Wallet.MapLemmas
/-
  Vocabulary of the wallet claims: sums over a transaction and over the reported balances.
-/
namespace Verif.Wallet
open Verif

/-- Sum of the inputs in currency `c`. -/
def inSum (ins : List TxIn) (c : Addr) : Nat := (ins.map fun i => if i.contract = c then i.amount else 0).sum
/-- Sum of the inputs from one address in one currency. -/
def drawn (ins : List TxIn) (k : Key) : Nat :=
  (ins.map fun i => if (i.address, i.contract) = k then i.amount else 0).sum
/-- Sum of the outputs in currency `c`. -/
def outSum (outs : List TxOut) (c : Addr) : Nat := (outs.map fun o => if o.contract = c then o.amount else 0).sum
/-- Sum of the deposits of the operations in currency `c`. -/
def depSum (ops : List Op) (c : Addr) : Nat :=
  (ops.map fun o => match o.kind with | .deposit _ _ q a => if q = c then a else 0 | _ => 0).sum
/-- Sum of an explicit list of amounts in currency `c`. -/
def extraSum (l : List (Addr × Nat)) (c : Addr) : Nat := (l.map fun e => if e.1 = c then e.2 else 0).sum

/-- What has to be added in currency `c`: outputs and deposits not covered by the inputs that are
already there, plus the explicit deposit. -/
def need (tx : Tx) (dep : List (Addr × Nat)) (c : Addr) : Nat :=
  (outSum tx.outputs c + depSum tx.ops c - inSum tx.inputs c) + extraSum dep c

/-- Spendable balance of an address in a currency. -/
def W.bal (w : W) (k : Key) : Nat := (w.balance.find k).getD 0
/-- Spendable balance of the wallet in a currency. -/
def W.total (w : W) (c : Addr) : Nat := (w.balance.map fun e => if e.1.2 = c then e.2 else 0).sum

/-- `balance_map` is a map of 128-bit numbers. -/
structure W.BalOk (w : W) : Prop where
  keys : AMap.Ok w.balance
  bound : ∀ e ∈ w.balance, e.2 < 2 ^ 128

/-- What `std::sort` promises for `gather_inputs`: the same entries, larger balances first. -/
def SortOk (srt : List (Addr × Nat) → List (Addr × Nat)) : Prop :=
  ∀ l, (srt l).Perm l ∧ (srt l).Pairwise fun a b => a.2 ≥ b.2

/-- Two lists of the same length, related entry by entry. -/
inductive Pointwise {α : Type} (R : α → α → Prop) : List α → List α → Prop
  | nil : Pointwise R [] []
  | cons {a b : α} {l m : List α} : R a b → Pointwise R l m → Pointwise R (a :: l) (b :: m)

/-- The amounts of the transaction fit into 128 bits when added up. -/
def Fits (tx : Tx) (dep : List (Addr × Nat)) : Prop :=
  ∀ c, inSum tx.inputs c + outSum tx.outputs c + depSum tx.ops c + extraSum dep c < 2 ^ 128

end Verif.Wallet
