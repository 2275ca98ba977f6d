import Verif.Wallet.PendingSpec
/-
  The balances a wallet reports: `Wallet::get_balances` and `get_balance`, src/Wallet.cpp:703-745.
-/
namespace Verif.Wallet
open Verif

/-- `balance_t`, interface/balance_t.vni, without `is_validated`. -/
structure Bal where
  spendable : Nat := 0
  reserved : Nat := 0
  locked : Nat := 0
  total : Nat := 0
  deriving DecidableEq, Repr

/-- `amounts[currency]`. -/
def balAt (m : AMap Addr Bal) (c : Addr) : Bal := (m.find c).getD {}

/-- `amounts[currency].field += amount`, one for each field. -/
def addSpendable (m : AMap Addr Bal) (c : Addr) (x : Nat) : AMap Addr Bal :=
  m.put addrLt c { balAt m c with spendable := u128 ((balAt m c).spendable + x) }

def addReserved (m : AMap Addr Bal) (c : Addr) (x : Nat) : AMap Addr Bal :=
  m.put addrLt c { balAt m c with reserved := u128 ((balAt m c).reserved + x) }

def addLocked (m : AMap Addr Bal) (c : Addr) (x : Nat) : AMap Addr Bal :=
  m.put addrLt c { balAt m c with locked := u128 ((balAt m c).locked + x) }

/-- Line 741. -/
def Bal.sumUp (b : Bal) : Bal := { b with total := u128 (u128 (b.spendable + b.reserved) + b.locked) }

/-- `get_balances`, src/Wallet.cpp:714-745, after `update_cache`.  `zero` is the list of tokens to show in any case
(lines 721-725), `ext` is `external_balance_map`. -/
def W.balances (w : W) (ext : AMap Addr Nat) (zero : List Addr) : AMap Addr Bal :=
  let m0 : AMap Addr Bal := zero.foldl (fun m c => AMap.put addrLt m c {}) []
  let m1 := w.balance.foldl (fun m e => addSpendable m e.1.2 e.2) m0
  let m2 := w.reserved.foldl (fun m e => addReserved m e.1.2 e.2) m1
  let m3 := w.pendingMap.foldl (fun m e => e.2.foldl (fun m p => addReserved m p.1.2 p.2) m) m2
  let m4 := ext.foldl (fun m e => addLocked m e.1 e.2) m3
  m4.map fun e => (e.1, e.2.sumUp)

/-- `get_balance`, src/Wallet.cpp:703-712. -/
def W.balanceOf (w : W) (ext : AMap Addr Nat) (c : Addr) : Bal := balAt (w.balances ext []) c

end Verif.Wallet
