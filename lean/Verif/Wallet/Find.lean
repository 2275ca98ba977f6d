/-
  Which wallet an address belongs to: the addresses of an `ECDSA_Wallet` and its `index_map` (include/mmx/ECDSA_Wallet.h:43-57, 85-116,
  138-166), `Wallet::get_all_addresses` and `find_wallet_by_addr` (src/Wallet.cpp:818-843).

  Keys are not modelled: `derive i` is the address of the key with number i for the passphrase given.
-/
namespace Verif.Wallet.Find

/-- `addresses` and `index_map`, ECDSA_Wallet.h:571-572. -/
structure Acct where
  addresses : List Nat
  map : List (Nat × Nat)
  deriving DecidableEq

/-- `index_map[addr] = i`. -/
def mapSet (m : List (Nat × Nat)) (a i : Nat) : List (Nat × Nat) := (a, i) :: m.filter fun e => e.1 != a

/-- The loops that number addresses, ECDSA_Wallet.h:52-55 and 95, 114. -/
def fill : List Nat → Nat → List (Nat × Nat) → List (Nat × Nat)
  | [], _, m => m
  | a :: l, i, m => fill l (i + 1) (mapSet m a i)

/-- The constructors, ECDSA_Wallet.h:33-57; without a list of addresses it is empty. -/
def make (cached : List Nat) : Acct := ⟨cached, fill cached 0 []⟩

/-- Does the passphrase give another first address? ECDSA_Wallet.h:87-90, 104-107. -/
def wrong (derive : Nat → Nat) (x : Acct) : Bool :=
  match x.addresses with
  | a :: _ => a != derive 0
  | [] => false

/-- `unlock`, ECDSA_Wallet.h:85-116, for `num_addresses` = n; `none`: it throws. `lock` (59-68) changes nothing here. -/
def unlock (derive : Nat → Nat) (n : Nat) (x : Acct) : Option Acct :=
  if n = 0 then some x
  else if wrong derive x then none
  else some ⟨(List.range n).map derive, fill ((List.range n).map derive) 0 x.map⟩

/-- `find_address`, ECDSA_Wallet.h:159-166; `none` is -1. -/
def find (x : Acct) (a : Nat) : Option Nat := (x.map.find? fun e => e.1 == a).map (·.2)

/-- `Wallet::find_wallet_by_addr`, src/Wallet.cpp:833-843, from the wallet with number i on; `none`: it throws. -/
def findWallet (a : Nat) : List (Option Acct) → Nat → Option Nat
  | [], _ => none
  | some x :: l, i => if (find x a).isSome then some i else findWallet a l (i + 1)
  | none :: l, i => findWallet a l (i + 1)

/-- `Wallet::get_all_addresses(-1)`, src/Wallet.cpp:823-830. -/
def allAddresses : List (Option Acct) → List Nat
  | [] => []
  | some x :: l => x.addresses ++ allAddresses l
  | none :: l => allAddresses l

end Verif.Wallet.Find
