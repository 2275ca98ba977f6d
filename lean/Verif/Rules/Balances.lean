/-
  Asking a node for balances: src/Node_api.cpp:677-775.

  Addresses and currencies are numbers. The balance table is the list of its entries in the order of their keys (that the table gives
  them so is C11 and C12). An entry stays when its balance becomes zero (Node.cpp:1101-1103).
-/
import Verif.Base

namespace Verif.Rules.Balances

abbrev Key := Nat × Nat
abbrev Table := List (Key × Nat)

/-- `uint128` counts modulo this. -/
def M : Nat := 2 ^ 128

/-- `addr_t::ones()`, hash_t.hpp:81-85. -/
def ONES : Nat := 2 ^ 256 - 1

/-- Order of pairs, `std::pair::operator<`. -/
def keyLt (x y : Key) : Bool := decide (x.1 < y.1) || (decide (x.1 = y.1) && decide (x.2 < y.2))

/-- `int32_t limit` given as `size_t`: a negative one is larger than any number of entries. -/
def cut (limit : Int) (l : Table) : Table := if limit < 0 then l else l.take limit.toNat

/-- `table::find_range`, table.h:182-205. -/
def findRange (T : Table) (lo hi : Key) (limit : Int) : Table :=
  cut limit ((T.dropWhile fun e => keyLt e.1 lo).takeWhile fun e => keyLt e.1 hi)

/-- `get_balance`, Node_api.cpp:677-682; also lines 740-741 and 766-767 (`uint128()` is zero, uint128.hpp:27). -/
def getBalance (T : Table) (a c : Nat) : Nat :=
  match T.find? fun e => decide (e.1 = (a, c)) with
  | some e => e.2
  | none => 0

/-- What one address adds, Node_api.cpp:730-746, 756-772: currencies and amounts. -/
def entries (T : Table) (whitelist : List Nat) (limit : Int) (a : Nat) : List (Nat × Nat) :=
  if whitelist.isEmpty then
    ((findRange T (a, 0) (a, ONES) limit).filter fun e => decide (e.2 ≠ 0)).map fun e => (e.1.2, e.2)
  else
    (whitelist.filter fun c => decide (getBalance T a c ≠ 0)).map fun c => (c, getBalance T a c)

/-- `std::set<addr_t>(addresses.begin(), addresses.end())`: each once; the order has no effect on the sums. -/
def asSet (l : List Nat) : List Nat := l.eraseDups

/-- A `std::map` from currencies to amounts. -/
abbrev Totals := Nat → Option Nat

/-- `totals[currency] += amount`, Node_api.cpp:735, 743. -/
def add (m : Totals) (e : Nat × Nat) : Totals := fun c => if c = e.1 then some (((m c).getD 0 + e.2) % M) else m c

/-- `get_total_balances`, Node_api.cpp:725-749. -/
def getTotalBalances (T : Table) (addresses whitelist : List Nat) (limit : Int) : Totals :=
  (asSet addresses).foldl (fun m a => (entries T whitelist limit a).foldl add m) fun _ => none

/-- `get_balances`, Node_api.cpp:693-696. -/
def getBalances (T : Table) (a : Nat) (whitelist : List Nat) (limit : Int) : Totals := getTotalBalances T [a] whitelist limit

/-- `get_total_balance`, Node_api.cpp:684-691. -/
def getTotalBalance (T : Table) (addresses : List Nat) (c : Nat) : Nat :=
  (asSet addresses).foldl (fun n a => (n + getBalance T a c) % M) 0

/-- `totals[std::make_pair(address, currency)] += amount`, Node_api.cpp:761, 769. -/
def addAll (m : Key → Option Nat) (a : Nat) (e : Nat × Nat) : Key → Option Nat :=
  fun k => if k = (a, e.1) then some (((m k).getD 0 + e.2) % M) else m k

/-- `get_all_balances`, Node_api.cpp:751-775. -/
def getAllBalances (T : Table) (addresses whitelist : List Nat) (limit : Int) : Key → Option Nat :=
  (asSet addresses).foldl (fun m a => (entries T whitelist limit a).foldl (fun m e => addAll m a e) m) fun _ => none

/-- `balance_t`, as far as it is filled in. -/
structure Balance where
  spendable : Nat
  locked : Nat
  total : Nat
  isValidated : Bool
  deriving DecidableEq

/-- One round of the loop, Node_api.cpp:711-721. -/
def toBalance (isLocked : Bool) (whitelist : List Nat) (amount : Nat) : Balance :=
  ⟨if isLocked then 0 else amount, if isLocked then amount else 0, amount, !whitelist.isEmpty⟩

/-- `get_contract_balances`, Node_api.cpp:698-723; `isLocked` is what the contract's method `is_locked` gives, `false` without one. -/
def getContractBalances (T : Table) (isLocked : Bool) (a : Nat) (whitelist : List Nat) (limit : Int) : Nat → Option Balance :=
  fun c => (getTotalBalances T [a] whitelist limit c).map (toBalance isLocked whitelist)

end Verif.Rules.Balances
