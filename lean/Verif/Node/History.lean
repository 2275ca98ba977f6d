import Verif.Base
/-
  Queries for the history of addresses.

  Sources: src/Node_api.cpp:389-590 (filter_txio, get_history, get_history_memo), interface/query_filter_t.vni,
  include/mmx/table.h:207-254 (find_last_range, see C70).
-/
namespace Verif.Node.History
open Verif

/-- An entry of `txio_log`: the key (address, height, counter) and the value.  For a query with a memo the
entries are those of `memo_log`, whose key begins with the hash of address and memo instead; the value is
then what `txio_log` holds at (address, height, counter), src/Node_api.cpp:531-539. -/
structure Row (α : Type) where
  addr : Nat
  height : Nat
  idx : Nat
  val : α
deriving DecidableEq, Repr

/-- Height and counter of a key as one number; both have 32 bits, so this is the order of the keys of one address. -/
def Row.key {α : Type} (r : Row α) : Nat := r.height * 2 ^ 32 + r.idx

/-- `query_filter_t` without `memo` and `white_list`, which only the wallet reads.  `keep` is `filter_txio`
(src/Node_api.cpp:389-398).  `maxSearch` is `none` for 0: the code then uses 2^64 - 1 rows as the limit
(src/Node_api.cpp:416), which no table has. -/
structure Filter (α : Type) where
  since : Nat
  until_ : Nat
  limit : Int
  maxSearch : Option Nat
  keep : α → Bool

/-- The limit as the counters see it: `uint32_t(filter.limit)`. -/
def Filter.lim {α : Type} (q : Filter α) : Nat := (q.limit % 2 ^ 32).toNat

variable {α : Type}

/-- `find_last_range` for keys of one address, given its rows newest first: the newest `limit` rows in `[lo, hi)`. -/
def lastRange (rows : List (Row α)) (lo hi limit : Nat) : List (Row α) := (rows.filter fun r => lo ≤ r.key ∧ r.key < hi).take limit

/-- An entry of `state_map` with the one of `count_map`. -/
structure Cur where
  addr : Nat
  stop : Nat
  count : Nat := 0
deriving DecidableEq, Repr

/-- The chunk of one address, src/Node_api.cpp:424-426. -/
def Cur.fetch (log : Nat → List (Row α)) (q : Filter α) (c : Cur) : List (Row α) := lastRange (log c.addr) (q.since * 2 ^ 32) c.stop 100

/-- Where it ends, src/Node_api.cpp:428-437. -/
def Cur.next (log : Nat → List (Row α)) (q : Filter α) (c : Cur) : Cur :=
  { addr := c.addr
    stop := match (c.fetch log q).getLast? with | some r => r.key | none => c.stop
    count := c.count + ((c.fetch log q).filter fun r => q.keep r.val).length }

/-- Is this address done?  src/Node_api.cpp:438-440. -/
def Cur.done (log : Nat → List (Row α)) (q : Filter α) (c : Cur) : Bool :=
  decide ((c.fetch log q).length < 100) || decide ((c.next log q).count ≥ q.lim)

/-- The remaining entries of the last block, src/Node_api.cpp:443-448. -/
def Cur.rest (log : Nat → List (Row α)) (q : Filter α) (c : Cur) : List (Row α) :=
  (log c.addr).filter fun r => (c.next log q).stop / 2 ^ 32 * 2 ^ 32 ≤ r.key ∧ r.key < (c.next log q).stop

/-- The state of the search. -/
structure Search (α : Type) where
  active : List Cur
  res : List (Row α) := []
  num : Nat := 0

/-- One round of the loop, src/Node_api.cpp:421-456 with `more`, and 520-549 without (`get_history_memo` does not
look for the remaining entries). -/
def Search.round (more : Bool) (log : Nat → List (Row α)) (q : Filter α) (s : Search α) : Search α :=
  { active := (s.active.filter fun c => !c.done log q).map fun c => c.next log q
    res := s.res ++ (s.active.flatMap fun c => (c.fetch log q).filter fun r => q.keep r.val) ++
      (if more then (s.active.filter fun c => c.done log q).flatMap fun c => (c.rest log q).filter fun r => q.keep r.val else [])
    num := s.num + (s.active.map fun c => (c.fetch log q).length).sum +
      (if more then ((s.active.filter fun c => c.done log q).map fun c => (c.rest log q).length).sum else 0) }

def Filter.mayGo (q : Filter α) (num : Nat) : Bool :=
  match q.maxSearch with
  | none => true
  | some m => decide (num < m)

/-- The loop, src/Node_api.cpp:420. -/
def Search.loop (more : Bool) (log : Nat → List (Row α)) (q : Filter α) : Nat → Search α → Search α
  | 0, s => s
  | n + 1, s => if s.active.isEmpty = true ∨ q.mayGo s.num = false then s else Search.loop more log q n (s.round more log q)

/-- The set of addresses: each once (src/Node_api.cpp:411). -/
def addrSet : List Nat → List Nat
  | [] => []
  | a :: l => if a ∈ l then addrSet l else a :: addrSet l

/-- The rows that are found, src/Node_api.cpp:409-456.  Each round takes a row from each address that goes on, so
the number of rounds is bounded by the number of rows. -/
def found (more : Bool) (log : Nat → List (Row α)) (q : Filter α) (addrs : List Nat) : List (Row α) :=
  (Search.loop more log q ((addrs.map fun a => (log a).length).sum + 1)
    { active := (addrSet addrs).map fun a => { addr := a, stop := q.until_ * 2 ^ 32 + (2 ^ 32 - 1) } }).res

/-- An entry of the result. -/
structure Out (α : Type) where
  height : Nat
  addr : Nat
  val : α
  pending : Bool := false
deriving DecidableEq, Repr

def Row.out (r : Row α) : Out α := { height := r.height, addr := r.addr, val := r.val }

/-- A pending transaction: the address and the rest of each input and output that the query may show. -/
structure Pend (α : Type) where
  id : Nat
  ios : List (Nat × α)

/-- The pending entries, src/Node_api.cpp:458-490 and 552-571: for each address the transactions that the index
has for it (C91), and of each all inputs and outputs with an address of the set. -/
def pendingOf (pool : List (Pend α)) (addrs : List Nat) : List (Out α) :=
  (addrSet addrs).flatMap fun a => (pool.filter fun t => a ∈ t.ios.map (·.1)).flatMap fun t =>
    (t.ios.filter fun x => x.1 ∈ addrSet addrs).map fun x => { height := 2 ^ 32 - 1, addr := x.1, val := x.2, pending := true }

/-- Cutting after the block that holds the entry with number `limit`, src/Node_api.cpp:496-500. -/
def cut (limit : Int) (res : List (Out α)) : List (Out α) :=
  if 0 < limit ∧ limit.toNat < res.length then
    match res[limit.toNat - 1]? with
    | none => res
    | some x => res.take (limit.toNat - 1) ++ (res.drop (limit.toNat - 1)).takeWhile fun y => y.height == x.height
  else res

/-- `get_history` (src/Node_api.cpp:400-502) and `get_history_memo` (504-584).  `sorted` is the order that sorting by
height and the other fields gives (src/Node_api.cpp:492-495): newest first. -/
structure IsResult (more : Bool) (log : Nat → List (Row α)) (q : Filter α) (addrs : List Nat) (pend out : List (Out α)) : Prop where
  ex : if q.limit = 0 then out = [] else
    ∃ sorted : List (Out α), sorted.Perm ((found more log q addrs).map Row.out ++ pend) ∧
      sorted.Pairwise (fun a b => b.height ≤ a.height) ∧ out = cut q.limit sorted

end Verif.Node.History
