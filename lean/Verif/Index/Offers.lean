/-
  Queries that page through an index, newest first: `get_recent_offers`, `get_recent_offers_for`, `get_trade_history` and
  `get_trade_history_for` (src/Node_api.cpp:1062-1181).
-/
import Verif.Base

namespace Verif.Index.Offers

/-- A row of `contract_log`, `offer_index` or `trade_log` for one binary or pair of coins: height and ticket (which make up
    the key, two numbers of 32 bits), and the address of the contract. -/
structure Row where
  height : Nat
  ticket : Nat
  addr : Nat
deriving DecidableEq

/-- The order of keys. -/
def Row.key (r : Row) : Nat × Nat := (r.height, r.ticket)

def keyLt (a b : Nat × Nat) : Bool := a.1 < b.1 || (a.1 == b.1 && a.2 < b.2)

/-- `find_last_range` (include/mmx/table.h:231-254, see C70): at most `limit` rows from the newest below `end_` on, down to
    the height `since`.  The rows of the index come newest first. -/
def lastRange (rows : List Row) (since : Nat) (end_ : Nat × Nat) (limit : Nat) : List Row :=
  (rows.filter fun r => keyLt r.key end_ && since ≤ r.height).take limit

/-- A limit as it is given (32 bits with sign), turned into `size_t`. -/
def sizeT (limit : Int) : Nat := (limit % 2 ^ 64).toNat

/-- The end of the range of all keys. -/
def endOfAll : Nat × Nat := (2 ^ 32 - 1, 2 ^ 32 - 1)

/-- The loop of both queries for offers, src/Node_api.cpp:1068-1081 and 1101-1117: while there are too few, take the next
    `batch` rows and keep those that are wanted; it ends when there are no more rows.  `none`: it goes on for ever, as far as
    the first argument tells. -/
def pages (rows : List Row) (want : Row → Bool) (limit batch : Nat) : Nat → Nat × Nat → List Row → Option (List Row)
  | 0, _, _ => none
  | fuel + 1, end_, result =>
    if result.length < limit then
      match lastRange rows 0 end_ batch with
      | [] => some result
      | e :: l => pages rows want limit batch fuel ((e :: l).getLast (List.cons_ne_nil e l)).key (result ++ (e :: l).filter want)
    else some result

/-- `Node::get_recent_offers`, src/Node_api.cpp:1062-1084; `want`: what `fetch_offers` keeps (src/Node_api.cpp:1033-1046);
    `std::max<size_t>(limit, 100)`. -/
def recent (rows : List Row) (want : Row → Bool) (limit : Int) (fuel : Nat) : Option (List Row) :=
  match pages rows want (sizeT limit) (max (sizeT limit) 100) fuel endOfAll [] with
  | some l => some (l.take (min l.length (sizeT limit)))
  | none => none

/-- `Node::get_recent_offers_for` with a coin named, src/Node_api.cpp:1090-1126; the height of an offer is that of its
    transaction, and so of its row; `sort`: what `std::sort` does. -/
def recentFor (sort : List Row → List Row) (rows : List Row) (want : Row → Bool) (limit : Int) (fuel : Nat) : Option (List Row) :=
  match pages rows want (sizeT limit) (sizeT limit) fuel endOfAll [] with
  | some l => some ((sort l).take (min l.length (sizeT limit)))
  | none => none

/-- `Node::get_trade_history`, src/Node_api.cpp:1142-1152. -/
def trades (log : List Row) (limit : Int) (since : Nat) : List Row := lastRange log since endOfAll (sizeT limit)

/-- `Node::get_trade_history_for` with a coin named, src/Node_api.cpp:1154-1181: the rows of `trade_index`, looked up in the
    log. -/
def tradesFor (log index : List Row) (limit : Int) (since : Nat) : List Row :=
  (lastRange index since endOfAll (sizeT limit)).filterMap fun r => log.find? fun e => e.key = r.key

/-! ### specification -/

/-- The rows of an index: from the newest down.  The keys are pairs of 32-bit numbers other than the largest pair. -/
structure Index (rows : List Row) : Prop where
  desc : rows.Pairwise fun a b => keyLt b.key a.key = true
  below : ∀ r ∈ rows, r.key.1 < 2 ^ 32 ∧ r.key.2 < 2 ^ 32 ∧ r.key ≠ (2 ^ 32 - 1, 2 ^ 32 - 1)

/-- `std::sort` by height and address, the greatest first. -/
structure Sorts (sort : List Row → List Row) : Prop where
  perm : ∀ l, (sort l).Perm l
  sorted : ∀ l, (sort l).Pairwise fun a b => b.height < a.height ∨ (b.height = a.height ∧ b.addr ≤ a.addr)

end Verif.Index.Offers
