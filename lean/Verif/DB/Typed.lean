import Verif.DB.Keys
import Verif.DB.Iter

/-!
# Typed tables: range queries and tables with several values per key

`include/mmx/table.h:27-380` (`table<K, V>`) and `include/mmx/multi_table.h:16-185`
(`multi_table<K, V, I>`), on top of the table and iterator models.

Values are stored in serialised form; the `vnx` serialisation is not in the repository and is a pair
of parameters: `wr` writes a value, `rd` reads it and gives `none` when it throws.
-/

namespace Verif.DB

variable {V W : Type}

/-- `size() < limit`, or no limit. -/
def underLimit (limit : Option Nat) (n : Nat) : Bool :=
  match limit with
  | none => true
  | some l => decide (n < l)

/-- The loop common to the queries: while the iterator is valid and the limit not reached, look at
the key (`keep`: `none` when reading it throws, `some false` to stop), add what can be read
(unreadable values are skipped), and step.  The number bounds the rounds: when it runs out the
result is `none`, as for an exception. -/
def Table.queryLoop (t : Table DbKey V) (fwd : Bool) (keep : DbKey → Option Bool)
    (out : DbKey → V → Option W) (limit : Option Nat) : Nat → Iter DbKey V → List W → Option (List W)
  | n, it, acc =>
    match it.current with
    | none => some acc
    | some e =>
      if underLimit limit acc.length then
        match keep e.key with
        | none => none
        | some false => some acc
        | some true =>
          match n with
          | 0 => none
          | n + 1 =>
            match (if fwd then t.next it else t.prev it) with
            | none => none
            | some it' => t.queryLoop fwd keep out limit n it' (acc ++ (out e.key e.val).toList)
      else some acc

/-- Read key and value for a result with keys. -/
def readBoth (T : KeyType) (rd : V → Option W) (k : DbKey) (v : V) : Option (T.Val × W) :=
  (T.read k.bytes).bind fun a => (rd v).map fun w => (a, w)

/-- `table::find` (table.h:69-77): `none` when reading the value throws. -/
def Table.typedFind (T : KeyType) (rd : V → Option W) (t : Table DbKey V) (key : T.Val)
    (maxV : Nat) : Option (Option W) :=
  match t.find (T.key key) maxV with
  | none => none
  | some none => some none
  | some (some v) => (rd v).map some

/-- `table::find_greater_equal` with values only (table.h:119-136). -/
def Table.findGreaterEqual (T : KeyType) (rd : V → Option W) (t : Table DbKey V)
    (key : T.Val) (limit fuel : Nat) : Option (List W) :=
  match t.seek (T.key key) with
  | none => none
  | some it => t.queryLoop true (fun _ => some true) (fun _ v => rd v) (some limit) fuel it []

/-- `table::find_range` with keys (table.h:182-205). -/
def Table.findRange (T : KeyType) (rd : V → Option W) (t : Table DbKey V)
    (begin_ end_ : T.Val) (limit fuel : Nat) : Option (List (T.Val × W)) :=
  match t.seek (T.key begin_) with
  | none => none
  | some it => t.queryLoop true (fun k => (T.read k.bytes).map fun a => T.lt a end_)
      (readBoth T rd) (some limit) fuel it []

/-- `table::find_range` with values only (table.h:158-180). -/
def Table.findRangeValues (T : KeyType) (rd : V → Option W) (t : Table DbKey V)
    (begin_ end_ : T.Val) (limit fuel : Nat) : Option (List W) :=
  match t.seek (T.key begin_) with
  | none => none
  | some it => t.queryLoop true (fun k => (T.read k.bytes).map fun a => T.lt a end_)
      (fun _ v => rd v) (some limit) fuel it []

/-- `table::find_last_range` with keys (table.h:231-254). -/
def Table.findLastRange (T : KeyType) (rd : V → Option W) (t : Table DbKey V)
    (begin_ end_ : T.Val) (limit fuel : Nat) : Option (List (T.Val × W)) :=
  match t.seekPrev (T.key end_) with
  | none => none
  | some it => t.queryLoop false
      (fun k => (T.read k.bytes).map fun a => T.lt begin_ a || T.beq a begin_)
      (readBoth T rd) (some limit) fuel it []

/-- `table::find_last_range` with values only (table.h:207-229). -/
def Table.findLastRangeValues (T : KeyType) (rd : V → Option W) (t : Table DbKey V)
    (begin_ end_ : T.Val) (limit fuel : Nat) : Option (List W) :=
  match t.seekPrev (T.key end_) with
  | none => none
  | some it => t.queryLoop false
      (fun k => (T.read k.bytes).map fun a => T.lt begin_ a || T.beq a begin_)
      (fun _ v => rd v) (some limit) fuel it []

/-- `table::find_first` / `find_last` (table.h:85-97, 105-117): `some none` is the result `false`,
`none` an exception. -/
def readCurrent (T : KeyType) (rd : V → Option W) (it : Iter DbKey V) : Option (Option (T.Val × W)) :=
  match it.current with
  | none => some none
  | some e => (readBoth T rd e.key e.val).map some

def Table.findFirst (T : KeyType) (rd : V → Option W) (t : Table DbKey V) : Option (Option (T.Val × W)) :=
  match t.seekBegin with
  | none => none
  | some it => readCurrent T rd it

def Table.findLast (T : KeyType) (rd : V → Option W) (t : Table DbKey V) : Option (Option (T.Val × W)) :=
  match t.seekLast with
  | none => none
  | some it => readCurrent T rd it

/-! ### tables with several values per key -/

/-- The greatest index, `std::numeric_limits<I>::max()`, of an index of `w` bytes. -/
def maxIndex (w : Nat) : Nat := 256 ^ w - 1

/-- An index as a value of `I`. -/
def toIndex (w i : Nat) : (uintKey w).Val := ⟨i % 256 ^ w, Nat.mod_lt _ (Nat.pow_pos (by omega))⟩

/-- Keys of the underlying table: `(key, index)`. -/
@[reducible] def multiKey (T : KeyType) (w : Nat) : KeyType := pairKey T (uintKey w)

def mkey (T : KeyType) (w : Nat) (key : T.Val) (i : Nat) : DbKey := (multiKey T w).key (key, toIndex w i)

/-- The index after the one found (multi_table.h:50-56).  `found.second + 1` is computed in `I`. -/
def indexAfter (T : KeyType) (w : Nat) (key : T.Val) (k : DbKey) : Option Nat :=
  ((multiKey T w).read k.bytes).map fun found =>
    if T.beq found.1 key then (Fin.val found.2 + 1) % 256 ^ w else 0

/-- First part of `insert_many` (multi_table.h:44-57): the index of the first new value.  `none` is
an exception. -/
def Table.nextIndex (T : KeyType) (w : Nat) (t : Table DbKey V) (key : T.Val) : Option Nat :=
  match t.seekPrev (mkey T w key (maxIndex w)) with
  | none => none
  | some it =>
    match it.current with
    | none => some 0
    | some e => indexAfter T w key e.key

/-- Second part of `insert_many` (multi_table.h:58-64): table and whether it threw. -/
def Table.insertFrom (o : Options DbKey V) (T : KeyType) (w : Nat) (wr : W → V) (key : T.Val) :
    Table DbKey V → Nat → List W → Table DbKey V × Bool
  | t, _, [] => (t, false)
  | t, i, x :: xs =>
    if i = maxIndex w then (t, true)
    else
      let r := t.insert o (mkey T w key i) (wr x)
      if r.threw then (r.tab, true)
      else Table.insertFrom o T w wr key r.tab (i + 1) xs

/-- `multi_table::insert_many` (multi_table.h:42-65).  The iterator lives in an inner scope: it is
destroyed before the first insert. -/
def Table.insertMany (o : Options DbKey V) (T : KeyType) (w : Nat) (wr : W → V) (t : Table DbKey V)
    (key : T.Val) (xs : List W) : Table DbKey V × Bool :=
  let t1 := (t.apply o .iterOpen).tab
  let start := t1.nextIndex T w key
  let t2 := (t1.apply o .iterClose).tab
  match start with
  | none => (t2, true)
  | some i => Table.insertFrom o T w wr key t2 i xs

/-- `multi_table::find` (multi_table.h:73-95). -/
def Table.multiFind (T : KeyType) (w : Nat) (rd : V → Option W) (t : Table DbKey V) (key : T.Val)
    (greaterEqual : Bool) (fuel : Nat) : Option (List W) :=
  match t.seek (mkey T w key 0) with
  | none => none
  | some it => t.queryLoop true
      (fun k => ((multiKey T w).read k.bytes).map fun a => greaterEqual || T.beq a.1 key)
      (fun _ v => rd v) none fuel it []

/-- `multi_table::find_last` (multi_table.h:97-120). -/
def Table.multiFindLast (T : KeyType) (w : Nat) (rd : V → Option W) (t : Table DbKey V) (key : T.Val)
    (limit fuel : Nat) : Option (List W) :=
  match t.seekPrev (mkey T w key (maxIndex w)) with
  | none => none
  | some it => t.queryLoop false
      (fun k => ((multiKey T w).read k.bytes).map fun a => T.beq a.1 key)
      (fun _ v => rd v) (some limit) fuel it []

/-- `multi_table::find_range` with keys (multi_table.h:146-169). -/
def Table.multiFindRange (T : KeyType) (w : Nat) (rd : V → Option W) (t : Table DbKey V)
    (begin_ end_ : T.Val) (fuel : Nat) : Option (List (T.Val × W)) :=
  match t.seek (mkey T w begin_ 0) with
  | none => none
  | some it => t.queryLoop true
      (fun k => ((multiKey T w).read k.bytes).map fun a => T.lt a.1 end_)
      (fun k v => (readBoth (multiKey T w) rd k v).map fun x => (x.1.1, x.2)) none fuel it []

/-- The calls on a multi-value table (multi_table.h:37-65, 178-180). -/
inductive MOp (A W : Type) where
  | insertMany (key : A) (xs : List W)
  | commit (v : Nat) (autoFlush : Bool)
  | flush
  | revert (v : Nat)
  | iterOpen
  | iterClose

/-- One call: table and whether it threw. -/
def Table.multiApply (o : Options DbKey V) (T : KeyType) (w : Nat) (wr : W → V) (t : Table DbKey V) :
    MOp T.Val W → Table DbKey V × Bool
  | .insertMany key xs => t.insertMany o T w wr key xs
  | .commit v a => let r := t.apply o (.commit v a); (r.tab, r.threw)
  | .flush => let r := t.apply o .flush; (r.tab, r.threw)
  | .revert v => let r := t.apply o (.revert v); (r.tab, r.threw)
  | .iterOpen => let r := t.apply o .iterOpen; (r.tab, r.threw)
  | .iterClose => let r := t.apply o .iterClose; (r.tab, r.threw)

def Table.multiRun (o : Options DbKey V) (T : KeyType) (w : Nat) (wr : W → V) (t : Table DbKey V)
    (h : List (MOp T.Val W)) : Table DbKey V :=
  h.foldl (fun t op => (t.multiApply o T w wr op).1) t

end Verif.DB
