import Mathlib.Order.Defs.LinearOrder

/-!
# Model of the versioned table (`src/DataBase.cpp`, `include/mmx/DataBase.h`)

Keys are an arbitrary linear order: `options.comparator` (DataBase.h:120) is a parameter of the
C++ class.  The default comparator (DataBase.cpp:105-111) is shown to be such an order in
`Verif/DB/Keys.lean`.  Values are opaque.  Versions are `uint32_t` in the code; they are natural
numbers here and `commit` refuses everything that is not below `u32max`, so no version in a
table can wrap.

Exceptions (`throw`) are the outcome `none`.
-/

namespace Verif.DB

/-- `uint32_t(-1)`, used as "no version" / "newest" (DataBase.h:130, DataBase.cpp:189,390). -/
def u32max : Nat := 2 ^ 32 - 1

/-- One record of a block or of the memory block: `(version, key, value)`
(DataBase.cpp:90-97 `write_entry`). -/
structure Entry (K V : Type) where
  key : K
  ver : Nat
  val : V
  deriving DecidableEq, Repr

variable {K V : Type} [LinearOrder K]

/-- `mem_compare_t` (DataBase.h:102-113): key ascending, then version descending. -/
def Entry.before (a b : Entry K V) : Bool :=
  if a.key = b.key then decide (b.ver < a.ver) else decide (a.key < b.key)

/-- `mem_block[(key, version)] = value` on a `std::map` ordered by `mem_compare_t`
(DataBase.h:229, DataBase.cpp:272-276): insert at the sorted place, replace on equal key. -/
def memInsert (e : Entry K V) : List (Entry K V) → List (Entry K V)
  | [] => [e]
  | x :: xs =>
    if e.before x then e :: x :: xs
    else if x.before e then x :: memInsert e xs
    else e :: xs

/-- `mem_index[key] = (value, version)` on a `std::map` ordered by key
(DataBase.h:228, DataBase.cpp:277). -/
def idxInsert (e : Entry K V) : List (Entry K V) → List (Entry K V)
  | [] => [e]
  | x :: xs =>
    if e.key < x.key then e :: x :: xs
    else if x.key < e.key then x :: idxInsert e xs
    else e :: xs

/-- `block_t` (DataBase.h:82-91).  `entries` is the payload of the file in file order,
`index` holds the entry numbers where a new key starts (the code stores byte offsets; the byte
level is treated in `Verif/DB/Bytes.lean`).  `total_count` is `entries.length`. -/
structure Block (K V : Type) where
  id : Nat
  level : Nat
  minV : Nat
  maxV : Nat
  entries : List (Entry K V)
  index : List Nat
  deriving DecidableEq, Repr

/-- Index construction of the write loops (DataBase.cpp:467-469, 551-553, 628-630):
push the position whenever the key differs from the previous one. -/
def buildIndex (prev : Option K) (pos : Nat) : List (Entry K V) → List Nat
  | [] => []
  | e :: es =>
    if prev = some e.key then buildIndex (some e.key) (pos + 1) es
    else pos :: buildIndex (some e.key) (pos + 1) es

/-- `block->min_version = std::min(version, block->min_version)` starting from
`create_block`'s `-1` (DataBase.cpp:555, 632, 723). -/
def minVersion (es : List (Entry K V)) : Nat := es.foldl (fun m e => min e.ver m) u32max

/-- `block->max_version = std::max(version, block->max_version)` starting from 0
(DataBase.cpp:470, 556, 633; DataBase.h:85). -/
def maxVersion (es : List (Entry K V)) : Nat := es.foldl (fun m e => max e.ver m) 0

/-- A freshly written block (`create_block` + write loop + `finish_block`). -/
def mkBlock (id level : Nat) (minV : Nat) (es : List (Entry K V)) : Block K V :=
  { id := id, level := level, minV := minV, maxV := maxVersion es,
    entries := es, index := buildIndex none 0 es }

/-- `read_key_at` / `read_entry_at` through the index (DataBase.cpp:42-47, 82-88);
`none` models reading outside of the data. -/
def Block.at (b : Block K V) (pos : Nat) : Option (Entry K V) :=
  match b.index[pos]? with
  | none => none
  | some p => b.entries[p]?

/-- Binary search loop of `lower_bound` (DataBase.cpp:357-369); returns the final `R`.  The first
argument bounds the number of rounds; running out of it is a failure, and `lowerBound` passes enough
(`bsearch_spec`). -/
def bsearch (b : Block K V) (key : K) : Nat → Nat → Nat → Option Nat
  | n, L, R =>
    if L < R then
      match n with
      | 0 => none
      | n + 1 =>
        match b.at ((L + R) / 2) with
        | none => none
        | some e =>
          if key < e.key then bsearch b key n L ((L + R) / 2)
          else bsearch b key n ((L + R) / 2 + 1) R
    else some R

/-- Result of `lower_bound`: position, key/version found there (`none` = null key). -/
structure LB (K V : Type) where
  pos : Nat
  isMatch : Bool
  ent : Option (Entry K V)

/-- `Table::lower_bound` (DataBase.cpp:350-386). -/
def lowerBound (b : Block K V) (key : K) : Option (LB K V) :=
  match bsearch b key b.index.length 0 b.index.length with
  | none => none
  | some R =>
    let fallback : Option (LB K V) :=
      if R < b.index.length then
        match b.at R with
        | none => none
        | some e => some { pos := R, isMatch := false, ent := some e }
      else some { pos := R, isMatch := false, ent := none }
    if 0 < R then
      match b.at (R - 1) with
      | none => none
      | some e => if key = e.key then some { pos := R - 1, isMatch := true, ent := some e }
                  else fallback
    else fallback

/-- The `while(version > max_version)` loop (DataBase.cpp:333-345): the argument list is the
stream after the entry currently held in `cur`.  End of stream is the `underflow_error` case. -/
def scanOlder (key : K) (maxV : Nat) (cur : Entry K V) : List (Entry K V) → Option V
  | [] => if maxV < cur.ver then none else some cur.val
  | e :: es =>
    if maxV < cur.ver then
      if e.key = key then scanOlder key maxV e es else none
    else some cur.val

/-- `Table::find(block, key, max_version)` (DataBase.cpp:316-348); outer `none` is an exception. -/
def findBlock (b : Block K V) (key : K) (maxV : Nat) : Option (Option V) :=
  match lowerBound b key with
  | none => none
  | some r =>
    if r.isMatch then
      match b.index[r.pos]? with
      | none => none
      | some p =>
        match b.entries.drop p with
        | [] => none
        | e :: es => some (scanOlder key maxV e es)
    else some none

/-- `mem_index.find(key)` (DataBase.cpp:287). -/
def idxFind (key : K) (idx : List (Entry K V)) : Option (Entry K V) :=
  idx.find? (fun e => decide (e.key = key))

/-- `mem_block.lower_bound((key, version))`: the tail of the map starting at the first element
that is not before `(key, version)` (DataBase.cpp:292, 503). -/
def memLower (key : K) (ver : Nat) (mem : List (Entry K V)) : List (Entry K V) :=
  mem.dropWhile (fun e => if e.key = key then decide (ver < e.ver) else decide (e.key < key))

/-- The elements in front of `memLower`, nearest first (needed for `iter--`, DataBase.cpp:297). -/
def memBefore (key : K) (ver : Nat) (mem : List (Entry K V)) : List (Entry K V) :=
  (mem.takeWhile
    (fun e => if e.key = key then decide (ver < e.ver) else decide (e.key < key))).reverse

/-- The `while` loop at DataBase.cpp:293-301; `cur` is `*iter` (`none` = end), `back` the elements
before it, nearest first. -/
def memScan (key : K) (maxV : Nat) (cur : Option (Entry K V)) : List (Entry K V) → Option V
  | [] =>
    match cur with
    | none => none
    | some e => if e.key = key then (if e.ver ≤ maxV then some e.val else none) else none
  | p :: back =>
    match cur with
    | none => none
    | some e =>
      if e.key = key then
        if e.ver ≤ maxV then some e.val else memScan key maxV (some p) back
      else none

/-- Memory part of `Table::find` (DataBase.cpp:286-304). -/
def findMem (idx mem : List (Entry K V)) (key : K) (maxV : Nat) : Option V :=
  match idxFind key idx with
  | none => none
  | some e =>
    if e.ver ≤ maxV then some e.val
    else memScan key maxV (memLower key maxV mem).head? (memBefore key maxV mem)

/-- Loop over the blocks, newest first (DataBase.cpp:305-313).  The argument is the reversed
block list. -/
def findBlocks (key : K) (maxV : Nat) : List (Block K V) → Option (Option V)
  | [] => some none
  | b :: bs =>
    if b.minV ≤ maxV then
      match findBlock b key maxV with
      | none => none
      | some (some v) => some (some v)
      | some none => findBlocks key maxV bs
    else findBlocks key maxV bs

/-- Records of `write_log.dat` (DataBase.cpp:189-205, 266, 397-401, 431-435, 531-535). -/
inductive Rec (K V : Type) where
  | put (e : Entry K V)
  | commit (v : Nat)
  | revert (v : Nat)
  | reset (v : Nat)
  deriving DecidableEq, Repr

/-- In-memory state of a `Table` (DataBase.h:220-232).  `size` models `mem_block_size`.
`writeLock` counts live iterators. -/
structure Table (K V : Type) where
  cur : Nat
  lastFlush : Nat
  nextId : Nat
  blocks : List (Block K V)
  size : Int
  idx : List (Entry K V)
  mem : List (Entry K V)
  writeLock : Nat

/-- Construction options (DataBase.h:116-121).  `size` gives the byte sizes that enter
`mem_block_size`. -/
structure Options (K V : Type) where
  levelFactor : Nat
  maxBlockSize : Nat
  forceFlush : Nat
  ksize : K → Nat
  vsize : V → Nat

/-- File operations issued by a table, in program order.
* `logWrite`: record appended to the buffered log stream
* `logFlush`: buffered records reach the file
* `logTrunc`: `write_log.open("wb")`
* `install`: `flush.tmp` / `rewrite.tmp` renamed to `NNNNNN.dat` (the temporary names themselves are
  ignored by the constructor, so writing them is not listed)
* `tmpPart id` / `tmpDone id b`: `NNNNNN.dat.tmp` exists but is incomplete / complete
* `replaceRm id`: the old `NNNNNN.dat` disappears during a non-atomic rename-over
* `replaceMv id`: `NNNNNN.dat.tmp` becomes `NNNNNN.dat`
* `remove id`: `block->file.remove()` -/
inductive FsOp (K V : Type) where
  | logWrite (r : Rec K V)
  | logFlush
  | logTrunc
  | install (b : Block K V)
  | tmpPart (id : Nat)
  | tmpDone (id : Nat) (b : Block K V)
  | replaceRm (id : Nat)
  | replaceMv (id : Nat)
  | remove (id : Nat)
  deriving DecidableEq, Repr

/-- Outcome of a mutating call: the state afterwards, the file operations issued, and whether the
call threw an exception. -/
structure Out (K V : Type) where
  tab : Table K V
  ops : List (FsOp K V)
  threw : Bool

namespace Table

/-- `Table::find` (DataBase.cpp:281-314). -/
def find (t : Table K V) (key : K) (maxV : Nat) : Option (Option V) :=
  match findMem t.idx t.mem key maxV with
  | some v => some (some v)
  | none => findBlocks key maxV t.blocks.reverse

/-- `Table::insert_entry` (DataBase.cpp:270-279). -/
def insertEntry (o : Options K V) (t : Table K V) (e : Entry K V) : Table K V :=
  let old := t.mem.find? (fun x => decide (x.key = e.key ∧ x.ver = e.ver))
  let size := match old with
    | some x => t.size - (o.ksize e.key + o.vsize x.val : Nat)
    | none => t.size
  { t with mem := memInsert e t.mem, idx := idxInsert e t.idx,
           size := size + (o.ksize e.key + o.vsize e.val : Nat) }

/-- `Table::insert` (DataBase.cpp:257-268); null arguments are not modelled. -/
def insert (o : Options K V) (t : Table K V) (key : K) (val : V) : Out K V :=
  if t.writeLock ≠ 0 then { tab := t, ops := [], threw := true }
  else
    let e : Entry K V := { key := key, ver := t.cur, val := val }
    { tab := t.insertEntry o e, ops := [.logWrite (.put e)], threw := false }

/-- `Table::do_flush` (DataBase.cpp:414-419); `entry_overhead` is 20 (DataBase.h:193). -/
def doFlush (o : Options K V) (t : Table K V) : Bool :=
  decide ((o.maxBlockSize : Int) ≤ t.size + (t.mem.length * 20 : Nat)) ||
  (decide (t.lastFlush < t.cur) && decide (o.forceFlush ≤ t.cur - t.lastFlush))

end Table

/-! ## Compaction -/

/-- `block_map` of `Table::rewrite` (DataBase.cpp:596-601): current entry of a block and the
entries of that block that follow it. -/
abbrev Ptr (K V : Type) := Entry K V × List (Entry K V)

/-- `block_map[(key, version)] = entry` (DataBase.cpp:614, 642): sorted insert; a pointer with the
same `(key, version)` is overwritten, i.e. lost. -/
def ptrInsert (p : Ptr K V) : List (Ptr K V) → List (Ptr K V)
  | [] => [p]
  | x :: xs =>
    if p.1.before x.1 then p :: x :: xs
    else if x.1.before p.1 then x :: ptrInsert p xs
    else p :: xs

/-- `block_map.erase(iter)` (DataBase.cpp:644) for the element that was first: remove the pointer
with that `(key, version)`. -/
def ptrErase (e : Entry K V) (m : List (Ptr K V)) : List (Ptr K V) :=
  m.filter (fun p => p.1.before e || e.before p.1)

/-- Merge loop of `Table::rewrite` (DataBase.cpp:624-645).  `fuel` bounds the number of rounds;
`mergeBlocks` passes the total number of entries, one of which is consumed per round. -/
def mergeLoop : Nat → List (Ptr K V) → List (Entry K V)
  | 0, _ => []
  | _ + 1, [] => []
  | n + 1, (e, rest) :: m =>
    match rest with
    | [] => e :: mergeLoop n (ptrErase e ((e, rest) :: m))
    | e' :: rest' => e :: mergeLoop n (ptrErase e (ptrInsert (e', rest') ((e, rest) :: m)))

/-- One iteration of DataBase.cpp:603-615; empty blocks are skipped. -/
def initStep (m : List (Ptr K V)) (b : Block K V) : List (Ptr K V) :=
  match b.entries with
  | [] => m
  | e :: es => ptrInsert (e, es) m

/-- Initial `block_map` (DataBase.cpp:603-615). -/
def initPtrs (bs : List (Block K V)) : List (Ptr K V) := bs.foldl initStep []

/-- Payload written by `Table::rewrite` (DataBase.cpp:583-650). -/
def mergeBlocks (bs : List (Block K V)) : List (Entry K V) :=
  mergeLoop (bs.map (fun b => b.entries.length)).sum (initPtrs bs)

/-- Selection loop of `check_rewrite` (DataBase.cpp:657-679).  `before` are the blocks already
passed, `sel` the current run, `level` the loop variable of the same name.  The result is
`(before, selected after pop_back, level, rest starting at iter_end)`; `none` when the run is too
short. -/
def selectRun (factor : Nat) (before sel : List (Block K V)) (level : Nat) :
    List (Block K V) → Option (List (Block K V) × List (Block K V) × Nat × List (Block K V))
  | [] => none
  | b :: rest =>
    if sel = [] ∨ b.level = level then
      if factor < (sel ++ [b]).length then some (before, sel, level, b :: rest)
      else selectRun factor before (sel ++ [b]) b.level rest
    else selectRun factor (before ++ sel) [b] b.level rest

/-- `Table::check_rewrite` (DataBase.cpp:652-699).  The recursion shortens the block list, `fuel`
is the number of blocks.  The level check of `rewrite` (DataBase.cpp:589-591) cannot fail because
the run has one level. -/
def checkRewrite (o : Options K V) : Nat → Table K V → Table K V × List (FsOp K V)
  | 0, t => (t, [])
  | n + 1, t =>
    if o.levelFactor ≤ 1 then (t, [])
    else
      match selectRun o.levelFactor [] [] 0 t.blocks with
      | none => (t, [])
      | some (before, sel, level, rest) =>
        let es := mergeBlocks sel
        let b := mkBlock t.nextId (level + 1) (minVersion es) es
        let t' := { t with blocks := before ++ b :: rest, nextId := t.nextId + 1 }
        let (t'', ops) := checkRewrite o n t'
        (t'', .install b :: (sel.map fun x => .remove x.id) ++ ops)

namespace Table

/-- `Table::flush` (DataBase.cpp:518-580). -/
def flush (o : Options K V) (t : Table K V) : Out K V :=
  if t.writeLock ≠ 0 then { tab := t, ops := [], threw := true }
  else
    let t1 := { t with lastFlush := t.cur }
    if t.mem.isEmpty then
      { tab := t1, ops := [.logTrunc, .logWrite (.reset t.cur)], threw := false }
    else
      let b := mkBlock t.nextId 0 (minVersion t.mem) t.mem
      let t2 := { t1 with nextId := t.nextId + 1, idx := [], mem := [],
                          blocks := t.blocks ++ [b], size := 0 }
      let r := checkRewrite o t2.blocks.length t2
      { tab := r.1, ops := .install b :: .logTrunc :: r.2, threw := false }

/-- `Table::commit` (DataBase.cpp:388-412).  The argument is a `uint32_t`, so `u32max ≤ v` means
`v == uint32_t(-1)`.  When the flush inside throws (write lock), the version has already changed
and the log record has been written. -/
def commit (o : Options K V) (t : Table K V) (v : Nat) (autoFlush : Bool) : Out K V :=
  if u32max ≤ v then { tab := t, ops := [], threw := true }
  else if v ≤ t.cur then { tab := t, ops := [], threw := true }
  else
    let t1 := { t with cur := v }
    let ops : List (FsOp K V) := [.logWrite (.commit v), .logFlush]
    if t1.doFlush o && autoFlush then
      let r := t1.flush o
      { tab := r.tab, ops := ops ++ r.ops, threw := r.threw }
    else { tab := t1, ops := ops, threw := false }

/-- Block loop of `Table::revert` (DataBase.cpp:439-489). -/
def revertBlocks (v : Nat) : List (Block K V) → List (Block K V) × List (FsOp K V)
  | [] => ([], [])
  | b :: bs =>
    let (bs', ops) := revertBlocks v bs
    if v ≤ b.minV then (bs', .remove b.id :: ops)
    else if v ≤ b.maxV then
      let nb := mkBlock b.id b.level b.minV (b.entries.filter fun e => decide (e.ver < v))
      (nb :: bs', .tmpPart b.id :: .tmpDone b.id nb :: .replaceRm b.id :: .replaceMv b.id :: ops)
    else (b :: bs', ops)

/-- Fix-up of `mem_index` (DataBase.cpp:500-513). -/
def revertIdx (v : Nat) (mem idx : List (Entry K V)) : List (Entry K V) :=
  idx.filterMap fun i =>
    if v ≤ i.ver then
      match (memLower i.key u32max mem).head? with
      | some e => if e.key = i.key then some { key := i.key, ver := e.ver, val := e.val } else none
      | none => none
    else some i

/-- `Table::revert` (DataBase.cpp:421-516). -/
def revert (o : Options K V) (t : Table K V) (v : Nat) : Out K V :=
  if t.writeLock ≠ 0 then { tab := t, ops := [], threw := true }
  else if t.cur < v then { tab := t, ops := [], threw := true }
  else
    let r := revertBlocks v t.blocks
    let dropped := t.mem.filter fun e => decide (v ≤ e.ver)
    let mem := t.mem.filter fun e => decide (e.ver < v)
    { tab := { t with
        blocks := r.1, mem := mem, idx := revertIdx v mem t.idx,
        size := t.size - ((dropped.map fun e => o.ksize e.key + o.vsize e.val).sum : Nat),
        cur := v, lastFlush := min t.lastFlush v },
      ops := .logWrite (.revert v) :: .logFlush :: r.2, threw := false }

end Table

/-! ## Opening a table -/

/-- What is on disk.  `files` are the `NNNNNN.dat` files, `tmps` the `NNNNNN.dat.tmp` files
(`none` = incomplete), `log` the records in the file, `buf` records still buffered in the stream. -/
structure Disk (K V : Type) where
  files : List (Block K V)
  tmps : List (Nat × Option (Block K V))
  log : List (Rec K V)
  buf : List (Rec K V)

/-- Effect of one file operation. -/
def Disk.step (d : Disk K V) : FsOp K V → Disk K V
  | .logWrite r => { d with buf := d.buf ++ [r] }
  | .logFlush => { d with log := d.log ++ d.buf, buf := [] }
  | .logTrunc => { d with log := [], buf := [] }
  | .install b => { d with files := d.files ++ [b] }
  | .tmpPart id => { d with tmps := (id, none) :: d.tmps.filter fun p => decide (p.1 ≠ id) }
  | .tmpDone id b => { d with tmps := (id, some b) :: d.tmps.filter fun p => decide (p.1 ≠ id) }
  | .replaceRm id => { d with files := d.files.filter fun b => decide (b.id ≠ id) }
  | .replaceMv id =>
    match d.tmps.find? (fun p => decide (p.1 = id)) with
    | some (_, some b) =>
      { d with tmps := d.tmps.filter (fun p => decide (p.1 ≠ id)),
               files := (d.files.filter fun x => decide (x.id ≠ id)) ++ [b] }
    | _ => d
  | .remove id => { d with files := d.files.filter fun b => decide (b.id ≠ id) }

/-- A sequence of file operations. -/
def Disk.run (d : Disk K V) (ops : List (FsOp K V)) : Disk K V := ops.foldl Disk.step d

/-- What survives when the process dies: the files, and of the records still buffered in the log
stream an arbitrary prefix of length `n`. -/
def Disk.crash (d : Disk K V) (n : Nat) : Disk K V :=
  { d with log := d.log ++ d.buf.take n, buf := [] }

/-- Order of the loaded blocks (DataBase.cpp:152-158). -/
def Block.le (a b : Block K V) : Bool :=
  if a.minV = b.minV then decide (b.level ≤ a.level) else decide (a.minV < b.minV)

/-- Sorted insertion; part of `sortBlocks`. -/
def insertBlock (b : Block K V) : List (Block K V) → List (Block K V)
  | [] => [b]
  | x :: xs => if b.le x then b :: x :: xs else x :: insertBlock b xs

/-- `std::sort` of the loaded blocks (DataBase.cpp:152-158).  The order of blocks with equal
`min_version` and `level` is unspecified in the code and stable here; no such pair exists in the
states the theorems speak about (`sort_eq`). -/
def sortBlocks (bs : List (Block K V)) : List (Block K V) := bs.foldr insertBlock []

/-- `!prev || block->min_version > prev->max_version` (DataBase.cpp:162). -/
def keepBlock (prev : Option (Block K V)) (b : Block K V) : Bool :=
  match prev with
  | none => true
  | some p => decide (p.maxV < b.minV)

/-- Loop over the sorted blocks (DataBase.cpp:160-170): state is `(prev, blocks, curr_version)`;
returns the kept blocks, the deleted ones and `curr_version`. -/
def loadLoop (prev : Option (Block K V)) (cur : Nat) :
    List (Block K V) → List (Block K V) × List (Block K V) × Nat
  | [] => ([], [], cur)
  | b :: bs =>
    if keepBlock prev b then
      let (ks, ds, c) := loadLoop (some b) (b.maxV + 1) bs
      (b :: ks, ds, c)
    else
      let (ks, ds, c) := loadLoop (some b) cur bs
      (ks, b :: ds, c)

/-- Renaming of leftover `NNNNNN.dat.tmp` files (DataBase.cpp:126-133): a temporary file is renamed
when the file without `.tmp` does not exist, otherwise it is left alone.  Returns the resulting
files and the renames.  An incomplete file would be renamed as well and then fail to load
(`read_block`, DataBase.cpp:229-255); that outcome is `none`. -/
def recoverTmps (files : List (Block K V)) :
    List (Nat × Option (Block K V)) → Option (List (Block K V) × List (FsOp K V))
  | [] => some (files, [])
  | (id, b) :: ts =>
    if files.any (fun f => decide (f.id = id)) then recoverTmps files ts
    else match b with
      | none => none
      | some b =>
        match recoverTmps (files ++ [b]) ts with
        | none => none
        | some (fs, ops) => some (fs, .replaceMv id :: ops)

/-- State of the log replay (DataBase.cpp:178-214).  `entries` models the multimap by version. -/
structure Replay (K V : Type) where
  cur : Nat
  lastFlush : Nat
  first : Bool
  entries : List (Entry K V)

/-- `entries.emplace(version, …)` on a `std::multimap`: after all elements of the same version. -/
def mmInsert (e : Entry K V) : List (Entry K V) → List (Entry K V)
  | [] => [e]
  | x :: xs => if e.ver < x.ver then e :: x :: xs else x :: mmInsert e xs

/-- One iteration of the replay loop (DataBase.cpp:188-206). -/
def replayStep (minVer : Nat) (s : Replay K V) : Rec K V → Replay K V
  | .commit v | .reset v =>
    if s.first then { s with cur := v, lastFlush := v, first := false } else { s with cur := v }
  | .revert v =>
    { s with cur := v, entries := s.entries.filter fun e => decide (e.ver < v) }
  | .put e => if minVer ≤ e.ver then { s with entries := mmInsert e s.entries } else s

/-- The constructor `Table::Table` (DataBase.cpp:115-227), on the records that survived. -/
def openTable (o : Options K V) (d : Disk K V) : Option (Table K V × List (FsOp K V)) :=
  match recoverTmps d.files d.tmps with
  | none => none
  | some (files, renames) =>
    let nextId := files.foldl (fun m b => max m (b.id + 1)) 0
    let (ks, ds, cur0) := loadLoop none 0 (sortBlocks files)
    let r := (d.log).foldl (replayStep cur0)
      { cur := cur0, lastFlush := cur0, first := true, entries := [] }
    let t0 : Table K V :=
      { cur := r.cur, lastFlush := r.lastFlush, nextId := nextId, blocks := ks, size := 0,
        idx := [], mem := [], writeLock := 0 }
    let t1 := r.entries.foldl (fun t e => t.insertEntry o e) t0
    let r2 := t1.revert o r.cur
    let r3 := checkRewrite o r2.tab.blocks.length r2.tab
    some (r3.1, renames ++ (ds.map fun b => .remove b.id) ++ r2.ops ++ r3.2)

/-! ## Histories -/

/-- Public calls. -/
inductive Op (K V : Type) where
  | insert (k : K) (v : V)
  | commit (v : Nat) (autoFlush : Bool)
  | flush
  | revert (v : Nat)
  | iterOpen
  | iterClose

/-- One call.  `iterOpen`/`iterClose` are the constructor and destructor of `Table::Iterator`
(DataBase.cpp:753-770), which only count in `write_lock`. -/
def Table.apply (o : Options K V) (t : Table K V) : Op K V → Out K V
  | .insert k v => t.insert o k v
  | .commit v a => t.commit o v a
  | .flush => t.flush o
  | .revert v => t.revert o v
  | .iterOpen => { tab := { t with writeLock := t.writeLock + 1 }, ops := [], threw := false }
  | .iterClose => { tab := { t with writeLock := t.writeLock - 1 }, ops := [], threw := false }

/-- A fresh table: constructor on an empty directory. -/
def Table.empty : Table K V :=
  { cur := 0, lastFlush := 0, nextId := 0, blocks := [], size := 0, idx := [], mem := [],
    writeLock := 0 }

/-- State after a history of calls. -/
def Table.run (o : Options K V) (t : Table K V) (h : List (Op K V)) : Table K V :=
  h.foldl (fun t op => (t.apply o op).tab) t

end Verif.DB
