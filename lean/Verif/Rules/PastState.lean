/-
  Reading the storage of a contract as of some height: `read_storage`, `read_storage_var`, `read_storage_entry_var`,
  `read_storage_field`, `read_storage_array`, `read_storage_map`, src/Node_api.cpp:788-878, on the database of src/vm/StorageDB.cpp.
-/
namespace Verif.Rules.Past

/-- A stored variable: whether it has FLAG_KEY, the target if it is a reference, and anything else. -/
structure Val where
  isKey : Bool
  ref : Option Nat
  data : Nat
  deriving DecidableEq, Repr

/-- Keys of the three tables of `StorageDB` (StorageDB.cpp:76-78): variables, entries of arrays and maps, and the index from
    the value of a key to its address (here a `Val` that has the address as `data`).  Contracts, names and values of keys are
    numbers. -/
inductive Cell where
  | mem (c a : Nat)
  | ent (c a k : Nat)
  | idx (c v : Nat)
  deriving DecidableEq, Repr

structure Rec where
  cell : Cell
  ver : Nat
  val : Val
  deriving DecidableEq, Repr

/-- The tables, newest first, and their version, which is the height of the next block: `commit(block->height + 1)`,
    Node.cpp:1152. -/
structure St where
  recs : List Rec
  curr : Nat
  deriving DecidableEq, Repr

def init : St := ⟨[], 0⟩

/-- What the storage of all contracts goes through. -/
inductive Op where
  | apply (ws : List (Cell × Val))
  | fail (ws : List (Cell × Val))
  | revert (height : Nat)

/-- Writes of one block, with the current version. -/
def write (s : St) (ws : List (Cell × Val)) : St :=
  { s with recs := (ws.map fun w => ⟨w.1, s.curr, w.2⟩).reverse ++ s.recs }

/-- `Node::revert`, Node.cpp:1326, by `Table::revert`: nothing of this or a later version is left.  See C03 for tables. -/
def revertTo (s : St) (height : Nat) : St :=
  if height > s.curr then s else ⟨s.recs.filter fun r => decide (r.ver < height), height⟩

/-- `Node::apply`, Node.cpp:1029-1161, the storage alone: a block that fails is reverted, lines 1154-1157. -/
def step (s : St) : Op → St
  | .apply ws => { write s ws with curr := s.curr + 1 }
  | .fail ws => revertTo (write s ws) s.curr
  | .revert h => revertTo s h

def run (s : St) : List Op → St
  | [] => s
  | o :: os => run (step s o) os

/-- `Table::find(key, max_version)`, DataBase.cpp:281-314: the latest that is not newer.  See C01 for tables. -/
def find (s : St) (k : Cell) (maxVer : Nat) : Option Val :=
  (s.recs.find? fun r => decide (r.ver ≤ maxVer) && decide (r.cell = k)).map (·.val)

/-- `uint32_t(-1)`. -/
def LATEST : Nat := 2 ^ 32 - 1

/-- `read_storage_var`, Node_api.cpp:809-812; StorageDB.cpp:98-107. -/
def readVar (s : St) (c a h : Nat) : Option Val := find s (.mem c a) h

/-- `read_storage_entry_var` by address, Node_api.cpp:814-817; StorageDB.cpp:109-118. -/
def readEntry (s : St) (c a k h : Nat) : Option Val := find s (.ent c a k) h

/-- What does not change: the fields of a contract's binary (`find_field`), by name; and its constants, by address from 0 on
    (`vm::load`, vm_interface.cpp:56-61).  `none` if there is no such contract. -/
structure Code where
  fields : Nat → Option (List (Nat × Nat))
  consts : Nat → List Val

/-- `find_field`: the names are keys of a map. -/
def fieldAddr : List (Nat × Nat) → Nat → Option Nat
  | [], _ => none
  | f :: fs, n => if f.1 = n then some f.2 else fieldAddr fs n

/-- `read_storage_field`, lines 819-829. -/
def readField (q : Code) (s : St) (c name h : Nat) : Option (Option Val × Nat) :=
  match (q.fields c).bind fun fs => fieldAddr fs name with
  | none => none
  | some a => some (readVar s c a h, a)

/-- One entry of the loop in `read_storage`, line 794, which reads without a height. -/
def storageEntry (s : St) (c : Nat) (f : Nat × Nat) : Option (Nat × Val) := (find s (.mem c f.2) LATEST).map fun v => (f.1, v)

/-- `read_storage`, lines 788-801: the height is not used. -/
def readStorage (q : Code) (s : St) (c _h : Nat) : List (Nat × Val) :=
  match q.fields c with
  | none => []
  | some fs => fs.filterMap (storageEntry s c)

/-- Into an ordered list without repetition. -/
def insK (k : Nat) : List Nat → List Nat
  | [] => [k]
  | x :: l => if k < x then k :: x :: l else if k = x then x :: l else x :: insK k l

/-- Keys of entries that an iteration over the table meets, StorageDB.cpp:186-195.  See C09 for tables. -/
def entKeys (c a : Nat) : List Rec → List Nat
  | [] => []
  | r :: l => match r.cell with
    | .ent c' a' k => if c' = c ∧ a' = a then insK k (entKeys c a l) else entKeys c a l
    | _ => entKeys c a l

/-- `StorageDB::find_entries`, StorageDB.cpp:180-204. -/
def findEntries (s : St) (c a h : Nat) : List (Nat × Val) :=
  (entKeys c a s.recs).filterMap fun k => (find s (.ent c a k) h).map fun v => (k, v)

/-- `read_storage_array`, Node_api.cpp:856-859; StorageDB.cpp:206-214. -/
def readArray (s : St) (c a h : Nat) : List Val := (findEntries s c a h).map (·.2)

/-- `MEM_STATIC`, var_t.h:36: constants and stack are below. -/
def MEM_STATIC : Nat := 18 * 2 ^ 26

/-- `Engine::read`, Engine.cpp:478-499, of an engine that has only loaded the binary: constants, or the storage as it is now. -/
def engineRead (q : Code) (s : St) (c a : Nat) : Option Val :=
  if a < MEM_STATIC then (q.consts c)[a]? else find s (.mem c a) LATEST

/-- `read_storage_map`, Node_api.cpp:861-878, before the pairs go into a map by key. -/
def readMap (q : Code) (s : St) (c a h : Nat) : List (Val × Val) :=
  match q.fields c with
  | none => []
  | some _ => (findEntries s c a h).filterMap fun e => (engineRead q s c e.1).map fun k => (k, e.2)

/-- `StorageDB::lookup`, StorageDB.cpp:139-151; 0 if not there. -/
def lookup (s : St) (c v : Nat) : Nat := ((find s (.idx c v) LATEST).map (·.data)).getD 0

/-- `read_storage_entry_var` by name and key, Node_api.cpp:831-844. -/
def readEntryBy (q : Code) (s : St) (c name v h : Nat) : Option (Option Val × Nat × Nat) :=
  match readField q s c name h with
  | some (some x, a) =>
    if lookup s c v = 0 then none
    else some (readEntry s c (x.ref.getD a) (lookup s c v) h, x.ref.getD a, lookup s c v)
  | _ => none

/-- `Engine::init`, Engine.cpp:596-601: the constants by value, the lowest address first, except address 0. -/
def constKey (v : Nat) : Nat → List Val → Option Nat
  | _, [] => none
  | n, x :: l => if n ≠ 0 ∧ x.data = v then some n else constKey v (n + 1) l

/-- `Engine::lookup`, Engine.cpp:123-137, read only: how a contract finds the key. -/
def engineLookup (q : Code) (s : St) (c v : Nat) : Nat := (constKey v 0 (q.consts c)).getD (lookup s c v)

end Verif.Rules.Past
