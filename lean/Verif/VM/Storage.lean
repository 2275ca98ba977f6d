import Verif.VM.Var
/-
  Contract storage: StorageRAM, StorageCache (a StorageRAM in front of a backend) and StorageDB.
  A node stacks them: one cache per transaction (Node_validate.cpp:634) on one cache per block
  (Node_validate.cpp:72) on the database (Node.cpp:199).
-/
namespace Verif.VM
open Verif.Codec (Bytes le)

/-! ### Ordered maps -/

/-- `find` of a `std::map`. -/
def mfind {K V : Type} [DecidableEq K] : List (K × V) → K → Option V
  | [], _ => none
  | p :: l, k => if p.1 = k then some p.2 else mfind l k

/-- Position of a new node. -/
def minsert {K V : Type} (lt : K → K → Bool) (k : K) (v : V) : List (K × V) → List (K × V)
  | [] => [(k, v)]
  | p :: l => if lt k p.1 then (k, v) :: p :: l else p :: minsert lt k v l

/-- `map[k] = v`. -/
def mput {K V : Type} [DecidableEq K] (lt : K → K → Bool) (m : List (K × V)) (k : K) (v : V) : List (K × V) :=
  match mfind m k with
  | some _ => m.map fun p => if p.1 = k then (k, v) else p
  | none => minsert lt k v m

/-- Lexicographic order of the map keys. Contracts never interact in storage, so their order is not
    observable; addresses are ordered as numbers. -/
def ltMem (a b : Bytes × Nat) : Bool := memcmp a.1 b.1 = .lt ∨ (a.1 = b.1 ∧ a.2 < b.2)
def ltEnt (a b : Bytes × Nat × Nat) : Bool := ltMem (a.1, a.2.1) (b.1, b.2.1) ∨ ((a.1, a.2.1) = (b.1, b.2.1) ∧ a.2.2 < b.2.2)
def ltBal (a b : Bytes × Bytes) : Bool := memcmp a.1 b.1 = .lt ∨ (a.1 = b.1 ∧ memcmp a.2 b.2 = .lt)

/-! ### StorageRAM -/

def FLAG_KEY : Nat := 4

/-- `flags & FLAG_KEY`, var_t.h:45. -/
def Var.isKey (v : Var) : Bool := v.flags.testBit FLAG_KEY

/-- StorageRAM.h:58-63. `keys` is `key_map`: its keys are pointers to variables in `memory`, compared
    by what they point to; such a variable is never replaced (`Ram.writeMem` throws), so the value
    is kept here. The mutex makes every call atomic. -/
structure Ram where
  mem : List ((Bytes × Nat) × Var)
  ents : List ((Bytes × Nat × Nat) × Var)
  keys : List ((Bytes × Val) × Nat)
  bal : List ((Bytes × Bytes) × Nat)
  deriving DecidableEq, Repr

def Ram.empty : Ram := ⟨[], [], [], []⟩

/-- Same contract and the same value in the order of `varptr_less_t`. -/
def keyEq (a b : Bytes × Val) : Bool := a.1 = b.1 ∧ compare a.2 b.2 = .eq

/-- `key_map[contract].find(&value)`. -/
def kfind : List ((Bytes × Val) × Nat) → Bytes × Val → Option Nat
  | [], _ => none
  | p :: l, k => if keyEq p.1 k then some p.2 else kfind l k

/-- `key_map[contract][var] = dst`; the order of this map is never used. -/
def kput (m : List ((Bytes × Val) × Nat)) (k : Bytes × Val) (d : Nat) : List ((Bytes × Val) × Nat) :=
  match kfind m k with
  | some _ => m.map fun p => if keyEq p.1 k then (p.1, d) else p
  | none => (k, d) :: m

/-- `StorageRAM::write(contract, dst, value)`, StorageRAM.cpp:41-58. -/
def Ram.writeMem (r : Ram) (c : Bytes) (a : Nat) (v : Var) : Res Ram :=
  if (mfind r.mem (c, a)).any Var.isKey then .throw
  else .ok { r with mem := mput ltMem r.mem (c, a) v
                    keys := if v.isKey then kput r.keys (c, v.val) a else r.keys }

/-- `StorageRAM::write(contract, dst, key, value)`, StorageRAM.cpp:60-67. -/
def Ram.writeEnt (r : Ram) (c : Bytes) (a k : Nat) (v : Var) : Ram :=
  { r with ents := mput ltEnt r.ents (c, a, k) v }

/-- `StorageRAM::lookup`, StorageRAM.cpp:69-82. -/
def Ram.lookup (r : Ram) (c : Bytes) (v : Val) : Nat := (kfind r.keys (c, v)).getD 0

/-- `StorageRAM::set_balance`, StorageRAM.cpp:94-99. -/
def Ram.setBal (r : Ram) (c cur : Bytes) (n : Nat) : Ram := { r with bal := mput ltBal r.bal (c, cur) n }

/-! ### StorageDB -/

/-- The tables as what `Table::find` returns for a key (see the chapter on the database), and the
    balance table which the node reads through `read_balance` (Node.cpp:201-207). The node does not
    set `write_balance`: balances of contracts are updated with those of all addresses when a block
    is applied. -/
structure Db where
  table : Bytes → Option Bytes
  entries : Bytes → Option Bytes
  index : Bytes → Option Bytes
  balance : Bytes → Bytes → Option Nat

/-- `Table::insert`. -/
def tput (t : Bytes → Option Bytes) (k v : Bytes) : Bytes → Option Bytes := fun j => if j = k then some v else t j

/-- `vnx::to_big_endian` of a 64 bit integer, as bytes. -/
def be8 (n : Nat) : Bytes := (le 8 n).reverse

/-- `get_key`, StorageDB.cpp:19-26: only 20 bytes of the contract address. -/
def dbKey (c : Bytes) (a : Nat) : Bytes := c.take 20 ++ be8 a

/-- `write_entry_key`, StorageDB.cpp:40-49. -/
def dbEntKey (c : Bytes) (a k : Nat) : Bytes := c.take 20 ++ (be8 a ++ be8 k)

/-- `write_index_key`, StorageDB.cpp:65-72. -/
def dbIndexKey (c : Bytes) (v : Val) : Bytes := c ++ serialize ⟨0, 0, v⟩ false false

/-- The end of `read_ex`, StorageDB.cpp:101-106 and 112-117: without reference count. -/
def dbDecode : Option Bytes → Res (Option Var)
  | none => .ok none
  | some b => do
    let (v, _) ← deserialize b false true
    .ok (some v)

/-- `StorageDB::write(contract, dst, value)`, StorageDB.cpp:120-130. -/
def Db.writeMem (d : Db) (c : Bytes) (a : Nat) (v : Var) : Db :=
  { d with index := if v.isKey then tput d.index (dbIndexKey c v.val) (le 8 a) else d.index
           table := tput d.table (dbKey c a) (serialize v false true) }

/-- `StorageDB::write(contract, dst, key, value)`, StorageDB.cpp:132-137. -/
def Db.writeEnt (d : Db) (c : Bytes) (a k : Nat) (v : Var) : Db :=
  { d with entries := tput d.entries (dbEntKey c a k) (serialize v false true) }

/-- `StorageDB::lookup`, StorageDB.cpp:139-151. -/
def Db.lookup (d : Db) (c : Bytes) (v : Val) : Res Nat :=
  match d.index (dbIndexKey c v) with
  | none => .ok 0
  | some b => if b.length < 8 then .throw else .ok (leNat (b.take 8))

/-! ### A stack of caches -/

/-- The caches, outermost first, and the database. A cache's backend is what follows it. -/
structure Store where
  layers : List Ram
  db : Db

/-- `read(contract, src)`: StorageCache.cpp:23-29, StorageRAM.cpp:19-28, StorageDB.cpp:88-91. -/
def readMem (d : Db) : List Ram → Bytes → Nat → Res (Option Var)
  | [], c, a => dbDecode (d.table (dbKey c a))
  | r :: l, c, a =>
    match mfind r.mem (c, a) with
    | some v => .ok (some v)
    | none => readMem d l c a

/-- `read(contract, src, key)`: StorageCache.cpp:31-37, StorageRAM.cpp:30-39, StorageDB.cpp:93-96. -/
def readEnt (d : Db) : List Ram → Bytes → Nat → Nat → Res (Option Var)
  | [], c, a, k => dbDecode (d.entries (dbEntKey c a k))
  | r :: l, c, a, k =>
    match mfind r.ents (c, a, k) with
    | some v => .ok (some v)
    | none => readEnt d l c a k

/-- `lookup(contract, value)`, StorageCache.cpp:39-45. -/
def lookupKey (d : Db) : List Ram → Bytes → Val → Res Nat
  | [], c, v => d.lookup c v
  | r :: l, c, v => if r.lookup c v ≠ 0 then .ok (r.lookup c v) else lookupKey d l c v

/-- `get_balance(contract, currency)`, StorageCache.cpp:66-76: what the backend answers is kept. -/
def getBal (d : Db) : List Ram → Bytes → Bytes → Option Nat × List Ram
  | [], c, cur => (d.balance c cur, [])
  | r :: l, c, cur =>
    match mfind r.bal (c, cur) with
    | some n => (some n, r :: l)
    | none =>
      match getBal d l c cur with
      | (some n, l') => (some n, r.setBal c cur n :: l')
      | (none, l') => (none, r :: l')

/-- `backend->write(contract, dst, value)`. -/
def writeMemTo (s : Store) (c : Bytes) (a : Nat) (v : Var) : Res Store :=
  match s.layers with
  | [] => .ok { s with db := s.db.writeMem c a v }
  | r :: l => do
    let r' ← r.writeMem c a v
    .ok { s with layers := r' :: l }

/-- `backend->write(contract, dst, key, value)`. -/
def writeEntTo (s : Store) (c : Bytes) (a k : Nat) (v : Var) : Store :=
  match s.layers with
  | [] => { s with db := s.db.writeEnt c a k v }
  | r :: l => { s with layers := r.writeEnt c a k v :: l }

/-- `backend->set_balance(contract, currency, amount)`. -/
def setBalTo (s : Store) (c cur : Bytes) (n : Nat) : Store :=
  match s.layers with
  | [] => s
  | r :: l => { s with layers := r.setBal c cur n :: l }

/-- The three loops of `StorageCache::commit`, StorageCache.cpp:47-64. When a write throws, those
    before it remain done; that state is not given here. -/
def commitMemTo : List ((Bytes × Nat) × Var) → Store → Res Store
  | [], s => .ok s
  | p :: l, s => do
    let s' ← writeMemTo s p.1.1 p.1.2 p.2
    commitMemTo l s'

def commitEntTo (l : List ((Bytes × Nat × Nat) × Var)) (s : Store) : Store :=
  l.foldl (fun s p => writeEntTo s p.1.1 p.1.2.1 p.1.2.2 p.2) s

def commitBalTo (l : List ((Bytes × Bytes) × Nat)) (s : Store) : Store :=
  l.foldl (fun s p => setBalTo s p.1.1 p.1.2 p.2) s

/-- `StorageCache::commit`: the outermost cache writes to its backend and stays as it is. -/
def commitTop (s : Store) : Res Store :=
  match s.layers with
  | [] => .throw
  | r :: l => do
    let b ← commitMemTo r.mem { s with layers := l }
    let b := commitBalTo r.bal (commitEntTo r.ents b)
    .ok { b with layers := r :: b.layers }

/-! ### Operations -/

/-- What can happen to the outermost cache. -/
inductive SOp where
  | readMem (c : Bytes) (a : Nat)
  | readEnt (c : Bytes) (a k : Nat)
  | lookup (c : Bytes) (v : Val)
  | getBal (c cur : Bytes)
  | writeMem (c : Bytes) (a : Nat) (v : Var)
  | writeEnt (c : Bytes) (a k : Nat) (v : Var)
  | setBal (c cur : Bytes) (n : Nat)
  | push
  | commit
  | drop
  deriving DecidableEq, Repr

/-- What a call returns. -/
inductive SAns where
  | var (o : Option Var)
  | key (n : Nat)
  | bal (o : Option Nat)
  | done
  deriving DecidableEq, Repr

/-- One operation. `push` makes a new cache on top, `drop` throws the outermost one away. -/
def sstep (s : Store) (o : SOp) : Res (SAns × Store) :=
  match o with
  | .readMem c a => do let v ← readMem s.db s.layers c a; .ok (.var v, s)
  | .readEnt c a k => do let v ← readEnt s.db s.layers c a k; .ok (.var v, s)
  | .lookup c v => do let n ← lookupKey s.db s.layers c v; .ok (.key n, s)
  | .getBal c cur => .ok (.bal (getBal s.db s.layers c cur).1, { s with layers := (getBal s.db s.layers c cur).2 })
  | .push => .ok (.done, { s with layers := Ram.empty :: s.layers })
  | .commit => do let s' ← commitTop s; .ok (.done, s')
  | .writeMem c a v =>
    match s.layers with
    | [] => .throw
    | _ :: _ => do let s' ← writeMemTo s c a v; .ok (.done, s')
  | .writeEnt c a k v =>
    match s.layers with
    | [] => .throw
    | _ :: _ => .ok (.done, writeEntTo s c a k v)
  | .setBal c cur n =>
    match s.layers with
    | [] => .throw
    | _ :: _ => .ok (.done, setBalTo s c cur n)
  | .drop =>
    match s.layers with
    | [] => .throw
    | _ :: l => .ok (.done, { s with layers := l })

/-- A history: the answers in order. -/
def srun (s : Store) : List SOp → Res (List SAns × Store)
  | [] => .ok ([], s)
  | o :: l => do
    let (a, s') ← sstep s o
    let (r, s'') ← srun s' l
    .ok (a :: r, s'')

end Verif.VM
