import Verif.VM.Code
/-
  The contract virtual machine, part 1: state, storage proxy and memory management
  (include/mmx/vm/Engine.h, src/vm/Engine.cpp:20-622 and 1738-1745, src/vm/StorageProxy.cpp).

  Simplifications, valid for the whole machine model:
  * Gas, reference counts and sizes are natural numbers. `gas_used` (64 bit) could wrap only after
    additions far beyond any gas limit.
  * `is_debug`, `do_profile`, `do_trace`, the cost map and `error_code`/`error_addr` are not
    modelled; neither are the texts of exceptions.
  * `log_func` and `event_func` are not set, as in `Node::execute` (Node_validate.cpp:389-605).
  * Memory maps are association lists in key order. A null pointer inside a map exists only while
    an exception is on its way, so maps hold cells.
  * Where the C++ code holds a reference or pointer across an operation that may free the object,
    the model compares the identity of the object (`Cell.ver`) and returns `ub` when it is gone.
-/
namespace Verif.VM
open Verif.Codec (Bytes)

/-! ### Constants, Engine.h:30-79 and var_t.h:30-37 -/

def SEG_SIZE : Nat := 0x4000000
def STACK_SIZE : Nat := 16 * SEG_SIZE
def MEM_EXTERN : Nat := SEG_SIZE
def MEM_STACK : Nat := MEM_EXTERN + SEG_SIZE
def MEM_STATIC : Nat := MEM_STACK + STACK_SIZE
def MEM_HEAP : Nat := 2 ^ 32
/-- `MEM_HEAP + GLOBAL_NEXT_ALLOC`, Engine.cpp:20. -/
def NEXT_ALLOC : Nat := MEM_HEAP + 1

def INSTR_COST : Nat := 20
def INSTR_CALL_COST : Nat := 30
def INSTR_MUL_128_COST : Nat := 50
def INSTR_MUL_256_COST : Nat := 200
def INSTR_DIV_64_COST : Nat := 50
def INSTR_DIV_128_COST : Nat := 1000
def INSTR_DIV_256_COST : Nat := 5000
def WRITE_COST : Nat := 50
def WRITE_32_BYTE_COST : Nat := 30
def STOR_READ_COST : Nat := 2000
def STOR_WRITE_COST : Nat := 2000
def STOR_READ_32_BYTE_COST : Nat := 50
def STOR_WRITE_BYTE_COST : Nat := 50
def SHA256_BLOCK_COST : Nat := 2000
def ECDSA_VERIFY_COST : Nat := 20000
def MAX_KEY_BYTES : Nat := 4096
def MAX_VALUE_BYTES : Nat := 1024 * 1024
def MAX_CALL_RECURSION : Nat := 1000
def MAX_ERASE_RECURSION : Nat := 100

/-! ### State -/

/-- A variable in memory: `var_t` with its flags as booleans, var_t.h:41-45 and 67-115. `ver` is the
    identity of the object among those that have been at this place: it goes up whenever the
    `unique_ptr` at this place gets another object. -/
structure Cell where
  val : Val
  rc : Nat := 0
  dirty : Bool := false
  const : Bool := false
  stored : Bool := false
  deleted : Bool := false
  key : Bool := false
  ver : Nat := 0
  deriving DecidableEq, Repr

/-- `std::map` from `κ` to variables as an association list in key order. -/
abbrev AMap (κ : Type) := List (κ × Cell)

def aget {κ : Type} [DecidableEq κ] : AMap κ → κ → Option Cell
  | [], _ => none
  | (k, v) :: l, x => if k = x then some v else aget l x

/-- `map[x] = v`. -/
def aset {κ : Type} [DecidableEq κ] (lt : κ → κ → Bool) : AMap κ → κ → Cell → AMap κ
  | [], x, v => [(x, v)]
  | (k, w) :: l, x, v =>
    if k = x then (x, v) :: l
    else if lt x k then (x, v) :: (k, w) :: l
    else (k, w) :: aset lt l x v

/-- `map.erase(x)`. -/
def adel {κ : Type} [DecidableEq κ] (m : AMap κ) (x : κ) : AMap κ := m.filter (fun p => ¬ p.1 = x)

def ltN (a b : Nat) : Bool := a < b
def ltP (a b : Nat × Nat) : Bool := a.1 < b.1 || (a.1 == b.1 && a.2 < b.2)

/-- Where a variable lives: a memory cell or an entry of an array or map. -/
inductive Loc where
  | mem (a : Nat)
  | ent (a k : Nat)
  deriving DecidableEq, Repr

/-- An output produced by `send` or `mint` (`txout_t`). -/
structure TxOut where
  currency : Bytes
  address : Bytes
  amount : Nat
  memo : Option Bytes
  deriving DecidableEq, Repr

/-- `frame_t`, Engine.h:84-87. -/
structure Frame where
  ip : Nat
  sp : Nat
  deriving DecidableEq, Repr

/-- An entry of `key_map`: the object its pointer was made for (cell address and identity; `live`
    is false once the cell has been removed) and the address it is mapped to. -/
structure KeyPtr where
  cell : Nat
  ver : Nat
  live : Bool
  addr : Nat
  deriving DecidableEq, Repr

/-- The engine, Engine.h:89-103 and 231-240. `frames` has the innermost call first. The recursion
    counter `erase_call_depth` is an argument of `eraseCell`. -/
structure Eng where
  code : List Instr
  frames : List Frame
  outputs : List TxOut
  mints : List TxOut
  gas : Nat
  limit : Nat
  mem : AMap Nat
  ents : AMap (Nat × Nat)
  keys : List KeyPtr
  bal : List (Bytes × Nat)
  haveInit : Bool
  firstAlloc : Bool
  heapBase : Nat
  deriving DecidableEq, Repr

/-- A call of the engine's public interface by the surroundings (see `hostOp` in Exec.lean). -/
inductive HostOp where
  | gas (n : Nat)
  | read (a : Nat)
  | readEnt (a k : Nat)
  | alloc
  | lookup (v : Val)
  | assign (a : Nat) (v : Val)
  | write (a : Nat) (v : Val)
  | writeEnt (a k : Nat) (v : Val)
  | push (a : Nat) (v : Val)
  | fail
  deriving DecidableEq, Repr

/-- Everything outside the engine. Nothing is assumed about the functions. -/
structure Env where
  contract : Bytes
  version : Nat
  readOnly : Bool
  /-- Order in which the arguments of a call are evaluated: left to right, or right to left. C++
      leaves the order open. -/
  ltr : Bool
  /-- `backend->read(contract, src)` and `read(contract, src, key)`. A remote call can come back to
      this contract in another engine on the same backend (Node_validate.cpp:533, 548), so what the
      backend holds may change during the run: it is a function of the engine state. Every access
      costs gas, so no two accesses see the same state and this stands for any behaviour. -/
  storMem : Eng → Nat → Option Cell
  storEnt : Eng → Nat → Nat → Option Cell
  /-- `backend->lookup(contract, value)`, 0 if there is no such key. -/
  storKey : Eng → Val → Nat
  /-- `backend->get_balance(contract, currency)`. -/
  storBal : Eng → Bytes → Option Nat
  /-- `backend->write(…)` throws, as for a key that exists already (StorageRAM.cpp:50). -/
  storRefuse : Eng → Loc → Cell → Bool
  sha256 : Bytes → Bytes
  /-- `pubkey_t`, `signature_t` and `hash_t` from bytes may throw; then `verify`. Arguments:
      message, public key, signature. -/
  ecdsa : Bytes → Bytes → Bytes → Option Bool
  /-- `uint256_t::str(base)` and `uint256_t(str, base)`. -/
  uintStr : Nat → Nat → Bytes
  strUint : Nat → Bytes → Nat
  hexStr : Bytes → Bytes
  hexParse : Bytes → Bytes
  addrStr : Bytes → Bytes
  addrParse : Bytes → Option Bytes
  /-- `remote_call(name, method, nargs)` and `read_contract(address, field, dst)`: what they do to
      the calling engine, which they only touch through its public interface. The gas spent grows
      with every instruction, so no two calls see the same state and a function of the state can
      stand for any behaviour of the surroundings. -/
  remote : Eng → Bytes → Bytes → Nat → List HostOp
  field : Eng → Bytes → Bytes → Nat → List HostOp

/-! ### The machine monad -/

/-- Outcome of an engine operation. A thrown exception leaves the engine as it is at that moment. -/
inductive Out (α : Type) where
  | ok (a : α) (s : Eng)
  | throw (s : Eng)
  | ub
  deriving DecidableEq, Repr

def EM (α : Type) := Eng → Out α

def EM.bind {α β : Type} (m : EM α) (f : α → EM β) : EM β := fun s =>
  match m s with
  | .ok a t => f a t
  | .throw t => .throw t
  | .ub => .ub

instance : Monad EM where
  pure a := fun s => .ok a s
  bind := EM.bind

def raise {α : Type} : EM α := fun s => .throw s
def undef {α : Type} : EM α := fun _ => .ub
def gets {α : Type} (f : Eng → α) : EM α := fun s => .ok (f s) s
def modify (f : Eng → Eng) : EM Unit := fun s => .ok () (f s)

/-- `if(!c) throw`. -/
def need (c : Prop) [Decidable c] : EM Unit := if c then pure () else raise
/-- The code is undefined unless `c` holds. -/
def safe (c : Prop) [Decidable c] : EM Unit := if c then pure () else undef

/-- `for(x : l) f(x)`. -/
def forM' {α : Type} (l : List α) (f : α → EM Unit) : EM Unit :=
  match l with
  | [] => pure ()
  | x :: l => do f x; forM' l f

/-- `gas_used += n`. -/
def addGas (n : Nat) : EM Unit := modify fun s => { s with gas := s.gas + n }

/-- `check_gas`, Engine.cpp:649-655. -/
def checkGas : EM Unit := do
  let s ← gets id
  need (¬ s.gas > s.limit)

def getCell : Loc → EM (Option Cell)
  | .mem a => gets fun s => aget s.mem a
  | .ent a k => gets fun s => aget s.ents (a, k)

def setCell : Loc → Cell → EM Unit
  | .mem a, c => modify fun s => { s with mem := aset ltN s.mem a c }
  | .ent a k, c => modify fun s => { s with ents := aset ltP s.ents (a, k) c }

/-! ### Storage proxy, reading -/

/-- `StorageProxy::read_ex`, StorageProxy.cpp:22-37. -/
def readEx (e : Env) (c : Option Cell) : Option Cell :=
  match c with
  | none => none
  | some c => if c.deleted then none
    else some { c with dirty := false, stored := true, const := c.const || e.readOnly, ver := 0 }

/-- `num_bytes(var_t*)`, var_t.h:341-343. -/
def numBytesOpt : Option Cell → Nat
  | none => 0
  | some c => numBytes c.val

/-- The price of a storage read, StorageProxy.cpp:43-51. -/
def chargeRead (n : Nat) : EM Unit := do
  addGas (STOR_READ_COST + n / 32 * STOR_READ_32_BYTE_COST)
  checkGas

/-- `StorageProxy::read(contract, src)`, StorageProxy.cpp:39-62. -/
def storRead (e : Env) (a : Nat) : EM (Option Cell) := do
  let s ← gets id
  chargeRead (numBytesOpt (readEx e (e.storMem s a)))
  pure (readEx e (e.storMem s a))

/-- `StorageProxy::read(contract, src, key)`, StorageProxy.cpp:64-88. -/
def storReadEnt (e : Env) (a k : Nat) : EM (Option Cell) := do
  let s ← gets id
  chargeRead (numBytesOpt (readEx e (e.storEnt s a k)))
  pure (readEx e (e.storEnt s a k))

/-- `StorageProxy::lookup`, StorageProxy.cpp:157-177. -/
def storLookup (e : Env) (v : Val) : EM Nat := do
  chargeRead (numBytes v)
  let s ← gets id
  pure (e.storKey s v)

/-- `StorageProxy::get_balance`, StorageProxy.cpp:179-195. -/
def storBalance (e : Env) (c : Bytes) : EM (Option Nat) := do
  addGas STOR_READ_COST
  checkGas
  let s ← gets id
  pure (e.storBal s c)

/-! ### Reading memory -/

/-- A variable flagged DELETED is not there, Engine.cpp:482-488. -/
def unlessDeleted (c : Cell) : Option Cell := if c.deleted then none else some c

/-- `read(src, mem_only = true)`, Engine.cpp:478-492. -/
def readHere (a : Nat) : EM (Option Cell) := do
  match ← getCell (.mem a) with
  | some c => pure (unlessDeleted c)
  | none => pure none

/-- `read(src)`, Engine.cpp:478-499: falls back to storage and keeps what was found. -/
def read (e : Env) (a : Nat) : EM (Option Cell) := do
  match ← getCell (.mem a) with
  | some c => pure (unlessDeleted c)
  | none =>
    if a ≥ MEM_STATIC then do
      match ← storRead e a with
      | some c => do setCell (.mem a) c; pure (some c)
      | none => pure none
    else pure none

/-- `read_fail(src)`, Engine.cpp:501-507. -/
def readFail (e : Env) (a : Nat) : EM Cell := do
  match ← read e a with
  | some c => pure c
  | none => raise

/-- `read_entry(src, key)`, Engine.cpp:509-528. -/
def readEntry (e : Env) (a k : Nat) : EM (Option Cell) := do
  match ← getCell (.ent a k) with
  | some c => pure (unlessDeleted c)
  | none =>
    if a ≥ MEM_STATIC then do
      match ← storReadEnt e a k with
      | some c => do setCell (.ent a k) c; pure (some c)
      | none => pure none
    else pure none

/-- `read_entry_fail`, Engine.cpp:530-536. -/
def readEntryFail (e : Env) (a k : Nat) : EM Cell := do
  match ← readEntry e a k with
  | some c => pure c
  | none => raise

/-- `read_fail<uint_t>(src, TYPE_UINT).value`, Engine.h:258-267. -/
def readUint (e : Env) (a : Nat) : EM Nat := do
  let c ← readFail e a
  match c.val with
  | .uint n => pure n
  | _ => raise

/-- `read_fail<binary_t>(src, TYPE_BINARY)`, Engine.h:258-267. -/
def readBin (e : Env) (a : Nat) : EM Bytes := do
  let c ← readFail e a
  match c.val with
  | .bin b => pure b
  | _ => raise

/-- `read_fail<binary_t>(src, TYPE_STRING)`, Engine.h:258-267. -/
def readStr (e : Env) (a : Nat) : EM Bytes := do
  let c ← readFail e a
  match c.val with
  | .str b => pure b
  | _ => raise

/-- `binary_t::to_addr`, var_t.h:182-187. -/
def toAddr (b : Bytes) : EM Bytes := do
  need (b.length = 32)
  pure b

/-! ### Reference counts and erasing -/

/-- `addref(dst)`, Engine.cpp:35-40 and var_t.h:87-93. -/
def addref (a : Nat) : EM Unit := do
  match ← readHere a with
  | none => pure ()
  | some c => if c.stored then pure () else setCell (.mem a) { c with dirty := true, rc := c.rc + 1 }

/-- `unref(dst)` with the `erase` to call, Engine.cpp:42-49 and var_t.h:94-103. -/
def unrefWith (er : Loc → EM Unit) (a : Nat) : EM Unit := do
  match ← readHere a with
  | none => pure ()
  | some c =>
    if c.stored then pure ()
    else do
      need (¬ c.rc = 0)
      setCell (.mem a) { c with dirty := true, rc := c.rc - 1 }
      if c.rc = 1 then er (.mem a) else pure ()

/-- The keys of the entries of `a`, in order. -/
def entKeys (a : Nat) (m : AMap (Nat × Nat)) : List Nat :=
  (m.filter (fun p => p.1.1 = a)).map (·.1.2)

/-- `erase_entries(dst)`, Engine.cpp:398-405. Erasing never adds or removes map nodes, so the keys
    are those at the start. -/
def eraseEntriesWith (er : Loc → EM Unit) (a : Nat) : EM Unit := do
  let ks ← gets fun s => entKeys a s.ents
  forM' ks fun k => do
    er (.ent a k)
    checkGas

/-- `clear(var)`, Engine.cpp:453-476. -/
def clearWith (er : Loc → EM Unit) (c : Cell) : EM Unit :=
  match c.val with
  | .ref a => unrefWith er a
  | .arr a _ => do need (¬ c.stored); eraseEntriesWith er a
  | .map a => do need (¬ c.stored); eraseEntriesWith er a
  | _ => pure ()

/-- The object left behind by `erase`, Engine.cpp:443-449. -/
def tombstone (prev : Cell) : Cell :=
  if prev.stored then { prev with val := .nil, rc := 0, dirty := true, deleted := true, ver := prev.ver + 1 }
  else { val := .nil, deleted := true, ver := prev.ver + 1 }

/-- `erase(var&)`, Engine.cpp:420-451. The first argument is `MAX_ERASE_RECURSION -
    erase_call_depth`: at 0 another level throws. The map node stays, so it is found again. -/
def eraseCell : Nat → Loc → EM Unit
  | d, l => do
    match ← getCell l with
    | none => pure ()
    | some c => do
      need (¬ c.const)
      if c.deleted then pure ()
      else do
        need (c.rc = 0)
        match d with
        | 0 => raise
        | d + 1 => do
          addGas WRITE_COST
          checkGas
          clearWith (eraseCell d) c
          match ← getCell l with
          | none => undef
          | some prev => setCell l (tombstone prev)

def eraseLoc (l : Loc) : EM Unit := eraseCell MAX_ERASE_RECURSION l
def unref (a : Nat) : EM Unit := unrefWith eraseLoc a
def clear (c : Cell) : EM Unit := clearWith eraseLoc c

/-- `erase(dst)`, Engine.cpp:407-418. -/
def eraseAddr (e : Env) (a : Nat) : EM Unit := do
  match ← getCell (.mem a) with
  | some _ => eraseLoc (.mem a)
  | none =>
    if a ≥ MEM_STATIC then do
      match ← storRead e a with
      | some c => do setCell (.mem a) c; eraseLoc (.mem a)
      | none => pure ()
    else pure ()

/-! ### Writing memory -/

/-- Clear what is at `l` and give the new object its flags and reference count, taken before
    clearing; Engine.cpp:75-82. -/
def replaceCell (l : Loc) (v : Val) : EM Cell := do
  match ← getCell l with
  | none => pure { val := v }
  | some old => do
    need (¬ old.const)
    clear old
    pure { old with val := v, ver := old.ver + 1 }

/-- The `addref` at the end of `assign`, Engine.cpp:93-95. -/
def addrefVal : Val → EM Unit
  | .ref a => addref a
  | _ => pure ()

/-- `assign(var&, value)`, Engine.cpp:73-97. -/
def assignCell (l : Loc) (v : Val) : EM Unit := do
  let c ← replaceCell l v
  need (¬ numBytes v > MAX_VALUE_BYTES)
  addGas (WRITE_COST + numBytes v * WRITE_32_BYTE_COST / 32)
  setCell l { c with dirty := true, deleted := false }
  addrefVal v

/-- The start of `assign(dst, …)` and `write(dst, …)`: refuse constants, fetch the old variable
    from storage; Engine.cpp:53-69 and 156-162. -/
def fetch (e : Env) (a : Nat) : EM Unit := do
  let s ← gets id
  need (¬ (s.haveInit ∧ a < MEM_EXTERN))
  match aget s.mem a with
  | some _ => pure ()
  | none =>
    if a ≥ MEM_STATIC ∧ a < s.heapBase then do
      match ← storRead e a with
      | some c => setCell (.mem a) c
      | none => pure ()
    else pure ()

/-- Arrays and maps know their own address, Engine.cpp:56-65. -/
def withAddr (a : Nat) : Val → Val
  | .arr _ n => .arr a n
  | .map _ => .map a
  | v => v

/-- `assign(dst, value)`, Engine.cpp:51-71. -/
def assign (e : Env) (a : Nat) (v : Val) : EM Unit := do
  fetch e a
  assignCell (.mem a) (withAddr a v)

/-- A variable passed by reference: a temporary, or an object in memory. -/
inductive Src where
  | tmp (v : Val)
  | obj (l : Loc) (ver : Nat)
  deriving DecidableEq, Repr

/-- Following the reference: undefined when the object is gone. -/
def srcCell : Src → EM Cell
  | .tmp v => pure { val := v }
  | .obj l n => do
    match ← getCell l with
    | none => undef
    | some c => do safe (c.ver = n); pure c

def Src.isAt (l : Loc) : Src → Bool
  | .tmp _ => false
  | .obj m _ => m = l

/-- TYPE_NIL, TYPE_FALSE, TYPE_TRUE have no payload. -/
def simple : Val → Bool
  | .nil | .fls | .tru => true
  | _ => false

/-- The in-place update of a reference, Engine.cpp:208-218. -/
def writeRef (l : Loc) (c : Cell) (o n : Nat) : EM Unit := do
  if n = o then pure ()
  else do
    unref o
    match ← getCell l with
    | none => undef
    | some d => do
      safe (d.ver = c.ver)
      setCell l { d with dirty := true, val := .ref n }
      addref n

/-- The updates in place, Engine.cpp:191-234. The result says whether the write is done. -/
def writeInPlace (l : Loc) (c : Cell) (v : Val) : EM Bool :=
  match v, c.val with
  | .ref n, .ref o => do writeRef l c o n; pure true
  | .uint n, .uint o => do
    (if n = o then pure () else setCell l { c with dirty := true, val := .uint n })
    pure true
  | v, w =>
    if simple v ∧ simple w then do
      (if v = w then pure () else setCell l { c with dirty := true, val := v })
      pure true
    else pure false

/-- Writing to a deleted variable brings it back, Engine.cpp:187-190. -/
def revive (c : Cell) : Cell := if c.deleted then { c with dirty := true, deleted := false } else c

/-- The part of `write(var&, dst, src)` before the second switch, Engine.cpp:173-235. -/
def writePre (l : Loc) (src : Src) : EM Bool := do
  let sc ← srcCell src
  if src.isAt l then pure true
  else do
    need (¬ sc.deleted)
    match ← getCell l with
    | none => pure false
    | some c => do
      need (¬ c.const)
      setCell l (revive c)
      writeInPlace l (revive c) sc.val

/-- `write` to an entry (no address): no arrays or maps, Engine.cpp:171-296 with `dst == nullptr`. -/
def writeEntCell (l : Loc) (src : Src) : EM Unit := do
  let done ← writePre l src
  if done then pure ()
  else do
    let sc ← srcCell src
    match sc.val with
    | .arr _ _ => raise
    | .map _ => raise
    | v => assignCell l v

/-- `write_entry(dst, key, src)`, Engine.cpp:341-352. -/
def writeEntry (e : Env) (a k : Nat) (src : Src) : EM Unit := do
  let s ← gets id
  need (¬ (s.haveInit ∧ a < MEM_EXTERN))
  let c ← readFail e a
  need (¬ c.const)
  writeEntCell (.ent a k) src

/-- Copying the elements of an array, Engine.cpp:262-265. The loop condition follows `src`. -/
def copyArray (e : Env) (a x n : Nat) (src : Src) : EM Unit := do
  let _ ← srcCell src
  forM' (List.range n) fun i => do
    let c ← readEntryFail e x i
    writeEntry e a i (.obj (.ent x i) c.ver)
    checkGas
    let _ ← srcCell src

/-- One element of a map, Engine.cpp:283-288. -/
def copyEntry (e : Env) (a x k : Nat) : EM Unit := do
  match ← getCell (.ent x k) with
  | none => pure ()
  | some c =>
    if c.deleted then pure ()
    else do
      writeEntry e a k (.obj (.ent x k) c.ver)
      checkGas

/-- Copying the elements of a map, Engine.cpp:281-289. The loop adds entries of `a` only, and none
    when `x = a`, so the keys are those at the start. -/
def copyMap (e : Env) (a x : Nat) (src : Src) : EM Unit := do
  let _ ← srcCell src
  let ks ← gets fun s => entKeys x s.ents
  forM' ks fun k => do
    copyEntry e a x k
    let _ ← srcCell src

/-- `write(var&, dst, src)` for a memory cell, Engine.cpp:171-296. -/
def writeMemCell (e : Env) (a : Nat) (src : Src) : EM Unit := do
  let done ← writePre (.mem a) src
  if done then pure ()
  else do
    let sc ← srcCell src
    match sc.val with
    | .arr x n => do
      assignCell (.mem a) (.arr a n)
      copyArray e a x n src
    | .map x => do
      need (¬ sc.stored)
      assignCell (.mem a) (.map a)
      copyMap e a x src
    | v => assignCell (.mem a) v

/-- `write(dst, src)`, Engine.cpp:154-164. -/
def write (e : Env) (a : Nat) (src : Src) : EM Unit := do
  fetch e a
  writeMemCell e a src

/-- `write(dst, value)` for a temporary, Engine.cpp:146-169. -/
def writeVal (e : Env) (a : Nat) (v : Val) : EM Unit := write e a (.tmp v)

/-- `write(dst, read_fail(src))`. -/
def writeFrom (e : Env) (dst src : Nat) : EM Unit := do
  let c ← readFail e src
  write e dst (.obj (.mem src) c.ver)

/-! ### Allocation and keys -/

/-- `pin`, var_t.h:104-113. -/
def pin (c : Cell) : Cell :=
  if c.stored then c else if c.rc = 0 then { c with rc := 1, dirty := true } else c

/-- The heap pointer is created when missing, Engine.cpp:572-577. -/
def allocInit (e : Env) : EM Unit := do
  match ← read e NEXT_ALLOC with
  | some _ => pure ()
  | none => do
    modify fun s => { s with heapBase := MEM_HEAP }
    assign e NEXT_ALLOC (.uint (MEM_HEAP + 0x1000))
    match ← getCell (.mem NEXT_ALLOC) with
    | some c => setCell (.mem NEXT_ALLOC) (pin c)
    | none => undef

/-- `alloc`, Engine.cpp:570-588. A flag CONST on the heap pointer is ignored. -/
def alloc (e : Env) : EM Nat := do
  allocInit e
  let c ← readFail e NEXT_ALLOC
  match c.val with
  | .uint n => do
    need (¬ n ≥ 2 ^ 64 - 1)
    modify fun s => if s.firstAlloc then { s with firstAlloc := false, heapBase := n } else s
    setCell (.mem NEXT_ALLOC) { c with dirty := true, val := .uint (n + 1) }
    pure n
  | _ => raise

/-- The object a pointer of `key_map` points to, if it still exists. -/
def keyCell (s : Eng) (k : KeyPtr) : Option Cell :=
  match aget s.mem k.cell with
  | some c => if k.live ∧ c.ver = k.ver then some c else none
  | none => none

def keysAlive (s : Eng) : Bool := s.keys.all fun k => (keyCell s k).isSome

def keyIs (s : Eng) (v : Val) (k : KeyPtr) : Bool :=
  match keyCell s k with
  | some c => compare c.val v == .eq
  | none => false

/-- `key_map.find(&var)`: equality is `compare(…) == 0`, var_t.h:286-290 and var_t.cpp:103-112. -/
def findKey (s : Eng) (v : Val) : Option KeyPtr := s.keys.find? (keyIs s v)

/-- `key_map[&value] = key` for the object at `cell`: an equal key keeps its pointer. -/
def keySet (cell ver : Nat) (v : Val) (addr : Nat) (s : Eng) : Eng :=
  match findKey s v with
  | some _ => { s with keys := s.keys.map fun k => if keyIs s v k then { k with addr := addr } else k }
  | none => { s with keys := { cell := cell, ver := ver, live := true, addr := addr } :: s.keys }

/-- The flags and count given to a new key, Engine.cpp:140-141. -/
def asKey (c : Cell) : Cell :=
  if c.stored then { c with const := true, key := true }
  else { c with const := true, key := true, dirty := true, rc := c.rc + 1 }

/-- A new key, Engine.cpp:138-143. -/
def newKey (e : Env) (src : Src) : EM Nat := do
  let k ← alloc e
  write e k src
  match ← getCell (.mem k) with
  | none => undef
  | some c => do
    setCell (.mem k) (asKey c)
    modify (keySet k c.ver c.val k)
    pure k

/-- `lookup(var, read_only)`, Engine.cpp:114-144; 0 means that there is no such key. A search in
    `key_map` follows pointers on its way; the model asks that all of them are valid. -/
def lookup (e : Env) (src : Src) (ro : Bool) : EM Nat := do
  let sc ← srcCell src
  need (¬ sc.val = .nil)
  need (¬ numBytes sc.val > MAX_KEY_BYTES)
  let s ← gets id
  safe (keysAlive s)
  match findKey s sc.val with
  | some k => pure k.addr
  | none => do
    let k ← storLookup e sc.val
    if k ≠ 0 then do
      let c ← readFail e k
      need (c.const ∧ c.key)
      modify (keySet k c.ver c.val k)
      pure k
    else if ro then pure 0
    else newKey e src

/-- `lookup(src, read_only)`, Engine.cpp:99-102. -/
def lookupAt (e : Env) (a : Nat) (ro : Bool) : EM Nat := do
  let c ← readFail e a
  lookup e (.obj (.mem a) c.ver) ro

/-- `erase_entry`, Engine.cpp:377-389. -/
def eraseEntry (e : Env) (a k : Nat) : EM Unit := do
  match ← getCell (.ent a k) with
  | some _ => eraseLoc (.ent a k)
  | none =>
    if a ≥ MEM_STATIC then do
      let c ← readFail e a
      if c.stored then do
        match ← storReadEnt e a k with
        | some c => do setCell (.ent a k) c; eraseLoc (.ent a k)
        | none => pure ()
      else pure ()
    else pure ()

/-- `erase_key`, Engine.cpp:391-396. -/
def eraseKey (e : Env) (a key : Nat) : EM Unit := do
  let k ← lookupAt e key true
  if k ≠ 0 then eraseEntry e a k else pure ()

/-- `push_back(dst, var)`, Engine.cpp:298-306. The size goes up before the entry is written. -/
def pushBack (e : Env) (a : Nat) (src : Src) : EM Unit := do
  let c ← readFail e a
  match c.val with
  | .arr x n => do
    need (¬ n ≥ 2 ^ 32 - 1)
    setCell (.mem a) { c with val := .arr x (n + 1) }
    writeEntry e a n src
    match ← getCell (.mem a) with
    | none => undef
    | some d => do
      safe (d.ver = c.ver)
      setCell (.mem a) { d with dirty := true }
  | _ => raise

/-- `push_back(dst, src)`, Engine.cpp:317-323. -/
def pushBackFrom (e : Env) (dst src : Nat) : EM Unit := do
  need (¬ dst = src)
  let c ← readFail e src
  pushBack e dst (.obj (.mem src) c.ver)

/-- The array held by reference gets one element less, Engine.cpp:337-338. -/
def shrink (c d : Cell) : EM Cell :=
  match d.val with
  | .arr x n => do
    safe (d.ver = c.ver)
    pure { d with val := .arr x (n - 1), dirty := true }
  | _ => undef

/-- `pop_back(dst, src)`, Engine.cpp:325-339. The array is held by reference while `dst` is
    written, which may free it. -/
def popBack (e : Env) (dst src : Nat) : EM Unit := do
  need (¬ dst = src)
  let c ← readFail e src
  match c.val with
  | .arr _ n => do
    need (¬ n = 0)
    let x ← readEntryFail e src (n - 1)
    write e dst (.obj (.ent src (n - 1)) x.ver)
    eraseEntry e src (n - 1)
    match ← getCell (.mem src) with
    | none => undef
    | some d => do
      let d ← shrink c d
      setCell (.mem src) d
  | _ => raise

/-! ### Removing stack memory -/

/-- `memory.erase(iter)`; pointers of `key_map` to the cell dangle from now on. -/
def dropCell (a : Nat) (s : Eng) : Eng :=
  { s with mem := adel s.mem a, keys := s.keys.map fun k => if k.cell = a then { k with live := false } else k }

/-- The loop of `clear_stack` over the given cells, Engine.cpp:1741-1743. -/
def clearCells (ks : List Nat) : EM Unit :=
  forM' ks fun a => do
    match ← getCell (.mem a) with
    | none => undef
    | some c => do
      clear c
      modify (dropCell a)
      checkGas

/-- `clear_stack(offset)`, Engine.cpp:1738-1745: stack cells from the offset on are cleared and
    removed, constant or not. When the start is behind MEM_STATIC and there is a cell in between,
    the loop never meets its end, removes everything behind the start and runs off the map. -/
def clearStack (off : Nat) : EM Unit := do
  let s ← gets id
  if MEM_STACK + off ≤ MEM_STATIC then
    clearCells ((s.mem.filter (fun p => MEM_STACK + off ≤ p.1 ∧ p.1 < MEM_STATIC)).map (·.1))
  else if s.mem.any (fun p => MEM_STATIC ≤ p.1 ∧ p.1 < MEM_STACK + off) then do
    clearCells ((s.mem.filter (fun p => MEM_STACK + off ≤ p.1)).map (·.1))
    undef
  else pure ()

end Verif.VM
