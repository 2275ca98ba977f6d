import Verif.VM.Engine
/-
  The contract virtual machine, part 2: instructions, running, set-up and commit
  (src/vm/Engine.cpp:590-1770, src/vm_interface.cpp, src/Node_validate.cpp:389-605).
-/
namespace Verif.VM
open Verif.Codec (Bytes le)

/-! ### Frames and operands -/

/-- `get_frame`, Engine.cpp:1246-1252. -/
def getFrame : EM Frame := do
  let s ← gets id
  match s.frames with
  | [] => raise
  | f :: _ => pure f

/-- Replace the innermost frame (it exists). -/
def setTop (f : Frame) (s : Eng) : Eng :=
  match s.frames with
  | [] => s
  | _ :: l => { s with frames := f :: l }

/-- `jump`, Engine.cpp:1218-1221. -/
def jump (ip : Nat) : EM Unit := do
  let f ← getFrame
  modify (setTop { f with ip := ip })

/-- `get_frame().instr_ptr++`, Engine.cpp:1735. -/
def advance : EM Unit := do
  let f ← getFrame
  modify (setTop { f with ip := f.ip + 1 })

/-- `deref`, Engine.cpp:1259-1266. -/
def deref (e : Env) (a : Nat) : EM Nat := do
  let c ← readFail e a
  match c.val with
  | .ref x => pure x
  | _ => pure a

/-- The stack offset of an operand, Engine.cpp:1270-1276. -/
def stackAddr (x : Nat) : EM Nat := do
  if MEM_STACK ≤ x ∧ x < MEM_STATIC then do
    let f ← getFrame
    need (¬ x + f.sp ≥ MEM_STATIC)
    pure (x + f.sp)
  else pure x

/-- `deref_addr`, Engine.cpp:1268-1278. -/
def derefAddr (e : Env) (x : Nat) (flag : Bool) : EM Nat := do
  let a ← stackAddr x
  if flag then deref e a else pure a

/-- `deref_value`, Engine.cpp:1280-1286; a 256-bit value is cut to 64 bits. -/
def derefValue (e : Env) (x : Nat) (flag : Bool) : EM Nat := do
  if flag then do
    let a ← derefAddr e x false
    let n ← readUint e a
    pure (u64 n)
  else pure x

/-- Operand flags, instr_t.h:20-26. -/
def Instr.refA (i : Instr) : Bool := i.flags.testBit 0
def Instr.refB (i : Instr) : Bool := i.flags.testBit 1
def Instr.refC (i : Instr) : Bool := i.flags.testBit 2
def Instr.refD (i : Instr) : Bool := i.flags.testBit 3
def Instr.hardFail (i : Instr) : Bool := i.flags.testBit 4
def Instr.catchOverflow (i : Instr) : Bool := i.flags.testBit 5
def Instr.bitwise (i : Instr) : Bool := i.flags.testBit 6

def addrA (e : Env) (i : Instr) : EM Nat := derefAddr e i.a i.refA
def addrB (e : Env) (i : Instr) : EM Nat := derefAddr e i.b i.refB
def addrC (e : Env) (i : Instr) : EM Nat := derefAddr e i.c i.refC
def addrD (e : Env) (i : Instr) : EM Nat := derefAddr e i.d i.refD
def valA (e : Env) (i : Instr) : EM Nat := derefValue e i.a i.refA
def valB (e : Env) (i : Instr) : EM Nat := derefValue e i.b i.refB
def valC (e : Env) (i : Instr) : EM Nat := derefValue e i.c i.refC
def valD (e : Env) (i : Instr) : EM Nat := derefValue e i.d i.refD

/-- Arguments of a call, evaluated from the left or from the right. -/
def args2 {α : Type} (e : Env) (x y : EM α) : EM (α × α) :=
  if e.ltr then do let a ← x; let b ← y; pure (a, b)
  else do let b ← y; let a ← x; pure (a, b)

def args3 {α : Type} (e : Env) (x y z : EM α) : EM (α × α × α) :=
  if e.ltr then do let a ← x; let b ← y; let c ← z; pure (a, b, c)
  else do let c ← z; let b ← y; let a ← x; pure (a, b, c)

def args4 {α : Type} (e : Env) (x y z w : EM α) : EM (α × α × α × α) :=
  if e.ltr then do let a ← x; let b ← y; let c ← z; let d ← w; pure (a, b, c, d)
  else do let d ← w; let c ← z; let b ← y; let a ← x; pure (a, b, c, d)

/-! ### Operations -/

def boolVal (b : Bool) : Val := if b then .tru else .fls

/-- `is_true`, Engine.cpp:1202-1216. -/
def isTrue : Val → Bool
  | .nil => false
  | .fls => false
  | .uint n => n ≠ 0
  | .str b => b.length ≠ 0
  | .bin b => b.length ≠ 0
  | _ => true

/-- `copy`, Engine.cpp:657-662. -/
def opCopy (e : Env) (dst src : Nat) : EM Unit :=
  if dst ≠ src then writeFrom e dst src else pure ()

/-- `clone`, Engine.cpp:664-669. -/
def opClone (e : Env) (dst src : Nat) : EM Unit := do
  let a ← alloc e
  writeFrom e a src
  writeVal e dst (.ref a)

/-- `get` on a map: a missing key or entry gives nil, Engine.cpp:686-688, 538-544 and 146-152. -/
def getKey (e : Env) (dst addr key : Nat) : EM Unit := do
  let k ← lookupAt e key true
  if k ≠ 0 then do
    match ← readEntry e addr k with
    | some c => write e dst (.obj (.ent addr k) c.ver)
    | none => writeVal e dst .nil
  else writeVal e dst .nil

/-- `get`, Engine.cpp:671-696. -/
def opGet (e : Env) (dst addr key : Nat) (hard : Bool) : EM Unit := do
  let c ← readFail e addr
  match c.val with
  | .arr _ n => do
    let i ← readUint e key
    if i < n then do
      let x ← readEntryFail e addr (u64 i)
      write e dst (.obj (.ent addr (u64 i)) x.ver)
    else do
      need (¬ hard)
      writeVal e dst .nil
  | .map _ => getKey e dst addr key
  | _ => do
    need (¬ hard)
    writeVal e dst .nil

/-- `set`, Engine.cpp:698-716 (`write_key`, 362-365). -/
def opSet (e : Env) (addr key src : Nat) : EM Unit := do
  let c ← readFail e addr
  match c.val with
  | .arr _ n => do
    let i ← readUint e key
    need (¬ i ≥ n)
    let x ← readFail e src
    writeEntry e addr (u64 i) (.obj (.mem src) x.ver)
  | .map _ => do
    let x ← readFail e src
    let k ← lookupAt e key false
    writeEntry e addr k (.obj (.mem src) x.ver)
  | _ => raise

/-- `erase(addr, key)`, Engine.cpp:718-728. -/
def opErase (e : Env) (addr key : Nat) : EM Unit := do
  let c ← readFail e addr
  match c.val with
  | .map _ => eraseKey e addr key
  | _ => raise

/-- The two loops of `concat`, Engine.cpp:758-765. -/
def concatLoop (e : Env) (dst x n : Nat) (src : Src) : EM Unit := do
  let _ ← srcCell src
  forM' (List.range n) fun i => do
    let c ← readEntryFail e x i
    pushBack e dst (.obj (.ent x i) c.ver)
    checkGas
    let _ ← srcCell src

/-- `binary_t::unsafe_alloc` refuses large sizes, var_t.h:225-228. -/
def needSize (n : Nat) : EM Unit := need (¬ n ≥ 2 ^ 32 - 1)

/-- `concat`, Engine.cpp:730-772. -/
def opConcat (e : Env) (dst lhs rhs : Nat) : EM Unit := do
  let l ← readFail e lhs
  let r ← readFail e rhs
  match l.val, r.val with
  | .str x, .str y => do needSize (x.length + y.length); assign e dst (.str (x ++ y))
  | .bin x, .bin y => do needSize (x.length + y.length); assign e dst (.bin (x ++ y))
  | .arr x n, .arr y m => do
    need (¬ (dst = lhs ∨ dst = rhs))
    let a ← alloc e
    assign e a (.arr 0 0)
    concatLoop e a x n (.obj (.mem lhs) l.ver)
    concatLoop e a y m (.obj (.mem rhs) r.ver)
    writeVal e dst (.ref a)
  | _, _ => raise

/-- `memcpy`, Engine.cpp:774-794. -/
def opMemcpy (e : Env) (dst src count offset : Nat) : EM Unit := do
  let c ← readFail e src
  match c.val with
  | .str b => do
    need (¬ (offset > b.length ∨ count > b.length - offset))
    needSize count
    assign e dst (.str ((b.drop offset).take count))
  | .bin b => do
    need (¬ (offset > b.length ∨ count > b.length - offset))
    needSize count
    assign e dst (.bin ((b.drop offset).take count))
  | _ => raise

/-- `sha256`, Engine.cpp:796-812. The size is added to in 32 bits. -/
def opSha256 (e : Env) (dst src : Nat) : EM Unit := do
  let c ← readFail e src
  match c.val with
  | .str b | .bin b => do
    addGas (u32 (b.length + 63) / 64 * SHA256_BLOCK_COST)
    checkGas
    writeVal e dst (.bin (e.sha256 b))
  | _ => raise

/-- `verify`, Engine.cpp:814-822. The signature comes first (C++17), the order of the other two is
    open. A signature, key or hash of the wrong size throws after all three reads here, in the code
    right after its own. -/
def opVerify (e : Env) (dst msg pubkey sig : Nat) : EM Unit := do
  addGas ECDSA_VERIFY_COST
  checkGas
  let s ← readBin e sig
  let (p, m) ← args2 e (readBin e pubkey) (readBin e msg)
  match e.ecdsa m p s with
  | some b => writeVal e dst (boolVal b)
  | none => raise

/-- The base of a number in text form, instr_t.h:87-103; Engine.cpp:863-871 and 925-929. -/
def convBase (k : Nat) : Option Nat :=
  match k with
  | 0 => some 10
  | 1 => some 2
  | 2 => some 8
  | 3 => some 10
  | 4 => some 16
  | _ => none

/-- UINT to STRING, Engine.cpp:862-890; prices Engine.h:46-49. -/
def convUintStr (e : Env) (dst n k : Nat) : EM Unit := do
  match convBase k with
  | none => raise
  | some base => do
    (if n / 2 ^ 128 ≠ 0 then do
      need (¬ base = 10)
      addGas 250000
    else if n / 2 ^ 64 ≠ 0 then addGas 25000
    else if n / 2 ^ 32 ≠ 0 then addGas 1000
    else addGas 500)
    checkGas
    assign e dst (.str (e.uintStr base n))

/-- Endianness of a conversion: big unless asked otherwise, Engine.cpp:892-898 and 1007-1013. -/
def convEndian (k : Nat) : Option Bool :=
  if k = 0 ∨ k = 11 then some true else if k = 12 then some false else none

/-- UINT sources, Engine.cpp:856-908. -/
def convUint (e : Env) (dst src ver n d0 d1 : Nat) : EM Unit :=
  if d0 = 6 then write e dst (.obj (.mem src) ver)
  else if d0 = 7 then convUintStr e dst n d1
  else if d0 = 8 then
    match convEndian d1 with
    | none => raise
    | some true => assign e dst (.bin (le 32 n).reverse)
    | some false => assign e dst (.bin (le 32 n))
  else raise

/-- Value of a digit, Engine.cpp:935-942; 255 stands for -1. -/
def digitOf (c : Nat) : Nat :=
  if 48 ≤ c ∧ c ≤ 57 then c - 48
  else if 97 ≤ c ∧ c ≤ 122 then c - 97 + 10
  else if 65 ≤ c ∧ c ≤ 90 then c - 65 + 10
  else 255

def has0x (b : Bytes) : Bool := b.take 2 = [48, 120]
def has0b (b : Bytes) : Bool := b.take 2 = [48, 98]

/-- STRING to UINT, Engine.cpp:912-951; price Engine.h:45. -/
def convStrUint (e : Env) (dst : Nat) (b : Bytes) (s0 : Nat) : EM Unit := do
  match (if s0 = 0 then some (if has0x b then 16 else if has0b b then 2 else 10) else convBase s0) with
  | none => raise
  | some base => do
    let v := if has0x b || has0b b then b.drop 2 else b
    need (∀ c ∈ v, digitOf c < base)
    addGas (v.length * 200)
    checkGas
    writeVal e dst (.uint (u256 (e.strUint base v)))

def isHex (c : Nat) : Bool :=
  (48 ≤ c && c ≤ 57) || (97 ≤ c && c ≤ 102) || (65 ≤ c && c ≤ 70)

/-- STRING to BINARY, Engine.cpp:955-986. -/
def convStrBin (e : Env) (dst : Nat) (b : Bytes) (s0 : Nat) : EM Unit :=
  if s0 = 0 then assign e dst (.bin b)
  else if s0 = 4 then do
    need (b.length % 2 = 0)
    need ((if has0x b then b.drop 2 else b).all isHex)
    assign e dst (.bin (e.hexParse b))
  else raise

/-- STRING sources, Engine.cpp:909-999; price Engine.h:50. -/
def convStr (e : Env) (dst src ver : Nat) (b : Bytes) (d0 s0 : Nat) : EM Unit :=
  if d0 = 6 then convStrUint e dst b s0
  else if d0 = 7 then write e dst (.obj (.mem src) ver)
  else if d0 = 8 then convStrBin e dst b s0
  else if d0 = 10 then do
    addGas 1000
    checkGas
    match e.addrParse b with
    | some x => assign e dst (.bin x)
    | none => raise
  else raise

/-- BINARY sources, Engine.cpp:1000-1057; price Engine.h:51. -/
def convBin (e : Env) (dst src ver : Nat) (b : Bytes) (d0 d1 s0 : Nat) : EM Unit :=
  if d0 = 6 then do
    need (b.length = 32)
    match convEndian s0 with
    | none => raise
    | some true => writeVal e dst (.uint (leNat b.reverse))
    | some false => writeVal e dst (.uint (leNat b))
  else if d0 = 7 then
    if d1 = 10 then do
      addGas 1000
      checkGas
      let x ← toAddr b
      assign e dst (.str (e.addrStr x))
    else if d1 = 4 then assign e dst (.str (e.hexStr b))
    else if d1 = 0 then assign e dst (.str b)
    else raise
  else if d0 = 8 then write e dst (.obj (.mem src) ver)
  else if d0 = 10 then do
    need (b.length = 32)
    write e dst (.obj (.mem src) ver)
  else raise

/-- `conv`, Engine.cpp:824-1061. -/
def opConv (e : Env) (dst src dflags sflags : Nat) : EM Unit := do
  let d0 := dflags % 256
  let d1 := dflags / 256 % 256
  let s0 := sflags % 256
  let c ← readFail e src
  if d0 = 5 then writeVal e dst (boolVal (isTrue c.val))
  else match c.val with
    | .nil =>
      if d0 = 6 then writeVal e dst (.uint 0)
      else if d0 = 10 then writeVal e dst (.bin (List.replicate 32 0))
      else raise
    | .tru => if d0 = 6 then writeVal e dst (.uint 1) else raise
    | .fls => if d0 = 6 then writeVal e dst (.uint 0) else raise
    | .uint n => convUint e dst src c.ver n d0 d1
    | .str b => convStr e dst src c.ver b d0 s0
    | .bin b => convBin e dst src c.ver b d0 d1 s0
    | _ => raise

/-- `parse_memo`, Engine.cpp:1077-1097; `txio_t::MAX_MEMO_SIZE` is 64 (interface/txio_t.vni:13). -/
def parseMemo (e : Env) (a : Nat) : EM (Option Bytes) := do
  let c ← readFail e a
  match c.val with
  | .nil => pure none
  | .str b => do
    need (¬ b.length > 64)
    pure (if b.length ≠ 0 then some b else none)
  | _ => raise

def balGet (l : List (Bytes × Nat)) (c : Bytes) : Option Nat :=
  match l with
  | [] => none
  | (k, v) :: l => if k = c then some v else balGet l c

def balSet (l : List (Bytes × Nat)) (c : Bytes) (v : Nat) : List (Bytes × Nat) :=
  match l with
  | [] => [(c, v)]
  | (k, w) :: l => if k = c then (c, v) :: l else (k, w) :: balSet l c v

/-- `get_balance`, Engine.cpp:1177-1190: the currency and its balance. -/
def getBalance (e : Env) (a : Nat) : EM (Bytes × Nat) := do
  let b ← readBin e a
  let cur ← toAddr b
  let s ← gets id
  match balGet s.bal cur with
  | some n => pure (cur, n)
  | none => do
    addGas WRITE_COST
    let v ← storBalance e cur
    modify fun s => { s with bal := balSet s.bal cur (v.getD 0) }
    pure (cur, v.getD 0)

/-- `send`, Engine.cpp:1099-1123. -/
def opSend (e : Env) (address amount currency memo : Nat) : EM Unit := do
  let v ← readUint e amount
  if v = 0 then pure ()
  else do
    need (¬ v / 2 ^ 128 ≠ 0)
    need (¬ currency = 0)
    let (cur, b) ← getBalance e currency
    need (¬ b < v)
    modify fun s => { s with bal := balSet s.bal cur (b - v) }
    let xb ← readBin e currency
    let x ← toAddr xb
    let yb ← readBin e address
    let y ← toAddr yb
    let m ← parseMemo e memo
    modify fun s => { s with outputs := s.outputs ++ [{ currency := x, address := y, amount := v, memo := m }] }

/-- `mint`, Engine.cpp:1125-1140. -/
def opMint (e : Env) (address amount memo : Nat) : EM Unit := do
  let v ← readUint e amount
  if v = 0 then pure ()
  else do
    need (¬ v / 2 ^ 80 ≠ 0)
    let yb ← readBin e address
    let y ← toAddr yb
    let m ← parseMemo e memo
    modify fun s => { s with mints := s.mints ++ [{ currency := e.contract, address := y, amount := v, memo := m }] }

/-- `read_balance`, Engine.cpp:1192-1195. -/
def opBalance (e : Env) (dst currency : Nat) : EM Unit := do
  let (_, b) ← getBalance e currency
  writeVal e dst (.uint b)

/-- `call`, Engine.cpp:1223-1237. -/
def opCall (ip sp : Nat) : EM Unit := do
  need (¬ sp ≥ STACK_SIZE)
  let s ← gets id
  need (¬ s.frames.length ≥ MAX_CALL_RECURSION)
  addGas INSTR_CALL_COST
  let f ← getFrame
  modify fun s => { s with frames := { ip := ip, sp := f.sp + sp } :: s.frames }

/-- `ret`, Engine.cpp:1239-1244. -/
def opRet : EM Bool := do
  let f ← getFrame
  clearStack (f.sp + 1)
  modify fun s => { s with frames := s.frames.tail }
  gets fun s => s.frames.isEmpty

/-- What the surroundings do to the engine: `get_contract_ex` and child engines charge gas, and
    `vm::copy`, `vm::assign`, `vm::set_deposit` (vm_interface.cpp:28-34, 73-142, 144-296) use the
    public interface. Values they write come from outside, so they are temporaries here. -/
def hostOp (e : Env) : HostOp → EM Unit
  | .gas n => do addGas n; checkGas
  | .read a => do let _ ← read e a
  | .readEnt a k => do let _ ← readEntry e a k
  | .alloc => do let _ ← alloc e
  | .lookup v => do let _ ← lookup e (.tmp v) false
  | .assign a v => assign e a v
  | .write a v => writeVal e a v
  | .writeEnt a k v => writeEntry e a k (.tmp v)
  | .push a v => pushBack e a (.tmp v)
  | .fail => raise

/-- `rcall`, Engine.cpp:1142-1165. `remote_call` is set (Node_validate.cpp:513-554). -/
def opRcall (e : Env) (name method sp nargs : Nat) : EM Unit := do
  need (¬ sp ≥ STACK_SIZE)
  let s ← gets id
  need (¬ s.frames.length ≥ MAX_CALL_RECURSION)
  need (¬ nargs > 4096)
  addGas INSTR_CALL_COST
  let f ← getFrame
  modify fun s => { s with frames := { f with sp := f.sp + sp } :: s.frames }
  let (n, m) ← args2 e (readStr e name) (readStr e method)
  let s ← gets id
  forM' (e.remote s n m nargs) (hostOp e)
  let _ ← opRet

/-- The first argument of `read_contract`, Engine.cpp:1173. -/
def readAddr (e : Env) (a : Nat) : EM Bytes := do
  let b ← readBin e a
  toAddr b

/-- `cread`, Engine.cpp:1167-1175. `read_contract` is set (Node_validate.cpp:556-572). -/
def opCread (e : Env) (dst address field : Nat) : EM Unit := do
  let (x, f) ← args2 e (readAddr e address) (readStr e field)
  let s ← gets id
  forM' (e.field s x f dst) (hostOp e)

/-! ### Instructions -/

/-- The operands shared by the binary operations, Engine.cpp:1338-1342: target and two numbers. -/
def opUints (e : Env) (i : Instr) : EM (Nat × Nat × Nat) := do
  let dst ← addrA e i
  let lhs ← addrB e i
  let rhs ← addrC e i
  let l ← readUint e lhs
  let r ← readUint e rhs
  pure (dst, l, r)

/-- OP_ADD, Engine.cpp:1337-1349. -/
def opAdd (e : Env) (i : Instr) : EM Unit := do
  let (dst, l, r) ← opUints e i
  let d := u256 (l + r)
  need (¬ (i.catchOverflow ∧ d < l))
  writeVal e dst (.uint d)

/-- OP_SUB, Engine.cpp:1350-1362. -/
def opSub (e : Env) (i : Instr) : EM Unit := do
  let (dst, l, r) ← opUints e i
  let d := u256 (l + 2 ^ 256 - r)
  need (¬ (i.catchOverflow ∧ d > l))
  writeVal e dst (.uint d)

/-- The overflow test of OP_MUL, Engine.cpp:1376-1378. -/
def mulOverflow (version l r : Nat) : Bool :=
  if version ≥ 1 then l ≠ 0 ∧ r > (2 ^ 256 - 1) / l else u256 (l * r) < l ∧ u256 (l * r) < r

/-- OP_MUL, Engine.cpp:1363-1385. -/
def opMul (e : Env) (i : Instr) : EM Unit := do
  let (dst, l, r) ← opUints e i
  addGas (if l / 2 ^ 64 ≠ 0 ∨ r / 2 ^ 64 ≠ 0 then INSTR_MUL_256_COST else INSTR_MUL_128_COST)
  need (¬ (i.catchOverflow ∧ mulOverflow e.version l r))
  writeVal e dst (.uint (u256 (l * r)))

/-- The price of a division, Engine.cpp:1395-1401. -/
def divCost (l : Nat) : Nat :=
  if l / 2 ^ 128 ≠ 0 then INSTR_DIV_256_COST
  else if l / 2 ^ 64 ≠ 0 then INSTR_DIV_128_COST else INSTR_DIV_64_COST

/-- OP_DIV and OP_MOD, Engine.cpp:1386-1423. -/
def opDiv (e : Env) (i : Instr) (modulo : Bool) : EM Unit := do
  let (dst, l, r) ← opUints e i
  need (¬ r = 0)
  addGas (divCost l)
  writeVal e dst (.uint (if modulo then l % r else l / r))

/-- OP_NOT, Engine.cpp:1424-1448. -/
def opNot (e : Env) (i : Instr) : EM Unit := do
  let dst ← addrA e i
  let src ← addrB e i
  let c ← readFail e src
  if i.bitwise then
    match c.val with
    | .uint n => writeVal e dst (.uint (2 ^ 256 - 1 - n))
    | .bin b => assign e dst (.bin (b.map (255 - ·)))
    | _ => raise
  else writeVal e dst (boolVal (!isTrue c.val))

/-- OP_XOR, OP_AND, OP_OR, Engine.cpp:1449-1553. -/
def opLogic (e : Env) (i : Instr) (f : Nat → Nat → Nat) (g : Bool → Bool → Bool) : EM Unit := do
  let dst ← addrA e i
  let lhs ← addrB e i
  let rhs ← addrC e i
  let l ← readFail e lhs
  let r ← readFail e rhs
  if i.bitwise then
    match l.val, r.val with
    | .uint x, .uint y => writeVal e dst (.uint (f x y))
    | .bin x, .bin y => do
      need (x.length = y.length)
      assign e dst (.bin (List.zipWith f x y))
    | _, _ => raise
  else writeVal e dst (boolVal (g (isTrue l.val) (isTrue r.val)))

/-- OP_MIN and OP_MAX, Engine.cpp:1554-1571. -/
def opMinMax (e : Env) (i : Instr) (mx : Bool) : EM Unit := do
  let (dst, l, r) ← opUints e i
  writeVal e dst (.uint (if mx then (if l > r then l else r) else (if l < r then l else r)))

/-- OP_SHL and OP_SHR, Engine.cpp:1572-1587. Shifting a `uint256_t` by 256 or more gives 0. -/
def opShift (e : Env) (i : Instr) (left : Bool) : EM Unit := do
  let dst ← addrA e i
  let src ← addrB e i
  let count ← valC e i
  let v ← readUint e src
  writeVal e dst (.uint (if count ≥ 256 then 0 else if left then u256 (v <<< count) else v >>> count))

/-- The result of a comparison, Engine.cpp:1607-1617. -/
def cmpResult (code : Nat) (o : Ordering) : Bool :=
  match code with
  | 0x60 => o == .eq
  | 0x61 => o != .eq
  | 0x62 => o == .lt
  | 0x63 => o == .gt
  | 0x64 => o != .gt
  | _ => o != .lt

/-- OP_CMP_*, Engine.cpp:1588-1620. -/
def opCmp (e : Env) (i : Instr) : EM Unit := do
  let dst ← addrA e i
  let lhs ← addrB e i
  let rhs ← addrC e i
  let l ← readFail e lhs
  let r ← readFail e rhs
  need (i.code = 0x60 ∨ i.code = 0x61 ∨ l.val.code = r.val.code)
  writeVal e dst (boolVal (cmpResult i.code (compare l.val r.val)))

/-- OP_TYPE, Engine.cpp:1621-1627. -/
def opType (e : Env) (i : Instr) : EM Unit := do
  let dst ← addrA e i
  let a ← addrB e i
  let c ← readFail e a
  writeVal e dst (.uint c.val.code)

/-- OP_SIZE, Engine.cpp:1628-1644. -/
def opSize (e : Env) (i : Instr) : EM Unit := do
  let dst ← addrA e i
  let a ← addrB e i
  let c ← readFail e a
  match c.val with
  | .str b => writeVal e dst (.uint b.length)
  | .bin b => writeVal e dst (.uint b.length)
  | .arr _ n => writeVal e dst (.uint n)
  | _ => raise

/-- OP_JUMPI and OP_JUMPN, Engine.cpp:1313-1324. -/
def opJumpIf (e : Env) (i : Instr) (want : Bool) : EM Unit := do
  let b ← addrB e i
  let c ← readFail e b
  if isTrue c.val = want then do
    let a ← valA e i
    jump a
  else advance

/-- OP_FAIL, Engine.cpp:1713-1716. -/
def opFail (e : Env) (i : Instr) : EM Unit := do
  let _ ← valB e i
  let a ← addrA e i
  let _ ← read e a
  raise

/-- The instructions that end by going on to the next one, Engine.cpp:1292-1734. -/
def execOp (e : Env) (i : Instr) : EM Unit :=
  match i.code with
  | 0x00 => pure ()
  | 0x01 => do need (¬ i.refA); eraseAddr e i.a
  | 0x02 => do let (a, b) ← args2 e (addrA e i) (addrB e i); opCopy e a b
  | 0x03 => do let (a, b) ← args2 e (addrA e i) (addrB e i); opClone e a b
  | 0x20 => opAdd e i
  | 0x21 => opSub e i
  | 0x22 => opMul e i
  | 0x23 => opDiv e i false
  | 0x24 => opDiv e i true
  | 0x40 => opNot e i
  | 0x41 => opLogic e i (· ^^^ ·) xor
  | 0x42 => opLogic e i (· &&& ·) and
  | 0x43 => opLogic e i (· ||| ·) or
  | 0x44 => opMinMax e i false
  | 0x45 => opMinMax e i true
  | 0x46 => opShift e i true
  | 0x47 => opShift e i false
  | 0x60 | 0x61 | 0x62 | 0x63 | 0x64 | 0x65 => opCmp e i
  | 0x80 => opType e i
  | 0x81 => opSize e i
  | 0x82 => do
    let (a, b, c) ← args3 e (addrA e i) (addrB e i) (addrC e i)
    opGet e a b c i.hardFail
  | 0x83 => do
    let (a, b, c) ← args3 e (addrA e i) (addrB e i) (addrC e i)
    opSet e a b c
  | 0x84 => do let (a, b) ← args2 e (addrA e i) (addrB e i); opErase e a b
  | 0x85 => do let (a, b) ← args2 e (addrA e i) (addrB e i); pushBackFrom e a b
  | 0x86 => do let (a, b) ← args2 e (addrA e i) (addrB e i); popBack e a b
  | 0xA0 => do
    let (a, b, c, d) ← args4 e (addrA e i) (addrB e i) (valC e i) (valD e i)
    opConv e a b c d
  | 0xA1 => do
    let (a, b, c) ← args3 e (addrA e i) (addrB e i) (addrC e i)
    opConcat e a b c
  | 0xA2 => do
    let (a, b, c, d) ← args4 e (addrA e i) (addrB e i) (valC e i) (valD e i)
    opMemcpy e a b c d
  | 0xA3 => do let (a, b) ← args2 e (addrA e i) (addrB e i); opSha256 e a b
  | 0xA4 => do
    let (a, b, c, d) ← args4 e (addrA e i) (addrB e i) (addrC e i) (addrD e i)
    opVerify e a b c d
  | 0xC0 => do let _ ← args2 e (valA e i) (addrB e i)
  | 0xC1 => do
    let (a, b, c, d) ← args4 e (addrA e i) (addrB e i) (addrC e i) (addrD e i)
    opSend e a b c d
  | 0xC2 => do
    let (a, b, c) ← args3 e (addrA e i) (addrB e i) (addrC e i)
    opMint e a b c
  | 0xC3 => do let _ ← args2 e (addrA e i) (addrB e i)
  | 0xC4 => opFail e i
  | 0xC5 => do
    let (a, b, c, d) ← args4 e (addrA e i) (addrB e i) (valC e i) (valD e i)
    opRcall e a b c d
  | 0xC6 => do
    let (a, b, c) ← args3 e (addrA e i) (addrB e i) (addrC e i)
    opCread e a b c
  | 0xC7 => do let (a, b) ← args2 e (addrA e i) (addrB e i); opBalance e a b
  | _ => raise

/-- `exec`, Engine.cpp:1288-1736. -/
def exec (e : Env) (i : Instr) : EM Unit := do
  addGas INSTR_COST
  match i.code with
  | 0x04 => do let a ← valA e i; jump a
  | 0x05 => opJumpIf e i true
  | 0x06 => opJumpIf e i false
  | 0x07 => do
    need (¬ i.refB)
    let (a, b) ← args2 e (valA e i) (valB e i)
    opCall a b
  | 0x08 => do
    let last ← opRet
    if last then pure () else advance
  | _ => do
    execOp e i
    advance

/-- `step`, Engine.cpp:631-647. -/
def step (e : Env) : EM Unit := do
  let f ← getFrame
  let s ← gets id
  match s.code[f.ip]? with
  | none => raise
  | some i => do
    exec e i
    checkGas

/-- `run`, Engine.cpp:624-629, with a bound on the number of instructions: `false` means that the
    bound was reached first. -/
def run (e : Env) : Nat → EM Bool
  | 0 => gets fun s => s.frames.isEmpty
  | n + 1 => do
    let s ← gets id
    if s.frames.isEmpty then pure true
    else do
      step e
      run e n

/-! ### Set-up and commit -/

/-- A new engine, Engine.cpp:22-28 and Engine.h:89-103, 231-240, with the code to run. -/
def newEng (code : List Instr) (limit : Nat) : Eng :=
  { code := code, frames := [], outputs := [], mints := [], gas := 0, limit := limit, mem := [], ents := []
    keys := [], bal := [], haveInit := false, firstAlloc := true, heapBase := 2 ^ 64 - 1 }

/-- The constants of a binary, vm_interface.cpp:56-64. -/
def loadConsts (e : Env) (consts : List Val) : EM Unit := do
  forM' consts.zipIdx fun p => if p.2 < MEM_EXTERN then assign e p.2 p.1 else pure ()
  need (¬ consts.length ≥ MEM_EXTERN)

/-- Every constant that is small enough becomes a key, Engine.cpp:596-601. Address 0 is left out;
    of equal constants the first one counts. -/
def initKeys (s : Eng) : Eng :=
  (s.mem.filter (fun p => 1 ≤ p.1 ∧ p.1 < MEM_EXTERN ∧ numBytes p.2.val ≤ MAX_KEY_BYTES)).foldl
    (fun t p => if (findKey t p.2.val).isSome then t
      else { t with keys := { cell := p.1, ver := p.2.ver, live := true, addr := p.1 } :: t.keys }) s

/-- `init`, Engine.cpp:590-603. -/
def init : EM Unit := do
  let s ← gets id
  need (¬ s.haveInit)
  modify initKeys
  modify fun s => { s with haveInit := true }

/-- Everything below the stack becomes read-only, Engine.cpp:613-618. -/
def freeze (m : AMap Nat) : AMap Nat :=
  m.map fun p => if p.1 < MEM_STACK then (p.1, { p.2 with const := true, dirty := false }) else p

/-- `begin`, Engine.cpp:605-622. -/
def begin (ip : Nat) : EM Unit := do
  let s ← gets id
  need s.haveInit
  need (s.frames = [])
  modify fun s => { s with mem := freeze s.mem, frames := [{ ip := ip, sp := 0 }] }

/-- `vm::load`, vm_interface.cpp:53-69, between the calls the node makes before and after it
    (Node_validate.cpp:410-441, 485, 504-507, 574-575), and `begin`. -/
def boot (e : Env) (pre : List HostOp) (consts : List Val) (post : List HostOp) (ip : Nat) : EM Unit := do
  forM' pre (hostOp e)
  loadConsts e consts
  init
  checkGas
  forM' post (hostOp e)
  begin ip

/-- What `commit` hands to the storage backend. -/
structure SWrite where
  loc : Loc
  cell : Cell
  deriving DecidableEq, Repr

/-- A reference to memory that is not stored. -/
def badRef : Val → Bool
  | .ref a => a < MEM_STATIC
  | _ => false

/-- `StorageProxy::write(contract, dst, value)`, StorageProxy.cpp:90-122. -/
def storWrite (e : Env) (a : Nat) (c : Cell) : EM Unit := do
  need (¬ e.readOnly)
  need (¬ badRef c.val)
  need (¬ (c.key ∧ ¬ c.const))
  addGas ((STOR_WRITE_COST + numBytes c.val * STOR_WRITE_BYTE_COST) * (if c.key then 2 else 1))
  checkGas
  let s ← gets id
  need (¬ e.storRefuse s (.mem a) c)

/-- `StorageProxy::write(contract, dst, key, value)`, StorageProxy.cpp:124-155. -/
def storWriteEnt (e : Env) (a k : Nat) (c : Cell) : EM Unit := do
  need (¬ e.readOnly)
  need (¬ badRef c.val)
  need (c.rc = 0)
  addGas (STOR_WRITE_COST + numBytes c.val * STOR_WRITE_BYTE_COST)
  checkGas
  let s ← gets id
  need (¬ e.storRefuse s (.ent a k) c)

/-- The first loop of `commit`, Engine.cpp:1751-1759. -/
def commitMem (e : Env) (l : AMap Nat) : EM (List SWrite) :=
  match l with
  | [] => pure []
  | (a, c) :: l =>
    if a ≥ MEM_STATIC ∧ c.dirty then do
      storWrite e a c
      setCell (.mem a) { c with dirty := false }
      let r ← commitMem e l
      pure ({ loc := .mem a, cell := c } :: r)
    else commitMem e l

/-- The second loop of `commit`, Engine.cpp:1760-1768. -/
def commitEnts (e : Env) (l : AMap (Nat × Nat)) : EM (List SWrite) :=
  match l with
  | [] => pure []
  | (k, c) :: l =>
    if k.1 ≥ MEM_STATIC ∧ c.dirty then do
      storWriteEnt e k.1 k.2 c
      setCell (.ent k.1 k.2) { c with dirty := false }
      let r ← commitEnts e l
      pure ({ loc := .ent k.1 k.2, cell := c } :: r)
    else commitEnts e l

/-- `commit`, Engine.cpp:1747-1770: the writes in order. -/
def commit (e : Env) : EM (List SWrite) := do
  clearStack 0
  let s ← gets id
  let w1 ← commitMem e s.mem
  let s ← gets id
  let w2 ← commitEnts e s.ents
  checkGas
  pure (w1 ++ w2)

/-- `vm::execute`, vm_interface.cpp:377-386, after `begin`: the writes and whether it ended. -/
def execute (e : Env) (fuel : Nat) (doCommit : Bool) : EM (Option (List SWrite)) := do
  let fin ← run e fuel
  if fin then do
    let w ← (if doCommit then commit e else pure [])
    checkGas
    pure (some w)
  else pure none

end Verif.VM
