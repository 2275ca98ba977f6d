import Verif.VM.Exec
/-
  The contract compiler, src/vm/Compiler.cpp, for the part of the language made of functions over
  local variables: constants, variables, all operators on values, parentheses, calls of functions of
  the contract, `assert`, `return`, declarations, `if`, `while`, `for(;;)` and scopes.

  Simplifications, valid for the whole model:
  * The parser (lexy, a submodule that is not there) is not modelled. The model starts from the parse
    tree: an expression is the list of children of its node, white space dropped
    (Compiler.cpp:784-796).
  * Arrays, objects, `.`, interfaces, `this`, global variables, constructors, `for(of)` and the
    functions built into the language other than `assert` are not modelled; their nodes do not exist
    in the model's syntax. So a reference has no `key`, `is_interface` or `method`.
  * Names are numbered: only equality of names matters to the compiler. Functions come in the order
    of `function_map` (Compiler.cpp:683, sorted by name).
  * Stack offsets and constant indexes are natural numbers (32 bits in the code).
  * Debug output and line information are not modelled; neither are the texts of exceptions.
-/
namespace Verif.Comp
open Verif Verif.VM
open Verif.Codec (Bytes)

abbrev Name := Nat

/-- The operators of `simple_code_map`, Compiler.cpp:564-580. -/
inductive BinOp where
  | add | sub | mul | div | mod
  | band | land | bor | lor | bxor | lxor
  | gt | lt | ge | le | ne | eq
  deriving DecidableEq, Repr

/-- Operator nodes (`lang::operator_ex`, Compiler.cpp:197-206). `asg o` is the operator `o` followed by
    `=`; in a text it exists for `+ - * / ^ & | ^^ && ||` only, the model allows it for all. -/
inductive Op where
  | bin (o : BinOp)
  | asg (o : BinOp)
  | set
  | not
  | bnot
  | inc
  | dec
  | shr
  | shl
  | ret
  deriving DecidableEq, Repr

/-- The children of an expression node. `sub` is a list of expressions in parentheses. The name
    `assert` is a node of its own. -/
inductive Node where
  | const (v : Val)
  | ident (x : Name)
  | assert
  | sub (args : List (List Node))
  | op (o : Op)

/-- The rank of a binary operator, Compiler.cpp:517-538. -/
def BinOp.rank : BinOp → Nat
  | .mul | .div | .mod => 8
  | .add | .sub => 9
  | .lt | .gt | .le | .ge => 11
  | .ne | .eq => 12
  | .band | .land => 13
  | .bxor | .lxor => 14
  | .bor | .lor => 15

/-- Compiler.cpp:513-516, 522-523 and 539-554. -/
def Op.rank : Op → Nat
  | .bin o => o.rank
  | .asg _ => 16
  | .set => 16
  | .not | .bnot => 7
  | .inc | .dec => 6
  | .shr | .shl => 10
  | .ret => 17

/-- `get_node_rank`, Compiler.cpp:904-919, with the ranks of Compiler.cpp:505-512. -/
def Node.rank : Node → Nat
  | .const _ => 0
  | .ident _ => 1
  | .assert => 1
  | .sub _ => 4
  | .op o => o.rank

/-- A parameter of a function and its default, Compiler.cpp:1053-1066. -/
structure Param where
  name : Name
  dflt : Option Val
  deriving DecidableEq, Repr

/-- What the first pass knows of a function, Compiler.cpp:356-365 and 1026-1111. -/
structure Sig where
  name : Name
  isConst : Bool
  params : List Param
  deriving DecidableEq, Repr

/-- `variable_t` of a local variable, Compiler.cpp:348-354. -/
structure Var where
  name : Name
  address : Nat
  isConst : Bool
  deriving DecidableEq, Repr

/-- `frame_t` on the stack, Compiler.cpp:367-384. Variables in order, the newest first. -/
structure Frame where
  off : Nat
  vars : List Var
  deriving DecidableEq, Repr

/-- Which function a reference names, if any: Compiler.cpp:391. -/
inductive Callee where
  | assert
  | user (g : Sig)
  deriving DecidableEq, Repr

/-- `vref_t`, Compiler.cpp:386-416; `address = none` is `uint32_t(-1)`. -/
structure VRef where
  isConst : Bool := false
  address : Option Nat := none
  func : Option Callee := none
  name : Bool := false
  deriving DecidableEq, Repr

/-- The compiler, Compiler.cpp:468-494. `code` has each instruction with its entry in `linker_map`;
    `frames` has the innermost scope first. -/
structure CSt where
  code : List (Instr × Option Name)
  consts : List Val
  frames : List Frame
  deriving DecidableEq, Repr

/-- What does not change while a function is compiled. -/
structure Cfg where
  /-- Order in which the arguments of a C++ call are evaluated: left to right, or right to left. -/
  ltr : Bool
  /-- `flags.opt_level > 0`. -/
  opt : Bool
  /-- `flags.catch_overflow`. -/
  catchOvf : Bool
  /-- `to_source` of the condition of an `assert`, Compiler.cpp:806-827 and 1987. -/
  text : List Node → Bytes
  funcs : List Sig
  /-- `curr_function->is_const`. -/
  curConst : Bool

/-! ### The compiler's monad -/

def CM (α : Type) := CSt → Res (α × CSt)

def CM.bind {α β : Type} (m : CM α) (f : α → CM β) : CM β := fun s =>
  match m s with
  | .ok (a, t) => f a t
  | .throw => .throw
  | .ub => .ub

instance : Monad CM where
  pure a := fun s => .ok (a, s)
  bind := CM.bind

def fail {α : Type} : CM α := fun _ => .throw
/-- The bound on the depth of the recursion was too small. -/
def tired {α : Type} : CM α := fun _ => .ub
def chk (c : Prop) [Decidable c] : CM Unit := if c then pure () else fail

/-- `code.emplace_back`. -/
def emit (i : Instr) : CM Unit := fun s => .ok ((), { s with code := s.code ++ [(i, none)] })
/-- `linker_map[code.size()] = name; code.emplace_back`, Compiler.cpp:2015-2016. -/
def emitLinked (i : Instr) (x : Name) : CM Unit := fun s => .ok ((), { s with code := s.code ++ [(i, some x)] })
/-- `code.size()`. -/
def here : CM Nat := fun s => .ok (s.code.length, s)
/-- `code[at].a = n`, Compiler.cpp:1222-1226, 1247, 1321. -/
def patch (pos n : Nat) : CM Unit := fun s =>
  match s.code[pos]? with
  | none => .ub
  | some (i, l) => .ok ((), { s with code := s.code.set pos ({ i with a := n }, l) })

/-- `frame.back().new_addr()`, Compiler.cpp:373-375. -/
def newAddr : CM Nat := fun s =>
  match s.frames with
  | [] => .ub
  | f :: l => .ok (MEM_STACK + f.off, { s with frames := { f with off := f.off + 1 } :: l })

/-- `push_scope`, Compiler.cpp:2106-2113. -/
def pushScope : CM Unit := fun s =>
  .ok ((), { s with frames := { off := (match s.frames with | [] => 0 | f :: _ => f.off), vars := [] } :: s.frames })
/-- `pop_scope`, Compiler.cpp:2115-2118. -/
def popScope : CM Unit := fun s =>
  match s.frames with
  | [] => .ub
  | _ :: l => .ok ((), { s with frames := l })

/-- `add_variable`, Compiler.cpp:376-383. -/
def addVar (v : Var) : CM Unit := fun s =>
  match s.frames with
  | [] => .ub
  | f :: l =>
    if f.vars.any (fun w => w.name = v.name) then .throw
    else .ok ((), { s with frames := { f with vars := v :: f.vars } :: l })

/-- `find_variable`, Compiler.cpp:2161-2176. -/
def findVar (x : Name) : List Frame → Option Var
  | [] => none
  | f :: l =>
    match f.vars.find? (fun w => w.name = x) with
    | some v => some v
    | none => findVar x l

/-- `find_function`, Compiler.cpp:2186-2193. -/
def findFunc (x : Name) (l : List Sig) : Option Sig := l.find? (fun g => g.name = x)

/-- `const_table.find`: keys are equal when `compare` says so (var_t.h:286-290). -/
def constIdx (v : Val) : List Val → Option Nat
  | [] => none
  | w :: l => if VM.compare w v = .eq then some 0 else (constIdx v l).map (· + 1)

/-- `get_const_address`, Compiler.cpp:2195-2214. -/
def constAddr (v : Val) : CM Nat := fun s =>
  match constIdx v s.consts with
  | some i => .ok (i, s)
  | none => .ok (s.consts.length, { s with consts := s.consts ++ [v] })

/-- `check_value`, Compiler.cpp:402-412. -/
def checkValue (v : VRef) : CM Unit := do
  chk (v.func = none)
  chk (¬ (v.address = none ∧ v.name))

def addrOf (v : VRef) : Nat := v.address.getD (2 ^ 32 - 1)

/-- `get(src)` without a key, Compiler.cpp:2142-2159. -/
def get (v : VRef) : CM Nat := do
  checkValue v
  pure (addrOf v)

/-- `copy(dst, src)` without keys, Compiler.cpp:2120-2140. -/
def copy (dst src : VRef) : CM VRef := do
  checkValue src
  checkValue dst
  chk (¬ dst.isConst)
  (if dst.address ≠ src.address then emit { code := 0x02, a := addrOf dst, b := addrOf src } else pure ())
  pure dst

/-- `vref_t(address)`. -/
def ref (a : Nat) : VRef := { address := some a }

/-! ### Operators -/

/-- `simple_code_map`, Compiler.cpp:564-580, with the codes of instr_t.h:28-85. -/
def BinOp.code : BinOp → Nat
  | .add => 0x20
  | .sub => 0x21
  | .mul => 0x22
  | .div => 0x23
  | .mod => 0x24
  | .band | .land => 0x42
  | .bor | .lor => 0x43
  | .bxor | .lxor => 0x41
  | .gt => 0x63
  | .lt => 0x62
  | .ge => 0x65
  | .le => 0x64
  | .ne => 0x61
  | .eq => 0x60

/-- `math_flags`, Compiler.cpp:501-503: OPFLAG_CATCH_OVERFLOW. -/
def mathFlags (k : Cfg) : Nat := if k.catchOvf then 32 else 0

/-- Compiler.cpp:1454-1473. -/
def BinOp.flags (k : Cfg) : BinOp → Nat
  | .add | .sub | .mul | .div | .mod => mathFlags k
  | .band | .bor | .bxor => 64
  | _ => 0

/-- The number of zero bits at the end, Compiler.cpp:1485-1487; the first argument is what is left of
    the 257 rounds. -/
def zeros : Nat → Nat → Nat
  | 0, _ => 0
  | r + 1, n => if n % 2 = 0 then zeros r (n / 2) + 1 else 0

/-- The exponent, when the operand is a constant power of two: Compiler.cpp:1479-1488. -/
def powTwo (k : Cfg) (consts : List Val) (a : Nat) : Option Nat :=
  match consts[a]? with
  | some (.uint n) =>
    if k.opt ∧ n ≠ 0 ∧ n &&& (n - 1) = 0 ∧ zeros 257 n < 256 then some (zeros 257 n) else none
  | _ => none

/-- An instruction without its target: code, flags, right operand. -/
structure Sel where
  code : Nat
  flags : Nat
  rhs : Nat
  deriving DecidableEq, Repr

/-- The instruction for a binary operator, Compiler.cpp:1454-1512. -/
def select (k : Cfg) (o : BinOp) (rhs : Nat) : CM Sel := fun s =>
  match o, powTwo k s.consts rhs with
  | .div, some n => .ok ({ code := 0x47, flags := 0, rhs := n }, s)
  | .mod, some n =>
    (do let a ← constAddr (.uint (2 ^ n - 1)); pure { code := 0x42, flags := 64, rhs := a } : CM Sel) s
  | o, _ => .ok ({ code := o.code, flags := o.flags k, rhs := rhs }, s)

/-- The recursive calls: children left, reference on the left, its rank. -/
abbrev Rec := List Node → Option VRef → Option Nat → CM (VRef × List Node)

/-- `recurse` of an expression node, Compiler.cpp:1335-1345. -/
def expr (rc : Rec) (e : List Node) : CM VRef := do
  let (v, rest) ← rc e none none
  chk (rest.length = 0)
  checkValue v
  pure v

/-- An operator of `simple_code_map`, Compiler.cpp:1447-1527. -/
def nodeBin (k : Cfg) (rc : Rec) (o : BinOp) (assign : Bool) (rank : Nat) (lhs : Option VRef)
    (rest : List Node) : CM (VRef × List Node) := do
  match lhs with
  | none => fail
  | some l => do
    chk (rest.length ≥ 1)
    let (r, rest) ← rc rest none (some rank)
    let a ← get r
    let i ← select k o a
    if assign then do
      checkValue l
      emit { code := i.code, flags := i.flags, a := addrOf l, b := addrOf l, c := i.rhs }
      pure (l, rest)
    else do
      let out ← newAddr
      let b ← get l
      emit { code := i.code, flags := i.flags, a := out, b := b, c := i.rhs }
      pure (ref out, rest)

/-- `=`, Compiler.cpp:1528-1544. -/
def nodeSet (rc : Rec) (lhs : Option VRef) (rest : List Node) : CM (VRef × List Node) := do
  match lhs with
  | none => fail
  | some l => do
    chk (¬ l.isConst)
    chk (rest.length ≥ 1)
    let (r, rest) ← rc rest none (some Op.set.rank)
    let out ← copy l r
    pure (out, rest)

/-- `!` and `~`, Compiler.cpp:1587-1597. -/
def nodeNot (rc : Rec) (bitwise : Bool) (lhs : Option VRef) (rest : List Node) : CM (VRef × List Node) := do
  chk (lhs = none)
  chk (rest.length ≥ 1)
  let (r, rest) ← rc rest none (some Op.not.rank)
  let out ← newAddr
  let b ← get r
  emit { code := 0x40, flags := if bitwise then 64 else 0, a := out, b := b }
  pure (ref out, rest)

/-- `++` and `--`, Compiler.cpp:1598-1619. -/
def nodeInc (k : Cfg) (rc : Rec) (up : Bool) (lhs : Option VRef) (rest : List Node) : CM (VRef × List Node) := do
  match lhs with
  | some l => do
    chk (¬ l.isConst)
    let t ← newAddr
    let out ← copy (ref t) l
    let one ← constAddr (.uint 1)
    emit { code := if up then 0x20 else 0x21, flags := mathFlags k, a := addrOf l, b := addrOf out, c := one }
    let _ ← copy l (ref (addrOf l))
    pure (ref (addrOf out), rest)
  | none => do
    chk (rest.length ≥ 1)
    let (out, rest) ← rc rest none (some Op.inc.rank)
    chk (¬ out.isConst)
    let one ← constAddr (.uint 1)
    emit { code := if up then 0x20 else 0x21, flags := mathFlags k, a := addrOf out, b := addrOf out, c := one }
    let _ ← copy out (ref (addrOf out))
    pure (out, rest)

/-- `>>` and `<<`, Compiler.cpp:1620-1627. -/
def nodeShift (rc : Rec) (left : Bool) (lhs : Option VRef) (rest : List Node) : CM (VRef × List Node) := do
  match lhs with
  | none => fail
  | some l => do
    let out ← newAddr
    let (r, rest) ← rc rest none (some Op.shr.rank)
    let b ← get l
    let c ← get r
    emit { code := if left then 0x46 else 0x47, flags := 4, a := out, b := b, c := c }
    pure (ref out, rest)

/-- `return`, Compiler.cpp:1628-1636. -/
def nodeRet (rc : Rec) (lhs : Option VRef) (rest : List Node) : CM (VRef × List Node) := do
  chk (lhs = none)
  match rest with
  | [] => do
    emit { code := 0x08 }
    pure ({}, [])
  | n :: rest => do
    let (r, rest) ← rc (n :: rest) none (some Op.ret.rank)
    let _ ← copy (ref MEM_STACK) r
    emit { code := 0x08 }
    pure ({}, rest)

/-- An operator node, Compiler.cpp:1437-1640. -/
def nodeOp (k : Cfg) (rc : Rec) (o : Op) (lhs : Option VRef) (rest : List Node) : CM (VRef × List Node) :=
  match o with
  | .bin o => nodeBin k rc o false o.rank lhs rest
  | .asg o => nodeBin k rc o true (Op.asg o).rank lhs rest
  | .set => nodeSet rc lhs rest
  | .not => nodeNot rc false lhs rest
  | .bnot => nodeNot rc true lhs rest
  | .inc => nodeInc k rc true lhs rest
  | .dec => nodeInc k rc false lhs rest
  | .shr => nodeShift rc false lhs rest
  | .shl => nodeShift rc true lhs rest
  | .ret => nodeRet rc lhs rest

/-! ### Calls -/

/-- The arguments, Compiler.cpp:2003-2006. -/
def collect (rc : Rec) : List (List Node) → CM (List VRef)
  | [] => pure []
  | e :: l => do
    let v ← expr rc e
    let vs ← collect rc l
    pure (v :: vs)

/-- Compiler.cpp:2008-2010. -/
def copyArgs (to : Nat) : List VRef → CM Unit
  | [] => pure ()
  | v :: l => do
    let _ ← copy (ref to) v
    copyArgs (to + 1) l

/-- The constant for a missing argument, Compiler.cpp:2013. -/
def dfltAddr (p : Param) : CM Nat :=
  match p.dflt with
  | some v => constAddr v
  | none => pure 0

/-- Compiler.cpp:2011-2014. -/
def copyDflts (to : Nat) : List Param → CM Unit
  | [] => pure ()
  | p :: l => do
    let a ← dfltAddr p
    emit { code := 0x02, a := to, b := a }
    copyDflts (to + 1) l

/-- A call of a function of the contract, Compiler.cpp:1995-2018. -/
def callUser (k : Cfg) (rc : Rec) (g : Sig) (args : List (List Node)) : CM VRef := do
  chk (¬ (k.curConst ∧ ¬ g.isConst))
  chk (¬ args.length > g.params.length)
  let vs ← collect rc args
  let offset ← newAddr
  copyArgs (offset + 1) vs
  copyDflts (offset + 1 + vs.length) (g.params.drop vs.length)
  emitLinked { code := 0x07, a := 2 ^ 32 - 1, b := offset - MEM_STACK } g.name
  pure (ref offset)

/-- The two operands of OP_FAIL, Compiler.cpp:1989-1991. -/
def failOperands (k : Cfg) (rc : Rec) (m c : List Node) : CM (Nat × Nat) :=
  if k.ltr then do
    let a ← expr rc m; let a ← get a
    let b ← expr rc c; let b ← get b
    pure (a, b)
  else do
    let b ← expr rc c; let b ← get b
    let a ← expr rc m; let a ← get a
    pure (a, b)

/-- The jump of an `assert`, Compiler.cpp:1985: its target is an argument of the same C++ call as the
    code for the condition. -/
def assertJump (k : Cfg) (rc : Rec) (e : List Node) : CM Unit :=
  if k.ltr then do
    let n ← here
    let v ← expr rc e; let b ← get v
    emit { code := 0x05, a := n + 2, b := b }
  else do
    let v ← expr rc e; let b ← get v
    let n ← here
    emit { code := 0x05, a := n + 2, b := b }

/-- `"assert(" + to_source(args[0]) + ")"`, Compiler.cpp:1987. -/
def assertText (k : Cfg) (e : List Node) : Val := .str ([97, 115, 115, 101, 114, 116, 40] ++ k.text e ++ [41])

/-- `assert(condition, [message], [code])`, Compiler.cpp:1981-1994. -/
def callAssert (k : Cfg) (rc : Rec) (args : List (List Node)) : CM VRef :=
  match args with
  | [e] => do
    assertJump k rc e
    let a ← constAddr (assertText k e)
    emit { code := 0xC4, a := a }
    pure (ref 0)
  | [e, m] => do
    assertJump k rc e
    let v ← expr rc m; let a ← get v
    emit { code := 0xC4, a := a }
    pure (ref 0)
  | [e, m, c] => do
    assertJump k rc e
    let (a, b) ← failOperands k rc m c
    emit { code := 0xC4, flags := 2, a := a, b := b }
    pure (ref 0)
  | _ => fail

/-- Parentheses: a call, or a single expression; Compiler.cpp:1641-1652, 1981-2019 and 2041-2052. -/
def nodeSub (k : Cfg) (rc : Rec) (args : List (List Node)) (lhs : Option VRef) : CM VRef :=
  match lhs with
  | some l =>
    match l.func with
    | some .assert => callAssert k rc args
    | some (.user g) => callUser k rc g args
    | none => fail
  | none =>
    match args with
    | [e] => expr rc e
    | _ => fail

/-- An identifier, Compiler.cpp:1385-1404. The address of a function is not used. -/
def nodeIdent (k : Cfg) (x : Name) (lhs : Option VRef) : CM VRef := do
  chk (lhs = none)
  fun s =>
    match findVar x s.frames with
    | some v => .ok ({ isConst := v.isConst, address := some v.address, name := true }, s)
    | none =>
      match findFunc x k.funcs with
      | some g => .ok ({ func := some (.user g), name := true }, s)
      | none => .ok ({ name := true }, s)

/-- The name `assert`: no variable or function can have it (Compiler.cpp:622, 1038; a local variable
    of that name is not modelled). -/
def nodeAssert (lhs : Option VRef) : CM VRef := do
  chk (lhs = none)
  pure { func := some .assert, name := true }

/-- A constant, Compiler.cpp:2054-2062. -/
def nodeConst (v : Val) (lhs : Option VRef) : CM VRef := do
  chk (lhs = none)
  let a ← constAddr v
  pure { isConst := true, address := some a }

def keep (rest : List Node) (m : CM VRef) : CM (VRef × List Node) := do
  let v ← m
  pure (v, rest)

/-- One node, Compiler.cpp:1385-2098. -/
def node (k : Cfg) (rc : Rec) (n : Node) (lhs : Option VRef) (rest : List Node) : CM (VRef × List Node) :=
  match n with
  | .const v => keep rest (nodeConst v lhs)
  | .ident x => keep rest (nodeIdent k x lhs)
  | .assert => keep rest (nodeAssert lhs)
  | .sub args => keep rest (nodeSub k rc args lhs)
  | .op o => nodeOp k rc o lhs rest

/-- `lhs_rank >= 0 && rank >= lhs_rank`, Compiler.cpp:1368. -/
def stops (lr : Option Nat) (rank : Nat) : Bool :=
  match lr with
  | none => false
  | some r => rank ≥ r

/-- `recurse_expr`, Compiler.cpp:1360-2104. The first argument bounds the depth of the recursion. -/
def recExpr (k : Cfg) : Nat → Rec
  | 0, _, _, _ => tired
  | f + 1, ns, lhs, lr =>
    match ns with
    | [] => pure (lhs.getD {}, [])
    | n :: rest =>
      if stops lr n.rank then
        match lhs with
        | none => fail
        | some l => pure (l, n :: rest)
      else do
        let (out, rest) ← node k (recExpr k f) n lhs rest
        recExpr k f rest (some out) lr

/-- `recurse` of an expression node. -/
def cExpr (k : Cfg) (f : Nat) (e : List Node) : CM VRef := expr (recExpr k f) e

/-! ### Statements -/

/-- Statements, for conditions of type `C` and expressions of type `X`. `skip` and `seq` make the list
    of children of a `source` node. `loop c b p` is `while(c) b` when `p` is empty, and what is left of
    `for(…; c; p) b` after its first part. -/
inductive Stmt (C X : Type) where
  | skip
  | seq (a b : Stmt C X)
  | decl (isConst : Bool) (x : Name) (init : Option C)
  | expr (e : X)
  | ite (c : C) (a : Stmt C X)
  | iteElse (c : C) (a b : Stmt C X)
  | loop (c : C) (body : Stmt C X) (post : List X)
  | scope (b : Stmt C X)

/-- `for(init; c; post) body`, Compiler.cpp:1274-1326: in a scope of its own. -/
def Stmt.for {C X : Type} (init : Stmt C X) (c : C) (post : List X) (body : Stmt C X) : Stmt C X :=
  .scope (.seq init (.loop c body post))

abbrev Code := Stmt (List Node) (List Node)

/-- A value known to the compiler: `parse_constant` of an expression, Compiler.cpp:848-902. -/
def literal : List Node → Option Val
  | [.const v] => some v
  | _ => none

/-- How the expressions in a statement are compiled: conditions and initial values, their value when
    the compiler knows it, and expressions. The compiler does the same for all of them, see `cStmt`. -/
structure Subs (C X : Type) where
  cond : C → CM VRef
  lit : C → Option Val
  expr : X → CM VRef

section
variable {C X : Type} (u : Subs C X)

/-- The variable of a declaration, Compiler.cpp:1156-1193. -/
def cDecl (isConst : Bool) (x : Name) (init : Option C) : CM Unit :=
  match init with
  | none => do
    let a ← newAddr
    let _ ← copy (ref a) (ref 0)
    addVar { name := x, address := a, isConst := isConst }
  | some e =>
    match isConst, u.lit e with
    | true, some v => do
      let a ← constAddr v
      addVar { name := x, address := a, isConst := true }
    | _, _ => do
      let a ← newAddr
      let v ← u.cond e
      let _ ← copy (ref a) v
      addVar { name := x, address := a, isConst := isConst }

/-- `get(recurse(…))` of a condition, Compiler.cpp:1214, 1242, 1312. -/
def cCond (e : C) : CM Nat := do
  let v ← u.cond e
  get v

/-- Compiler.cpp:1317-1319. -/
def cExprs : List X → CM Unit
  | [] => pure ()
  | e :: l => do
    let _ ← u.expr e
    cExprs l

/-- `recurse` of statements: declarations 1145-1196, `if` 1209-1235, `while` 1236-1248, `for` 1304-1322,
    scopes 1001-1009, source 1010-1014, expressions 1328-1345 (Compiler.cpp). -/
def cStmtG : Stmt C X → CM Unit
  | .skip => pure ()
  | .seq a b => do
    cStmtG a
    cStmtG b
  | .decl q x init => cDecl u q x init
  | .expr e => do
    let _ ← u.expr e
    pure ()
  | .ite c a => do
    let cond ← cCond u c
    let jump ← here
    emit { code := 0x06, a := 2 ^ 32 - 1, b := cond }
    cStmtG a
    let n ← here
    patch jump n
  | .iteElse c a b => do
    let cond ← cCond u c
    let jump ← here
    emit { code := 0x06, a := 2 ^ 32 - 1, b := cond }
    cStmtG a
    let skip ← here
    emit { code := 0x04, a := 2 ^ 32 - 1 }
    let n ← here
    patch jump n
    cStmtG b
    let m ← here
    patch skip m
  | .loop c body post => do
    let begin ← here
    let cond ← cCond u c
    let jump ← here
    emit { code := 0x06, a := 2 ^ 32 - 1, b := cond }
    cStmtG body
    cExprs u post
    emit { code := 0x04, a := begin }
    let n ← here
    patch jump n
  | .scope b => do
    pushScope
    cStmtG b
    popScope

end

/-- `recurse` of statements: every expression is a list of nodes. -/
def cStmt (k : Cfg) (f : Nat) : Code → CM Unit :=
  cStmtG { cond := cExpr k f, lit := literal, expr := cExpr k f }

/-! ### Functions and programs -/

/-- A function: `root` of `function_t` is the body, without the braces. -/
structure Func (C X : Type) where
  sig : Sig
  body : Stmt C X

/-- The parameters as variables, Compiler.cpp:1053-1066 and 1126-1128. -/
def addParams (a : Nat) : List Param → CM Unit
  | [] => pure ()
  | p :: l => do
    addVar { name := p.name, address := a, isConst := false }
    addParams (a + 1) l

/-- `code.back().code != OP_RET`, Compiler.cpp:1139-1141. -/
def endRet : CM Unit := fun s =>
  match s.code.getLast? with
  | none => emit { code := 0x08 } s
  | some (i, _) => if i.code ≠ 0x08 then emit { code := 0x08 } s else .ok ((), s)

/-- What the compiler needs to know besides the source. -/
structure Opts where
  ltr : Bool
  opt : Bool
  catchOvf : Bool
  text : List Node → Bytes

def Opts.cfg (o : Opts) (funcs : List Sig) (curConst : Bool) : Cfg :=
  { ltr := o.ltr, opt := o.opt, catchOvf := o.catchOvf, text := o.text, funcs := funcs, curConst := curConst }

/-- The second pass on a function that is no constructor, Compiler.cpp:1112-1143: its address. The
    frame is on the list while its parameters are added, in the code it is pushed after that. `cs` is
    `recurse` for the body, given `curr_function->is_const`. -/
def cFunc {C X : Type} (cs : Bool → Stmt C X → CM Unit) (g : Func C X) : CM (Name × Nat) := do
  let address ← here
  fun s => .ok ((), { s with frames := [{ off := 1 + g.sig.params.length, vars := [] }] })
  addParams (MEM_STACK + 1) g.sig.params
  emit { code := 0x02, a := MEM_STACK, b := 0 }
  cs g.sig.isConst (.scope g.body)
  popScope
  endRet
  pure (g.sig.name, address)

/-- Compiler.cpp:683-688. -/
def cFuncs {C X : Type} (cs : Bool → Stmt C X → CM Unit) : List (Func C X) → CM (List (Name × Nat))
  | [] => pure []
  | g :: l => do
    let a ← cFunc cs g
    let r ← cFuncs cs l
    pure (a :: r)

def entry (x : Name) : List (Name × Nat) → Option Nat
  | [] => none
  | (y, a) :: l => if y = x then some a else entry x l

/-- One instruction and its entry in `linker_map`, Compiler.cpp:689-695. -/
def link1 (ents : List (Name × Nat)) : Instr × Option Name → Res Instr
  | (i, none) => .ok i
  | (i, some x) =>
    match entry x ents with
    | some a => .ok { i with a := a }
    | none => .throw

def linkAll (ents : List (Name × Nat)) : List (Instr × Option Name) → Res (List Instr)
  | [] => .ok []
  | i :: l => do
    let x ← link1 ents i
    let r ← linkAll ents l
    .ok (x :: r)

/-- What ends up in the contract, Compiler.cpp:707-743. -/
structure Binary where
  code : List Instr
  consts : List Val
  entries : List (Name × Nat)
  deriving DecidableEq, Repr

/-- No name twice, Compiler.cpp:1038-1040. -/
def distinct : List Name → Bool
  | [] => true
  | x :: l => ¬ x ∈ l ∧ distinct l

/-- The compiler after the first pass: the `return` of the static initialisation (Compiler.cpp:1015-1018)
    and the constant null at address 0 (Compiler.cpp:627-630). -/
def start : CSt := { code := [({ code := 0x08 }, none)], consts := [.nil], frames := [] }

/-- Both passes and the linker, Compiler.cpp:671-695. -/
def compileG {C X : Type} (cs : Bool → Stmt C X → CM Unit) (p : List (Func C X)) : Res Binary := do
  Res.chk (distinct (p.map (·.sig.name)))
  let (ents, s) ← cFuncs cs p start
  let code ← linkAll ents s.code
  .ok { code := code, consts := s.consts, entries := ents }

/-- `compile`, Compiler.cpp:671-743, for a source that is a list of functions. -/
def compile (o : Opts) (f : Nat) (p : List (Func (List Node) (List Node))) : Res Binary :=
  compileG (fun q => cStmt (o.cfg (p.map (·.sig)) q) f) p

end Verif.Comp
