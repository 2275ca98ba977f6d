import Verif.Compile.Model
/-
  What a program means: an evaluator on trees that knows nothing of the compiler, of instructions or of
  memory. Programs are trees (`E`, `Ex`, `Stmt E Ex`); `toks` writes them as the nodes the compiler sees.
-/
namespace Verif.Comp
open Verif Verif.VM
open Verif.Codec (Bytes)

/-! ### Programs as trees -/

mutual
/-- An expression without side effects. Parentheses are part of the tree. -/
inductive E where
  | const (v : Val)
  | var (x : Name)
  | bin (o : BinOp) (a b : E)
  | shift (left : Bool) (a b : E)
  | not (a : E)
  | bnot (a : E)
  | paren (a : E)
  | call (f : Name) (args : Args)

inductive Args where
  | nil
  | cons (e : E) (l : Args)
end

/-- An expression standing alone: a value, an assignment, `x++`, `++x`, `return`, `assert`. -/
inductive Ex where
  | val (e : E)
  | set (x : Name) (e : E)
  | asg (o : BinOp) (x : Name) (e : E)
  | inc (up post : Bool) (x : Name)
  | ret (e : Option E)
  | assert (e : E)

mutual
/-- The expression as it is written. -/
def E.toks : E → List Node
  | .const v => [.const v]
  | .var x => [.ident x]
  | .bin o a b => a.toks ++ .op (.bin o) :: b.toks
  | .shift left a b => a.toks ++ .op (if left then .shl else .shr) :: b.toks
  | .not a => .op .not :: a.toks
  | .bnot a => .op .bnot :: a.toks
  | .paren a => [.sub [a.toks]]
  | .call f args => [.ident f, .sub args.toks]

def Args.toks : Args → List (List Node)
  | .nil => []
  | .cons e l => e.toks :: l.toks
end

def Ex.toks : Ex → List Node
  | .val e => e.toks
  | .set x e => .ident x :: .op .set :: e.toks
  | .asg o x e => .ident x :: .op (.asg o) :: e.toks
  | .inc up true x => [.ident x, .op (if up then .inc else .dec)]
  | .inc up false x => [.op (if up then .inc else .dec), .ident x]
  | .ret none => [.op .ret]
  | .ret (some e) => .op .ret :: e.toks
  | .assert e => [.assert, .sub [e.toks]]

/-! ### Precedence -/

/-- How tightly an operator binds, tightest first: `* / %`, `+ -`, (4: shifts), order, equality, and,
    exclusive or, or. The logical operators `&& ^^ ||` bind like their bitwise counterparts. -/
def BinOp.level : BinOp → Nat
  | .mul | .div | .mod => 2
  | .add | .sub => 3
  | .lt | .gt | .le | .ge => 5
  | .ne | .eq => 6
  | .band | .land => 7
  | .bxor | .lxor => 8
  | .bor | .lor => 9

def E.level : E → Nat
  | .bin o _ _ => o.level
  | .shift _ _ _ => 4
  | .not _ | .bnot _ => 1
  | _ => 0

mutual
/-- The tree is the one that precedence and grouping from the left give to its text: where another
    grouping is meant there are parentheses. -/
def E.Grouped : E → Prop
  | .const _ => True
  | .var _ => True
  | .bin o a b => a.Grouped ∧ b.Grouped ∧ a.level ≤ o.level ∧ b.level < o.level
  | .shift _ a b => a.Grouped ∧ b.Grouped ∧ a.level ≤ 4 ∧ b.level < 4
  | .not a => a.Grouped ∧ a.level < 1
  | .bnot a => a.Grouped ∧ a.level < 1
  | .paren a => a.Grouped
  | .call _ args => args.Grouped

def Args.Grouped : Args → Prop
  | .nil => True
  | .cons e l => e.Grouped ∧ l.Grouped
end

def Ex.Grouped : Ex → Prop
  | .val e => e.Grouped
  | .set _ e => e.Grouped
  | .asg _ _ e => e.Grouped
  | .inc _ _ _ => True
  | .ret none => True
  | .ret (some e) => e.Grouped
  | .assert e => e.Grouped

/-! ### Values -/

/-- Numbers below 2^256, texts and byte strings of at most 1 MiB, true, false and null. -/
def Scalar : Val → Prop
  | .nil | .fls | .tru => True
  | .uint n => n < 2 ^ 256
  | .str b => b.length ≤ 2 ^ 20
  | .bin b => b.length ≤ 2 ^ 20
  | _ => False

instance (v : Val) : Decidable (Scalar v) := by
  cases v <;> unfold Scalar <;> infer_instance

/-- What counts as true: everything but null, false, zero and the empty string. -/
def truth : Val → Bool
  | .nil | .fls => false
  | .uint n => n != 0
  | .str b => b.length != 0
  | .bin b => b.length != 0
  | _ => true

def ofBool (b : Bool) : Val := if b then .tru else .fls

/-- Arithmetic on two numbers. `c`: overflow is an error instead of wrapping around. -/
def arith (c : Bool) : BinOp → Nat → Nat → Res Nat
  | .add, x, y => if x + y < 2 ^ 256 then .ok (x + y) else if c then .throw else .ok (x + y - 2 ^ 256)
  | .sub, x, y => if y ≤ x then .ok (x - y) else if c then .throw else .ok (x + 2 ^ 256 - y)
  | .mul, x, y => if x * y < 2 ^ 256 then .ok (x * y) else if c then .throw else .ok (x * y % 2 ^ 256)
  | .div, x, y => if y = 0 then .throw else .ok (x / y)
  | .mod, x, y => if y = 0 then .throw else .ok (x % y)
  | _, _, _ => .throw

def num : Res Nat → Res Val
  | .ok n => .ok (.uint n)
  | .throw => .throw
  | .ub => .ub

def bits : BinOp → Nat → Nat → Nat
  | .band, x, y => x &&& y
  | .bor, x, y => x ||| y
  | _, x, y => x ^^^ y

/-- Bytes one after the other, the shorter string first. -/
def orderBytes (a b : Bytes) : Ordering :=
  if a.length < b.length then .lt else if b.length < a.length then .gt else memcmp a b

/-- The order of two values of the same type. -/
def order : Val → Val → Option Ordering
  | .nil, .nil => some .eq
  | .fls, .fls => some .eq
  | .tru, .tru => some .eq
  | .uint x, .uint y => some (if x < y then .lt else if y < x then .gt else .eq)
  | .str a, .str b => some (orderBytes a b)
  | .bin a, .bin b => some (orderBytes a b)
  | _, _ => none

def holdsFor : BinOp → Ordering → Bool
  | .gt, o => o == .gt
  | .lt, o => o == .lt
  | .ge, o => o != .lt
  | .le, o => o != .gt
  | .ne, o => o != .eq
  | _, o => o == .eq

/-- A binary operator on two values. -/
def binVal (c : Bool) (o : BinOp) (l r : Val) : Res Val :=
  match o with
  | .add | .sub | .mul | .div | .mod =>
    match l, r with
    | .uint x, .uint y => num (arith c o x y)
    | _, _ => .throw
  | .band | .bor | .bxor =>
    match l, r with
    | .uint x, .uint y => .ok (.uint (bits o x y))
    | .bin x, .bin y => if x.length = y.length then .ok (.bin (List.zipWith (bits o) x y)) else .throw
    | _, _ => .throw
  | .land => .ok (ofBool (truth l && truth r))
  | .lor => .ok (ofBool (truth l || truth r))
  | .lxor => .ok (ofBool (truth l != truth r))
  | .eq => .ok (ofBool (l == r))
  | .ne => .ok (ofBool (l != r))
  | .gt | .lt | .ge | .le =>
    match order l r with
    | some x => .ok (ofBool (holdsFor o x))
    | none => .throw

/-- Shifts of a number. A shift by 2^64 or more is not covered, see `C113_shift_wraps`. -/
def shiftVal (left : Bool) (l r : Val) : Res Val :=
  match l, r with
  | .uint x, .uint y =>
    if y ≥ 2 ^ 64 then .ub
    else .ok (.uint (if left then x * 2 ^ y % 2 ^ 256 else x / 2 ^ y))
  | _, _ => .throw

def bnotVal : Val → Res Val
  | .uint n => .ok (.uint (2 ^ 256 - 1 - n))
  | .bin b => .ok (.bin (b.map (255 - ·)))
  | _ => .throw

/-! ### Evaluation

  `none`: the bound on the number of steps was reached. `.throw`: the program fails. `.ub`: the program
  does something the description here does not cover. -/

def evb {α β : Type} (x : Option (Res α)) (f : α → Option (Res β)) : Option (Res β) :=
  match x with
  | none => none
  | some (.ok a) => f a
  | some .throw => some .throw
  | some .ub => some .ub

/-- Scopes, innermost first: name, constant or not, value. -/
abbrev Vars := List (List (Name × Bool × Val))

def lookIn (x : Name) : List (Name × Bool × Val) → Option (Bool × Val)
  | [] => none
  | (y, q, v) :: l => if y = x then some (q, v) else lookIn x l

def look (x : Name) : Vars → Option (Bool × Val)
  | [] => none
  | s :: l =>
    match lookIn x s with
    | some r => some r
    | none => look x l

def putIn (x : Name) (v : Val) : List (Name × Bool × Val) → List (Name × Bool × Val)
  | [] => []
  | (y, q, w) :: l => if y = x then (y, q, v) :: l else (y, q, w) :: putIn x v l

/-- The innermost variable of that name gets another value. -/
def put (x : Name) (v : Val) : Vars → Vars
  | [] => []
  | s :: l => if (lookIn x s).isSome then putIn x v s :: l else s :: put x v l

/-- The environment of an evaluation: overflow checks, the functions, and what calling one gives. -/
structure Sem where
  catchOvf : Bool
  funcs : List Sig
  call : Name → List Val → Option (Res Val)

/-- Missing arguments get their default, or null. -/
def complete (g : Sig) (vs : List Val) : List Val :=
  vs ++ (g.params.drop vs.length).map (fun p => p.dflt.getD .nil)

mutual
def evalE (m : Sem) (env : Vars) : E → Option (Res Val)
  | .const v => some (.ok v)
  | .var x =>
    match look x env with
    | some (_, v) => some (.ok v)
    | none => some .ub
  | .bin o a b => evb (evalE m env a) fun l => evb (evalE m env b) fun r => some (binVal m.catchOvf o l r)
  | .shift left a b => evb (evalE m env a) fun l => evb (evalE m env b) fun r => some (shiftVal left l r)
  | .not a => evb (evalE m env a) fun v => some (.ok (ofBool (!truth v)))
  | .bnot a => evb (evalE m env a) fun v => some (bnotVal v)
  | .paren a => evalE m env a
  | .call f args => evb (evalArgs m env args) fun vs =>
    match findFunc f m.funcs with
    | some g => m.call f (complete g vs)
    | none => some .ub

def evalArgs (m : Sem) (env : Vars) : Args → Option (Res (List Val))
  | .nil => some (.ok [])
  | .cons e l => evb (evalE m env e) fun v => evb (evalArgs m env l) fun vs => some (.ok (v :: vs))
end

/-- The new value of a variable. A compound assignment to a constant is not covered, see
    `C116_const_changes`. -/
def update (env : Vars) (x : Name) (f : Val → Res Val) : Option (Res (Vars × Option Val)) :=
  match look x env with
  | some (false, w) => evb (some (f w)) fun v => some (.ok (put x v env, none))
  | _ => some .ub

/-- Variables afterwards, and the value returned if the function has returned. -/
def evalX (m : Sem) (env : Vars) : Ex → Option (Res (Vars × Option Val))
  | .val e => evb (evalE m env e) fun _ => some (.ok (env, none))
  | .set x e => evb (evalE m env e) fun v => update env x (fun _ => .ok v)
  | .asg o x e => evb (evalE m env e) fun r => update env x (fun l => binVal m.catchOvf o l r)
  | .inc up _ x => update env x (fun l => binVal m.catchOvf (if up then .add else .sub) l (.uint 1))
  | .ret none => some (.ok (env, some .nil))
  | .ret (some e) => evb (evalE m env e) fun v => some (.ok (env, some v))
  | .assert e => evb (evalE m env e) fun v => if truth v then some (.ok (env, none)) else some .throw

def evalXs (m : Sem) (env : Vars) : List Ex → Option (Res (Vars × Option Val))
  | [] => some (.ok (env, none))
  | x :: l => evb (evalX m env x) fun (env, r) =>
    match r with
    | none => evalXs m env l
    | some v => some (.ok (env, some v))

/-- No declaration outside of a scope of its own. -/
def Stmt.noDecl {C X : Type} : Stmt C X → Bool
  | .seq a b => a.noDecl && b.noDecl
  | .decl _ _ _ => false
  | .ite _ a => a.noDecl
  | .iteElse _ a b => a.noDecl && b.noDecl
  | .loop _ a _ => a.noDecl
  | _ => true

/-- Go on unless the function has returned. -/
def andThen (x : Option (Res (Vars × Option Val))) (f : Vars → Option (Res (Vars × Option Val))) :
    Option (Res (Vars × Option Val)) :=
  evb x fun (env, r) =>
    match r with
    | none => f env
    | some v => some (.ok (env, some v))

/-- A loop with at most `n` rounds. -/
def evalLoop (cond : Vars → Option (Res Val)) (body : Vars → Option (Res (Vars × Option Val))) :
    Nat → Vars → Option (Res (Vars × Option Val))
  | 0, _ => none
  | n + 1, env => evb (cond env) fun v =>
    if truth v then andThen (body env) (evalLoop cond body n) else some (.ok (env, none))

def declare (x : Name) (q : Bool) (v : Val) : Vars → Option (Res (Vars × Option Val))
  | [] => some .ub
  | s :: l => some (.ok (((x, q, v) :: s) :: l, none))

/-- Statements. A declaration that is the whole body of an `if` or loop is not covered. -/
def evalS (m : Sem) (n : Nat) : Stmt E Ex → Vars → Option (Res (Vars × Option Val))
  | .skip, env => some (.ok (env, none))
  | .seq a b, env => andThen (evalS m n a env) (evalS m n b)
  | .decl q x none, env => declare x q .nil env
  | .decl q x (some e), env => evb (evalE m env e) fun v => declare x q v env
  | .expr x, env => evalX m env x
  | .ite c a, env =>
    if a.noDecl then evb (evalE m env c) fun v => if truth v then evalS m n a env else some (.ok (env, none))
    else some .ub
  | .iteElse c a b, env =>
    if a.noDecl && b.noDecl then
      evb (evalE m env c) fun v => if truth v then evalS m n a env else evalS m n b env
    else some .ub
  | .loop c body post, env =>
    if body.noDecl then
      evalLoop (fun env => evalE m env c) (fun env => andThen (evalS m n body env) fun env => evalXs m env post) n env
    else some .ub
  | .scope b, env => evb (evalS m n b ([] :: env)) fun (env, r) => some (.ok (env.tail, r))

/-- Parameters with their values; the last is the newest. -/
def bindParams (acc : List (Name × Bool × Val)) : List Param → List Val → List (Name × Bool × Val)
  | p :: ps, v :: vs => bindParams ((p.name, false, v) :: acc) ps vs
  | _, _ => acc

abbrev Prog := List (Func E Ex)

def Prog.sigs (p : Prog) : List Sig := p.map (·.sig)

def findBody (f : Name) : Prog → Option (Func E Ex)
  | [] => none
  | g :: l => if g.sig.name = f then some g else findBody f l

/-- The value of a call: what the body returns, or null. At most `n` calls deep, and at most `n` rounds
    of each loop. -/
def callF (c : Bool) (p : Prog) : Nat → Name → List Val → Option (Res Val)
  | 0, _, _ => none
  | n + 1, f, vs =>
    match findBody f p with
    | none => some .ub
    | some g =>
      if vs.length = g.sig.params.length then
        evb (evalS { catchOvf := c, funcs := p.sigs, call := callF c p n } n (.scope g.body)
          [bindParams [] g.sig.params vs]) fun (_, r) => some (.ok (r.getD .nil))
      else some .ub

/-! ### The text of a program -/

def Stmt.map {C X D Y : Type} (f : C → D) (g : X → Y) : Stmt C X → Stmt D Y
  | .skip => .skip
  | .seq a b => .seq (a.map f g) (b.map f g)
  | .decl q x i => .decl q x (i.map f)
  | .expr e => .expr (g e)
  | .ite c a => .ite (f c) (a.map f g)
  | .iteElse c a b => .iteElse (f c) (a.map f g) (b.map f g)
  | .loop c b p => .loop (f c) (b.map f g) (p.map g)
  | .scope b => .scope (b.map f g)

/-- The program as the compiler sees it. -/
def Func.src (g : Func E Ex) : Func (List Node) (List Node) := ⟨g.sig, g.body.map E.toks Ex.toks⟩
def Prog.src (p : Prog) : List (Func (List Node) (List Node)) := p.map Func.src

/-- All expressions of a statement are grouped as their text is. -/
def Stmt.Grouped : Stmt E Ex → Prop
  | .skip => True
  | .seq a b => a.Grouped ∧ b.Grouped
  | .decl _ _ none => True
  | .decl _ _ (some e) => e.Grouped
  | .expr e => e.Grouped
  | .ite c a => c.Grouped ∧ a.Grouped
  | .iteElse c a b => c.Grouped ∧ a.Grouped ∧ b.Grouped
  | .loop c b p => c.Grouped ∧ b.Grouped ∧ ∀ x ∈ p, x.Grouped
  | .scope b => b.Grouped

def Prog.Grouped (p : Prog) : Prop := ∀ g ∈ p, g.body.Grouped

/-- The expression is more than a constant or variable, so that instructions are needed for it. -/
def E.emits : E → Bool
  | .const _ => false
  | .var _ => false
  | .paren a => a.emits
  | _ => true

def Ex.plainAssert : Ex → Bool
  | .assert e => !e.emits
  | _ => true

/-- No `assert` in the statement has more than a constant or variable as its condition. -/
def Stmt.plainAsserts : Stmt E Ex → Bool
  | .seq a b => a.plainAsserts && b.plainAsserts
  | .expr x => x.plainAssert
  | .ite _ a => a.plainAsserts
  | .iteElse _ a b => a.plainAsserts && b.plainAsserts
  | .loop _ a p => a.plainAsserts && p.all Ex.plainAssert
  | .scope a => a.plainAsserts
  | _ => true

/-- The expression needs instructions of its own. -/
def Ex.emits : Ex → Bool
  | .val e => e.emits
  | .set _ e => e.emits
  | _ => true

/-- The statement needs instructions of its own. -/
def Stmt.emits : Stmt E Ex → Bool
  | .skip => false
  | .seq a b => a.emits || b.emits
  | .decl _ _ none => false
  | .decl _ _ (some e) => e.emits
  | .expr x => x.emits
  | .ite _ _ => true
  | .iteElse _ _ _ => true
  | .loop _ _ _ => true
  | .scope a => a.emits

/-- The last thing in the text of the statement is a `return`, be it inside an `if`. -/
def Stmt.lastRet : Stmt E Ex → Bool
  | .seq a b => b.lastRet || (!b.emits && a.lastRet)
  | .expr (.ret _) => true
  | .ite _ a => a.lastRet
  | .iteElse _ _ b => b.lastRet
  | .scope a => a.lastRet
  | _ => false

/-- Every path through the statement ends in a `return`. -/
def Stmt.returns : Stmt E Ex → Bool
  | .seq a b => a.returns || b.returns
  | .expr (.ret _) => true
  | .iteElse _ a b => a.returns && b.returns
  | .scope b => b.returns
  | _ => false

/-- No function whose text ends in a `return` can be left in another way. For others see
    `C115_falls_through`. -/
def Prog.ends (p : Prog) : Bool := p.all fun g => !g.body.lastRet || g.body.returns

/-- No `assert` in the program has more than a constant or variable as its condition. -/
def Prog.plainAsserts (p : Prog) : Bool := p.all fun g => g.body.plainAsserts

end Verif.Comp
