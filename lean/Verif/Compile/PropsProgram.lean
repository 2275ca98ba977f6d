import Verif.Compile.Boot
/-
  What a compiled program does: it returns what its source says (C113), and how far this depends on the
  end of functions (C115), constants (C116), `assert` (C117) and the optimisation level (C118).

  The meaning of a source is given by `callF` of Verif/Compile/Spec.lean, an evaluator on trees. The
  compiler is Verif/Compile/Model.lean; the engine is the one of Verif/VM.
-/
namespace Verif.Comp
open Verif Verif.VM
open Verif.Codec (Bytes)

/-! ## Specification -/

/-- A new engine loads the constants, puts the arguments on the stack and runs from address `a`, at most
    `n` instructions: vm_interface.cpp:53-69 and 366-386. The result is `true` when the run is over. -/
def execute (e : Env) (B : Binary) (limit a : Nat) (vs : List Val) (n : Nat) : Out Bool :=
  (boot e [] B.consts (argOps vs) a >>= fun _ => run e n) (newEng B.code limit)

/-- The run ends, with the value at the bottom of the stack, where the result of a function is read
    (Node_api.cpp:927, Node_validate.cpp:550). -/
def Gives (e : Env) (B : Binary) (limit a : Nat) (vs : List Val) (v : Val) : Prop :=
  ∃ n t, execute e B limit a vs n = .ok true t ∧ Has t MEM_STACK v

/-- The run throws. -/
def Throws (e : Env) (B : Binary) (limit a : Nat) (vs : List Val) : Prop :=
  ∃ n t, execute e B limit a vs n = .throw t

/-- The run throws because gas ran out or too many calls were nested. -/
def Stops (e : Env) (B : Binary) (limit a : Nat) (vs : List Val) : Prop :=
  ∃ n t, execute e B limit a vs n = .throw t ∧ (t.gas > t.limit ∨ t.frames.length ≥ 1000)

/-- Programs the theorems are about: written as grouped, `p.need` deep, small enough for its addresses,
    and without the two constructs of `C115_falls_through` and `C117_assert_order`. -/
structure Covered (o : Opts) (f : Nat) (p : Prog) (B : Binary) : Prop where
  grouped : p.Grouped
  depth : p.need ≤ f
  compiled : compile o f p.src = .ok B
  args : ∀ i ∈ B.code, i.a < MEM_STACK + 2 ^ 20 ∧ i.b < MEM_STACK + 2 ^ 20 ∧ i.c < MEM_STACK + 2 ^ 20 ∧
    (i.code = 0x07 → i.b < 2 ^ 20)
  consts : B.consts.length < MEM_EXTERN
  scalar : ∀ v ∈ B.consts, Scalar v
  asserts : o.ltr = false ∨ p.plainAsserts = true
  ends : p.ends = true

/-! ## Helper lemmas -/

theorem Covered.runs {o : Opts} {f : Nat} {p : Prog} {B : Binary} (h : Covered o f p B) {e : Env} (hv : e.version ≥ 1) :
    Runs o p B e :=
  ⟨by rw [← compile_tree o f p h.grouped h.depth]; exact h.compiled, ⟨h.args, h.consts, h.scalar⟩, hv, h.asserts, h.ends⟩

theorem run_bind {e : Env} {B : Binary} {limit a n : Nat} {vs : List Val} {t : Eng}
    (h : boot e [] B.consts (argOps vs) a (newEng B.code limit) = .ok () t) : execute e B limit a vs n = run e n t := by
  rw [execute, bind_def, h]

theorem spent_stops {e : Env} {B : Binary} {limit a : Nat} {vs : List Val} {t : Eng}
    (h : boot e [] B.consts (argOps vs) a (newEng B.code limit) = .ok () t) (hs : Spent e t) : Stops e B limit a vs := by
  obtain ⟨n, u, h1, h2⟩ := hs
  exact ⟨n, u, by rw [run_bind h]; exact h1, h2⟩

/-- The machine does what the source says. -/
theorem execute_sim {o : Opts} {f : Nat} {p : Prog} {B : Binary} (h : Covered o f p B) {e : Env} (hv : e.version ≥ 1)
    {g : Name} {s : Sig} {a : Nat} (hs : findFunc g p.sigs = some s) (ha : entry g B.entries = some a) {vs : List Val}
    (hlen : vs.length = s.params.length) (hvs : ∀ v ∈ vs, Scalar v) (hsm : vs.length < 2 ^ 20) (limit n : Nat) :
    (Stops e B limit a vs) ∨
    ∃ t, boot e [] B.consts (argOps vs) a (newEng B.code limit) = .ok () t ∧
      Sim e t (callF o.catchOvf p n g vs) (Returned B t 0 []) := by
  have hr := h.runs hv
  rcases boot_ready e hr.fits limit a hvs hsm with ⟨t, h1, h2⟩ | ⟨t, h1, h2, h3, h4⟩
  · refine .inl ⟨0, t, ?_, h2⟩
    rw [execute, bind_def, h1]
  · exact .inr ⟨t, h1, call_ok hr n g s vs a t 0 [] hs ha hlen hvs h2 h3 h4⟩

/-! ## C113 -/

/-- When the source of a program says that a call gives `v`, running the compiled function gives `v`, for
    every gas limit that is enough. `callF … n` is the source with at most `n` nested calls and rounds of
    each loop: the theorem is about every call that ends. -/
theorem C113_program_partial {o : Opts} {f : Nat} {p : Prog} {B : Binary} (h : Covered o f p B) {e : Env} (hv : e.version ≥ 1)
    {g : Name} {s : Sig} {a : Nat} (hs : findFunc g p.sigs = some s) (ha : entry g B.entries = some a) {vs : List Val}
    (hlen : vs.length = s.params.length) (hvs : ∀ v ∈ vs, Scalar v) (hsm : vs.length < 2 ^ 20) (limit n : Nat) (v : Val)
    (hc : callF o.catchOvf p n g vs = some (.ok v)) : Gives e B limit a vs v ∨ Stops e B limit a vs := by
  rcases execute_sim h hv hs ha hlen hvs hsm limit n with h1 | ⟨t, h1, h2⟩
  · exact .inr h1
  · rw [hc] at h2
    rcases (show Reach e t (Returned B t 0 [] v) from h2) with ⟨m, u, h3, h4⟩ | h3
    · refine .inl ⟨m, u, ?_, h4.has⟩
      rw [run_bind h1]
      have := run_steps (e := e) 0 h3
      rw [Nat.add_zero] at this
      rw [this]
      have hf : u.frames = [] := h4.frames
      show Out.ok u.frames.isEmpty u = _
      rw [hf]; rfl
    · exact .inr (spent_stops h1 h3)

/-- When the source says that a call fails (overflow, division by zero, an operand of the wrong type, an
    `assert`), the run of the compiled function throws. -/
theorem C113_throws_partial {o : Opts} {f : Nat} {p : Prog} {B : Binary} (h : Covered o f p B) {e : Env} (hv : e.version ≥ 1)
    {g : Name} {s : Sig} {a : Nat} (hs : findFunc g p.sigs = some s) (ha : entry g B.entries = some a) {vs : List Val}
    (hlen : vs.length = s.params.length) (hvs : ∀ v ∈ vs, Scalar v) (hsm : vs.length < 2 ^ 20) (limit n : Nat)
    (hc : callF o.catchOvf p n g vs = some .throw) : Throws e B limit a vs := by
  rcases execute_sim h hv hs ha hlen hvs hsm limit n with ⟨n, t, h1, _⟩ | ⟨t, h1, h2⟩
  · exact ⟨n, t, h1⟩
  · rw [hc] at h2
    obtain ⟨m, u, h3⟩ := (show Fails e t from h2)
    exact ⟨m, u, by rw [run_bind h1]; exact h3⟩

/-! ## C118 -/

theorem run_more {e : Env} : ∀ (n m : Nat) {s t : Eng}, run e n s = .ok true t → run e (n + m) s = .ok true t
  | 0, m, s, t, h => by
    have h1 : (Out.ok s.frames.isEmpty s : Out Bool) = .ok true t := h
    injection h1 with h2 h3
    subst h3
    cases m with
    | zero => exact h
    | succ m => rw [Nat.zero_add, run_succ, if_pos h2]
  | n + 1, m, s, t, h => by
    rw [run_succ] at h
    rw [show n + 1 + m = (n + m) + 1 by omega, run_succ]
    by_cases hf : s.frames.isEmpty = true
    · rw [if_pos hf] at h ⊢; exact h
    · rw [if_neg hf, bind_def] at h ⊢
      cases hs : step e s with
      | ok x u => rw [hs] at h; exact run_more n m h
      | throw u => rw [hs] at h; cases h
      | ub => rw [hs] at h; cases h

theorem run_more_throw {e : Env} : ∀ (n m : Nat) {s t : Eng}, run e n s = .throw t → run e (n + m) s = .throw t
  | 0, m, s, t, h => by cases h
  | n + 1, m, s, t, h => by
    rw [run_succ] at h
    rw [show n + 1 + m = (n + m) + 1 by omega, run_succ]
    by_cases hf : s.frames.isEmpty = true
    · rw [if_pos hf] at h; cases h
    · rw [if_neg hf, bind_def] at h ⊢
      cases hs : step e s with
      | ok x u => rw [hs] at h; exact run_more_throw n m h
      | throw u => rw [hs] at h; exact h
      | ub => rw [hs] at h; cases h

theorem execute_run {e : Env} {B : Binary} {limit a : Nat} {vs : List Val} :
    (∃ t, boot e [] B.consts (argOps vs) a (newEng B.code limit) = .ok () t ∧ ∀ n, execute e B limit a vs n = run e n t) ∨
    (∀ n, execute e B limit a vs n = execute e B limit a vs 0) := by
  cases h : boot e [] B.consts (argOps vs) a (newEng B.code limit) with
  | ok u t => exact .inl ⟨t, rfl, fun n => run_bind h⟩
  | throw t => right; intro n; simp only [execute, bind_def, h]
  | ub => right; intro n; simp only [execute, bind_def, h]

/-- A run has one outcome. -/
theorem gives_one {e : Env} {B : Binary} {limit a : Nat} {vs : List Val} {v w : Val} (h : Gives e B limit a vs v)
    (h' : Gives e B limit a vs w) : v = w := by
  obtain ⟨n, t, h1, h2⟩ := h
  obtain ⟨m, u, h3, h4⟩ := h'
  have : t = u := by
    rcases execute_run (e := e) (B := B) (limit := limit) (a := a) (vs := vs) with ⟨b, _, hb⟩ | hb
    · rw [hb] at h1 h3
      have h5 := run_more n m h1
      have h6 := run_more m n h3
      rw [Nat.add_comm m n, h5] at h6
      injection h6
    · rw [hb] at h1 h3
      rw [h1] at h3
      injection h3
  subst this
  exact h2.inj h4

theorem gives_not_throws {e : Env} {B : Binary} {limit a : Nat} {vs : List Val} {v : Val} (h : Gives e B limit a vs v) :
    ¬ Throws e B limit a vs := by
  rintro ⟨m, u, h3⟩
  obtain ⟨n, t, h1, h2⟩ := h
  rcases execute_run (e := e) (B := B) (limit := limit) (a := a) (vs := vs) with ⟨b, _, hb⟩ | hb
  · rw [hb] at h1 h3
    have h5 := run_more n m h1
    have h6 := run_more_throw m n h3
    rw [Nat.add_comm m n, h5] at h6
    cases h6
  · rw [hb] at h1 h3
    rw [h1] at h3
    cases h3

/-- A call that ends gives the same value, or fails the same way, at both optimisation levels and with
    either order of evaluation of the compiler's own arguments, as long as neither run meets a limit. -/
theorem C118_same_value_partial {o o' : Opts} {f : Nat} {p : Prog} {B B' : Binary} (h : Covered o f p B) (h' : Covered o' f p B')
    (hov : o.catchOvf = o'.catchOvf) {e : Env} (hv : e.version ≥ 1)
    {g : Name} {s : Sig} {a a' : Nat} (hs : findFunc g p.sigs = some s) (ha : entry g B.entries = some a)
    (ha' : entry g B'.entries = some a') {vs : List Val}
    (hlen : vs.length = s.params.length) (hvs : ∀ v ∈ vs, Scalar v) (hsm : vs.length < 2 ^ 20) (limit n : Nat) {r : Res Val}
    (hc : callF o.catchOvf p n g vs = some r) (hub : r ≠ .ub)
    (hx : ¬ Stops e B limit a vs) (hx' : ¬ Stops e B' limit a' vs) :
    (∃ v, Gives e B limit a vs v ∧ Gives e B' limit a' vs v) ∨ (Throws e B limit a vs ∧ Throws e B' limit a' vs) := by
  have hc' := hc
  rw [hov] at hc'
  cases r with
  | ok v =>
    exact .inl ⟨v, (C113_program_partial h hv hs ha hlen hvs hsm limit n v hc).resolve_right hx,
      (C113_program_partial h' hv hs ha' hlen hvs hsm limit n v hc').resolve_right hx'⟩
  | throw =>
    exact .inr ⟨C113_throws_partial h hv hs ha hlen hvs hsm limit n hc, C113_throws_partial h' hv hs ha' hlen hvs hsm limit n hc'⟩
  | ub => exact absurd rfl hub

/-! ## C115 -/

theorem sig_of_body {g : Name} {b : Func E Ex} : ∀ {p : Prog}, findBody g p = some b → findFunc g p.sigs = some b.sig
  | [], h => by cases h
  | x :: p, h => by
    unfold findBody at h
    show List.find? _ (x.sig :: Prog.sigs p) = _
    rw [List.find?_cons]
    by_cases hx : x.sig.name = g
    · rw [if_pos hx] at h; injection h with h; subst h; rw [decide_eq_true hx]
    · rw [if_neg hx] at h; rw [decide_eq_false hx]; exact sig_of_body h

/-- A function of a covered program that comes to its end without a `return` gives null. -/
theorem C115_null_partial {o : Opts} {f : Nat} {p : Prog} {B : Binary} (h : Covered o f p B) {e : Env} (hv : e.version ≥ 1)
    {g : Name} {b : Func E Ex} {a : Nat} (hb : findBody g p = some b) (ha : entry g B.entries = some a) {vs : List Val}
    (hlen : vs.length = b.sig.params.length) (hvs : ∀ v ∈ vs, Scalar v) (hsm : vs.length < 2 ^ 20) (limit n : Nat) {env : Vars}
    (hc : evalS { catchOvf := o.catchOvf, funcs := p.sigs, call := callF o.catchOvf p n } n (.scope b.body)
      [bindParams [] b.sig.params vs] = some (.ok (env, none))) :
    Gives e B limit a vs .nil ∨ Stops e B limit a vs := by
  refine C113_program_partial h hv (sig_of_body hb) ha hlen hvs hsm limit (n + 1) .nil ?_
  simp only [callF, hb, if_pos hlen, hc]
  rfl

/-! ## A program that meets the hypotheses

  ```
  function fact(n) const { if(n < 2) { return 1; } return n * fact(n - 1); }
  function sum(x, y = 3) const {
    var s = 0;
    for(var i = 0; i < x; i++) { s += fact(i); assert(s >= i); }
    return s % 8 + y;
  }
  function half(x) const { return x / 2 / (x - 4); }
  ``` -/

def exProg : Prog :=
  [ { sig := { name := 0, isConst := true, params := [{ name := 10, dflt := none }] }
      body := .seq (.ite (.bin .lt (.var 10) (.const (.uint 2))) (.scope (.expr (.ret (some (.const (.uint 1)))))))
        (.expr (.ret (some (.bin .mul (.var 10) (.call 0 (.cons (.bin .sub (.var 10) (.const (.uint 1))) .nil)))))) },
    { sig := { name := 1, isConst := true, params := [{ name := 20, dflt := none }, { name := 21, dflt := some (.uint 3) }] }
      body := .seq (.decl false 22 (some (.const (.uint 0))))
        (.seq (Stmt.for (.decl false 23 (some (.const (.uint 0)))) (.bin .lt (.var 23) (.var 20)) [.inc true true 23]
          (.scope (.seq (.expr (.asg .add 22 (.call 0 (.cons (.var 23) .nil))))
            (.expr (.assert (.bin .ge (.var 22) (.var 23)))))))
        (.expr (.ret (some (.bin .add (.bin .mod (.var 22) (.const (.uint 8))) (.var 21)))))) },
    { sig := { name := 2, isConst := true, params := [{ name := 30, dflt := none }] }
      body := .expr (.ret (some (.bin .div (.bin .div (.var 30) (.const (.uint 2)))
        (.paren (.bin .sub (.var 30) (.const (.uint 4))))))) } ]

def exOpts (ltr opt : Bool) : Opts := { ltr := ltr, opt := opt, catchOvf := true, text := fun _ => [] }

/-- An environment with empty storage and no remote contracts. -/
def exEnv : Env :=
  { contract := List.replicate 32 7, version := 1, readOnly := false, ltr := true
    storMem := fun _ _ => none, storEnt := fun _ _ _ => none, storKey := fun _ _ => 0
    storBal := fun _ _ => some 1000, storRefuse := fun _ _ _ => false
    sha256 := fun b => b.take 32, ecdsa := fun _ _ _ => some true, uintStr := fun _ n => [n % 256]
    strUint := fun _ b => b.length, hexStr := id, hexParse := id, addrStr := id, addrParse := some
    remote := fun _ _ _ _ => [], field := fun _ _ _ _ => [] }

def binOf : Res Binary → Binary
  | .ok B => B
  | _ => ⟨[], [], []⟩

def isOkR : Res Binary → Bool
  | .ok _ => true
  | _ => false

theorem binOf_ok {r : Res Binary} (h : isOkR r = true) : r = .ok (binOf r) := by
  cases r with
  | ok B => rfl
  | throw => cases h
  | ub => cases h

/-- The result of a run, if it is over within `n` instructions. -/
def result (o : Out Bool) : Option Val :=
  match o with
  | .ok true t =>
    match aget t.mem MEM_STACK with
    | some c => if c.deleted then none else some c.val
    | none => none
  | _ => none

theorem gives_result {e : Env} {B : Binary} {limit a : Nat} {vs : List Val} {v : Val} (n : Nat)
    (h : result (execute e B limit a vs n) = some v) : Gives e B limit a vs v := by
  unfold result at h
  split at h
  · rename_i t heq
    split at h
    · rename_i c hc
      split at h
      · cases h
      · rename_i hd
        injection h with h
        exact ⟨n, t, heq, c, hc, by simpa using hd, h⟩
    · cases h
  · cases h

def throws (o : Out Bool) : Bool :=
  match o with
  | .throw _ => true
  | _ => false

theorem throws_result {e : Env} {B : Binary} {limit a : Nat} {vs : List Val} (n : Nat)
    (h : throws (execute e B limit a vs n) = true) : Throws e B limit a vs := by
  unfold throws at h
  split at h
  · rename_i t heq
    exact ⟨n, t, heq⟩
  · cases h

def exBin (ltr opt : Bool) : Binary := binOf (compile (exOpts ltr opt) 200 exProg.src)

theorem ex_covered (opt : Bool) : Covered (exOpts false opt) 200 exProg (exBin false opt) where
  grouped := by
    intro g hg
    simp only [exProg, List.mem_cons, List.not_mem_nil, or_false] at hg
    rcases hg with rfl | rfl | rfl <;>
      simp [Stmt.Grouped, E.Grouped, Args.Grouped, Ex.Grouped, E.level, BinOp.level, Stmt.for]
  depth := by decide
  compiled := binOf_ok (by cases opt <;> decide +kernel)
  args := by cases opt <;> decide +kernel
  consts := by cases opt <;> decide +kernel
  scalar := by cases opt <;> decide +kernel
  asserts := .inl rfl
  ends := by decide

/-- `sum(4, 3)` is (0! + 1! + 2! + 3!) % 8 + 3. -/
example : callF true exProg 10 1 [.uint 4, .uint 3] = some (.ok (.uint 5)) := by decide +kernel
/-- `half(4)` divides by zero. -/
example : callF true exProg 10 2 [.uint 4] = some .throw := by decide +kernel
example : callF true exProg 10 2 [.uint 10] = some (.ok (.uint 0)) := by decide +kernel


/-- C113 for `sum(4, 3)` and `half(4)`: the hypotheses are met for both optimisation levels. -/
example (opt : Bool) (limit : Nat) (hx : ¬ Stops exEnv (exBin false opt) limit 12 [.uint 4, .uint 3]) :
    Gives exEnv (exBin false opt) limit 12 [.uint 4, .uint 3] (.uint 5) :=
  (C113_program_partial (s := { name := 1, isConst := true, params := [{ name := 20, dflt := none }, { name := 21, dflt := some (.uint 3) }] })
    (ex_covered opt) (e := exEnv) (by decide) (g := 1) (by decide) (by cases opt <;> decide +kernel) rfl (by decide) (by decide)
    limit 10 (.uint 5) (by cases opt <;> decide +kernel)).resolve_right hx

example (opt : Bool) (limit : Nat) : Throws exEnv (exBin false opt) limit 30 [.uint 4] :=
  C113_throws_partial (s := { name := 2, isConst := true, params := [{ name := 30, dflt := none }] })
    (ex_covered opt) (e := exEnv) (by decide) (g := 2) (by decide) (by cases opt <;> decide +kernel) rfl (by decide) (by decide)
    limit 10 (by cases opt <;> decide +kernel)

/-- With a million units of gas the limit is not met. -/
example : Gives exEnv (exBin false true) 1000000 12 [.uint 4, .uint 3] (.uint 5) :=
  gives_result 200 (by decide +kernel)

theorem stops_throws {e : Env} {B : Binary} {limit a : Nat} {vs : List Val} (h : Stops e B limit a vs) : Throws e B limit a vs := by
  obtain ⟨n, t, h1, _⟩ := h
  exact ⟨n, t, h1⟩

theorem ex_gives (opt : Bool) : Gives exEnv (exBin false opt) 1000000 12 [.uint 4, .uint 3] (.uint 5) := by
  cases opt <;> exact gives_result 200 (by decide +kernel)

/-- C118 for `sum(4, 3)`. -/
example : (∃ v, Gives exEnv (exBin false true) 1000000 12 [.uint 4, .uint 3] v ∧ Gives exEnv (exBin false false) 1000000 12 [.uint 4, .uint 3] v) ∨
    (Throws exEnv (exBin false true) 1000000 12 [.uint 4, .uint 3] ∧ Throws exEnv (exBin false false) 1000000 12 [.uint 4, .uint 3]) :=
  C118_same_value_partial (s := { name := 1, isConst := true, params := [{ name := 20, dflt := none }, { name := 21, dflt := some (.uint 3) }] })
    (r := .ok (.uint 5))
    (ex_covered true) (ex_covered false) rfl (e := exEnv) (by decide) (g := 1) (by decide) (by decide +kernel) (by decide +kernel) rfl
    (by decide) (by decide) 1000000 10 (by decide +kernel) (by nofun)
    (fun h => gives_not_throws (ex_gives true) (stops_throws h)) (fun h => gives_not_throws (ex_gives false) (stops_throws h))

/-! ### A function that ends without a `return` -/

/-- ```
    function check(x) const { if(x) { return 1; } }
    function next() const { return 7; }
    ``` -/
def fallProg : Prog :=
  [ { sig := { name := 0, isConst := true, params := [{ name := 10, dflt := none }] }
      body := .ite (.var 10) (.scope (.expr (.ret (some (.const (.uint 1)))))) },
    { sig := { name := 1, isConst := true, params := [] }
      body := .expr (.ret (some (.const (.uint 7)))) } ]

def fallProg1 : Prog := fallProg.take 1
def fallBin : Binary := binOf (compile (exOpts false true) 100 fallProg.src)
def fallBin1 : Binary := binOf (compile (exOpts false true) 100 fallProg1.src)

/-- The source of `check(false)` gives null. The compiled function goes on into the next function and
    gives 7; without a next function it runs past the end of the code and throws. -/
theorem C115_falls_through :
    (compile (exOpts false true) 100 fallProg.src = .ok fallBin ∧ entry 0 fallBin.entries = some 1 ∧
      callF true fallProg 5 0 [.fls] = some (.ok .nil) ∧ Gives exEnv fallBin 1000000 1 [.fls] (.uint 7)) ∧
    (compile (exOpts false true) 100 fallProg1.src = .ok fallBin1 ∧ entry 0 fallBin1.entries = some 1 ∧
      callF true fallProg1 5 0 [.fls] = some (.ok .nil) ∧ Throws exEnv fallBin1 1000000 1 [.fls]) :=
  ⟨⟨binOf_ok (by decide +kernel), by decide +kernel, by decide +kernel, gives_result 100 (by decide +kernel)⟩,
   ⟨binOf_ok (by decide +kernel), by decide +kernel, by decide +kernel, throws_result 100 (by decide +kernel)⟩⟩

/-! ## C116 -/

/-- `function f(x) const { const c = x + 1; c += 1; return c; }` -/
def constProg : Prog :=
  [ { sig := { name := 0, isConst := true, params := [{ name := 10, dflt := none }] }
      body := .seq (.decl true 11 (some (.bin .add (.var 10) (.const (.uint 1)))))
        (.seq (.expr (.asg .add 11 (.const (.uint 1)))) (.expr (.ret (some (.var 11))))) } ]

def constBin : Binary := binOf (compile (exOpts false true) 100 constProg.src)

/-- A compound assignment to a constant is accepted and changes it: `f(5)` gives 7. -/
theorem C116_const_changes :
    compile (exOpts false true) 100 constProg.src = .ok constBin ∧ entry 0 constBin.entries = some 1 ∧
      Gives exEnv constBin 1000000 1 [.uint 5] (.uint 7) :=
  ⟨binOf_ok (by decide +kernel), by decide +kernel, gives_result 100 (by decide +kernel)⟩

/-! ## C117 -/

/-- `function f(x) const { assert(x > 1); return x; }` -/
def assertProg : Prog :=
  [ { sig := { name := 0, isConst := true, params := [{ name := 10, dflt := none }] }
      body := .seq (.expr (.assert (.bin .gt (.var 10) (.const (.uint 1))))) (.expr (.ret (some (.var 10)))) } ]

def assertBin (ltr : Bool) : Binary := binOf (compile (exOpts ltr true) 100 assertProg.src)

/-- The target of the jump of an `assert` and the code for its condition are arguments of one C++ call. If
    they are evaluated from the left, every `assert` of more than a variable or constant fails, also when
    its condition holds. -/
theorem C117_assert_order :
    callF true assertProg 5 0 [.uint 5] = some (.ok (.uint 5)) ∧
    (compile (exOpts false true) 100 assertProg.src = .ok (assertBin false) ∧
      Gives exEnv (assertBin false) 1000000 1 [.uint 5] (.uint 5)) ∧
    (compile (exOpts true true) 100 assertProg.src = .ok (assertBin true) ∧
      Throws exEnv (assertBin true) 1000000 1 [.uint 5]) :=
  ⟨by decide +kernel, ⟨binOf_ok (by decide +kernel), gives_result 100 (by decide +kernel)⟩,
    ⟨binOf_ok (by decide +kernel), throws_result 100 (by decide +kernel)⟩⟩

/-- `function f(x, m) const { assert(x, m + 1); return x; }`, with the nodes the parser gives. -/
def msgSrc : List (Func (List Node) (List Node)) :=
  [ { sig := { name := 0, isConst := true, params := [{ name := 10, dflt := none }, { name := 11, dflt := none }] }
      body := .seq (.expr [.assert, .sub [[.ident 10], [.ident 11, .op (.bin .add), .const (.uint 1)]]])
        (.expr [.op .ret, .ident 10]) } ]

def msgBin (ltr : Bool) : Binary := binOf (compile (exOpts ltr true) 100 msgSrc)

/-- With a message that has to be computed, the `assert` fails also when its condition holds, for both
    orders: the jump over OP_FAIL leads to OP_FAIL. -/
theorem C117_message (ltr : Bool) :
    compile (exOpts ltr true) 100 msgSrc = .ok (msgBin ltr) ∧ entry 0 (msgBin ltr).entries = some 1 ∧
      Throws exEnv (msgBin ltr) 1000000 1 [.tru, .uint 1] := by
  cases ltr <;>
    exact ⟨binOf_ok (by decide +kernel), by decide +kernel, throws_result 100 (by decide +kernel)⟩

/-! ## Shifts -/

/-- `function f(x, n) const { return x >> n; }` -/
def shiftProg : Prog :=
  [ { sig := { name := 0, isConst := true, params := [{ name := 10, dflt := none }, { name := 11, dflt := none }] }
      body := .expr (.ret (some (.shift false (.var 10) (.var 11)))) } ]

def shiftBin : Binary := binOf (compile (exOpts false true) 100 shiftProg.src)

/-- The number of bits to shift by is cut to 64 bits: `x >> 2^64` is `x`, not 0. -/
theorem C113_shift_wraps :
    compile (exOpts false true) 100 shiftProg.src = .ok shiftBin ∧ entry 0 shiftBin.entries = some 1 ∧
      Gives exEnv shiftBin 1000000 1 [.uint 5, .uint (2 ^ 64)] (.uint 5) ∧
      Gives exEnv shiftBin 1000000 1 [.uint 5, .uint (2 ^ 63)] (.uint 0) :=
  ⟨binOf_ok (by decide +kernel), by decide +kernel, gives_result 100 (by decide +kernel),
    gives_result 100 (by decide +kernel)⟩

end Verif.Comp
