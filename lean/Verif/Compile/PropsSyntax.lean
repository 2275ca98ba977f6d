import Verif.Compile.PropsProgram
/-
  How expressions are grouped (C114), and which assignments to constants are refused (C116).
-/
namespace Verif.Comp
open Verif Verif.VM
open Verif.Codec (Bytes)

/-! ## C114: helper lemmas -/

/-- The level of a node of a text: 0 for what is not an operator. -/
def tokLevel : Node → Nat
  | .op (.bin o) => o.level
  | .op .shr | .op .shl => 4
  | .op .not | .op .bnot => 1
  | _ => 0

theorem level_pos (o : BinOp) : 2 ≤ o.level := by cases o <;> decide

theorem toks_level : ∀ (e : E), e.Grouped → ∀ t ∈ e.toks, tokLevel t ≤ e.level
  | .const v, _, t, ht => by
    rcases List.mem_singleton.1 ht with rfl; exact Nat.le_refl _
  | .var x, _, t, ht => by
    rcases List.mem_singleton.1 ht with rfl; exact Nat.le_refl _
  | .bin o a b, h, t, ht => by
    rcases List.mem_append.1 ht with h1 | h1
    · exact Nat.le_trans (toks_level a h.1 t h1) h.2.2.1
    · rcases List.mem_cons.1 h1 with rfl | h1
      · exact Nat.le_refl _
      · exact Nat.le_trans (toks_level b h.2.1 t h1) (Nat.le_of_lt h.2.2.2)
  | .shift left a b, h, t, ht => by
    rcases List.mem_append.1 ht with h1 | h1
    · exact Nat.le_trans (toks_level a h.1 t h1) h.2.2.1
    · rcases List.mem_cons.1 h1 with rfl | h1
      · cases left <;> exact Nat.le_refl 4
      · exact Nat.le_trans (toks_level b h.2.1 t h1) (Nat.le_of_lt h.2.2.2)
  | .not a, h, t, ht => by
    rcases List.mem_cons.1 ht with rfl | h1
    · exact Nat.le_refl 1
    · exact Nat.le_trans (toks_level a h.1 t h1) (Nat.le_of_lt h.2)
  | .bnot a, h, t, ht => by
    rcases List.mem_cons.1 ht with rfl | h1
    · exact Nat.le_refl 1
    · exact Nat.le_trans (toks_level a h.1 t h1) (Nat.le_of_lt h.2)
  | .paren a, _, t, ht => by
    rcases List.mem_singleton.1 ht with rfl; exact Nat.le_refl _
  | .call f args, _, t, ht => by
    rcases List.mem_cons.1 ht with rfl | h1
    · exact Nat.le_refl _
    · rcases List.mem_singleton.1 h1 with rfl; exact Nat.le_refl _

/-- Two ways to split a text at its last operator of the highest level are the same. -/
theorem split_one {l r l' r' : List Node} {t t' : Node} (h : l ++ t :: r = l' ++ t' :: r')
    (h1 : ∀ x ∈ l, tokLevel x ≤ tokLevel t) (h2 : ∀ x ∈ r, tokLevel x < tokLevel t)
    (h3 : ∀ x ∈ l', tokLevel x ≤ tokLevel t') (h4 : ∀ x ∈ r', tokLevel x < tokLevel t') :
    l = l' ∧ t = t' ∧ r = r' := by
  rcases List.append_eq_append_iff.1 h with ⟨m, e1, e2⟩ | ⟨m, e1, e2⟩
  · cases m with
    | nil =>
      rw [List.append_nil] at e1
      rw [List.nil_append] at e2
      injection e2 with e2 e3
      exact ⟨e1.symm, e2, e3⟩
    | cons x m =>
      rw [List.cons_append] at e2
      injection e2 with e2 e3
      subst e2
      have a1 := h2 t' (by rw [e3]; exact List.mem_append_right _ (List.mem_cons_self ..))
      have a2 := h3 t (by rw [e1]; exact List.mem_append_right _ (List.mem_cons_self ..))
      omega
  · cases m with
    | nil =>
      rw [List.append_nil] at e1
      rw [List.nil_append] at e2
      injection e2 with e2 e3
      exact ⟨e1, e2.symm, e3.symm⟩
    | cons x m =>
      rw [List.cons_append] at e2
      injection e2 with e2 e3
      subst e2
      have a1 := h4 t (by rw [e3]; exact List.mem_append_right _ (List.mem_cons_self ..))
      have a2 := h1 t' (by rw [e1]; exact List.mem_append_right _ (List.mem_cons_self ..))
      omega

/-- The highest level in the text is the level of the expression. -/
theorem level_attained (e : E) (h : e.Grouped) : e.level = 0 ∨ ∃ t ∈ e.toks, tokLevel t = e.level := by
  cases e with
  | bin o a b => exact .inr ⟨_, List.mem_append_right _ (List.mem_cons_self ..), rfl⟩
  | shift left a b => exact .inr ⟨_, List.mem_append_right _ (List.mem_cons_self ..), by cases left <;> rfl⟩
  | not a => exact .inr ⟨_, List.mem_cons_self .., rfl⟩
  | bnot a => exact .inr ⟨_, List.mem_cons_self .., rfl⟩
  | _ => exact .inl rfl

theorem level_eq {a b : E} (ha : a.Grouped) (hb : b.Grouped) (h : a.toks = b.toks) : a.level = b.level := by
  have h1 : a.level ≤ b.level := by
    rcases level_attained a ha with h0 | ⟨t, ht, he⟩
    · omega
    · rw [h] at ht; have := toks_level b hb t ht; omega
  have h2 : b.level ≤ a.level := by
    rcases level_attained b hb with h0 | ⟨t, ht, he⟩
    · omega
    · rw [← h] at ht; have := toks_level a ha t ht; omega
  omega

/-- An expression with two operands. -/
theorem split_two {e e' a b a' b' : E} {t t' : Node} (he : e.level = e'.level) (h1 : tokLevel t = e.level)
    (h1' : tokLevel t' = e'.level) (g : a.Grouped) (g' : a'.Grouped) (k : b.Grouped) (k' : b'.Grouped)
    (l1 : a.level ≤ e.level) (l2 : b.level < e.level) (m1 : a'.level ≤ e'.level) (m2 : b'.level < e'.level)
    (h : a.toks ++ t :: b.toks = a'.toks ++ t' :: b'.toks) : a.toks = a'.toks ∧ t = t' ∧ b.toks = b'.toks :=
  split_one h (fun x hx => by have := toks_level a g x hx; omega) (fun x hx => by have := toks_level b k x hx; omega)
    (fun x hx => by have := toks_level a' g' x hx; omega) (fun x hx => by have := toks_level b' k' x hx; omega)

theorem bin_op_inj {o o' : BinOp} (h : Node.op (.bin o) = Node.op (.bin o')) : o = o' := by
  injection h with h; injection h

theorem shift_op_inj {b b' : Bool} (h : Node.op (if b then Op.shl else .shr) = Node.op (if b' then Op.shl else .shr)) : b = b' := by
  cases b <;> cases b' <;> first | rfl | (injection h with h; cases h)

theorem level_ne_four (o : BinOp) : o.level ≠ 4 := by cases o <;> decide

mutual
theorem toks_inj : ∀ (a b : E), a.Grouped → b.Grouped → a.toks = b.toks → a = b
  | a, b, ha, hb, h => by
    have hl := level_eq ha hb h
    cases a with
    | const v =>
      cases b with
      | const w => injection h with h1 h2; injection h1 with h1; rw [h1]
      | var y => injection h with h1; cases h1
      | paren c => injection h with h1; cases h1
      | call f as => injection h with h1; cases h1
      | bin o c d => have := level_pos o; have : 0 = o.level := hl; omega
      | shift left c d => cases hl
      | not c => cases hl
      | bnot c => cases hl
    | var x =>
      cases b with
      | const w => injection h with h1; cases h1
      | var y => injection h with h1 h2; injection h1 with h1; rw [h1]
      | paren c => injection h with h1; cases h1
      | call f as => injection h with h1 h2; cases h2
      | bin o c d => have := level_pos o; have : 0 = o.level := hl; omega
      | shift left c d => cases hl
      | not c => cases hl
      | bnot c => cases hl
    | paren a =>
      cases b with
      | const w => injection h with h1; cases h1
      | var y => injection h with h1 h2; cases h1
      | paren c =>
        injection h with h1 h2
        injection h1 with h1
        injection h1 with h1
        rw [toks_inj a c ha hb h1]
      | call f as => injection h with h1 h2; cases h1
      | bin o c d => have := level_pos o; have : 0 = o.level := hl; omega
      | shift left c d => cases hl
      | not c => cases hl
      | bnot c => cases hl
    | call f as =>
      cases b with
      | const w => injection h with h1; cases h1
      | var y => injection h with h1 h2; cases h2
      | paren c => injection h with h1; cases h1
      | call f' as' =>
        injection h with h1 h2
        injection h1 with h1
        injection h2 with h2
        injection h2 with h2
        rw [h1, argToks_inj as as' ha hb h2]
      | bin o c d => have := level_pos o; have : 0 = o.level := hl; omega
      | shift left c d => cases hl
      | not c => cases hl
      | bnot c => cases hl
    | not a =>
      cases b with
      | not c =>
        injection h with h1 h2
        rw [toks_inj a c ha.1 hb.1 h2]
      | bnot c => injection h with h1 h2; injection h1 with h1; cases h1
      | bin o c d => have := level_pos o; have : 1 = o.level := hl; omega
      | _ => cases hl
    | bnot a =>
      cases b with
      | bnot c =>
        injection h with h1 h2
        rw [toks_inj a c ha.1 hb.1 h2]
      | not c => injection h with h1 h2; injection h1 with h1; cases h1
      | bin o c d => have := level_pos o; have : 1 = o.level := hl; omega
      | _ => cases hl
    | bin o a1 a2 =>
      have hp := level_pos o
      cases b with
      | bin o' b1 b2 =>
        obtain ⟨h1, h2, h3⟩ := split_two (e := .bin o a1 a2) (e' := .bin o' b1 b2) hl rfl rfl ha.1 hb.1 ha.2.1 hb.2.1 ha.2.2.1 ha.2.2.2
          hb.2.2.1 hb.2.2.2 h
        rw [toks_inj a1 b1 ha.1 hb.1 h1, toks_inj a2 b2 ha.2.1 hb.2.1 h3, bin_op_inj h2]
      | shift left c d => exact absurd hl (level_ne_four o)
      | const w => have : o.level = 0 := hl; omega
      | var w => have : o.level = 0 := hl; omega
      | paren w => have : o.level = 0 := hl; omega
      | call f w => have : o.level = 0 := hl; omega
      | not w => have : o.level = 1 := hl; omega
      | bnot w => have : o.level = 1 := hl; omega
    | shift left a1 a2 =>
      cases b with
      | shift left' b1 b2 =>
        obtain ⟨h1, h2, h3⟩ := split_two (e := .shift left a1 a2) (e' := .shift left' b1 b2) hl (by cases left <;> rfl)
          (by cases left' <;> rfl) ha.1 hb.1 ha.2.1 hb.2.1 ha.2.2.1 ha.2.2.2 hb.2.2.1 hb.2.2.2 h
        rw [toks_inj a1 b1 ha.1 hb.1 h1, toks_inj a2 b2 ha.2.1 hb.2.1 h3, shift_op_inj h2]
      | bin o c d => exact absurd hl.symm (level_ne_four o)
      | _ => cases hl

theorem argToks_inj : ∀ (a b : Args), a.Grouped → b.Grouped → a.toks = b.toks → a = b
  | .nil, .nil, _, _, _ => rfl
  | .nil, .cons _ _, _, _, h => by cases h
  | .cons _ _, .nil, _, _, h => by cases h
  | .cons e l, .cons e' l', ha, hb, h => by
    injection h with h1 h2
    rw [toks_inj e e' ha.1 hb.1 h1, argToks_inj l l' ha.2 hb.2 h2]
end

/-! ## C114 -/

/-- A text has at most one reading: two expressions that both follow the rules of precedence and are
    written the same are the same. -/
theorem C114_one_reading (a b : E) (ha : a.Grouped) (hb : b.Grouped) (h : a.toks = b.toks) : a = b :=
  toks_inj a b ha hb h

/-- The compiler follows the rules: given the text of an expression that follows them it does, operator by
    operator, what it would do for the tree. -/
theorem C114_compiled_as_read (k : Cfg) (e : E) (hg : e.Grouped) (f : Nat) (hf : e.need + e.width + 1 ≤ f) :
    cExpr k f e.toks = checked (compE k e) := expr_tree k e hg f hf

/-! ### Readings that differ from those of C -/

/-- `function f(a, b, c) const { a = b = c; return b; }` and the same with `return a`. -/
def chainSrc (x : Name) : List (Func (List Node) (List Node)) :=
  [ { sig := { name := 0, isConst := true, params := [{ name := 1, dflt := none }, { name := 2, dflt := none }, { name := 3, dflt := none }] }
      body := .seq (.expr [.ident 1, .op .set, .ident 2, .op .set, .ident 3]) (.expr [.op .ret, .ident x]) } ]

def chainBin (x : Name) : Binary := binOf (compile (exOpts false true) 100 (chainSrc x))

/-- Assignments are grouped from the left: `a = b = c` is accepted, gives `a` the value of `c` and leaves `b`
    as it was. -/
theorem C114_chained_assignment :
    (compile (exOpts false true) 100 (chainSrc 2) = .ok (chainBin 2) ∧ entry 0 (chainBin 2).entries = some 1 ∧
      Gives exEnv (chainBin 2) 1000000 1 [.uint 10, .uint 20, .uint 30] (.uint 20)) ∧
    (compile (exOpts false true) 100 (chainSrc 1) = .ok (chainBin 1) ∧ entry 0 (chainBin 1).entries = some 1 ∧
      Gives exEnv (chainBin 1) 1000000 1 [.uint 10, .uint 20, .uint 30] (.uint 30)) :=
  ⟨⟨binOf_ok (by decide +kernel), by decide +kernel, gives_result 100 (by decide +kernel)⟩,
   ⟨binOf_ok (by decide +kernel), by decide +kernel, gives_result 100 (by decide +kernel)⟩⟩

/-- `a && b | c`, read as `(a && b) | c`. -/
def andOr : E := .bin .bor (.bin .land (.var 1) (.var 2)) (.var 3)

/-- `&&` binds as tightly as `&`, so tighter than `|`: `a && b | c` is `(a && b) | c` and nothing else. -/
theorem C114_logical_like_bitwise (e : E) (h : e.Grouped)
    (ht : e.toks = [.ident 1, .op (.bin .land), .ident 2, .op (.bin .bor), .ident 3]) : e = andOr :=
  C114_one_reading e andOr h ⟨⟨trivial, trivial, by decide, by decide⟩, trivial, by decide, by decide⟩ ht

/-! ## C116: specification -/

/-- Scopes, innermost first: the names declared in each and whether they are constants. -/
abbrev Scopes := List (List (Name × Bool))

def constIn (x : Name) : List (Name × Bool) → Option Bool
  | [] => none
  | (y, q) :: l => if y = x then some q else constIn x l

/-- The innermost variable of that name is a constant. -/
def isConst (x : Name) : Scopes → Bool
  | [] => false
  | s :: l =>
    match constIn x s with
    | some q => q
    | none => isConst x l

/-- The expression is not `x = …`, `x++`, `++x`, `x--` or `--x` for a constant. -/
def Ex.keeps (sc : Scopes) : Ex → Bool
  | .set x _ => !isConst x sc
  | .inc _ _ x => !isConst x sc
  | _ => true

/-- A declaration in the innermost scope, where the name must be new. -/
def bindName (q : Bool) (x : Name) : Scopes → Option Scopes
  | [] => none
  | s :: l => if s.any (fun y => y.1 = x) then none else some (((x, q) :: s) :: l)

/-- The parameters of a function, in their order. -/
def bindNames : List Param → Scopes → Option Scopes
  | [], sc => some sc
  | p :: ps, sc => (bindName false p.name sc).bind (bindNames ps)

def outer : Scopes → Option Scopes
  | [] => none
  | _ :: l => some l

/-- No expression in the statement assigns to a constant in one of those ways, and no name is declared
    twice in one scope; the scopes afterwards. -/
def Stmt.keeps : Stmt E Ex → Scopes → Option Scopes
  | .skip, sc => some sc
  | .seq a b, sc => (a.keeps sc).bind b.keeps
  | .decl q x _, sc => bindName q x sc
  | .expr x, sc => if x.keeps sc then some sc else none
  | .ite _ a, sc => a.keeps sc
  | .iteElse _ a b, sc => (a.keeps sc).bind b.keeps
  | .loop _ a p, sc => (a.keeps sc).bind fun sc => if p.all (·.keeps sc) then some sc else none
  | .scope a, sc => (a.keeps ([] :: sc)).bind outer

/-- A function: its parameters are variables. -/
def Func.keeps (g : Func E Ex) : Bool :=
  ((bindNames g.sig.params [[]]).bind (Stmt.keeps (.scope g.body))).isSome

/-! ### Helper lemmas -/

def shape (l : List Frame) : Scopes := l.map fun f => f.vars.map fun v => (v.name, v.isConst)

theorem shape_ext {s t : CSt} (h : Ext s t) : shape t.frames = shape s.frames := by
  have := congrArg (List.map (List.map fun v : Var => (v.name, v.isConst))) h.vars
  rw [List.map_map, List.map_map] at this
  exact this

theorem constIn_find (x : Name) : ∀ (l : List Var), constIn x (l.map fun v => (v.name, v.isConst)) =
    (l.find? (fun w => w.name = x)).map (·.isConst)
  | [] => rfl
  | v :: l => by
    rw [List.map_cons, List.find?_cons]
    unfold constIn
    by_cases h : v.name = x
    · rw [if_pos h, decide_eq_true h]; rfl
    · rw [if_neg h, decide_eq_false h]; exact constIn_find x l

theorem isConst_find (x : Name) : ∀ (l : List Frame), isConst x (shape l) = ((findVar x l).map (·.isConst)).getD false
  | [] => rfl
  | f :: l => by
    show (match constIn x (f.vars.map fun v => (v.name, v.isConst)) with
      | some q => q
      | none => isConst x (shape l)) = _
    unfold findVar
    rw [constIn_find]
    cases f.vars.find? (fun w => w.name = x) with
    | some v => rfl
    | none => exact isConst_find x l

theorem ident_const {k : Cfg} {x : Name} {s t : CSt} {v : VRef} (h : nodeIdent k x none s = .ok (v, t)) :
    t = s ∧ v.isConst = isConst x (shape s.frames) := by
  rw [isConst_find]
  obtain ⟨h1, ⟨w, h2, rfl⟩ | ⟨h2, g, _, rfl⟩ | ⟨h2, _, rfl⟩⟩ := nodeIdent_ok h <;> rw [h2] <;> exact ⟨h1, rfl⟩

theorem ex_keeps {k : Cfg} {x : Ex} {s t : CSt} {v : VRef} (h : compX k x s = .ok (v, t)) : x.keeps (shape s.frames) = true := by
  have fin : ∀ {l : VRef} {y : Name}, l.isConst = isConst y (shape s.frames) → ¬ l.isConst = true → (!isConst y (shape s.frames)) = true := by
    intro l y h1 h2
    rw [← h1]
    cases hl : l.isConst with
    | false => rfl
    | true => exact absurd hl h2
  cases x with
  | set y e =>
    obtain ⟨l, s1, h1, k1⟩ := CM.bind_eq.1 h
    obtain ⟨_, h2⟩ := ident_const h1
    obtain ⟨_, s2, h3, _⟩ := CM.bind_eq.1 k1
    exact fin h2 (chk_eq.1 h3).1
  | inc up post y =>
    cases post with
    | true =>
      obtain ⟨l, s1, h1, k1⟩ := CM.bind_eq.1 h
      obtain ⟨_, h2⟩ := ident_const h1
      obtain ⟨_, s2, h3, _⟩ := CM.bind_eq.1 k1
      exact fin h2 (chk_eq.1 h3).1
    | false =>
      obtain ⟨l, s1, h1, k1⟩ := CM.bind_eq.1 h
      obtain ⟨_, h2⟩ := ident_const h1
      obtain ⟨_, s2, h3, _⟩ := CM.bind_eq.1 k1
      exact fin h2 (chk_eq.1 h3).1
  | _ => rfl

theorem checked_keeps {k : Cfg} {x : Ex} {s t : CSt} {v : VRef} (h : checked (compX k x) s = .ok (v, t)) :
    x.keeps (shape s.frames) = true := by
  obtain ⟨_, _, h1, _⟩ := CM.bind_eq.1 h
  exact ex_keeps h1

theorem exs_keeps {k : Cfg} : ∀ {l : List Ex} {s t : CSt} {u : Unit}, cExprs (treeSubs k) l s = .ok (u, t) →
    l.all (·.keeps (shape s.frames)) = true
  | [], s, t, u, _ => rfl
  | x :: l, s, t, u, h => by
    obtain ⟨v, s1, h1, h2⟩ := CM.bind_eq.1 h
    have := exs_keeps h2
    rw [shape_ext (Keeps.checked (Keeps.compX k x) _ _ _ h1)] at this
    rw [List.all_cons, this, checked_keeps h1]
    rfl

theorem addVar_shape {v : Var} {s t : CSt} {u : Unit} (h : addVar v s = .ok (u, t)) :
    bindName v.isConst v.name (shape s.frames) = some (shape t.frames) := by
  unfold addVar at h
  cases hf : s.frames with
  | nil => rw [hf] at h; cases h
  | cons f l =>
    rw [hf] at h
    dsimp only at h
    split at h
    · cases h
    · next hn =>
      cases h
      show (if (f.vars.map fun v => (v.name, v.isConst)).any (fun y => y.1 = v.name) then none else some _) = _
      rw [if_neg]
      · rfl
      · rw [List.any_map]; exact hn

theorem decl_keeps {k : Cfg} {q : Bool} {x : Name} {i : Option E} {s t : CSt} {u : Unit}
    (h : cDecl (treeSubs k) q x i s = .ok (u, t)) : bindName q x (shape s.frames) = some (shape t.frames) := by
  have hgen : ∀ e, (do
      let a ← newAddr
      let v ← (treeSubs k).cond e
      let _ ← copy (ref a) v
      addVar { name := x, address := a, isConst := q } : CM Unit) s = .ok (u, t) →
      bindName q x (shape s.frames) = some (shape t.frames) := by
    intro e h
    obtain ⟨a, s1, h1, k1⟩ := CM.bind_eq.1 h
    obtain ⟨v, s2, h2, k2⟩ := CM.bind_eq.1 k1
    obtain ⟨_, s3, h3, k3⟩ := CM.bind_eq.1 k2
    have := addVar_shape k3
    rw [shape_ext (Keeps.copy _ _ _ _ _ h3), shape_ext (Keeps.checked (Keeps.compE k e) _ _ _ h2), shape_ext (Keeps.newAddr _ _ _ h1)] at this
    exact this
  unfold cDecl at h
  cases i with
  | none =>
    obtain ⟨a, s1, h1, k1⟩ := CM.bind_eq.1 h
    obtain ⟨_, s3, h3, k3⟩ := CM.bind_eq.1 k1
    have := addVar_shape k3
    rw [shape_ext (Keeps.copy _ _ _ _ _ h3), shape_ext (Keeps.newAddr _ _ _ h1)] at this
    exact this
  | some e =>
    cases q with
    | false => exact hgen e h
    | true =>
      cases hl : (treeSubs k).lit e with
      | none => simp only [hl] at h; exact hgen e h
      | some v =>
        simp only [hl] at h
        obtain ⟨a, s1, h1, k1⟩ := CM.bind_eq.1 h
        have := addVar_shape k1
        rw [shape_ext (Keeps.constAddr _ _ _ _ h1)] at this
        exact this

theorem patch_frames {pos n : Nat} {s t : CSt} {u : Unit} (h : patch pos n s = .ok (u, t)) : t.frames = s.frames := by
  unfold patch at h
  split at h
  · cases h
  · cases h; rfl

theorem stmt_keeps {k : Cfg} : ∀ (b : Stmt E Ex) {s t : CSt} {u : Unit}, cStmtG (treeSubs k) b s = .ok (u, t) →
    b.keeps (shape s.frames) = some (shape t.frames)
  | .skip, s, t, u, h => by rw [cStmtG] at h; cases CM.pure_eq.1 h; rfl
  | .seq a b, s, t, u, h => by
    rw [cStmtG] at h
    obtain ⟨_, s1, h1, h2⟩ := CM.bind_eq.1 h
    rw [Stmt.keeps, stmt_keeps a h1]
    exact stmt_keeps b h2
  | .decl q x i, s, t, u, h => by rw [cStmtG] at h; exact decl_keeps h
  | .expr x, s, t, u, h => by
    rw [cStmtG] at h
    obtain ⟨_, s1, h1, h2⟩ := CM.bind_eq.1 h
    cases CM.pure_eq.1 h2
    rw [Stmt.keeps, if_pos (checked_keeps h1), shape_ext (Keeps.checked (Keeps.compX k x) _ _ _ h1)]
  | .ite c a, s, t, u, h => by
    obtain ⟨b, s1, s2, h1, h2, h3⟩ := ite_ok h
    have := stmt_keeps a h2
    rw [Stmt.keeps, patch_frames h3, ← shape_ext (Keeps.cCond k c _ _ _ h1)]
    exact this
  | .iteElse c a b, s, t, u, h => by
    obtain ⟨d, s1, s2, s3, s4, h1, h2, h3, h4, h5⟩ := iteElse_ok h
    have i1 := stmt_keeps a h2
    dsimp only at i1
    have i2 := stmt_keeps b h4
    rw [patch_frames h3] at i2
    rw [Stmt.keeps, patch_frames h5, ← shape_ext (Keeps.cCond k c _ _ _ h1), i1]
    exact i2
  | .loop c a p, s, t, u, h => by
    obtain ⟨d, s1, s2, s3, h1, h2, h3, h4⟩ := loop_ok h
    have i1 := stmt_keeps a h2
    dsimp only at i1
    rw [Stmt.keeps, patch_frames h4, ← shape_ext (Keeps.cCond k c _ _ _ h1), i1, Option.bind_some, if_pos (exs_keeps h3)]
    exact congrArg some (shape_ext (Keeps.cExprs k p _ _ _ h3)).symm
  | .scope a, s, t, u, h => by
    obtain ⟨s1, f, l, h1, h2, rfl⟩ := scope_ok h
    have i1 : a.keeps ([] :: shape s.frames) = _ := stmt_keeps a h1
    rw [Stmt.keeps, i1, h2]
    rfl

theorem addParams_shape : ∀ {ps : List Param} {a : Nat} {s t : CSt} {u : Unit}, addParams a ps s = .ok (u, t) →
    bindNames ps (shape s.frames) = some (shape t.frames)
  | [], a, s, t, u, h => by cases CM.pure_eq.1 h; rfl
  | p :: ps, a, s, t, u, h => by
    obtain ⟨_, s1, h1, h2⟩ := CM.bind_eq.1 h
    rw [bindNames, addVar_shape h1]
    exact addParams_shape h2

theorem func_keeps {k : Cfg} {cs : Bool → Stmt E Ex → CM Unit} {g : Func E Ex} (hcs : cs g.sig.isConst = cStmtG (treeSubs k))
    {st st' : CSt} {r : Name × Nat} (h : cFunc cs g st = .ok (r, st')) : g.keeps = true := by
  unfold cFunc at h
  obtain ⟨a0, s0, h0, k0⟩ := CM.bind_eq.1 h
  obtain ⟨_, s1, h1, k1⟩ := CM.bind_eq.1 k0
  obtain ⟨_, s2, h2, k2⟩ := CM.bind_eq.1 k1
  obtain ⟨_, s3, h3, k3⟩ := CM.bind_eq.1 k2
  obtain ⟨_, s4, h4, k4⟩ := CM.bind_eq.1 k3
  cases h1
  rw [hcs] at h4
  have e2 := addParams_shape h2
  have := stmt_keeps (.scope g.body) h4
  rw [emit_ok h3] at this
  dsimp only at this
  unfold Func.keeps
  rw [show bindNames g.sig.params [[]] = _ from e2, Option.bind_some, this]
  rfl

theorem funcs_keep {k : Bool → Cfg} {cs : Bool → Stmt E Ex → CM Unit} (hcs : ∀ q, cs q = cStmtG (treeSubs (k q))) :
    ∀ {p : Prog} {st st' : CSt} {r : List (Name × Nat)}, cFuncs cs p st = .ok (r, st') → ∀ g ∈ p, g.keeps = true
  | [], _, _, _, _, g, hg => nomatch hg
  | x :: p, st, st', r, h, g, hg => by
    obtain ⟨a, s1, h1, k1⟩ := CM.bind_eq.1 h
    obtain ⟨b, s2, h2, k2⟩ := CM.bind_eq.1 k1
    rcases List.mem_cons.1 hg with rfl | hg
    · exact func_keeps (hcs _) h1
    · exact funcs_keep hcs h2 g hg

/-! ## C116 -/

/-- A program that compiles assigns to no constant with `=`, `++` or `--`, and declares no name twice in one
    scope. What is missing are the compound assignments, see `C116_const_changes`. -/
theorem C116_refused_partial (o : Opts) (f : Nat) (p : Prog) (hg : p.Grouped) (hf : p.need ≤ f) {B : Binary}
    (h : compile o f p.src = .ok B) : ∀ g ∈ p, g.keeps = true := by
  rw [compile_tree o f p hg hf] at h
  unfold compileT compileG at h
  obtain ⟨_, h1⟩ := Res.chk_bind.1 h
  obtain ⟨⟨ents, s⟩, h2, _⟩ := Res.bind_eq_ok.1 h1
  exact funcs_keep (fun _ => rfl) h2

/-- `function f(x) const { const c = x; var y = 0; { var c = 1; c = 2; } y = c; }` is kept, with `c = 2` outside
    of the inner scope it is not. -/
example : Func.keeps { sig := { name := 0, isConst := true, params := [{ name := 1, dflt := none }] }
                       body := .seq (.decl true 2 (some (.var 1))) (.seq (.decl false 3 (some (.const (.uint 0))))
                         (.seq (.scope (.seq (.decl false 2 (some (.const (.uint 1)))) (.expr (.set 2 (.const (.uint 2))))))
                           (.expr (.set 3 (.var 2))))) } = true := by decide
example : Func.keeps { sig := { name := 0, isConst := true, params := [{ name := 1, dflt := none }] }
                       body := .seq (.decl true 2 (some (.var 1))) (.seq (.scope (.decl false 2 (some (.const (.uint 1)))))
                         (.expr (.set 2 (.const (.uint 2))))) } = false := by decide
/-- `function f(x) { var y; var y; }` is refused. -/
example : Func.keeps { sig := { name := 0, isConst := true, params := [{ name := 1, dflt := none }] }
                       body := .seq (.decl false 2 none) (.decl false 2 none) } = false := by decide

end Verif.Comp
