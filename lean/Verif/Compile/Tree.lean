import Verif.Compile.Spec
/-
  The compiler on the nodes of an expression does what a compiler on its tree does.
-/
namespace Verif.Comp
open Verif Verif.VM
open Verif.Codec (Bytes)

instance : LawfulMonad CM := LawfulMonad.mk' CM
  (id_map := fun x => by
    funext s
    show CM.bind x (fun a => pure a) s = x s
    unfold CM.bind
    cases h : x s <;> rfl)
  (pure_bind := fun _ _ => rfl)
  (bind_assoc := fun x f g => by
    funext s
    show CM.bind (CM.bind x f) g s = CM.bind x (fun a => CM.bind (f a) g) s
    unfold CM.bind
    cases h : x s <;> rfl)

theorem CM.bind_def {α β : Type} (m : CM α) (f : α → CM β) (s : CSt) :
    (m >>= f) s = match m s with
      | .ok (a, t) => f a t
      | .throw => .throw
      | .ub => .ub := rfl

theorem CM.bind_eq {α β : Type} {m : CM α} {f : α → CM β} {s : CSt} {r : β × CSt} :
    (m >>= f) s = .ok r ↔ ∃ a t, m s = .ok (a, t) ∧ f a t = .ok r := by
  rw [CM.bind_def]
  cases h : m s with
  | ok p =>
    obtain ⟨a, t⟩ := p
    constructor
    · exact fun h => ⟨a, t, rfl, h⟩
    · rintro ⟨_, _, h, h'⟩; cases h; exact h'
  | throw => simp
  | ub => simp

theorem CM.pure_eq {α : Type} {a : α} {s : CSt} {r : α × CSt} : (pure a : CM α) s = .ok r ↔ r = (a, s) := by
  show Res.ok (a, s) = Res.ok r ↔ _
  constructor
  · intro h; cases h; rfl
  · intro h; rw [h]

theorem chk_eq {c : Prop} [Decidable c] {s : CSt} {r : Unit × CSt} :
    chk c s = .ok r ↔ c ∧ r = ((), s) := by
  unfold chk
  by_cases h : c
  · rw [if_pos h, CM.pure_eq]; simp [h]
  · rw [if_neg h]; simp [fail, h]

/-! ### The compiler on trees -/

def treeBin (k : Cfg) (o : BinOp) (l r : VRef) : CM VRef := do
  let a ← get r
  let i ← select k o a
  let out ← newAddr
  let b ← get l
  emit { code := i.code, flags := i.flags, a := out, b := b, c := i.rhs }
  pure (ref out)

def treeShift (left : Bool) (out : Nat) (l r : VRef) : CM VRef := do
  let b ← get l
  let c ← get r
  emit { code := if left then 0x46 else 0x47, flags := 4, a := out, b := b, c := c }
  pure (ref out)

def treeNot (bitwise : Bool) (r : VRef) : CM VRef := do
  let out ← newAddr
  let b ← get r
  emit { code := 0x40, flags := if bitwise then 64 else 0, a := out, b := b }
  pure (ref out)

def treeCall (g : Sig) (vs : List VRef) : CM VRef := do
  let offset ← newAddr
  copyArgs (offset + 1) vs
  copyDflts (offset + 1 + vs.length) (g.params.drop vs.length)
  emitLinked { code := 0x07, a := 2 ^ 32 - 1, b := offset - MEM_STACK } g.name
  pure (ref offset)

def Args.length : Args → Nat
  | .nil => 0
  | .cons _ l => l.length + 1

/-- The compiler of the arguments, given what a name stands for. -/
def treeCallee (k : Cfg) (n : Nat) (args : CM (List VRef)) (l : VRef) : CM VRef :=
  match l.func with
  | some (.user g) => do
    chk (¬ (k.curConst ∧ ¬ g.isConst))
    chk (¬ n > g.params.length)
    let vs ← args
    treeCall g vs
  | _ => fail

mutual
def compE (k : Cfg) : E → CM VRef
  | .const v => nodeConst v none
  | .var x => nodeIdent k x none
  | .bin o a b => do
    let l ← compE k a
    let r ← compE k b
    treeBin k o l r
  | .shift left a b => do
    let l ← compE k a
    let out ← newAddr
    let r ← compE k b
    treeShift left out l r
  | .not a => do
    let r ← compE k a
    treeNot false r
  | .bnot a => do
    let r ← compE k a
    treeNot true r
  | .paren a => do
    let v ← compE k a
    checkValue v
    pure v
  | .call f args => do
    let l ← nodeIdent k f none
    treeCallee k args.length (compArgs k args) l

def compArgs (k : Cfg) : Args → CM (List VRef)
  | .nil => pure []
  | .cons e l => do
    let v ← compE k e
    checkValue v
    let vs ← compArgs k l
    pure (v :: vs)
end

/-! ### Ranks and levels -/

def rkOf (n : Nat) : Nat := if n = 0 then 4 else n + 6

theorem rkOf_le {a b : Nat} (h : a ≤ b) : rkOf a ≤ rkOf b := by
  unfold rkOf; split <;> split <;> omega
theorem rkOf_lt {a b : Nat} (h : a < b) : rkOf a < rkOf b := by
  unfold rkOf; split <;> split <;> omega
theorem rank_level (o : BinOp) : o.rank = rkOf o.level := by cases o <;> rfl

def E.rk (e : E) : Nat := rkOf e.level

/-- The number of nodes taken on the outermost level. -/
def E.width : E → Nat
  | .bin _ a _ => a.width + 1
  | .shift _ a _ => a.width + 1
  | .call _ _ => 2
  | _ => 1

mutual
/-- A depth of recursion that is enough. -/
def E.need : E → Nat
  | .const _ => 1
  | .var _ => 1
  | .bin _ a b => a.need + a.width + b.need + b.width + 2
  | .shift _ a b => a.need + a.width + b.need + b.width + 2
  | .not a => a.need + a.width + 2
  | .bnot a => a.need + a.width + 2
  | .paren a => a.need + a.width + 2
  | .call _ args => args.need + 2

def Args.need : Args → Nat
  | .nil => 0
  | .cons e l => e.need + e.width + 1 + l.need
end

def restOk (r : Nat) : List Node → Prop
  | [] => True
  | n :: _ => r ≤ n.rank

def above (r : Nat) : Option Nat → Prop
  | none => True
  | some q => r < q

theorem not_stops {r : Nat} {lr : Option Nat} (h : above r lr) {q : Nat} (hq : q ≤ r) : stops lr q = false := by
  cases lr with
  | none => rfl
  | some x => have : r < x := h; simp [stops]; omega

theorem above_le {a b : Nat} {lr : Option Nat} (h : above b lr) (hab : a ≤ b) : above a lr := by
  cases lr with
  | none => trivial
  | some x => exact Nat.lt_of_le_of_lt hab h

theorem recExpr_ret (k : Cfg) {f r : Nat} {rest : List Node} (v : VRef) (hf : 1 ≤ f) (h : restOk r rest) :
    recExpr k f rest (some v) (some r) = pure (v, rest) := by
  obtain ⟨g, rfl⟩ : ∃ g, f = g + 1 := ⟨f - 1, by omega⟩
  cases rest with
  | nil => rfl
  | cons n rest =>
    have : stops (some r) n.rank = true := by simp only [stops]; exact decide_eq_true h
    simp only [recExpr, this, if_true]

theorem recExpr_nil (k : Cfg) {f : Nat} (v : VRef) (lr : Option Nat) (hf : 1 ≤ f) :
    recExpr k f [] (some v) lr = pure (v, []) := by
  obtain ⟨g, rfl⟩ : ∃ g, f = g + 1 := ⟨f - 1, by omega⟩
  rfl

theorem recExpr_cons (k : Cfg) {f : Nat} (n : Node) (rest : List Node) (lhs : Option VRef) {lr : Option Nat}
    (h : stops lr n.rank = false) :
    recExpr k (f + 1) (n :: rest) lhs lr = (do
      let (out, rest) ← node k (recExpr k f) n lhs rest
      recExpr k f rest (some out) lr) := by
  simp only [recExpr, h, Bool.false_eq_true, if_false]

theorem chk_congr {c d : Prop} [Decidable c] [Decidable d] (h : c ↔ d) : chk c = chk d := by
  unfold chk
  by_cases hc : c
  · rw [if_pos hc, if_pos (h.1 hc)]
  · rw [if_neg hc, if_neg (fun x => hc (h.2 x))]

theorem nodeSub_call (k : Cfg) (rc : Rec) (args : Args) (l : VRef)
    (h : collect rc args.toks = compArgs k args) (hl : args.toks.length = args.length)
    (hn : l.func ≠ some .assert) :
    nodeSub k rc args.toks (some l) = treeCallee k args.length (compArgs k args) l := by
  unfold nodeSub treeCallee
  dsimp only
  match hf : l.func with
  | none => rfl
  | some .assert => exact absurd hf hn
  | some (.user g) =>
    simp only [callUser, h, treeCall]
    rw [chk_congr (c := ¬ args.toks.length > g.params.length) (d := ¬ args.length > g.params.length) (by rw [hl])]

theorem Args.toks_length : ∀ (l : Args), l.toks.length = l.length
  | .nil => rfl
  | .cons e l => by simp [Args.toks, Args.length, Args.toks_length l]

theorem nodeIdent_func (k : Cfg) (x : Name) (s : CSt) {l : VRef} {t : CSt}
    (h : nodeIdent k x none s = .ok (l, t)) : l.func ≠ some .assert := by
  unfold nodeIdent at h
  obtain ⟨_, _, _, h⟩ := CM.bind_eq.1 h
  cases hv : findVar x ‹CSt›.frames <;> simp only [hv] at h
  · cases hg : findFunc x k.funcs <;> simp only [hg] at h <;> (cases h; simp)
  · cases h; simp

theorem bind_congr_ok {α β : Type} {m : CM α} {f g : α → CM β}
    (h : ∀ s a t, m s = .ok (a, t) → f a = g a) : (m >>= f) = (m >>= g) := by
  funext s
  rw [CM.bind_def, CM.bind_def]
  cases hm : m s with
  | ok p => obtain ⟨a, t⟩ := p; simp only; rw [h s a t hm]
  | throw => rfl
  | ub => rfl

theorem toks_ne (e : E) : ∃ n l, e.toks = n :: l := by
  cases e with
  | const v => exact ⟨_, _, rfl⟩
  | var x => exact ⟨_, _, rfl⟩
  | bin o a b =>
    obtain ⟨n, l, h⟩ := toks_ne a
    exact ⟨n, l ++ .op (.bin o) :: b.toks, by rw [E.toks, h]; rfl⟩
  | shift o a b =>
    obtain ⟨n, l, h⟩ := toks_ne a
    exact ⟨n, l ++ .op (if o then .shl else .shr) :: b.toks, by rw [E.toks, h]; rfl⟩
  | not a => exact ⟨_, _, rfl⟩
  | bnot a => exact ⟨_, _, rfl⟩
  | paren a => exact ⟨_, _, rfl⟩
  | call f args => exact ⟨_, _, rfl⟩

theorem toks_pos (e : E) (rest : List Node) : (e.toks ++ rest).length ≥ 1 := by
  obtain ⟨n, l, h⟩ := toks_ne e
  rw [h]; simp

theorem chk_true {c : Prop} [Decidable c] (h : c) : chk c = pure () := if_pos h

mutual
theorem recExpr_tree (k : Cfg) : ∀ (e : E), e.Grouped → ∀ (f : Nat) (rest : List Node) (lr : Option Nat),
    e.need ≤ f → above e.rk lr → restOk e.rk rest →
    recExpr k f (e.toks ++ rest) none lr = (do let v ← compE k e; recExpr k (f - e.width) rest (some v) lr)
  | .const v, _, f, rest, lr, hf, ha, _ => by
    obtain ⟨g, rfl⟩ : ∃ g, f = g + 1 := ⟨f - 1, by simp only [E.need] at hf; omega⟩
    simp only [E.toks, List.singleton_append]
    rw [recExpr_cons k _ _ _ (not_stops (r := 4) ha (by simp [Node.rank]))]
    simp only [node, keep, bind_assoc, pure_bind, compE, E.width, Nat.add_sub_cancel]
  | .var x, _, f, rest, lr, hf, ha, _ => by
    obtain ⟨g, rfl⟩ : ∃ g, f = g + 1 := ⟨f - 1, by simp only [E.need] at hf; omega⟩
    simp only [E.toks, List.singleton_append]
    rw [recExpr_cons k _ _ _ (not_stops (r := 4) ha (by simp [Node.rank]))]
    simp only [node, keep, bind_assoc, pure_bind, compE, E.width, Nat.add_sub_cancel]
  | .bin o a b, hg, f, rest, lr, hf, ha, hr => by
    obtain ⟨ga, gb, la, lb⟩ := hg
    simp only [E.need] at hf
    have e1 : (E.bin o a b).rk = o.rank := (rank_level o).symm
    rw [e1] at ha hr
    have ra : a.rk ≤ o.rank := by rw [rank_level]; exact rkOf_le la
    have rb : b.rk < o.rank := by rw [rank_level]; exact rkOf_lt lb
    have hassoc : (E.bin o a b).toks ++ rest = a.toks ++ (.op (.bin o) :: (b.toks ++ rest)) := by
      simp [E.toks, List.append_assoc]
    rw [hassoc, recExpr_tree k a ga f (.op (.bin o) :: (b.toks ++ rest)) lr (by omega) (above_le ha ra) ra]
    simp only [compE, bind_assoc]
    congr 1; funext l
    obtain ⟨g, hgf⟩ : ∃ g, f - a.width = g + 1 := ⟨f - a.width - 1, by omega⟩
    rw [hgf, recExpr_cons k _ _ _ (not_stops ha (Nat.le_refl _))]
    have hw : f - (E.bin o a b).width = g := by simp only [E.width]; omega
    rw [hw]
    have hb := recExpr_tree k b gb g rest (some o.rank) (by omega) rb
      (by cases rest with
          | nil => trivial
          | cons n r => exact Nat.le_trans (Nat.le_of_lt rb) hr)
    simp only [node, nodeOp, nodeBin]
    rw [chk_true (toks_pos b rest), hb]
    simp only [pure_bind, bind_assoc]
    congr 1; funext r
    rw [recExpr_ret k r (by omega) hr]
    simp only [pure_bind, treeBin, bind_assoc, Bool.false_eq_true, if_false]
  | .shift left a b, hg, f, rest, lr, hf, ha, hr => by
    obtain ⟨ga, gb, la, lb⟩ := hg
    simp only [E.need] at hf
    have e1 : (E.shift left a b).rk = 10 := rfl
    rw [e1] at ha hr
    have ra : a.rk ≤ 10 := rkOf_le la
    have rb : b.rk < 10 := rkOf_lt lb
    have hassoc : (E.shift left a b).toks ++ rest = a.toks ++ (.op (if left then .shl else .shr) :: (b.toks ++ rest)) := by
      simp [E.toks, List.append_assoc]
    have hrk : (Node.op (if left then .shl else .shr)).rank = 10 := by cases left <;> rfl
    rw [hassoc, recExpr_tree k a ga f _ lr (by omega) (above_le ha ra) (by show a.rk ≤ _; rw [hrk]; exact ra)]
    simp only [compE, bind_assoc]
    congr 1; funext l
    obtain ⟨g, hgf⟩ : ∃ g, f - a.width = g + 1 := ⟨f - a.width - 1, by omega⟩
    rw [hgf, recExpr_cons k _ _ _ (not_stops ha (by rw [hrk]; exact Nat.le_refl _))]
    have hw : f - (E.shift left a b).width = g := by simp only [E.width]; omega
    rw [hw]
    have hb := recExpr_tree k b gb g rest (some 10) (by omega) rb
      (by cases rest with
          | nil => trivial
          | cons n r => exact Nat.le_trans (Nat.le_of_lt rb) hr)
    have hn : node k (recExpr k g) (.op (if left then .shl else .shr)) (some l) (b.toks ++ rest) =
        nodeShift (recExpr k g) left (some l) (b.toks ++ rest) := by cases left <;> rfl
    rw [hn]
    simp only [nodeShift]
    have : Op.shr.rank = 10 := rfl
    rw [this, hb]
    simp only [bind_assoc]
    congr 1; funext out
    congr 1; funext r
    rw [recExpr_ret k r (by omega) hr]
    simp only [pure_bind, treeShift, bind_assoc]
  | .not a, hg, f, rest, lr, hf, ha, hr => by
    obtain ⟨ga, la⟩ := hg
    simp only [E.need] at hf
    have e1 : (E.not a).rk = 7 := rfl
    rw [e1] at ha hr
    have ra : a.rk < 7 := rkOf_lt la
    obtain ⟨g, rfl⟩ : ∃ g, f = g + 1 := ⟨f - 1, by omega⟩
    have ht : (E.not a).toks ++ rest = .op .not :: (a.toks ++ rest) := rfl
    rw [ht, recExpr_cons k _ _ _ (not_stops ha (Nat.le_refl _))]
    have hb := recExpr_tree k a ga g rest (some 7) (by omega) ra
      (by cases rest with
          | nil => trivial
          | cons n r => exact Nat.le_trans (Nat.le_of_lt ra) hr)
    simp only [node, nodeOp, nodeNot, chk_true, pure_bind, bind_assoc]
    rw [chk_true (toks_pos a rest)]
    have : Op.not.rank = 7 := rfl
    rw [this, hb]
    simp only [pure_bind, bind_assoc, compE, E.width, Nat.add_sub_cancel]
    congr 1; funext r
    rw [recExpr_ret k r (by omega) hr]
    simp only [pure_bind, treeNot, bind_assoc]
  | .bnot a, hg, f, rest, lr, hf, ha, hr => by
    obtain ⟨ga, la⟩ := hg
    simp only [E.need] at hf
    have e1 : (E.bnot a).rk = 7 := rfl
    rw [e1] at ha hr
    have ra : a.rk < 7 := rkOf_lt la
    obtain ⟨g, rfl⟩ : ∃ g, f = g + 1 := ⟨f - 1, by omega⟩
    have ht : (E.bnot a).toks ++ rest = .op .bnot :: (a.toks ++ rest) := rfl
    rw [ht, recExpr_cons k _ _ _ (not_stops ha (Nat.le_refl _))]
    have hb := recExpr_tree k a ga g rest (some 7) (by omega) ra
      (by cases rest with
          | nil => trivial
          | cons n r => exact Nat.le_trans (Nat.le_of_lt ra) hr)
    simp only [node, nodeOp, nodeNot, chk_true, pure_bind, bind_assoc]
    rw [chk_true (toks_pos a rest)]
    have : Op.not.rank = 7 := rfl
    rw [this, hb]
    simp only [pure_bind, bind_assoc, compE, E.width, Nat.add_sub_cancel]
    congr 1; funext r
    rw [recExpr_ret k r (by omega) hr]
    simp only [pure_bind, treeNot, bind_assoc]
  | .paren a, hg, f, rest, lr, hf, ha, _ => by
    simp only [E.need] at hf
    obtain ⟨g, rfl⟩ : ∃ g, f = g + 1 := ⟨f - 1, by omega⟩
    have ht : (E.paren a).toks ++ rest = .sub [a.toks] :: rest := rfl
    rw [ht, recExpr_cons k _ _ _ (not_stops (r := 4) ha (by simp [Node.rank]))]
    have hb := recExpr_tree k a hg g [] none (by omega) trivial trivial
    rw [List.append_nil] at hb
    simp only [node, keep, nodeSub, expr, bind_assoc, pure_bind]
    rw [hb]
    simp only [pure_bind, bind_assoc, compE, E.width, Nat.add_sub_cancel]
    congr 1; funext r
    rw [recExpr_nil k r none (by omega)]
    simp only [pure_bind, List.length_nil, chk_true]
  | .call x args, hg, f, rest, lr, hf, ha, _ => by
    simp only [E.need] at hf
    obtain ⟨g, rfl⟩ : ∃ g, f = g + 2 := ⟨f - 2, by omega⟩
    have ht : (E.call x args).toks ++ rest = .ident x :: .sub args.toks :: rest := rfl
    rw [ht, recExpr_cons k _ _ _ (not_stops (r := 4) ha (by simp [Node.rank]))]
    simp only [node, keep, bind_assoc, pure_bind, compE, E.width, Nat.add_sub_cancel]
    apply bind_congr_ok
    intro s l t hl
    rw [recExpr_cons k _ _ _ (not_stops (r := 4) ha (by simp [Node.rank]))]
    have hc := collect_tree k args hg g (by omega)
    simp only [node, keep, bind_assoc, pure_bind]
    rw [nodeSub_call k (recExpr k g) args l hc args.toks_length (nodeIdent_func k x s hl)]

theorem collect_tree (k : Cfg) : ∀ (l : Args), l.Grouped → ∀ (f : Nat), l.need ≤ f →
    collect (recExpr k f) l.toks = compArgs k l
  | .nil, _, _, _ => rfl
  | .cons e l, hg, f, hf => by
    simp only [Args.need] at hf
    have hb := recExpr_tree k e hg.1 f [] none (by omega) trivial trivial
    rw [List.append_nil] at hb
    simp only [Args.toks, collect, compArgs, expr, bind_assoc]
    rw [hb]
    simp only [bind_assoc]
    congr 1; funext v
    rw [recExpr_nil k v none (by omega)]
    simp only [pure_bind, List.length_nil, chk_true, collect_tree k l hg.2 f (by omega)]
end

/-! ### Expressions that stand alone -/

/-- An expression node: the value is checked. -/
def checked (m : CM VRef) : CM VRef := do
  let v ← m
  checkValue v
  pure v

def treeSet (l r : VRef) : CM VRef := copy l r

def treeAsg (k : Cfg) (o : BinOp) (l r : VRef) : CM VRef := do
  let a ← get r
  let i ← select k o a
  checkValue l
  emit { code := i.code, flags := i.flags, a := addrOf l, b := addrOf l, c := i.rhs }
  pure l

def treePost (k : Cfg) (up : Bool) (l : VRef) : CM VRef := do
  chk (¬ l.isConst)
  let t ← newAddr
  let out ← copy (ref t) l
  let one ← constAddr (.uint 1)
  emit { code := if up then 0x20 else 0x21, flags := mathFlags k, a := addrOf l, b := addrOf out, c := one }
  let _ ← copy l (ref (addrOf l))
  pure (ref (addrOf out))

def treePre (k : Cfg) (up : Bool) (out : VRef) : CM VRef := do
  chk (¬ out.isConst)
  let one ← constAddr (.uint 1)
  emit { code := if up then 0x20 else 0x21, flags := mathFlags k, a := addrOf out, b := addrOf out, c := one }
  let _ ← copy out (ref (addrOf out))
  pure out

def treeAssert (k : Cfg) (e : E) : CM VRef := do
  (if k.ltr then do
    let n ← here
    let v ← checked (compE k e); let b ← get v
    emit { code := 0x05, a := n + 2, b := b }
  else do
    let v ← checked (compE k e); let b ← get v
    let n ← here
    emit { code := 0x05, a := n + 2, b := b })
  let a ← constAddr (assertText k e.toks)
  emit { code := 0xC4, a := a }
  pure (ref 0)

def compX (k : Cfg) : Ex → CM VRef
  | .val e => compE k e
  | .set x e => do
    let l ← nodeIdent k x none
    chk (¬ l.isConst)
    let r ← compE k e
    copy l r
  | .asg o x e => do
    let l ← nodeIdent k x none
    let r ← compE k e
    treeAsg k o l r
  | .inc up true x => do
    let l ← nodeIdent k x none
    treePost k up l
  | .inc up false x => do
    let l ← nodeIdent k x none
    treePre k up l
  | .ret none => do
    emit { code := 0x08 }
    pure {}
  | .ret (some e) => do
    let r ← compE k e
    let _ ← copy (ref MEM_STACK) r
    emit { code := 0x08 }
    pure {}
  | .assert e => treeAssert k e

def Ex.need : Ex → Nat
  | .val e => e.need + e.width + 5
  | .set _ e => e.need + e.width + 5
  | .asg _ _ e => e.need + e.width + 5
  | .inc _ _ _ => 5
  | .ret none => 5
  | .ret (some e) => e.need + e.width + 5
  | .assert e => e.need + e.width + 5

theorem expr_tree (k : Cfg) (e : E) (hg : e.Grouped) (f : Nat) (hf : e.need + e.width + 1 ≤ f) :
    expr (recExpr k f) e.toks = checked (compE k e) := by
  have hb := recExpr_tree k e hg f [] none (by omega) trivial trivial
  rw [List.append_nil] at hb
  unfold expr checked
  rw [hb]
  simp only [bind_assoc]
  congr 1; funext v
  rw [recExpr_nil k v none (by omega)]
  simp only [pure_bind, List.length_nil, chk_true]

theorem rk_lt_16 (e : E) : e.rk < 16 := by
  unfold E.rk
  cases e with
  | bin o a b => rw [E.level, ← rank_level]; cases o <;> decide
  | shift _ _ _ => exact (by decide : rkOf 4 < 16)
  | not _ => exact (by decide : rkOf 1 < 16)
  | bnot _ => exact (by decide : rkOf 1 < 16)
  | _ => exact (by decide : rkOf 0 < 16)

theorem recExpr_end (k : Cfg) (e : E) (hg : e.Grouped) (f : Nat) (r : Nat) (hr : 16 ≤ r)
    (hf : e.need + e.width + 1 ≤ f) :
    recExpr k f e.toks none (some r) = (do let v ← compE k e; pure (v, [])) := by
  have hb := recExpr_tree k e hg f [] (some r) (by omega) (Nat.lt_of_lt_of_le (rk_lt_16 e) hr) trivial
  rw [List.append_nil] at hb
  rw [hb]
  congr 1; funext v
  exact recExpr_nil k v _ (by omega)

theorem toks_length (e : E) : e.toks.length ≥ 1 := by
  have := toks_pos e []
  rwa [List.append_nil] at this

theorem exprX_tree (k : Cfg) (x : Ex) (hg : x.Grouped) (f : Nat) (hf : x.need ≤ f) :
    expr (recExpr k f) x.toks = checked (compX k x) := by
  cases x with
  | val e => exact expr_tree k e hg f (by simp only [Ex.need] at hf; omega)
  | set x e =>
    simp only [Ex.need] at hf
    obtain ⟨g, rfl⟩ : ∃ g, f = g + 3 := ⟨f - 3, by omega⟩
    unfold expr checked
    simp only [Ex.toks]
    rw [recExpr_cons k _ _ _ rfl]
    simp only [node, keep, bind_assoc, pure_bind, compX]
    congr 1; funext l
    rw [recExpr_cons k _ _ _ rfl]
    simp only [node, nodeOp, nodeSet, bind_assoc]
    congr 1; funext _
    rw [chk_true (toks_length e), recExpr_end k e hg (g + 1) Op.set.rank (Nat.le_refl _) (by omega)]
    simp only [pure_bind, bind_assoc]
    congr 1
  | asg o x e =>
    simp only [Ex.need] at hf
    obtain ⟨g, rfl⟩ : ∃ g, f = g + 3 := ⟨f - 3, by omega⟩
    unfold expr checked
    simp only [Ex.toks]
    rw [recExpr_cons k _ _ _ rfl]
    simp only [node, keep, bind_assoc, pure_bind, compX]
    congr 1; funext l
    rw [recExpr_cons k _ _ _ rfl]
    simp only [node, nodeOp, nodeBin, bind_assoc, treeAsg]
    rw [chk_true (toks_length e), recExpr_end k e hg (g + 1) (Op.asg o).rank (Nat.le_refl _) (by omega)]
    simp only [pure_bind, bind_assoc, if_true]
    congr 1
  | inc up post x =>
    simp only [Ex.need] at hf
    obtain ⟨g, rfl⟩ : ∃ g, f = g + 5 := ⟨f - 5, by omega⟩
    have hn : ∀ rc lhs rest, nodeOp k rc (if up then .inc else .dec) lhs rest = nodeInc k rc up lhs rest := by
      intro rc lhs rest; cases up <;> rfl
    unfold expr checked
    cases post with
    | true =>
      simp only [Ex.toks]
      rw [recExpr_cons k _ _ _ rfl]
      simp only [node, keep, bind_assoc, pure_bind, compX]
      congr 1; funext l
      rw [recExpr_cons k _ _ _ rfl]
      simp only [node, hn, nodeInc, bind_assoc, treePost]
      congr 1
    | false =>
      simp only [Ex.toks]
      rw [recExpr_cons k _ _ _ rfl]
      have hb := recExpr_tree k (.var x) trivial (g + 4) [] (some Op.inc.rank) (by simp only [E.need]; omega)
        (by show 4 < 6; decide) trivial
      rw [List.append_nil] at hb
      simp only [E.toks] at hb
      simp only [node, hn, nodeInc, bind_assoc, compX, List.length_cons, List.length_nil, chk_true, pure_bind,
        Nat.le_refl, ge_iff_le, Nat.zero_add]
      rw [hb]
      simp only [compE, bind_assoc, treePre]
      congr 1
  | ret e =>
    cases e with
    | none =>
      simp only [Ex.need] at hf
      obtain ⟨g, rfl⟩ : ∃ g, f = g + 5 := ⟨f - 5, by omega⟩
      unfold expr checked
      simp only [Ex.toks]
      rw [recExpr_cons k _ _ _ rfl]
      simp only [node, nodeOp, nodeRet, compX, bind_assoc, pure_bind, chk_true]
      congr 1
    | some e =>
      simp only [Ex.need] at hf
      obtain ⟨g, rfl⟩ : ∃ g, f = g + 3 := ⟨f - 3, by omega⟩
      unfold expr checked
      simp only [Ex.toks]
      rw [recExpr_cons k _ _ _ rfl]
      have hr : ∀ rc : Rec, nodeRet rc none e.toks = (do
          let (r, rest) ← rc e.toks none (some Op.ret.rank)
          let _ ← copy (ref MEM_STACK) r
          emit { code := 0x08 }
          pure ({}, rest)) := by
        intro rc
        obtain ⟨n, l, h⟩ := toks_ne e
        rw [h]
        simp only [nodeRet, chk_true, pure_bind]
      simp only [node, nodeOp, hr]
      rw [recExpr_end k e hg (g + 2) Op.ret.rank (by decide) (by omega)]
      simp only [compX, bind_assoc, pure_bind]
      congr 1
  | assert e =>
    simp only [Ex.need] at hf
    obtain ⟨g, rfl⟩ : ∃ g, f = g + 3 := ⟨f - 3, by omega⟩
    unfold expr checked
    simp only [Ex.toks]
    rw [recExpr_cons k _ _ _ rfl]
    simp only [node, keep, nodeAssert, pure_bind, chk_true]
    rw [recExpr_cons k _ _ _ rfl]
    simp only [node, keep, nodeSub, callAssert, assertJump, bind_assoc, pure_bind, compX, treeAssert]
    rw [expr_tree k e hg (g + 1) (by omega)]
    cases k.ltr <;>
    · simp only [if_true, Bool.false_eq_true, if_false, bind_assoc]
      congr 1

/-! ### Statements and programs -/

def Stmt.need : Stmt E Ex → Nat
  | .skip => 0
  | .seq a b => a.need + b.need
  | .decl _ _ none => 0
  | .decl _ _ (some e) => e.need + e.width + 1
  | .expr x => x.need
  | .ite c a => c.need + c.width + 1 + a.need
  | .iteElse c a b => c.need + c.width + 1 + a.need + b.need
  | .loop c b p => c.need + c.width + 1 + b.need + (p.map Ex.need).sum
  | .scope b => b.need

def Prog.need (p : Prog) : Nat := (p.map (fun g => g.body.need)).sum

def litE : E → Option Val
  | .const v => some v
  | _ => none

def treeSubs (k : Cfg) : Subs E Ex :=
  { cond := fun e => checked (compE k e), lit := litE, expr := fun x => checked (compX k x) }

theorem literal_toks (e : E) : literal e.toks = litE e := by
  cases e with
  | const v => rfl
  | var x => rfl
  | bin o a b =>
    obtain ⟨n, l, h⟩ := toks_ne a
    obtain ⟨n', l', h'⟩ := toks_ne b
    simp only [E.toks, h, h', List.cons_append, litE]
    unfold literal
    cases l <;> cases n <;> rfl
  | shift o a b =>
    obtain ⟨n, l, h⟩ := toks_ne a
    obtain ⟨n', l', h'⟩ := toks_ne b
    simp only [E.toks, h, h', List.cons_append, litE]
    unfold literal
    cases l <;> cases n <;> rfl
  | not a =>
    simp only [E.toks, litE]
    rfl
  | bnot a =>
    simp only [E.toks, litE]
    rfl
  | paren a => rfl
  | call f args => rfl

theorem mem_le_sum {l : List Nat} {x : Nat} (h : x ∈ l) : x ≤ l.sum := by
  induction l with
  | nil => cases h
  | cons a l ih =>
    rw [List.sum_cons]
    cases h with
    | head => omega
    | tail _ h => have := ih h; omega

theorem cStmt_tree (k : Cfg) (f : Nat) : ∀ (s : Stmt E Ex), s.Grouped → s.need ≤ f →
    cStmt k f (s.map E.toks Ex.toks) = cStmtG (treeSubs k) s := by
  have hexprs : ∀ p : List Ex, (∀ x ∈ p, x.Grouped) → (p.map Ex.need).sum ≤ f →
      cExprs { cond := cExpr k f, lit := literal, expr := cExpr k f } (p.map Ex.toks) = cExprs (treeSubs k) p := by
    intro p
    induction p with
    | nil => intro _ _; rfl
    | cons x p ih =>
      intro hg hf
      rw [List.map_cons, List.sum_cons] at hf
      simp only [List.map_cons, cExprs]
      rw [ih (fun y hy => hg y (List.mem_cons_of_mem _ hy)) (by omega)]
      have : cExpr k f x.toks = (treeSubs k).expr x :=
        exprX_tree k x (hg x (List.mem_cons_self ..)) f (by omega)
      rw [this]
  intro s
  induction s with
  | skip => intro _ _; rfl
  | seq a b iha ihb =>
    intro hg hf
    simp only [Stmt.need] at hf
    have h1 := iha hg.1 (by omega)
    have h2 := ihb hg.2 (by omega)
    unfold cStmt at h1 h2 ⊢
    simp only [Stmt.map, cStmtG, h1, h2]
  | decl q x i =>
    intro hg hf
    cases i with
    | none => rfl
    | some e =>
      simp only [Stmt.need] at hf
      have : cExpr k f e.toks = (treeSubs k).cond e := expr_tree k e hg f hf
      unfold cStmt
      simp only [Stmt.map, Option.map, cStmtG, cDecl, literal_toks, this]
      rfl
  | expr x =>
    intro hg hf
    have : cExpr k f x.toks = (treeSubs k).expr x := exprX_tree k x hg f hf
    unfold cStmt
    simp only [Stmt.map, cStmtG, this]
  | ite c a ih =>
    intro hg hf
    simp only [Stmt.need] at hf
    have : cExpr k f c.toks = (treeSubs k).cond c := expr_tree k c hg.1 f (by omega)
    have h1 := ih hg.2 (by omega)
    unfold cStmt at h1 ⊢
    simp only [Stmt.map, cStmtG, cCond, this, h1]
  | iteElse c a b iha ihb =>
    intro hg hf
    simp only [Stmt.need] at hf
    have : cExpr k f c.toks = (treeSubs k).cond c := expr_tree k c hg.1 f (by omega)
    have h1 := iha hg.2.1 (by omega)
    have h2 := ihb hg.2.2 (by omega)
    unfold cStmt at h1 h2 ⊢
    simp only [Stmt.map, cStmtG, cCond, this, h1, h2]
  | loop c b p ih =>
    intro hg hf
    simp only [Stmt.need] at hf
    have : cExpr k f c.toks = (treeSubs k).cond c := expr_tree k c hg.1 f (by omega)
    have h1 := ih hg.2.1 (by omega)
    have h2 := hexprs p hg.2.2 (by omega)
    unfold cStmt at h1 ⊢
    simp only [Stmt.map, cStmtG, cCond, this, h1, h2]
  | scope b ih =>
    intro hg hf
    have h1 := ih hg hf
    unfold cStmt at h1 ⊢
    simp only [Stmt.map, cStmtG, h1]

/-- The compiler on the trees of a program. -/
def compileT (o : Opts) (p : Prog) : Res Binary :=
  compileG (fun q => cStmtG (treeSubs (o.cfg p.sigs q))) p

theorem cFuncs_tree (o : Opts) (f : Nat) (sigs : List Sig) : ∀ (p : Prog), p.Grouped → p.need ≤ f →
    cFuncs (fun q => cStmt (o.cfg sigs q) f) p.src = cFuncs (fun q => cStmtG (treeSubs (o.cfg sigs q))) p
  | [], _, _ => rfl
  | g :: l, hg, hf => by
    unfold Prog.need at hf
    rw [List.map_cons, List.sum_cons] at hf
    have h1 := cStmt_tree (o.cfg sigs g.sig.isConst) f (.scope g.body) (hg g (List.mem_cons_self ..))
      (by show g.body.need ≤ f; omega)
    have h2 := cFuncs_tree o f sigs l (fun x hx => hg x (List.mem_cons_of_mem _ hx))
      (by unfold Prog.need; omega)
    have h3 : cFunc (fun q => cStmt (o.cfg sigs q) f) g.src = cFunc (fun q => cStmtG (treeSubs (o.cfg sigs q))) g := by
      unfold cFunc
      simp only [Func.src]
      have : Stmt.scope (g.body.map E.toks Ex.toks) = (Stmt.scope g.body).map E.toks Ex.toks := rfl
      rw [this, h1]
    show (do
      let a ← cFunc (fun q => cStmt (o.cfg sigs q) f) g.src
      let r ← cFuncs (fun q => cStmt (o.cfg sigs q) f) (Prog.src l)
      pure (a :: r)) = _
    rw [h2, h3]
    rfl

/-- With enough depth the compiler, on the text of a program, does what it does on the trees. -/
theorem compile_tree (o : Opts) (f : Nat) (p : Prog) (hg : p.Grouped) (hf : p.need ≤ f) :
    compile o f p.src = compileT o p := by
  unfold compile compileT compileG
  have h1 : p.src.map (·.sig) = p.sigs := by simp [Prog.src, Prog.sigs, Func.src, List.map_map, Function.comp_def]
  have h2 : p.src.map (·.sig.name) = p.map (·.sig.name) := by
    simp [Prog.src, Func.src, List.map_map, Function.comp_def]
  rw [h1, h2, cFuncs_tree o f p.sigs p hg hf]

end Verif.Comp
