import Verif.Compile.Select
/-
  What the compiler leaves as it was: code and constants only grow, variables keep their addresses.
-/
namespace Verif.Comp
open Verif Verif.VM
open Verif.Codec (Bytes)

/-! ### Single steps -/

theorem get_ok {v : VRef} {s t : CSt} {a : Nat} (h : get v s = .ok (a, t)) :
    v.func = none ∧ ¬ (v.address = none ∧ v.name = true) ∧ a = addrOf v ∧ t = s := by
  unfold get checkValue at h
  obtain ⟨_, u, h1, h2⟩ := CM.bind_eq.1 h
  obtain ⟨_, w, h3, h4⟩ := CM.bind_eq.1 h1
  obtain ⟨h5, h6⟩ := chk_eq.1 h3
  cases h6
  obtain ⟨h7, h8⟩ := chk_eq.1 h4
  cases h8
  have := CM.pure_eq.1 h2
  cases this
  exact ⟨h5, h7, rfl, rfl⟩

theorem checkValue_ok {v : VRef} {s t : CSt} {a : Unit} (h : checkValue v s = .ok (a, t)) :
    v.func = none ∧ ¬ (v.address = none ∧ v.name = true) ∧ t = s := by
  unfold checkValue at h
  obtain ⟨_, w, h3, h4⟩ := CM.bind_eq.1 h
  obtain ⟨h5, h6⟩ := chk_eq.1 h3
  cases h6
  obtain ⟨h7, h8⟩ := chk_eq.1 h4
  cases h8
  exact ⟨h5, h7, rfl⟩

theorem newAddr_ok {s t : CSt} {a : Nat} (h : newAddr s = .ok (a, t)) :
    ∃ f l, s.frames = f :: l ∧ a = MEM_STACK + f.off ∧ t = { s with frames := { f with off := f.off + 1 } :: l } := by
  unfold newAddr at h
  cases hf : s.frames with
  | nil => rw [hf] at h; cases h
  | cons f l => rw [hf] at h; cases h; exact ⟨f, l, rfl, rfl, rfl⟩

theorem emit_ok {i : Instr} {s t : CSt} {u : Unit} (h : emit i s = .ok (u, t)) :
    t = { s with code := s.code ++ [(i, none)] } := by cases h; rfl
theorem emitLinked_ok {i : Instr} {x : Name} {s t : CSt} {u : Unit} (h : emitLinked i x s = .ok (u, t)) :
    t = { s with code := s.code ++ [(i, some x)] } := by cases h; rfl
theorem here_ok {s t : CSt} {n : Nat} (h : here s = .ok (n, t)) : n = s.code.length ∧ t = s := by cases h; exact ⟨rfl, rfl⟩

theorem constAddr_ok {v : Val} {s t : CSt} {a : Nat} (h : constAddr v s = .ok (a, t)) :
    ∃ l, t = { s with consts := s.consts ++ l } ∧
      ((∀ w ∈ t.consts, Scalar w) → t.consts[a]? = some v) := by
  unfold constAddr at h
  cases hc : constIdx v s.consts with
  | some i =>
    rw [hc] at h; cases h
    exact ⟨[], by rw [List.append_nil], fun hs => constIdx_some hs hc⟩
  | none =>
    rw [hc] at h; cases h
    refine ⟨[v], rfl, fun _ => ?_⟩
    show (s.consts ++ [v])[s.consts.length]? = some v
    rw [List.getElem?_append_right (Nat.le_refl _), Nat.sub_self]; rfl

theorem copy_ok {d v r : VRef} {s t : CSt} (h : copy d v s = .ok (r, t)) :
    r = d ∧ v.func = none ∧ d.func = none ∧ d.isConst = false ∧ ¬ (d.address = none ∧ d.name = true) ∧
      ¬ (v.address = none ∧ v.name = true) ∧
      ((d.address ≠ v.address ∧ t = { s with code := s.code ++ [({ code := 0x02, a := addrOf d, b := addrOf v }, none)] }) ∨
       (d.address = v.address ∧ t = s)) := by
  unfold copy at h
  obtain ⟨_, u1, h1, k1⟩ := CM.bind_eq.1 h
  obtain ⟨a1, a2, e1⟩ := checkValue_ok h1
  subst e1
  obtain ⟨_, u2, h2, k2⟩ := CM.bind_eq.1 k1
  obtain ⟨b1, b2, e2⟩ := checkValue_ok h2
  subst e2
  obtain ⟨_, u3, h3, k3⟩ := CM.bind_eq.1 k2
  obtain ⟨c1, c2⟩ := chk_eq.1 h3
  cases c2
  obtain ⟨_, w, h4, k4⟩ := CM.bind_eq.1 k3
  cases CM.pure_eq.1 k4
  refine ⟨rfl, a1, b1, by simpa using c1, b2, a2, ?_⟩
  by_cases hd : d.address ≠ v.address
  · rw [if_pos hd] at h4
    exact .inl ⟨hd, emit_ok h4⟩
  · rw [if_neg hd] at h4
    cases CM.pure_eq.1 h4
    exact .inr ⟨by simpa using hd, rfl⟩

/-! ### Growth while an expression is compiled -/

def bump (n : Nat) : List Frame → List Frame
  | [] => []
  | f :: l => { f with off := f.off + n } :: l

structure Ext (s t : CSt) : Prop where
  code : s.code <+: t.code
  consts : s.consts <+: t.consts
  frames : ∃ n, t.frames = bump n s.frames

theorem bump_zero (l : List Frame) : bump 0 l = l := by cases l <;> rfl
theorem bump_bump (m n : Nat) (l : List Frame) : bump m (bump n l) = bump (n + m) l := by
  cases l with
  | nil => rfl
  | cons f l => simp [bump, Nat.add_assoc]

theorem Ext.refl (s : CSt) : Ext s s := ⟨List.prefix_refl _, List.prefix_refl _, 0, (bump_zero _).symm⟩
theorem Ext.trans {s t u : CSt} (h : Ext s t) (h' : Ext t u) : Ext s u := by
  obtain ⟨n, hn⟩ := h.frames
  obtain ⟨m, hm⟩ := h'.frames
  exact ⟨h.code.trans h'.code, h.consts.trans h'.consts, n + m, by rw [hm, hn, bump_bump]⟩

def Keeps {α : Type} (m : CM α) : Prop := ∀ s a t, m s = .ok (a, t) → Ext s t

theorem Keeps.bind {α β : Type} {m : CM α} {f : α → CM β} (h : Keeps m) (h' : ∀ a, Keeps (f a)) : Keeps (m >>= f) := by
  intro s b u hb
  obtain ⟨a, t, h1, h2⟩ := CM.bind_eq.1 hb
  exact (h s a t h1).trans (h' a t b u h2)

theorem Keeps.pure {α : Type} (a : α) : Keeps (pure a : CM α) := by
  intro s b t h; cases CM.pure_eq.1 h; exact Ext.refl _
theorem Keeps.fail {α : Type} : Keeps (fail : CM α) := fun _ _ _ h => by cases h
theorem Keeps.chk (c : Prop) [Decidable c] : Keeps (chk c) := by
  intro s b t h; obtain ⟨_, h⟩ := chk_eq.1 h; cases h; exact Ext.refl _
theorem Keeps.get (v : VRef) : Keeps (get v) := fun s a t h => by
  obtain ⟨_, _, _, rfl⟩ := get_ok h; exact Ext.refl _
theorem Keeps.checkValue (v : VRef) : Keeps (checkValue v) := fun s a t h => by
  obtain ⟨_, _, rfl⟩ := checkValue_ok h; exact Ext.refl _
theorem Keeps.here : Keeps here := fun s a t h => by obtain ⟨_, rfl⟩ := here_ok h; exact Ext.refl _
theorem Ext.code_append (s : CSt) (l : List (Instr × Option Name)) : Ext s { s with code := s.code ++ l } :=
  ⟨List.prefix_append _ _, List.prefix_refl _, 0, (bump_zero _).symm⟩
theorem Ext.consts_append (s : CSt) (l : List Val) : Ext s { s with consts := s.consts ++ l } :=
  ⟨List.prefix_refl _, List.prefix_append _ _, 0, (bump_zero _).symm⟩
theorem Keeps.emit (i : Instr) : Keeps (emit i) := fun s a t h => by rw [emit_ok h]; exact Ext.code_append _ _
theorem Keeps.emitLinked (i : Instr) (x : Name) : Keeps (emitLinked i x) := fun s a t h => by
  rw [emitLinked_ok h]; exact Ext.code_append _ _
theorem Keeps.constAddr (v : Val) : Keeps (constAddr v) := fun s a t h => by
  obtain ⟨l, rfl, _⟩ := constAddr_ok h; exact Ext.consts_append _ _
theorem Keeps.newAddr : Keeps newAddr := fun s a t h => by
  obtain ⟨f, l, h1, _, rfl⟩ := newAddr_ok h
  exact ⟨List.prefix_refl _, List.prefix_refl _, 1, by rw [h1]; rfl⟩
theorem Keeps.copy (d v : VRef) : Keeps (copy d v) := fun s a t h => by
  obtain ⟨_, _, _, _, _, _, h | h⟩ := copy_ok h
  · rw [h.2]; exact Ext.code_append _ _
  · rw [h.2]; exact Ext.refl _

theorem select_ok {k : Cfg} {o : BinOp} {a : Nat} {i : Sel} {s t : CSt} (h : select k o a s = .ok (i, t)) :
    (∃ n, o = .div ∧ powTwo k s.consts a = some n ∧ i = { code := 0x47, flags := 0, rhs := n } ∧ t = s) ∨
    (∃ n c, o = .mod ∧ powTwo k s.consts a = some n ∧ constAddr (.uint (2 ^ n - 1)) s = .ok (c, t) ∧
      i = { code := 0x42, flags := 64, rhs := c }) ∨
    (i = { code := o.code, flags := o.flags k, rhs := a } ∧ t = s) := by
  unfold select at h
  split at h
  · next n hn => cases h; exact .inl ⟨n, rfl, hn, rfl, rfl⟩
  · next n hn =>
    obtain ⟨c, u, h1, h2⟩ := CM.bind_eq.1 h
    cases CM.pure_eq.1 h2
    exact .inr (.inl ⟨n, c, rfl, hn, h1, rfl⟩)
  · cases h; exact .inr (.inr ⟨rfl, rfl⟩)

theorem Keeps.select (k : Cfg) (o : BinOp) (a : Nat) : Keeps (select k o a) := fun s i t h => by
  rcases select_ok h with ⟨_, _, _, _, rfl⟩ | ⟨n, c, _, _, h1, _⟩ | ⟨_, rfl⟩
  · exact Ext.refl _
  · exact Keeps.constAddr _ _ _ _ h1
  · exact Ext.refl _

theorem nodeIdent_ok {k : Cfg} {x : Name} {s t : CSt} {v : VRef} (h : nodeIdent k x none s = .ok (v, t)) :
    t = s ∧ ((∃ w, findVar x s.frames = some w ∧ v = { isConst := w.isConst, address := some w.address, name := true }) ∨
      (findVar x s.frames = none ∧ ∃ g, findFunc x k.funcs = some g ∧ v = { func := some (.user g), name := true }) ∨
      (findVar x s.frames = none ∧ findFunc x k.funcs = none ∧ v = { name := true })) := by
  unfold nodeIdent at h
  obtain ⟨_, u, h1, h2⟩ := CM.bind_eq.1 h
  obtain ⟨_, h3⟩ := chk_eq.1 h1
  cases h3
  cases hv : findVar x s.frames with
  | some w => simp only [hv] at h2; cases h2; exact ⟨rfl, .inl ⟨w, rfl, rfl⟩⟩
  | none =>
    simp only [hv] at h2
    cases hg : findFunc x k.funcs with
    | some g => simp only [hg] at h2; cases h2; exact ⟨rfl, .inr (.inl ⟨rfl, g, rfl, rfl⟩)⟩
    | none => simp only [hg] at h2; cases h2; exact ⟨rfl, .inr (.inr ⟨rfl, rfl, rfl⟩)⟩

theorem nodeConst_ok {c : Val} {s t : CSt} {v : VRef} (h : nodeConst c none s = .ok (v, t)) :
    ∃ a, constAddr c s = .ok (a, t) ∧ v = { isConst := true, address := some a } := by
  unfold nodeConst at h
  obtain ⟨_, u, h1, h2⟩ := CM.bind_eq.1 h
  obtain ⟨_, h3⟩ := chk_eq.1 h1
  cases h3
  obtain ⟨a, u, h3, h4⟩ := CM.bind_eq.1 h2
  cases CM.pure_eq.1 h4
  exact ⟨a, h3, rfl⟩

theorem Keeps.nodeIdent (k : Cfg) (x : Name) : Keeps (nodeIdent k x none) := fun s a t h => by
  rw [(nodeIdent_ok h).1]; exact Ext.refl _
theorem Keeps.nodeConst (v : Val) : Keeps (nodeConst v none) := fun s a t h => by
  obtain ⟨a, h1, _⟩ := nodeConst_ok h; exact Keeps.constAddr _ _ _ _ h1

theorem Keeps.copyArgs : ∀ (n : Nat) (l : List VRef), Keeps (copyArgs n l)
  | _, [] => Keeps.pure _
  | n, v :: l => (Keeps.copy _ _).bind fun _ => Keeps.copyArgs (n + 1) l

theorem Keeps.dfltAddr (p : Param) : Keeps (dfltAddr p) := by
  unfold Comp.dfltAddr
  cases p.dflt with
  | some v => exact Keeps.constAddr v
  | none => exact Keeps.pure 0

theorem Keeps.copyDflts : ∀ (n : Nat) (l : List Param), Keeps (copyDflts n l)
  | _, [] => Keeps.pure _
  | n, p :: l => (Keeps.dfltAddr p).bind fun _ => (Keeps.emit _).bind fun _ => Keeps.copyDflts (n + 1) l

theorem Keeps.treeBin (k : Cfg) (o : BinOp) (l r : VRef) : Keeps (treeBin k o l r) :=
  (Keeps.get _).bind fun _ => (Keeps.select _ _ _).bind fun _ => Keeps.newAddr.bind fun _ => (Keeps.get _).bind fun _ =>
    (Keeps.emit _).bind fun _ => Keeps.pure _
theorem Keeps.treeShift (left : Bool) (out : Nat) (l r : VRef) : Keeps (treeShift left out l r) :=
  (Keeps.get _).bind fun _ => (Keeps.get _).bind fun _ => (Keeps.emit _).bind fun _ => Keeps.pure _
theorem Keeps.treeNot (b : Bool) (r : VRef) : Keeps (treeNot b r) :=
  Keeps.newAddr.bind fun _ => (Keeps.get _).bind fun _ => (Keeps.emit _).bind fun _ => Keeps.pure _
theorem Keeps.treeCall (g : Sig) (vs : List VRef) : Keeps (treeCall g vs) :=
  Keeps.newAddr.bind fun _ => (Keeps.copyArgs _ _).bind fun _ => (Keeps.copyDflts _ _).bind fun _ =>
    (Keeps.emitLinked _ _).bind fun _ => Keeps.pure _
theorem Keeps.treeCallee (k : Cfg) (n : Nat) {args : CM (List VRef)} (h : Keeps args) (l : VRef) :
    Keeps (treeCallee k n args l) := by
  unfold Comp.treeCallee
  cases l.func with
  | none => exact Keeps.fail
  | some c =>
    cases c with
    | assert => exact Keeps.fail
    | user g => exact (Keeps.chk _).bind fun _ => (Keeps.chk _).bind fun _ => h.bind fun _ => Keeps.treeCall _ _

mutual
theorem Keeps.compE (k : Cfg) : ∀ (e : E), Keeps (compE k e)
  | .const v => by rw [Comp.compE]; exact Keeps.nodeConst v
  | .var x => by rw [Comp.compE]; exact Keeps.nodeIdent k x
  | .bin o a b => by
    rw [Comp.compE]
    exact (Keeps.compE k a).bind fun _ => (Keeps.compE k b).bind fun _ => Keeps.treeBin _ _ _ _
  | .shift l a b => by
    rw [Comp.compE]
    exact (Keeps.compE k a).bind fun _ => Keeps.newAddr.bind fun _ => (Keeps.compE k b).bind fun _ => Keeps.treeShift _ _ _ _
  | .not a => by rw [Comp.compE]; exact (Keeps.compE k a).bind fun _ => Keeps.treeNot _ _
  | .bnot a => by rw [Comp.compE]; exact (Keeps.compE k a).bind fun _ => Keeps.treeNot _ _
  | .paren a => by
    rw [Comp.compE]; exact (Keeps.compE k a).bind fun _ => (Keeps.checkValue _).bind fun _ => Keeps.pure _
  | .call f args => by
    rw [Comp.compE]; exact (Keeps.nodeIdent k f).bind fun _ => Keeps.treeCallee k _ (Keeps.compArgs k args) _

theorem Keeps.compArgs (k : Cfg) : ∀ (l : Args), Keeps (compArgs k l)
  | .nil => by rw [Comp.compArgs]; exact Keeps.pure _
  | .cons e l => by
    rw [Comp.compArgs]
    exact (Keeps.compE k e).bind fun _ => (Keeps.checkValue _).bind fun _ => (Keeps.compArgs k l).bind fun _ => Keeps.pure _
end

theorem Keeps.checked {m : CM VRef} (h : Keeps m) : Keeps (checked m) :=
  h.bind fun _ => (Keeps.checkValue _).bind fun _ => Keeps.pure _

theorem Keeps.treeAsg (k : Cfg) (o : BinOp) (l r : VRef) : Keeps (treeAsg k o l r) :=
  (Keeps.get _).bind fun _ => (Keeps.select _ _ _).bind fun _ => (Keeps.checkValue _).bind fun _ =>
    (Keeps.emit _).bind fun _ => Keeps.pure _
theorem Keeps.treePost (k : Cfg) (up : Bool) (l : VRef) : Keeps (treePost k up l) :=
  (Keeps.chk _).bind fun _ => Keeps.newAddr.bind fun _ => (Keeps.copy _ _).bind fun _ => (Keeps.constAddr _).bind fun _ =>
    (Keeps.emit _).bind fun _ => (Keeps.copy _ _).bind fun _ => Keeps.pure _
theorem Keeps.treePre (k : Cfg) (up : Bool) (l : VRef) : Keeps (treePre k up l) :=
  (Keeps.chk _).bind fun _ => (Keeps.constAddr _).bind fun _ =>
    (Keeps.emit _).bind fun _ => (Keeps.copy _ _).bind fun _ => Keeps.pure _
theorem Keeps.treeAssert (k : Cfg) (e : E) : Keeps (treeAssert k e) := by
  unfold Comp.treeAssert
  refine Keeps.bind ?_ fun _ => (Keeps.constAddr _).bind fun _ => (Keeps.emit _).bind fun _ => Keeps.pure _
  cases k.ltr with
  | true =>
    exact Keeps.here.bind fun _ => (Keeps.checked (Keeps.compE k e)).bind fun _ => (Keeps.get _).bind fun _ => Keeps.emit _
  | false =>
    exact (Keeps.checked (Keeps.compE k e)).bind fun _ => (Keeps.get _).bind fun _ => Keeps.here.bind fun _ => Keeps.emit _

theorem Keeps.compX (k : Cfg) (x : Ex) : Keeps (compX k x) := by
  cases x with
  | val e => exact Keeps.compE k e
  | set x e =>
    exact (Keeps.nodeIdent k x).bind fun _ => (Keeps.chk _).bind fun _ => (Keeps.compE k e).bind fun _ => Keeps.copy _ _
  | asg o x e => exact (Keeps.nodeIdent k x).bind fun _ => (Keeps.compE k e).bind fun _ => Keeps.treeAsg _ _ _ _
  | inc up post x =>
    cases post with
    | true => exact (Keeps.nodeIdent k x).bind fun _ => Keeps.treePost _ _ _
    | false => exact (Keeps.nodeIdent k x).bind fun _ => Keeps.treePre _ _ _
  | ret e =>
    cases e with
    | none => exact (Keeps.emit _).bind fun _ => Keeps.pure _
    | some e =>
      exact (Keeps.compE k e).bind fun _ => (Keeps.copy _ _).bind fun _ => (Keeps.emit _).bind fun _ => Keeps.pure _
  | assert e => exact Keeps.treeAssert k e

theorem Keeps.cExprs (k : Cfg) : ∀ (l : List Ex), Keeps (cExprs (treeSubs k) l)
  | [] => Keeps.pure _
  | x :: l => (Keeps.checked (Keeps.compX k x)).bind fun _ => Keeps.cExprs k l

/-! ### Growth while a statement is compiled -/

structure ExtS (s t : CSt) : Prop where
  code : s.code <+: t.code
  consts : s.consts <+: t.consts
  frames : ∀ f l, s.frames = f :: l → ∃ f', t.frames = f' :: l ∧ f.off ≤ f'.off ∧ ∃ vs, f'.vars = vs ++ f.vars

theorem ExtS.refl (s : CSt) : ExtS s s :=
  ⟨List.prefix_refl _, List.prefix_refl _, fun f l h => ⟨f, h, Nat.le_refl _, [], rfl⟩⟩

theorem ExtS.trans {s t u : CSt} (h : ExtS s t) (h' : ExtS t u) : ExtS s u := by
  refine ⟨h.code.trans h'.code, h.consts.trans h'.consts, fun f l hf => ?_⟩
  obtain ⟨f1, h1, h2, v1, h3⟩ := h.frames f l hf
  obtain ⟨f2, h4, h5, v2, h6⟩ := h'.frames f1 l h1
  exact ⟨f2, h4, by omega, v2 ++ v1, by rw [h6, h3, List.append_assoc]⟩

theorem Ext.toS {s t : CSt} (h : Ext s t) : ExtS s t := by
  refine ⟨h.code, h.consts, fun f l hf => ?_⟩
  obtain ⟨n, hn⟩ := h.frames
  rw [hf] at hn
  exact ⟨_, hn, Nat.le_add_right _ _, [], rfl⟩

theorem patch_ok {pos n : Nat} {s t : CSt} {u : Unit} (h : patch pos n s = .ok (u, t)) :
    ∃ i l, s.code[pos]? = some (i, l) ∧ t = { s with code := s.code.set pos ({ i with a := n }, l) } := by
  unfold patch at h
  cases hc : s.code[pos]? with
  | none => rw [hc] at h; cases h
  | some p => rw [hc] at h; cases h; exact ⟨p.1, p.2, rfl, rfl⟩

theorem prefix_set {α : Type} {l m : List α} {n : Nat} {x : α} (h : l <+: m) (hn : l.length ≤ n) : l <+: m.set n x := by
  obtain ⟨r, rfl⟩ := h
  rw [List.set_append_right _ _ hn]
  exact List.prefix_append _ _

/-- A jump target is filled in behind the start. -/
theorem ExtS.patch {s t u : CSt} {pos n : Nat} {a : Unit} (h : ExtS s t) (hp : s.code.length ≤ pos)
    (hx : patch pos n t = .ok (a, u)) : ExtS s u := by
  obtain ⟨i, l, _, rfl⟩ := patch_ok hx
  exact ⟨prefix_set h.code hp, h.consts, h.frames⟩

theorem pushScope_ok {s t : CSt} {a : Unit} (h : pushScope s = .ok (a, t)) :
    t = { s with frames := { off := (match s.frames with | [] => 0 | f :: _ => f.off), vars := [] } :: s.frames } := by
  cases h; rfl

theorem popScope_ok {s t : CSt} {a : Unit} (h : popScope s = .ok (a, t)) :
    ∃ f l, s.frames = f :: l ∧ t = { s with frames := l } := by
  unfold popScope at h
  cases hf : s.frames with
  | nil => rw [hf] at h; cases h
  | cons f l => rw [hf] at h; cases h; exact ⟨f, l, rfl, rfl⟩

theorem addVar_ok {v : Var} {s t : CSt} {a : Unit} (h : addVar v s = .ok (a, t)) :
    ∃ f l, s.frames = f :: l ∧ t = { s with frames := { f with vars := v :: f.vars } :: l } := by
  unfold addVar at h
  cases hf : s.frames with
  | nil => rw [hf] at h; cases h
  | cons f l =>
    rw [hf] at h
    dsimp only at h
    split at h
    · cases h
    · cases h; exact ⟨f, l, rfl, rfl⟩

theorem ExtS.addVar {v : Var} {s t : CSt} {a : Unit} (h : addVar v s = .ok (a, t)) : ExtS s t := by
  obtain ⟨f, l, h1, rfl⟩ := addVar_ok h
  refine ⟨List.prefix_refl _, List.prefix_refl _, fun f' l' h' => ?_⟩
  rw [h1] at h'
  cases h'
  exact ⟨_, rfl, Nat.le_refl _, [v], rfl⟩

def KeepsS {α : Type} (m : CM α) : Prop := ∀ s a t, m s = .ok (a, t) → ExtS s t

theorem KeepsS.bind {α β : Type} {m : CM α} {f : α → CM β} (h : KeepsS m) (h' : ∀ a, KeepsS (f a)) : KeepsS (m >>= f) := by
  intro s b u hb
  obtain ⟨a, t, h1, h2⟩ := CM.bind_eq.1 hb
  exact (h s a t h1).trans (h' a t b u h2)

theorem Keeps.toS {α : Type} {m : CM α} (h : Keeps m) : KeepsS m := fun s a t hm => (h s a t hm).toS

theorem KeepsS.cDecl (k : Cfg) (q : Bool) (x : Name) (init : Option E) : KeepsS (cDecl (treeSubs k) q x init) := by
  have hv : ∀ v, KeepsS (addVar v) := fun v s a t h => ExtS.addVar h
  have hgen : ∀ e, KeepsS (do
      let a ← newAddr
      let v ← (treeSubs k).cond e
      let _ ← copy (ref a) v
      addVar { name := x, address := a, isConst := q }) := fun e =>
    Keeps.newAddr.toS.bind fun _ => (Keeps.checked (Keeps.compE k e)).toS.bind fun _ => (Keeps.copy _ _).toS.bind fun _ => hv _
  unfold Comp.cDecl
  cases init with
  | none => exact Keeps.newAddr.toS.bind fun _ => (Keeps.copy _ _).toS.bind fun _ => hv _
  | some e =>
    cases q with
    | false => exact hgen e
    | true =>
      cases hl : (treeSubs k).lit e with
      | none => simp only [hl]; exact hgen e
      | some v => simp only [hl]; exact (Keeps.constAddr v).toS.bind fun _ => hv _

theorem Keeps.cCond (k : Cfg) (e : E) : Keeps (cCond (treeSubs k) e) :=
  (Keeps.checked (Keeps.compE k e)).bind fun _ => Keeps.get _

/-! What the compiler of a statement does, step by step. -/

theorem ite_ok {k : Cfg} {c : E} {a : Stmt E Ex} {s t : CSt} {x : Unit} (h : cStmtG (treeSubs k) (.ite c a) s = .ok (x, t)) :
    ∃ b s1 s2, cCond (treeSubs k) c s = .ok (b, s1) ∧
      cStmtG (treeSubs k) a { s1 with code := s1.code ++ [({ code := 0x06, a := 2 ^ 32 - 1, b := b }, none)] } = .ok ((), s2) ∧
      patch s1.code.length s2.code.length s2 = .ok ((), t) := by
  rw [cStmtG] at h
  obtain ⟨b, s1, h1, h⟩ := CM.bind_eq.1 h
  obtain ⟨j, s2, h2, h⟩ := CM.bind_eq.1 h
  obtain ⟨rfl, rfl⟩ := here_ok h2
  obtain ⟨_, s3, h3, h⟩ := CM.bind_eq.1 h
  rw [emit_ok h3] at h
  obtain ⟨_, s4, h4, h⟩ := CM.bind_eq.1 h
  obtain ⟨j, s5, h5, h⟩ := CM.bind_eq.1 h
  obtain ⟨rfl, rfl⟩ := here_ok h5
  exact ⟨b, _, _, h1, h4, h⟩

theorem iteElse_ok {k : Cfg} {c : E} {a b : Stmt E Ex} {s t : CSt} {x : Unit}
    (h : cStmtG (treeSubs k) (.iteElse c a b) s = .ok (x, t)) :
    ∃ d s1 s2 s3 s4, cCond (treeSubs k) c s = .ok (d, s1) ∧
      cStmtG (treeSubs k) a { s1 with code := s1.code ++ [({ code := 0x06, a := 2 ^ 32 - 1, b := d }, none)] } = .ok ((), s2) ∧
      patch s1.code.length (s2.code.length + 1) { s2 with code := s2.code ++ [({ code := 0x04, a := 2 ^ 32 - 1 }, none)] } =
        .ok ((), s3) ∧
      cStmtG (treeSubs k) b s3 = .ok ((), s4) ∧
      patch s2.code.length s4.code.length s4 = .ok ((), t) := by
  rw [cStmtG] at h
  obtain ⟨d, s1, h1, h⟩ := CM.bind_eq.1 h
  obtain ⟨j, s2, h2, h⟩ := CM.bind_eq.1 h
  obtain ⟨rfl, rfl⟩ := here_ok h2
  obtain ⟨_, s3, h3, h⟩ := CM.bind_eq.1 h
  rw [emit_ok h3] at h
  obtain ⟨_, s4, h4, h⟩ := CM.bind_eq.1 h
  obtain ⟨j, s5, h5, h⟩ := CM.bind_eq.1 h
  obtain ⟨rfl, rfl⟩ := here_ok h5
  obtain ⟨_, s6, h6, h⟩ := CM.bind_eq.1 h
  rw [emit_ok h6] at h
  obtain ⟨j, s7, h7, h⟩ := CM.bind_eq.1 h
  obtain ⟨rfl, rfl⟩ := here_ok h7
  obtain ⟨_, s8, h8, h⟩ := CM.bind_eq.1 h
  obtain ⟨_, s9, h9, h⟩ := CM.bind_eq.1 h
  obtain ⟨j, s10, h10, h⟩ := CM.bind_eq.1 h
  obtain ⟨rfl, rfl⟩ := here_ok h10
  refine ⟨d, _, _, _, _, h1, h4, ?_, h9, h⟩
  simpa using h8

theorem loop_ok {k : Cfg} {c : E} {a : Stmt E Ex} {p : List Ex} {s t : CSt} {x : Unit}
    (h : cStmtG (treeSubs k) (.loop c a p) s = .ok (x, t)) :
    ∃ d s1 s2 s3, cCond (treeSubs k) c s = .ok (d, s1) ∧
      cStmtG (treeSubs k) a { s1 with code := s1.code ++ [({ code := 0x06, a := 2 ^ 32 - 1, b := d }, none)] } = .ok ((), s2) ∧
      cExprs (treeSubs k) p s2 = .ok ((), s3) ∧
      patch s1.code.length (s3.code.length + 1)
        { s3 with code := s3.code ++ [({ code := 0x04, a := s.code.length }, none)] } = .ok ((), t) := by
  rw [cStmtG] at h
  obtain ⟨j, s0, h0, h⟩ := CM.bind_eq.1 h
  obtain ⟨rfl, rfl⟩ := here_ok h0
  obtain ⟨d, s1, h1, h⟩ := CM.bind_eq.1 h
  obtain ⟨j, s2, h2, h⟩ := CM.bind_eq.1 h
  obtain ⟨rfl, rfl⟩ := here_ok h2
  obtain ⟨_, s3, h3, h⟩ := CM.bind_eq.1 h
  rw [emit_ok h3] at h
  obtain ⟨_, s4, h4, h⟩ := CM.bind_eq.1 h
  obtain ⟨_, s5, h5, h⟩ := CM.bind_eq.1 h
  obtain ⟨_, s6, h6, h⟩ := CM.bind_eq.1 h
  rw [emit_ok h6] at h
  obtain ⟨j, s7, h7, h⟩ := CM.bind_eq.1 h
  obtain ⟨rfl, rfl⟩ := here_ok h7
  refine ⟨d, _, _, _, h1, h4, h5, ?_⟩
  simpa using h

theorem scope_ok {k : Cfg} {a : Stmt E Ex} {s t : CSt} {x : Unit}
    (h : cStmtG (treeSubs k) (.scope a) s = .ok (x, t)) :
    ∃ s1 f l, cStmtG (treeSubs k) a { s with frames := { off := (match s.frames with | [] => 0 | f :: _ => f.off), vars := [] } :: s.frames } =
        .ok ((), s1) ∧ s1.frames = f :: l ∧ t = { s1 with frames := l } := by
  rw [cStmtG] at h
  obtain ⟨_, s0, h0, h⟩ := CM.bind_eq.1 h
  rw [pushScope_ok h0] at h
  obtain ⟨_, s1, h1, h⟩ := CM.bind_eq.1 h
  obtain ⟨f, l, h2, h3⟩ := popScope_ok h
  exact ⟨s1, f, l, h1, h2, h3⟩

theorem ExtS.scope {s s1 : CSt} {n : Nat} {f : Frame} {l : List Frame}
    (h : ExtS { s with frames := { off := n, vars := [] } :: s.frames } s1) (hf : s1.frames = f :: l) :
    l = s.frames ∧ ExtS s { s1 with frames := l } := by
  obtain ⟨f', h1, _⟩ := h.frames _ _ rfl
  rw [hf] at h1
  cases h1
  exact ⟨rfl, h.code, h.consts, fun g m hg => ⟨g, hg, Nat.le_refl _, [], rfl⟩⟩

theorem prefix_length {α : Type} {l m : List α} (h : l <+: m) : l.length ≤ m.length := h.length_le

theorem KeepsS.cStmt (k : Cfg) : ∀ (b : Stmt E Ex), KeepsS (cStmtG (treeSubs k) b)
  | .skip => by rw [cStmtG]; exact (Keeps.pure _).toS
  | .seq a b => by rw [cStmtG]; exact (KeepsS.cStmt k a).bind fun _ => KeepsS.cStmt k b
  | .decl q x i => by rw [cStmtG]; exact KeepsS.cDecl k q x i
  | .expr x => by rw [cStmtG]; exact (Keeps.checked (Keeps.compX k x)).toS.bind fun _ => (Keeps.pure _).toS
  | .ite c a => fun s _ t h => by
    obtain ⟨b, s1, s2, h1, h2, h3⟩ := ite_ok h
    have e1 := (Keeps.cCond k c _ _ _ h1).toS
    have e2 := (e1.trans (Ext.code_append s1 _).toS).trans (KeepsS.cStmt k a _ _ _ h2)
    exact e2.patch (prefix_length e1.code) h3
  | .iteElse c a b => fun s _ t h => by
    obtain ⟨d, s1, s2, s3, s4, h1, h2, h3, h4, h5⟩ := iteElse_ok h
    have e1 := (Keeps.cCond k c _ _ _ h1).toS
    have e2 := (e1.trans (Ext.code_append s1 _).toS).trans (KeepsS.cStmt k a _ _ _ h2)
    have e3 := (e2.trans (Ext.code_append s2 _).toS).patch (prefix_length e1.code) h3
    exact (e3.trans (KeepsS.cStmt k b _ _ _ h4)).patch (prefix_length e2.code) h5
  | .loop c a p => fun s _ t h => by
    obtain ⟨d, s1, s2, s3, h1, h2, h3, h4⟩ := loop_ok h
    have e1 := (Keeps.cCond k c _ _ _ h1).toS
    have e2 := ((e1.trans (Ext.code_append s1 _).toS).trans (KeepsS.cStmt k a _ _ _ h2)).trans (Keeps.cExprs k p _ _ _ h3).toS
    exact (e2.trans (Ext.code_append s3 _).toS).patch (prefix_length e1.code) h4
  | .scope a => fun s _ t h => by
    obtain ⟨s1, f, l, h1, h2, rfl⟩ := scope_ok h
    exact (ExtS.scope (KeepsS.cStmt k a _ _ _ h1) h2).2

/-- A statement without declarations leaves the variables as they are. -/
theorem noDecl_vars (k : Cfg) : ∀ (b : Stmt E Ex), b.noDecl = true → ∀ s x t, cStmtG (treeSubs k) b s = .ok (x, t) →
    ∃ n, t.frames = bump n s.frames
  | .skip, _, s, _, t, h => by
    rw [cStmtG] at h; cases CM.pure_eq.1 h; exact ⟨0, (bump_zero _).symm⟩
  | .seq a b, hn, s, _, t, h => by
    simp only [Stmt.noDecl, Bool.and_eq_true] at hn
    rw [cStmtG] at h
    obtain ⟨_, u, h1, h2⟩ := CM.bind_eq.1 h
    obtain ⟨n, e1⟩ := noDecl_vars k a hn.1 _ _ _ h1
    obtain ⟨m, e2⟩ := noDecl_vars k b hn.2 _ _ _ h2
    exact ⟨n + m, by rw [e2, e1, bump_bump]⟩
  | .decl _ _ _, hn, _, _, _, _ => by simp [Stmt.noDecl] at hn
  | .expr x, _, s, _, t, h => by
    rw [cStmtG] at h
    obtain ⟨_, u, h1, h2⟩ := CM.bind_eq.1 h
    cases CM.pure_eq.1 h2
    exact (Keeps.checked (Keeps.compX k x) _ _ _ h1).frames
  | .ite c a, hn, s, _, t, h => by
    obtain ⟨b, s1, s2, h1, h2, h3⟩ := ite_ok h
    obtain ⟨n, e1⟩ := (Keeps.cCond k c _ _ _ h1).frames
    obtain ⟨m, e2⟩ := noDecl_vars k a hn _ _ _ h2
    obtain ⟨_, _, _, rfl⟩ := patch_ok h3
    exact ⟨n + m, by rw [show s2.frames = bump m s1.frames from e2, e1, bump_bump]⟩
  | .iteElse c a b, hn, s, _, t, h => by
    simp only [Stmt.noDecl, Bool.and_eq_true] at hn
    obtain ⟨d, s1, s2, s3, s4, h1, h2, h3, h4, h5⟩ := iteElse_ok h
    obtain ⟨n, e1⟩ := (Keeps.cCond k c _ _ _ h1).frames
    obtain ⟨m, e2⟩ := noDecl_vars k a hn.1 _ _ _ h2
    obtain ⟨_, _, _, rfl⟩ := patch_ok h3
    obtain ⟨r, e3⟩ := noDecl_vars k b hn.2 _ _ _ h4
    obtain ⟨_, _, _, rfl⟩ := patch_ok h5
    refine ⟨n + m + r, ?_⟩
    show s4.frames = _
    rw [e3]
    show bump r s2.frames = _
    rw [e2]
    show bump r (bump m s1.frames) = _
    rw [e1, bump_bump, bump_bump, Nat.add_assoc]
  | .loop c a p, hn, s, _, t, h => by
    obtain ⟨d, s1, s2, s3, h1, h2, h3, h4⟩ := loop_ok h
    obtain ⟨n, e1⟩ := (Keeps.cCond k c _ _ _ h1).frames
    obtain ⟨m, e2⟩ := noDecl_vars k a hn _ _ _ h2
    obtain ⟨r, e3⟩ := (Keeps.cExprs k p _ _ _ h3).frames
    obtain ⟨_, _, _, rfl⟩ := patch_ok h4
    refine ⟨n + m + r, ?_⟩
    show s3.frames = _
    rw [e3, e2]
    show bump r (bump m s1.frames) = _
    rw [e1, bump_bump, bump_bump, Nat.add_assoc]
  | .scope a, _, s, _, t, h => by
    obtain ⟨s1, f, l, h1, h2, rfl⟩ := scope_ok h
    rw [(ExtS.scope (KeepsS.cStmt k a _ _ _ h1) h2).1]
    exact ⟨0, (bump_zero _).symm⟩

end Verif.Comp
