import Verif.Compile.SimBody
/-
  The code of a program does what the program says.
-/
namespace Verif.Comp
open Verif Verif.VM
open Verif.Codec (Bytes)

/-! ### The last instruction -/

def EndsRet (l : List (Instr × Option Name)) : Prop := ∃ x, l[l.length - 1]? = some x ∧ x.1.code = 8

theorem ends_append (l : List (Instr × Option Name)) (i : Instr) (n : Option Name) : EndsRet (l ++ [(i, n)]) ↔ i.code = 8 := by
  unfold EndsRet
  rw [List.length_append, List.length_singleton, Nat.add_sub_cancel, get_last]
  constructor
  · rintro ⟨x, h, h'⟩; cases h; exact h'
  · intro h; exact ⟨_, rfl, h⟩

theorem EndsRet.patch {s t : CSt} {pos n : Nat} {u : Unit} (hp : patch pos n s = .ok (u, t)) (h : EndsRet t.code) : EndsRet s.code := by
  obtain ⟨i, l, h1, rfl⟩ := patch_ok hp
  obtain ⟨x, h2, h3⟩ := h
  dsimp only at h2
  rw [List.length_set] at h2
  by_cases hx : s.code.length - 1 = pos
  · refine ⟨(i, l), by rw [hx]; exact h1, ?_⟩
    rw [hx] at h2
    have : pos < s.code.length := by
      rcases Nat.lt_or_ge pos s.code.length with h | h
      · exact h
      · rw [List.getElem?_eq_none h] at h1; cases h1
    rw [List.getElem?_set_self this] at h2
    cases h2
    exact h3
  · rw [List.getElem?_set_ne (by omega)] at h2
    exact ⟨x, h2, h3⟩

/-- Adds no `RET` at the end. -/
def Quiet {α : Type} (m : CM α) : Prop := ∀ s a t, m s = .ok (a, t) → t.code = s.code ∨ ¬ EndsRet t.code
/-- Ends in an instruction that is not `RET`. -/
def Marks {α : Type} (m : CM α) : Prop := ∀ s a t, m s = .ok (a, t) → ¬ EndsRet t.code

theorem Quiet.bind {α β : Type} {m : CM α} {f : α → CM β} (h : Quiet m) (h' : ∀ a, Quiet (f a)) : Quiet (m >>= f) := by
  intro s b u hb
  obtain ⟨a, t, h1, h2⟩ := CM.bind_eq.1 hb
  rcases h' a t b u h2 with h3 | h3
  · rcases h s a t h1 with h4 | h4
    · exact .inl (h3.trans h4)
    · exact .inr (h3 ▸ h4)
  · exact .inr h3

theorem Marks.right {α β : Type} {m : CM α} {f : α → CM β} (h' : ∀ a, Marks (f a)) : Marks (m >>= f) := by
  intro s b u hb
  obtain ⟨a, t, h1, h2⟩ := CM.bind_eq.1 hb
  exact h' a t b u h2

theorem Marks.left {α β : Type} {m : CM α} {f : α → CM β} (h : Marks m) (h' : ∀ a, Quiet (f a)) : Marks (m >>= f) := by
  intro s b u hb
  obtain ⟨a, t, h1, h2⟩ := CM.bind_eq.1 hb
  rcases h' a t b u h2 with h3 | h3
  · rw [h3]; exact h s a t h1
  · exact h3

theorem Marks.quiet {α : Type} {m : CM α} (h : Marks m) : Quiet m := fun s a t hm => .inr (h s a t hm)
theorem Quiet.pure {α : Type} (a : α) : Quiet (pure a : CM α) := by
  intro s b t h; cases CM.pure_eq.1 h; exact .inl rfl
theorem Quiet.fail {α : Type} : Quiet (fail : CM α) := fun _ _ _ h => by cases h
theorem Marks.fail {α : Type} : Marks (fail : CM α) := fun _ _ _ h => by cases h
theorem Quiet.chk (c : Prop) [Decidable c] : Quiet (chk c) := by
  intro s b t h; obtain ⟨_, h⟩ := chk_eq.1 h; cases h; exact .inl rfl
theorem Quiet.get (v : VRef) : Quiet (get v) := fun s a t h => by
  obtain ⟨_, _, _, rfl⟩ := get_ok h; exact .inl rfl
theorem Quiet.checkValue (v : VRef) : Quiet (checkValue v) := fun s a t h => by
  obtain ⟨_, _, rfl⟩ := checkValue_ok h; exact .inl rfl
theorem Quiet.here : Quiet here := fun s a t h => by obtain ⟨_, rfl⟩ := here_ok h; exact .inl rfl
theorem Marks.emit (i : Instr) (h : i.code ≠ 8) : Marks (emit i) := fun s a t hm => by
  rw [emit_ok hm]; exact fun hx => h ((ends_append _ _ _).1 hx)
theorem Marks.emitLinked (i : Instr) (x : Name) (h : i.code ≠ 8) : Marks (emitLinked i x) := fun s a t hm => by
  rw [emitLinked_ok hm]; exact fun hx => h ((ends_append _ _ _).1 hx)
theorem Quiet.constAddr (v : Val) : Quiet (constAddr v) := fun s a t h => by
  obtain ⟨l, rfl, _⟩ := constAddr_ok h; exact .inl rfl
theorem Quiet.newAddr : Quiet newAddr := fun s a t h => by
  obtain ⟨f, l, h1, _, rfl⟩ := newAddr_ok h; exact .inl rfl
theorem Quiet.addVar (v : Var) : Quiet (addVar v) := fun s a t h => by
  obtain ⟨f, l, h1, rfl⟩ := addVar_ok h; exact .inl rfl
theorem Quiet.copy (d v : VRef) : Quiet (copy d v) := fun s a t h => by
  obtain ⟨_, _, _, _, _, _, h | h⟩ := copy_ok h
  · rw [h.2]; exact .inr fun hx => by have := (ends_append _ _ _).1 hx; cases this
  · rw [h.2]; exact .inl rfl
theorem Quiet.nodeIdent (k : Cfg) (x : Name) : Quiet (nodeIdent k x none) := fun s a t h => by
  rw [(nodeIdent_ok h).1]; exact .inl rfl
theorem Quiet.nodeConst (v : Val) : Quiet (nodeConst v none) := fun s a t h => by
  obtain ⟨a, h1, _⟩ := nodeConst_ok h; exact Quiet.constAddr _ _ _ _ h1

theorem select_code {k : Cfg} {o : BinOp} {a : Nat} {i : Sel} {s t : CSt} (h : select k o a s = .ok (i, t)) :
    i.code ≠ 8 ∧ t.code = s.code := by
  rcases select_ok h with ⟨_, _, _, rfl, rfl⟩ | ⟨n, c, _, _, h1, rfl⟩ | ⟨rfl, rfl⟩
  · exact ⟨fun h => (by cases h), rfl⟩
  · obtain ⟨_, rfl, _⟩ := constAddr_ok h1
    exact ⟨fun h => (by cases h), rfl⟩
  · exact ⟨by show o.code ≠ 8; cases o <;> decide, rfl⟩

/-- The operator of an instruction and what is done with it. -/
theorem Marks.select {α : Type} (k : Cfg) (o : BinOp) (a : Nat) {f : Sel → CM α} (h : ∀ i : Sel, i.code ≠ 8 → Marks (f i)) :
    Marks (select k o a >>= f) := by
  intro s b u hb
  obtain ⟨i, t, h1, h2⟩ := CM.bind_eq.1 hb
  exact h i (select_code h1).1 _ _ _ h2

theorem Quiet.copyArgs : ∀ (n : Nat) (l : List VRef), Quiet (copyArgs n l)
  | _, [] => Quiet.pure _
  | n, v :: l => (Quiet.copy _ _).bind fun _ => Quiet.copyArgs (n + 1) l
theorem Quiet.dfltAddr (p : Param) : Quiet (dfltAddr p) := by
  unfold Comp.dfltAddr
  cases p.dflt with
  | some v => exact Quiet.constAddr v
  | none => exact Quiet.pure 0
theorem Quiet.copyDflts : ∀ (n : Nat) (l : List Param), Quiet (copyDflts n l)
  | _, [] => Quiet.pure _
  | n, p :: l => (Quiet.dfltAddr p).bind fun _ => (Marks.emit _ (fun h => by cases h)).quiet.bind fun _ => Quiet.copyDflts (n + 1) l

theorem Marks.treeBin (k : Cfg) (o : BinOp) (l r : VRef) : Marks (treeBin k o l r) :=
  Marks.right fun _ => Marks.select _ _ _ fun _ hi => Marks.right fun _ => Marks.right fun _ =>
    (Marks.emit _ hi).left fun _ => Quiet.pure _
theorem Marks.treeShift (left : Bool) (out : Nat) (l r : VRef) : Marks (treeShift left out l r) :=
  Marks.right fun _ => Marks.right fun _ => (Marks.emit _ (by show (if left = true then 0x46 else 0x47) ≠ 8; cases left <;> decide)).left fun _ => Quiet.pure _
theorem Marks.treeNot (b : Bool) (r : VRef) : Marks (treeNot b r) :=
  Marks.right fun _ => Marks.right fun _ => (Marks.emit _ (fun h => by cases h)).left fun _ => Quiet.pure _
theorem Marks.treeCall (g : Sig) (vs : List VRef) : Marks (treeCall g vs) :=
  Marks.right fun _ => Marks.right fun _ => Marks.right fun _ =>
    (Marks.emitLinked _ _ (fun h => by cases h)).left fun _ => Quiet.pure _
theorem Marks.treeCallee (k : Cfg) (n : Nat) (args : CM (List VRef)) (l : VRef) : Marks (treeCallee k n args l) := by
  unfold Comp.treeCallee
  cases l.func with
  | none => exact Marks.fail
  | some c =>
    cases c with
    | assert => exact Marks.fail
    | user g => exact Marks.right fun _ => Marks.right fun _ => Marks.right fun _ => Marks.treeCall _ _

theorem compE_last (k : Cfg) : ∀ (x : E), if x.emits then Marks (compE k x) else Quiet (compE k x)
  | .const v => by rw [Comp.compE]; exact Quiet.nodeConst v
  | .var x => by rw [Comp.compE]; exact Quiet.nodeIdent k x
  | .bin o a b => by
    rw [Comp.compE, if_pos (show (E.bin o a b).emits = true from rfl)]; exact Marks.right fun _ => Marks.right fun _ => Marks.treeBin _ _ _ _
  | .shift l a b => by
    rw [Comp.compE, if_pos (show (E.shift l a b).emits = true from rfl)]
    exact Marks.right fun _ => Marks.right fun _ => Marks.right fun _ => Marks.treeShift _ _ _ _
  | .not a => by rw [Comp.compE, if_pos (show (E.not a).emits = true from rfl)]; exact Marks.right fun _ => Marks.treeNot _ _
  | .bnot a => by rw [Comp.compE, if_pos (show (E.bnot a).emits = true from rfl)]; exact Marks.right fun _ => Marks.treeNot _ _
  | .paren a => by
    have ih := compE_last k a
    rw [Comp.compE]
    have hq : ∀ v, Quiet (do checkValue v; Pure.pure v : CM VRef) := fun v => (Quiet.checkValue v).bind fun _ => Quiet.pure _
    cases ha : a.emits with
    | true =>
      rw [if_pos (show (E.paren a).emits = true from ha)]
      rw [if_pos ha] at ih
      exact ih.left hq
    | false =>
      have hn : ¬ (E.paren a).emits = true := by rw [show (E.paren a).emits = false from ha]; decide
      rw [if_neg hn]
      rw [if_neg (by rw [ha]; decide)] at ih
      exact ih.bind hq
  | .call f args => by
    rw [Comp.compE, if_pos (show (E.call f args).emits = true from rfl)]; exact Marks.right fun _ => Marks.treeCallee _ _ _ _

theorem Quiet.compE (k : Cfg) (x : E) : Quiet (compE k x) := by
  have h := compE_last k x
  split at h
  · exact h.quiet
  · exact h
theorem Marks.compE (k : Cfg) {x : E} (hx : x.emits = true) : Marks (Comp.compE k x) := by
  have h := compE_last k x
  rw [if_pos hx] at h; exact h
theorem Quiet.checked {m : CM VRef} (h : Quiet m) : Quiet (checked m) := h.bind fun _ => (Quiet.checkValue _).bind fun _ => Quiet.pure _
theorem Marks.checked {m : CM VRef} (h : Marks m) : Marks (checked m) := h.left fun _ => (Quiet.checkValue _).bind fun _ => Quiet.pure _

/-- What an expression that is not a `return` leaves at the end. -/
theorem compX_last (k : Cfg) (x : Ex) (hr : ∀ r, x ≠ .ret r) : if x.emits then Marks (compX k x) else Quiet (compX k x) := by
  cases x with
  | val e => exact compE_last k e
  | set x e =>
    cases ha : e.emits with
    | true =>
      rw [if_pos (show (Ex.set x e).emits = true from ha)]
      exact Marks.right fun _ => Marks.right fun _ => (Marks.compE k ha).left fun _ => Quiet.copy _ _
    | false =>
      have hn : ¬ (Ex.set x e).emits = true := by rw [show (Ex.set x e).emits = false from ha]; decide
      rw [if_neg hn]
      exact (Quiet.nodeIdent k x).bind fun _ => (Quiet.chk _).bind fun _ => (Quiet.compE k e).bind fun _ => Quiet.copy _ _
  | asg o x e =>
    exact Marks.right fun _ => Marks.right fun _ => Marks.right fun _ => Marks.select _ _ _ fun _ hi => Marks.right fun _ =>
      (Marks.emit _ hi).left fun _ => Quiet.pure _
  | inc up post x =>
    cases post with
    | true =>
      exact Marks.right fun _ => Marks.right fun _ => Marks.right fun _ => Marks.right fun _ => Marks.right fun _ =>
        (Marks.emit _ (by show (if up = true then 0x20 else 0x21) ≠ 8; cases up <;> decide)).left fun _ => (Quiet.copy _ _).bind fun _ => Quiet.pure _
    | false =>
      exact Marks.right fun _ => Marks.right fun _ => Marks.right fun _ =>
        (Marks.emit _ (by show (if up = true then 0x20 else 0x21) ≠ 8; cases up <;> decide)).left fun _ => (Quiet.copy _ _).bind fun _ => Quiet.pure _
  | ret e => exact absurd rfl (hr e)
  | assert e => exact Marks.right fun _ => Marks.right fun _ => (Marks.emit _ (fun h => by cases h)).left fun _ => Quiet.pure _

theorem ends_ite {p : Bool} {α : Type} {m : CM α} (h : if p then Marks m else Quiet m) {s t : CSt} {a : α} (hm : m s = .ok (a, t))
    (he : EndsRet t.code) : p = false ∧ EndsRet s.code := by
  cases p with
  | true => exact absurd he (h s a t hm)
  | false =>
    rcases (show Quiet m from h) s a t hm with h1 | h1
    · exact ⟨rfl, h1 ▸ he⟩
    · exact absurd he h1

theorem cDecl_last (k : Cfg) (q : Bool) (x : Name) (init : Option E) :
    if (Stmt.decl q x init : Stmt E Ex).emits then Marks (cDecl (treeSubs k) q x init) else Quiet (cDecl (treeSubs k) q x init) := by
  have hgen : ∀ a : E, if a.emits then Marks (do
      let a0 ← newAddr
      let v ← (treeSubs k).cond a
      let _ ← copy (ref a0) v
      addVar { name := x, address := a0, isConst := q }) else Quiet (do
      let a0 ← newAddr
      let v ← (treeSubs k).cond a
      let _ ← copy (ref a0) v
      addVar { name := x, address := a0, isConst := q }) := by
    intro a
    split
    · next h => exact Marks.right fun _ => (Marks.compE k h).checked.left fun _ => (Quiet.copy _ _).bind fun _ => Quiet.addVar _
    · exact Quiet.newAddr.bind fun _ => (Quiet.compE k a).checked.bind fun _ => (Quiet.copy _ _).bind fun _ => Quiet.addVar _
  unfold Comp.cDecl
  cases init with
  | none => exact Quiet.newAddr.bind fun _ => (Quiet.copy _ _).bind fun _ => Quiet.addVar _
  | some a =>
    cases q with
    | false => exact hgen a
    | true =>
      cases hl : (treeSubs k).lit a with
      | none => simp only [hl]; exact hgen a
      | some v =>
        have ha : a = .const v := by
          cases a <;> simp only [treeSubs, litE] at hl <;> first | (cases hl; rfl) | cases hl
        subst ha
        simp only [hl]
        exact (Quiet.constAddr v).bind fun _ => Quiet.addVar _

/-- When the last instruction is `RET`, it is that of the last `return`. -/
theorem last_ret (k : Cfg) : ∀ (b : Stmt E Ex) {s t : CSt} {u : Unit}, cStmtG (treeSubs k) b s = .ok (u, t) → EndsRet t.code →
    b.lastRet = true ∨ (b.emits = false ∧ EndsRet s.code)
  | .skip, s, t, u, h, he => by
    rw [cStmtG] at h
    cases CM.pure_eq.1 h
    exact .inr ⟨rfl, he⟩
  | .seq a b, s, t, u, h, he => by
    rw [cStmtG] at h
    obtain ⟨_, s1, h1, h2⟩ := CM.bind_eq.1 h
    rcases last_ret k b h2 he with h3 | ⟨h3, h4⟩
    · exact .inl (by rw [Stmt.lastRet, h3]; rfl)
    · rcases last_ret k a h1 h4 with h5 | ⟨h5, h6⟩
      · exact .inl (by rw [Stmt.lastRet, h3, h5]; simp)
      · exact .inr ⟨by rw [Stmt.emits, h3, h5]; rfl, h6⟩
  | .decl q x init, s, t, u, h, he => by
    rw [cStmtG] at h
    exact .inr (ends_ite (cDecl_last k q x init) h he)
  | .expr x, s, t, u, h, he => by
    by_cases hr : ∀ r, x ≠ .ret r
    · rw [cStmtG] at h
      obtain ⟨v, s1, h1, h2⟩ := CM.bind_eq.1 h
      cases CM.pure_eq.1 h2
      exact .inr (ends_ite (compX_last k x hr) (checked_ok h1) he)
    · cases x with
      | ret r => exact .inl rfl
      | _ => exact absurd (fun r h => by cases h) hr
  | .ite c a, s, t, u, h, he => by
    obtain ⟨d, s1, s2, h1, h2, h3⟩ := ite_ok h
    rcases last_ret k a h2 (he.patch h3) with h4 | ⟨_, h4⟩
    · exact .inl h4
    · have := (ends_append _ _ _).1 h4; cases this
  | .iteElse c a b, s, t, u, h, he => by
    obtain ⟨d, s1, s2, s3, s4, h1, h2, h3, h4, h5⟩ := iteElse_ok h
    rcases last_ret k b h4 (he.patch h5) with h6 | ⟨_, h6⟩
    · exact .inl h6
    · have := (ends_append _ _ _).1 (h6.patch h3); cases this
  | .loop c a p, s, t, u, h, he => by
    obtain ⟨d, s1, s2, s3, h1, h2, h3, h4⟩ := loop_ok h
    have := (ends_append _ _ _).1 (he.patch h4); cases this
  | .scope a, s, t, u, h, he => by
    obtain ⟨s1, f, l, h1, h2, rfl⟩ := scope_ok h
    rcases last_ret k a h1 he with h3 | h3
    · exact .inl h3
    · exact .inr h3

/-! ### Bodies that always return -/

theorem evb_ok {α β : Type} {x : Option (Res α)} {f : α → Option (Res β)} {b : β} (h : evb x f = some (.ok b)) :
    ∃ a, x = some (.ok a) ∧ f a = some (.ok b) := by
  cases x with
  | none => cases h
  | some r =>
    cases r with
    | ok a => exact ⟨a, rfl, h⟩
    | throw => cases h
    | ub => cases h

theorem returns_some {m : Sem} {n : Nat} : ∀ (b : Stmt E Ex), b.returns = true → ∀ env env' r,
    evalS m n b env = some (.ok (env', r)) → r.isSome = true
  | .skip, h, _, _, _, _ => by cases h
  | .seq a b, h, env, env', r, he => by
    rw [evalS] at he
    obtain ⟨⟨e1, q⟩, h1, h2⟩ := evb_ok he
    rw [Stmt.returns, Bool.or_eq_true] at h
    cases q with
    | none =>
      rcases h with h | h
      · have := returns_some a h _ _ _ h1; cases this
      · exact returns_some b h _ _ _ h2
    | some v => cases h2; rfl
  | .decl .., h, _, _, _, _ => by cases h
  | .expr x, h, env, env', r, he => by
    cases x with
    | ret v =>
      rw [evalS] at he
      cases v with
      | none => cases he; rfl
      | some a =>
        obtain ⟨v, _, h2⟩ := evb_ok he
        cases h2; rfl
    | _ => cases h
  | .ite .., h, _, _, _, _ => by cases h
  | .iteElse c a b, h, env, env', r, he => by
    rw [evalS] at he
    split at he
    · obtain ⟨v, _, h2⟩ := evb_ok he
      rw [Stmt.returns, Bool.and_eq_true] at h
      split at h2
      · exact returns_some a h.1 _ _ _ h2
      · exact returns_some b h.2 _ _ _ h2
    · cases he
  | .loop .., h, _, _, _, _ => by cases h
  | .scope a, h, env, env', r, he => by
    rw [evalS] at he
    obtain ⟨⟨e1, q⟩, h1, h2⟩ := evb_ok he
    cases h2
    exact returns_some a h _ _ _ h1

/-! ### Functions -/

section
variable {e : Env} {B : Binary} {k : Cfg} {m : Sem}

theorem addParams_pos {s : Eng} {sp : Nat} {rest : List VM.Frame} : ∀ (ps : List Param) (vs : List Val) {a : Nat} {st st' : CSt} {u : Unit}
    {acc : List (Name × Bool × Val)}, addParams a ps st = .ok (u, st') → Pos B s st sp rest [acc] → vs.length = ps.length →
    (∀ i v, vs[i]? = some v → Has s (ab sp (a + i)) v) → (∀ v ∈ vs, Scalar v) → MEM_STACK < a →
    a + ps.length ≤ MEM_STACK + offOf st.frames → (∀ z ∈ allVars st.frames, z.address < a) →
    Pos B s st' sp rest [bindParams acc ps vs] ∧ st'.code = st.code ∧ st'.consts = st.consts ∧ st'.frames.length = st.frames.length
  | [], vs, a, st, st', u, acc, h, hp, hl, _, _, _, _, _ => by
    cases CM.pure_eq.1 h
    cases vs with
    | nil => exact ⟨hp, rfl, rfl, rfl⟩
    | cons v vs => cases hl
  | p :: ps, [], a, st, st', u, acc, h, hp, hl, _, _, _, _, _ => by cases hl
  | p :: ps, v :: vs, a, st, st', u, acc, h, hp, hl, hv, hs, ha, hle, hz => by
    obtain ⟨_, s1, h1, h2⟩ := CM.bind_eq.1 h
    rw [List.length_cons] at hle
    obtain ⟨c, l, e1, hp1⟩ := addVar_pos (w := ⟨p.name, a, false⟩) (v := v) h1 hp
      (.inr ⟨ha, by show a < _; omega⟩)
      (fun z hz' _ => by have := hz z hz'; show a ≠ _; omega) (hv 0 v rfl) (hs v (List.mem_cons_self ..))
    cases e1
    obtain ⟨f, fl, e2, rfl⟩ := addVar_ok h1
    obtain ⟨r1, r2, r3, r4⟩ := addParams_pos ps vs (a := a + 1) h2 hp1 (by simpa using hl)
      (fun i w hi => by rw [Nat.add_assoc, Nat.add_comm 1 i]; exact hv (i + 1) w hi)
      (fun w hw => hs w (List.mem_cons_of_mem _ hw)) (by omega)
      (by rw [e2] at hle; show _ ≤ MEM_STACK + f.off; have : offOf (f :: fl) = f.off := rfl; omega)
      (by
        intro z hz'
        rw [e2] at hz
        rcases List.mem_cons.1 (show z ∈ _ :: (f.vars ++ allVars fl) from hz') with rfl | hz'
        · show a < a + 1; omega
        · have := hz z hz'; omega)
    exact ⟨r1, r2, r3, by rw [r4, e2]; rfl⟩

theorem Sim.bind' {α β : Type} {s : Eng} {r : Option (Res α)} {f : α → Option (Res β)}
    {P : α → Eng → Prop} {Q : β → Eng → Prop} (h : Sim e s r P) (h' : ∀ a t, r = some (.ok a) → P a t → Sim e t (f a) Q) :
    Sim e s (evb r f) Q := by
  cases r with
  | none => trivial
  | some r =>
    cases r with
    | ok a =>
      have h1 : Sim e s (some (.ok a)) (fun b t => a = b ∧ P b t) := Reach.mono (show Reach e s (P a) from h) fun t ht => ⟨rfl, ht⟩
      refine h1.bind fun b t hb => ?_
      obtain ⟨rfl, hb⟩ := hb
      exact h' a t rfl hb
    | throw => exact h
    | ub => trivial

/-- The place of the result is not that of a variable. -/
theorem rel_other {s t : Eng} {sp n : Nat} {l : List Frame} {env : Vars} (h : Rel s sp (l.map (·.vars)) env)
    (hf : FOk n l) (hb : ∀ a, a ≠ MEM_STACK + sp → aget t.mem a = aget s.mem a) : Rel t sp (l.map (·.vars)) env := by
  refine h.mono fun vs c hvs hc => ?_
  refine hc.mono fun w p hw hp => ?_
  have hw' : w ∈ allVars l := List.mem_flatten.2 ⟨vs, hvs, hw⟩
  refine ⟨hp.name, hp.const, ?_, hp.scalar⟩
  obtain ⟨d, h1, h2⟩ := hp.has
  refine ⟨d, ?_, h2⟩
  rw [hb _ ?_, h1]
  rcases (hf.all w hw').addr with h3 | h3
  · rw [ab_const h3.2]; omega
  · rw [ab_stack (Nat.le_of_lt h3.1)]; omega

/-- The code of a function. -/
theorem simF (c : Ctx e B k m) {cs : Bool → Stmt E Ex → CM Unit} (g : Func E Ex) (hcs : cs g.sig.isConst = cStmtG (treeSubs k))
    {st st' : CSt} {r : Name × Nat}
    (h : cFunc cs g st = .ok (r, st')) (hb : InB B st.code.length st') (hl : k.ltr = false ∨ g.body.plainAsserts = true)
    (hr : g.body.lastRet = true → g.body.returns = true) {s : Eng} {sp n : Nat} {rest : List VM.Frame} {vs : List Val}
    (hv : vs.length = g.sig.params.length) (hs : ∀ v ∈ vs, Scalar v) (ha : At s st.code.length sp rest) (hg : Good B s)
    (hargs : ∀ i v, vs[i]? = some v → Has s (MEM_STACK + sp + 1 + i) v) :
    Sim e s (evb (evalS m n (.scope g.body) [bindParams [] g.sig.params vs]) fun (_, r) => some (.ok (r.getD .nil)))
      (Returned B s sp rest) := by
  have hzero : (0 : Nat) < MEM_STACK := by decide
  unfold cFunc at h
  obtain ⟨a0, s0, h0, k0⟩ := CM.bind_eq.1 h
  obtain ⟨rfl, rfl⟩ := here_ok h0
  obtain ⟨_, s1, h1, k1⟩ := CM.bind_eq.1 k0
  obtain ⟨_, s2, h2, k2⟩ := CM.bind_eq.1 k1
  obtain ⟨_, s3, h3, k3⟩ := CM.bind_eq.1 k2
  obtain ⟨_, s4, h4, k4⟩ := CM.bind_eq.1 k3
  obtain ⟨_, s5, h5, k5⟩ := CM.bind_eq.1 k4
  obtain ⟨_, s6, h6, k6⟩ := CM.bind_eq.1 k5
  have e6 : s6 = st' := by cases CM.pure_eq.1 k6; rfl
  rw [← e6] at hb
  cases h1
  rw [hcs] at h4
  have hp1 : Pos B s { s0 with frames := [{ off := 1 + g.sig.params.length, vars := [] }] } sp rest [[]] := by
    refine ⟨ha, hg, ⟨by show 1 ≤ 1 + _; omega, by show 1 ≤ 1 + _; omega, Nat.zero_le _, fun v hv => (by cases hv), ?_, trivial⟩,
      ⟨trivial, trivial⟩⟩
    exact List.Pairwise.nil
  obtain ⟨hp2, r2, r3, r4⟩ := addParams_pos g.sig.params vs h2 hp1 hv
    (fun i v hi => by
      rw [ab_stack (by omega), show MEM_STACK + 1 + i + sp = MEM_STACK + sp + 1 + i by omega]
      exact hargs i v hi) hs (by omega) (by show _ ≤ MEM_STACK + (1 + _); omega)
    (fun z hz => by simp [allVars] at hz)
  have r2 : s2.code = s0.code := r2
  have e3 := emit_ok h3
  have x4 := KeepsS.cStmt k (.scope g.body) _ _ _ h4
  obtain ⟨f5, l5, e5, rfl⟩ := popScope_ok h5
  -- the end of the code
  have hend : (¬ EndsRet s4.code ∧ s6 = { s4 with frames := l5, code := s4.code ++ [({ code := 8 }, none)] }) ∨
      (EndsRet s4.code ∧ s6 = { s4 with frames := l5 }) := by
    unfold endRet at h6
    have hlast : s4.code.getLast? = s4.code[s4.code.length - 1]? := List.getLast?_eq_getElem? ..
    dsimp only at h6
    rw [hlast] at h6
    cases hx : s4.code[s4.code.length - 1]? with
    | none =>
      rw [hx] at h6
      refine .inl ⟨fun ⟨x, hx', _⟩ => (by rw [hx] at hx'; cases hx'), emit_ok h6⟩
    | some x =>
      rw [hx] at h6
      dsimp only at h6
      by_cases hc : x.1.code = 8
      · rw [if_neg (by simp [hc])] at h6
        cases h6
        exact .inr ⟨⟨x, hx, hc⟩, rfl⟩
      · rw [if_pos hc] at h6
        exact .inl ⟨fun ⟨y, hy, hy'⟩ => (by rw [hx] at hy; cases hy; exact hc hy'), emit_ok h6⟩
  have hb4 : InB B s0.code.length s4 := by
    rcases hend with ⟨_, rfl⟩ | ⟨_, rfl⟩
    · exact ⟨hb.code.pre (List.prefix_append _ _) (Nat.le_refl _), hb.consts⟩
    · exact ⟨hb.code, hb.consts⟩
  have hb3 : InB B s0.code.length s3 := hb4.pre x4 (Nat.le_refl _)
  have l3 : s3.code.length = s0.code.length + 1 := by rw [e3, ← r2]; simp
  have hcopy : B.code[s0.code.length]? = some { code := 2, a := MEM_STACK, b := 0 } := by
    have := hb3.code
    rw [e3] at this
    have h7 := this.last (by rw [r2]; exact Nat.le_refl _)
    rw [r2] at h7
    exact h7
  have hnil : Has s (ab sp 0) .nil := by rw [ab_const hzero]; exact hg.consts 0 _ c.nil
  have hstep : Reach e s (Wrote B s (s0.code.length + 1) sp rest (ab sp MEM_STACK) .nil) := by
    obtain ⟨fA, fB, _, _⟩ := fits_of c.fits hcopy
    have hans := ans_copy (e := e) (i := { code := 0x02, a := MEM_STACK, b := 0 }) (s := more s) (ha.room hg).gas rfl (Nat.le_refl _)
      fA fB bit0.1 bit0.2.1 (fun hc => by have : MEM_STACK = 0 := hc; omega) hnil.gas trivial
    exact sim_ans c.fits hg ha hcopy ord_copy (by rw [ab_stack (Nat.le_refl _)]; omega) hans
  refine Sim.after hstep fun t ht => ?_
  have habs : ab sp MEM_STACK = MEM_STACK + sp := ab_stack (Nat.le_refl _)
  have hbt : Below s t (MEM_STACK + sp) := fun z hz => ht.other z (by rw [habs]; omega)
  have hp3 : PosS B t s3 sp rest [bindParams [] g.sig.params vs] := by
    refine ⟨⟨by rw [l3]; exact ht.place, ht.good, ?_, ?_⟩, by rw [← habs]; exact ht.has⟩
    · rw [e3]; exact ⟨hp2.inv.pos, hp2.inv.ok⟩
    · rw [e3]
      exact rel_other hp2.rel hp2.inv.ok (fun a ha => ht.other a (by rw [habs]; exact ha))
  refine (simS c n (.scope g.body) h4 (hb4.pre (ExtS.refl _) (by omega)) hp3 hl).bind' fun r u hev hu => ?_
  obtain ⟨env', o⟩ := r
  cases o with
  | some v => exact Sim.ok (Returned.from (show Returned B t sp rest v u from hu) hbt)
  | none =>
    obtain ⟨u1, u2⟩ := hu
    rcases hend with ⟨_, rfl⟩ | ⟨hret, _⟩
    · have hi := hb.code.last (by have := x4.code.length_le; omega)
      refine (reach_ret (e := e) c.fits u1.good u1.place hi rfl).mono fun w hw => ?_
      refine ⟨hw.good, hw.frames, ?_, ?_, trivial⟩
      · exact (hbt.trans (u2.mono (by omega)) (Nat.le_refl _) (Nat.le_refl _)).trans (hw.below.mono (by omega)) (Nat.le_refl _) (Nat.le_refl _)
      · exact hw.below.has (by omega) (u2.has (by omega) hp3.result)
    · rcases last_ret k (.scope g.body) h4 hret with h7 | ⟨_, h7⟩
      · have h8 := returns_some (.scope g.body) (hr h7) _ _ _ hev
        cases h8
      · rw [e3] at h7
        have := (ends_append _ _ _).1 h7; cases this

end

/-! ### Programs -/

theorem cFunc_grows {k : Cfg} {cs : Bool → Stmt E Ex → CM Unit} {g : Func E Ex} (hcs : cs g.sig.isConst = cStmtG (treeSubs k))
    {st st' : CSt} {r : Name × Nat} (h : cFunc cs g st = .ok (r, st')) :
    st.code <+: st'.code ∧ st.consts <+: st'.consts ∧ r = (g.sig.name, st.code.length) := by
  have hpar : ∀ (ps : List Param) (a : Nat) (s t : CSt) (u : Unit), addParams a ps s = .ok (u, t) → t.code = s.code ∧ t.consts = s.consts := by
    intro ps
    induction ps with
    | nil => intro a s t u h; cases CM.pure_eq.1 h; exact ⟨rfl, rfl⟩
    | cons p ps ih =>
      intro a s t u h
      obtain ⟨_, s1, h1, h2⟩ := CM.bind_eq.1 h
      obtain ⟨f, l, _, rfl⟩ := addVar_ok h1
      have := ih _ _ _ _ h2
      exact this
  unfold cFunc at h
  obtain ⟨a0, s0, h0, k0⟩ := CM.bind_eq.1 h
  obtain ⟨rfl, rfl⟩ := here_ok h0
  obtain ⟨_, s1, h1, k1⟩ := CM.bind_eq.1 k0
  obtain ⟨_, s2, h2, k2⟩ := CM.bind_eq.1 k1
  obtain ⟨_, s3, h3, k3⟩ := CM.bind_eq.1 k2
  obtain ⟨_, s4, h4, k4⟩ := CM.bind_eq.1 k3
  obtain ⟨_, s5, h5, k5⟩ := CM.bind_eq.1 k4
  obtain ⟨_, s6, h6, k6⟩ := CM.bind_eq.1 k5
  cases CM.pure_eq.1 k6
  cases h1
  obtain ⟨q1, q2⟩ := hpar _ _ _ _ _ h2
  rw [hcs] at h4
  have x4 := KeepsS.cStmt k (.scope g.body) _ _ _ h4
  rw [emit_ok h3] at x4
  obtain ⟨f5, l5, e5, rfl⟩ := popScope_ok h5
  have c1 : s0.code <+: s4.code := by
    have := x4.code
    dsimp only at this
    rw [q1] at this
    exact (List.prefix_append _ _).trans this
  have c2 : s0.consts <+: s4.consts := by
    have := x4.consts
    dsimp only at this
    rw [q2] at this
    exact this
  have c3 : s4.code <+: st'.code ∧ st'.consts = s4.consts := by
    unfold endRet at h6
    split at h6
    · rw [emit_ok h6]; exact ⟨List.prefix_append _ _, rfl⟩
    · split at h6
      · rw [emit_ok h6]; exact ⟨List.prefix_append _ _, rfl⟩
      · cases h6; exact ⟨List.prefix_refl _, rfl⟩
  exact ⟨c1.trans c3.1, by rw [c3.2]; exact c2, rfl⟩

/-- Each function is somewhere in the code, at its address. -/
theorem cFuncs_at {cs : Bool → Stmt E Ex → CM Unit} {k : Bool → Cfg} (hcs : ∀ q, cs q = cStmtG (treeSubs (k q))) :
    ∀ (p : Prog) {st st' : CSt} {ents : List (Name × Nat)}, cFuncs cs p st = .ok (ents, st') →
    st.code <+: st'.code ∧ st.consts <+: st'.consts ∧
    ∀ f g a, findBody f p = some g → entry f ents = some a → ∃ s1 s2, cFunc cs g s1 = .ok ((g.sig.name, a), s2) ∧
      a = s1.code.length ∧ s2.code <+: st'.code ∧ s2.consts <+: st'.consts
  | [], st, st', ents, h => by
    cases CM.pure_eq.1 h
    exact ⟨List.prefix_refl _, List.prefix_refl _, fun f g a h => by cases h⟩
  | g :: p, st, st', ents, h => by
    obtain ⟨r, s1, h1, k1⟩ := CM.bind_eq.1 h
    obtain ⟨rs, s2, h2, k2⟩ := CM.bind_eq.1 k1
    cases CM.pure_eq.1 k2
    obtain ⟨g1, g2, rfl⟩ := cFunc_grows (hcs _) h1
    obtain ⟨i1, i2, i3⟩ := cFuncs_at hcs p h2
    refine ⟨g1.trans i1, g2.trans i2, fun f g' a hf ha => ?_⟩
    by_cases hn : g.sig.name = f
    · simp only [findBody, if_pos hn] at hf
      simp only [entry, if_pos hn] at ha
      cases hf; cases ha
      exact ⟨st, s1, h1, rfl, i1, i2⟩
    · simp only [findBody, if_neg hn] at hf
      simp only [entry, if_neg hn] at ha
      exact i3 f g' a hf ha

theorem linkAll_emb {ents : List (Name × Nat)} : ∀ {l : List (Instr × Option Name)} {c : List Instr}, linkAll ents l = .ok c →
    ∀ (i : Nat) x, l[i]? = some x → ∃ y, link1 ents x = .ok y ∧ c[i]? = some y
  | [], c, h, i, x, hx => by cases hx
  | a :: l, c, h, i, x, hx => by
    obtain ⟨y, h1, h2⟩ := Res.bind_eq_ok.1 h
    obtain ⟨r, h3, h4⟩ := Res.bind_eq_ok.1 h2
    cases h4
    cases i with
    | zero => cases hx; exact ⟨y, h1, rfl⟩
    | succ i => exact linkAll_emb h3 i x hx

theorem findBody_sig {f : Name} : ∀ {p : Prog} {g : Sig}, findFunc f p.sigs = some g → ∃ b, findBody f p = some b ∧ b.sig = g ∧ b ∈ p
  | [], g, h => by cases h
  | b :: p, g, h => by
    simp only [Prog.sigs, List.map_cons, findFunc, List.find?_cons] at h
    by_cases hn : b.sig.name = f
    · simp only [decide_eq_true hn] at h
      cases h
      exact ⟨b, by simp only [findBody, if_pos hn], rfl, List.mem_cons_self ..⟩
    · simp only [decide_eq_false hn] at h
      obtain ⟨b', h1, h2, h3⟩ := findBody_sig (p := p) h
      exact ⟨b', by simp only [findBody, if_neg hn]; exact h1, h2, List.mem_cons_of_mem _ h3⟩

/-- What is needed of the program and where it is run. -/
structure Runs (o : Opts) (p : Prog) (B : Binary) (e : Env) : Prop where
  compiled : compileT o p = .ok B
  fits : B.Fits
  version : e.version ≥ 1
  asserts : o.ltr = false ∨ p.plainAsserts = true
  ends : p.ends = true

theorem call_ok {o : Opts} {p : Prog} {B : Binary} {e : Env} (h : Runs o p B e) : ∀ n,
    CallOk e B { catchOvf := o.catchOvf, funcs := p.sigs, call := callF o.catchOvf p n }
  | 0 => fun _ _ _ _ _ _ _ _ _ _ _ _ _ _ => trivial
  | n + 1 => by
    obtain ⟨hc, hf, hv, has, hen⟩ := h
    have hc' := hc
    unfold compileT compileG at hc'
    obtain ⟨_, _, hc'⟩ := Res.bind_eq_ok.1 hc'
    obtain ⟨⟨ents, s⟩, h1, hc'⟩ := Res.bind_eq_ok.1 hc'
    obtain ⟨code, h2, hc'⟩ := Res.bind_eq_ok.1 hc'
    cases hc'
    obtain ⟨_, i2, i3⟩ := cFuncs_at (k := fun q => o.cfg p.sigs q) (fun _ => rfl) p h1
    intro f g vs a q sp rest hg ha hl hs hat hgood hargs
    obtain ⟨b, b1, rfl, b2⟩ := findBody_sig hg
    obtain ⟨s1, s2, j1, rfl, j2, j3⟩ := i3 f b a b1 ha
    have hnil : s.consts[0]? = some .nil := prefix_get i2 rfl
    have hctx : Ctx e { code := code, consts := s.consts, entries := ents } (o.cfg p.sigs b.sig.isConst)
        { catchOvf := o.catchOvf, funcs := p.sigs, call := callF o.catchOvf p n } :=
      ⟨hf, hv, rfl, rfl, hnil, call_ok ⟨hc, hf, hv, has, hen⟩ n⟩
    have hl' : o.ltr = false ∨ b.body.plainAsserts = true := by
      rcases has with h | h
      · exact .inl h
      · exact .inr (List.all_eq_true.1 h b b2)
    have hr : b.body.lastRet = true → b.body.returns = true := by
      intro h
      have := List.all_eq_true.1 hen b b2
      rw [h] at this
      simpa using this
    have := simF hctx (n := n) b (cs := fun q => cStmtG (treeSubs (o.cfg p.sigs q))) rfl j1
      ⟨fun i x _ hx => linkAll_emb h2 i x (prefix_get j2 hx), j3⟩ hl' hr hl hs hat hgood hargs
    show Sim e q (callF o.catchOvf p (n + 1) f vs) _
    rw [callF, b1]
    dsimp only
    rw [if_pos hl]
    exact this

end Verif.Comp
