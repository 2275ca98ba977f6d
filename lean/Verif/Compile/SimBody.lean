import Verif.Compile.SimStmt
/-
  The code of a body does what the body says.
-/
namespace Verif.Comp
open Verif Verif.VM
open Verif.Codec (Bytes)

section
variable {e : Env} {B : Binary} {k : Cfg} {m : Sem}

theorem Sim.andThen {s : Eng} {r : Option (Res (Vars × Option Val))} {f : Vars → Option (Res (Vars × Option Val))}
    {st1 st2 : CSt} {sp : Nat} {rest : List VM.Frame} (h : Sim e s r (PostS B s st1 sp rest))
    (h' : ∀ env t, Pos B t st1 sp rest env → Below s t (MEM_STACK + sp + 1) → Sim e t (f env) (PostS B t st2 sp rest)) :
    Sim e s (Comp.andThen r f) (PostS B s st2 sp rest) := by
  unfold Comp.andThen
  refine h.bind fun a t ha => ?_
  obtain ⟨env, q⟩ := a
  cases q with
  | none => exact (h' env t ha.1 ha.2).mono fun _ _ hq => hq.from ha.2
  | some v => exact Sim.ok ha

/-- The part of a `for` after its body. -/
theorem simXs (c : Ctx e B k m) : ∀ (l : List Ex) {st st' : CSt} {env : Vars} {s : Eng} {sp : Nat} {rest : List VM.Frame},
    cExprs (treeSubs k) l st = .ok ((), st') → InB B st.code.length st' → PosS B s st sp rest env →
    (k.ltr = false ∨ l.all Ex.plainAssert = true) → Sim e s (evalXs m env l) (PostS B s st' sp rest)
  | [], st, st', env, s, sp, rest, h, hb, hp, _ => by
    cases CM.pure_eq.1 h
    exact Sim.ok ⟨hp.toPos, Below.refl _ _⟩
  | x :: l, st, st', env, s, sp, rest, h, hb, hp, hl => by
    rw [cExprs] at h
    obtain ⟨v, s1, h1, h2⟩ := CM.bind_eq.1 h
    have h1 : compX k x st = .ok (v, s1) := checked_ok h1
    have x1 := Keeps.compX k x _ _ _ h1
    have x2 := Keeps.cExprs k l _ _ _ h2
    have hl' : (k.ltr = false ∨ x.plainAssert = true) ∧ (k.ltr = false ∨ l.all Ex.plainAssert = true) := by
      rcases hl with h | h
      · exact ⟨.inl h, .inl h⟩
      · rw [List.all_cons, Bool.and_eq_true] at h; exact ⟨.inr h.1, .inr h.2⟩
    have := Sim.andThen (f := fun env => evalXs m env l) (simX c x h1 (hb.pre x2.toS (Nat.le_refl _)) hp hl'.1) fun env' t hpt hbt =>
      simXs c l h2 (hb.pre (ExtS.refl _) x1.code.length_le) (hp.go hpt hbt) hl'.2
    rw [evalXs]
    exact this

/-- A new variable. -/
theorem addVar_pos {w : Var} {v : Val} {st1 st' : CSt} {sp : Nat} {rest : List VM.Frame} {env : Vars} {t : Eng} {u : Unit}
    (h : addVar w st1 = .ok (u, st')) (hp : Pos B t st1 sp rest env) (hok : VarOk st1.consts.length (offOf st1.frames) w)
    (hap : ∀ z ∈ allVars st1.frames, Apart w z) (hv : Has t (ab sp w.address) v) (hs : Scalar v) :
    ∃ c l, env = c :: l ∧ Pos B t st' sp rest (((w.name, w.isConst, v) :: c) :: l) := by
  obtain ⟨f, fl, h1, rfl⟩ := addVar_ok h
  obtain ⟨pl, gd, inv, rel⟩ := hp
  rw [h1] at rel hok hap
  cases env with
  | nil => exact rel.elim
  | cons c l =>
    refine ⟨c, l, rfl, pl, gd, ?_, ⟨⟨⟨rfl, rfl, hv, hs⟩, rel.1⟩, rel.2⟩⟩
    obtain ⟨i1, i2⟩ := inv
    rw [h1] at i1 i2
    obtain ⟨j1, j2, j3, j4, j5⟩ := i2
    refine ⟨i1, j1, j2, ?_, ?_, j5⟩
    · intro z hz
      rcases List.mem_cons.1 hz with rfl | hz
      · exact hok
      · exact j3 z hz
    · show (w :: (f.vars ++ allVars fl)).Pairwise Apart
      exact List.pairwise_cons.2 ⟨fun z hz => hap z hz, j4⟩

/-- A new place on the stack is shared with no variable. -/
theorem apart_new {w : Var} {st st1 : CSt} (hi : Inv st) (he : Ext st st1) (hw : w.address = MEM_STACK + offOf st.frames) :
    ∀ z ∈ allVars st1.frames, Apart w z := by
  intro z hz _
  have hz' : z ∈ allVars st.frames := by
    unfold allVars at hz ⊢
    rw [he.vars] at hz; exact hz
  rcases hi.ok.all z hz' with h | h <;> omega

theorem simDecl (c : Ctx e B k m) (q : Bool) (x : Name) (init : Option E) {st st' : CSt} {env : Vars} {s : Eng} {sp n : Nat}
    {rest : List VM.Frame} (h : cDecl (treeSubs k) q x init st = .ok ((), st')) (hb : InB B st.code.length st')
    (hp : PosS B s st sp rest env) : Sim e s (evalS m n (.decl q x init) env) (PostS B s st' sp rest) := by
  have hzero : (0 : Nat) < MEM_STACK := by decide
  have hgen : ∀ (a : E), (do
      let a0 ← newAddr
      let v ← (treeSubs k).cond a
      let _ ← copy (ref a0) v
      addVar { name := x, address := a0, isConst := q }) st = .ok ((), st') →
      Sim e s (evalS m n (.decl q x (some a)) env) (PostS B s st' sp rest) := by
    intro a h
    obtain ⟨a0, s1, h1, k1⟩ := CM.bind_eq.1 h
    obtain ⟨v, s2, h2, k2⟩ := CM.bind_eq.1 k1
    obtain ⟨r, s3, h3, h4⟩ := CM.bind_eq.1 k2
    have h2 : compE k a s1 = .ok (v, s2) := checked_ok h2
    have x1 := Keeps.newAddr _ _ _ h1
    have x2 := Keeps.compE k a _ _ _ h2
    have x3 := Keeps.copy _ _ _ _ _ h3
    have x4 := ExtS.addVar h4
    obtain ⟨f, fl, q1, rfl, q2⟩ := newAddr_ok h1
    have hoff : offOf st.frames = f.off := by rw [q1]; rfl
    have hoff1 : offOf s1.frames = f.off + 1 := by rw [q2]; rfl
    have hc1 : s1.code = st.code := by rw [q2]
    have hb3 : InB B st.code.length s3 := hb.pre x4 (Nat.le_refl _)
    have hb2 : InB B st.code.length s2 := hb3.pre x3.toS (Nat.le_refl _)
    have g1 : Gone B s st s1 sp rest s := ⟨by rw [hc1]; exact hp.place, hp.good, Below.refl _ _⟩
    have hp1 := hp.toPos.next x1 g1
    rw [evalS]
    refine (simE c a h2 (hb2.pre (ExtS.refl _) x1.code.length_le) hp1).bind fun y t ht => ?_
    have hp2 := hp1.next x2 ht.toGone
    obtain ⟨b, b1, b2, b3⟩ := ht.is.has
    obtain ⟨_, hr⟩ := sim_copy (e := e) c.fits h3 (hb3.code.pre (List.prefix_refl _) (x1.trans x2).code.length_le) hp2.place hp2.good
      (d := ref (MEM_STACK + f.off)) rfl (Nat.le_add_right _ _) b1 b3 ht.is.scalar
    have hab : ab sp (MEM_STACK + f.off) = MEM_STACK + f.off + sp := ab_stack (Nat.le_add_right _ _)
    refine Sim.after hr fun u hu => ?_
    have hbl : Below s u (MEM_STACK + sp + offOf st.frames) := by
      intro z hz
      rw [hu.other z (by rw [hab]; omega), ht.below z (by omega)]
    have hp3 : Pos B u s3 sp rest env := hp.toPos.next ((x1.trans x2).trans x3) ⟨hu.place, hu.good, hbl⟩
    have h5 := (x2.trans x3).off
    have hpos := hp.inv.pos
    obtain ⟨cc, l, rfl, hp4⟩ := addVar_pos h4 hp3 (.inr ⟨by show MEM_STACK < MEM_STACK + f.off; omega, by show MEM_STACK + f.off < _; omega⟩)
      (apart_new hp.inv ((x1.trans x2).trans x3) (by show MEM_STACK + f.off = _; rw [hoff])) hu.has hu.scalar
    unfold declare
    exact Sim.ok ⟨hp4, hbl.mono (by omega)⟩
  unfold cDecl at h
  cases init with
  | none =>
    dsimp only at h
    obtain ⟨a0, s1, h1, k1⟩ := CM.bind_eq.1 h
    obtain ⟨r, s3, h3, h4⟩ := CM.bind_eq.1 k1
    have x1 := Keeps.newAddr _ _ _ h1
    have x3 := Keeps.copy _ _ _ _ _ h3
    have x4 := ExtS.addVar h4
    obtain ⟨f, fl, q1, rfl, q2⟩ := newAddr_ok h1
    have hoff : offOf st.frames = f.off := by rw [q1]; rfl
    have hoff1 : offOf s1.frames = f.off + 1 := by rw [q2]; rfl
    have hc1 : s1.code = st.code := by rw [q2]
    have hb3 : InB B st.code.length s3 := hb.pre x4 (Nat.le_refl _)
    have hnil : Has s (ab sp 0) .nil := by rw [ab_const hzero]; exact hp.good.consts 0 _ c.nil
    obtain ⟨_, hr⟩ := sim_copy (e := e) c.fits h3 (hb3.code.pre (List.prefix_refl _) x1.code.length_le)
      (show At s s1.code.length sp rest by rw [hc1]; exact hp.place) hp.good
      (d := ref (MEM_STACK + f.off)) rfl (Nat.le_add_right _ _) rfl hnil trivial
    have hab : ab sp (MEM_STACK + f.off) = MEM_STACK + f.off + sp := ab_stack (Nat.le_add_right _ _)
    rw [evalS]
    refine Sim.after hr fun u hu => ?_
    have hbl : Below s u (MEM_STACK + sp + offOf st.frames) := by
      intro z hz
      rw [hu.other z (by rw [hab]; omega)]
    have hp3 : Pos B u s3 sp rest env := hp.toPos.next (x1.trans x3) ⟨hu.place, hu.good, hbl⟩
    have h5 := x3.off
    have hpos := hp.inv.pos
    obtain ⟨cc, l, rfl, hp4⟩ := addVar_pos h4 hp3 (.inr ⟨by show MEM_STACK < MEM_STACK + f.off; omega, by show MEM_STACK + f.off < _; omega⟩)
      (apart_new hp.inv (x1.trans x3) (by show MEM_STACK + f.off = _; rw [hoff])) hu.has hu.scalar
    unfold declare
    exact Sim.ok ⟨hp4, hbl.mono (by omega)⟩
  | some a =>
    cases q with
    | false => exact hgen a h
    | true =>
      cases hl : (treeSubs k).lit a with
      | none => simp only [hl] at h; exact hgen a h
      | some v =>
        simp only [hl] at h
        have ha : a = .const v := by
          cases a <;> simp only [treeSubs, litE] at hl <;> first | (cases hl; rfl) | cases hl
        subst ha
        obtain ⟨a0, s1, h1, h4⟩ := CM.bind_eq.1 h
        have x1 := Keeps.constAddr _ _ _ _ h1
        have x4 := ExtS.addVar h4
        have hb1 : InB B st.code.length s1 := hb.pre x4 (Nat.le_refl _)
        obtain ⟨o1, o2, o3, o4⟩ := const_at c.fits h1 hb1.consts hp.good sp
        have hc1 : s1.code = st.code := by obtain ⟨_, rfl, _⟩ := constAddr_ok h1; rfl
        have hp1 := hp.toPos.next x1 ⟨by rw [hc1]; exact hp.place, hp.good, Below.refl _ _⟩
        obtain ⟨cc, l, rfl, hp4⟩ := addVar_pos h4 hp1 (.inl ⟨rfl, o1, o2⟩)
          (fun z hz hm => by have hm : MEM_STACK ≤ a0 := hm; omega) o3 o4
        rw [evalS, evalE]
        exact Sim.ok ⟨hp4, Below.refl _ _⟩

/-! ### Jumps -/

theorem Emb.unset {lo lo' j : Nat} {l : List (Instr × Option Name)} {x : Instr × Option Name} (h : Emb B lo (l.set j x))
    (hl : lo ≤ lo') (hj : j < lo') : Emb B lo' l := by
  intro i y hi hy
  refine h i y (by omega) ?_
  rw [List.getElem?_set_ne (by omega)]; exact hy

theorem Emb.atset {lo j : Nat} {l : List (Instr × Option Name)} {x : Instr} (h : Emb B lo (l.set j (x, none))) (hl : lo ≤ j)
    (hj : j < l.length) : B.code[j]? = some x := by
  obtain ⟨y, h1, h2⟩ := h j (x, none) hl (by rw [List.getElem?_set_self hj])
  cases h1
  exact h2

theorem get_last {α : Type} (l : List α) (x : α) : (l ++ [x])[l.length]? = some x := by
  rw [List.getElem?_append_right (Nat.le_refl _), Nat.sub_self]; rfl

structure PostC (B : Binary) (s : Eng) (st st' : CSt) (sp : Nat) (rest : List VM.Frame) (a : Nat) (x : Val) (t : Eng) : Prop
    extends Gone B s st st' sp rest t where
  has : Has t (ab sp a) x

theorem simCond (c : Ctx e B k m) {a : E} {b : Nat} {st st' : CSt} {env : Vars} {s : Eng} {sp : Nat} {rest : List VM.Frame}
    (h : cCond (treeSubs k) a st = .ok (b, st')) (hb : InB B st.code.length st') (hp : Pos B s st sp rest env) :
    Sim e s (evalE m env a) (PostC B s st st' sp rest b) := by
  unfold cCond at h
  obtain ⟨v, s1, h1, h2⟩ := CM.bind_eq.1 h
  have h1 : compE k a st = .ok (v, s1) := checked_ok h1
  obtain ⟨_, _, rfl, e1⟩ := get_ok h2
  rw [e1] at hb ⊢
  exact (simE c a h1 hb hp).mono fun x t ht => ⟨ht.toGone, (addrOf_is ht.is).2⟩

/-- A jump over a part. -/
theorem sim_branch (c : Ctx e B k m) {b n : Nat} {st s1 : CSt} {s t : Eng} {sp : Nat} {rest : List VM.Frame} {x : Val}
    (hi : B.code[s1.code.length]? = some { code := 0x06, a := n, b := b }) (ht : PostC B s st s1 sp rest b x t) :
    Reach e t (Moved B t (if truth x = false then n else s1.code.length + 1) sp rest) := by
  obtain ⟨_, fB, _, _⟩ := fits_of c.fits hi
  exact reach_jumpIf (e := e) ht.good ht.place hi fB bit0.1 bit0.2.1 ht.has (want := false) rfl

theorem simLoop (c : Ctx e B k m) {cond : E} {body : Stmt E Ex} {post : List Ex} {d : Nat} {st s1 s2 s3 : CSt} {n sp : Nat}
    {rest : List VM.Frame}
    (h1 : cCond (treeSubs k) cond st = .ok (d, s1))
    (h2 : cStmtG (treeSubs k) body { s1 with code := s1.code ++ [({ code := 0x06, a := 2 ^ 32 - 1, b := d }, none)] } = .ok ((), s2))
    (h3 : cExprs (treeSubs k) post s2 = .ok ((), s3))
    (hb1 : InB B st.code.length s1) (hb3 : InB B (s1.code.length + 1) s3)
    (hj : B.code[s1.code.length]? = some { code := 0x06, a := s3.code.length + 1, b := d })
    (he : B.code[s3.code.length]? = some { code := 0x04, a := st.code.length })
    (hn : body.noDecl = true)
    (hl : k.ltr = false ∨ post.all Ex.plainAssert = true)
    (ih : ∀ {env : Vars} {s : Eng}, PosS B s { s1 with code := s1.code ++ [({ code := 0x06, a := 2 ^ 32 - 1, b := d }, none)] } sp rest env →
      Sim e s (evalS m n body env) (PostS B s s2 sp rest)) :
    ∀ (i : Nat) {env : Vars} {s : Eng}, PosS B s st sp rest env →
      Sim e s (evalLoop (fun env => evalE m env cond) (fun env => Comp.andThen (evalS m n body env) fun env => evalXs m env post) i env)
        (fun r t => match r with
          | (env, none) => Moved B t (s3.code.length + 1) sp rest t ∧ Rel t sp (st.frames.map (·.vars)) env ∧ Below s t (MEM_STACK + sp + 1)
          | (_, some v) => Returned B s sp rest v t)
  | 0, _, _, _ => trivial
  | i + 1, env, s, hp => by
    have x1 := Keeps.cCond k cond _ _ _ h1
    have x3 := Keeps.cExprs k post _ _ _ h3
    have hk2 := KeepsS.cStmt k body _ _ _ h2
    have l2 := hk2.code.length_le
    rw [List.length_append, List.length_singleton] at l2
    rw [evalLoop]
    refine (simCond c h1 hb1 hp.toPos).bind fun y t ht => ?_
    have hpos := hp.inv.pos
    have hp1 := hp.toPos.next x1 ht.toGone
    have hbt : Below s t (MEM_STACK + sp + 1) := ht.below.mono (by omega)
    have hr := sim_branch (e := e) c hj ht
    cases hy : truth y with
    | false =>
      rw [if_neg (by decide)]
      rw [hy, if_pos rfl] at hr
      refine Reach.mono hr fun u hu => ?_
      refine ⟨⟨hu.place, hu.good, rfl⟩, ?_, hbt.trans (below_mem hu.mem) (Nat.le_refl _) (Nat.le_refl _)⟩
      have := rel_below hp1.rel hp1.inv.ok (below_mem hu.mem)
      rw [x1.vars] at this
      exact this
    | true =>
      rw [if_pos rfl]
      rw [hy, if_neg (by decide)] at hr
      refine Sim.after hr fun u hu => ?_
      have hbu : Below s u (MEM_STACK + sp + 1) := hbt.trans (below_mem hu.mem) (Nat.le_refl _) (Nat.le_refl _)
      have hpu : Pos B u { s1 with code := s1.code ++ [({ code := 0x06, a := 2 ^ 32 - 1, b := d }, none)] } sp rest env :=
        hp1.move (Nat.le_refl _) ⟨0, (bump_zero _).symm⟩ (by
          show At u (s1.code ++ _).length sp rest
          rw [List.length_append]; exact hu.place) hu.good hu.mem
      have hbody := Sim.andThen (f := fun env => evalXs m env post) (ih (hp.go hpu hbu)) fun env' v hpv hbv =>
        simXs c post h3 (hb3.pre (ExtS.refl _) (by omega)) ((hp.go hpu hbu).go hpv hbv) hl
      refine (show Sim e u (Comp.andThen _ _) _ from ?_)
      unfold Comp.andThen at hbody ⊢
      refine hbody.bind fun r v hv => ?_
      obtain ⟨env', q⟩ := r
      cases q with
      | some z => exact Sim.ok (Returned.from (show Returned B u sp rest z v from hv) (hbu.mono (by omega)))
      | none =>
        obtain ⟨hv1, hv2⟩ := hv
        refine Sim.after (reach_jump (e := e) hv1.good hv1.place he rfl bit0.1) fun w hw => ?_
        have hbw : Below s w (MEM_STACK + sp + 1) :=
          (hbu.trans hv2 (Nat.le_refl _) (Nat.le_refl _)).trans (below_mem hw.mem) (Nat.le_refl _) (Nat.le_refl _)
        obtain ⟨nb, hnb⟩ := noDecl_vars k body hn _ _ _ h2
        have hvars : s3.frames.map (·.vars) = st.frames.map (·.vars) := by
          rw [x3.vars, hnb, bump_vars]; exact x1.vars
        have hpw : Pos B w st sp rest env' := by
          refine ⟨hw.place, hw.good, hp.inv, ?_⟩
          rw [← hvars]
          exact rel_below hv1.rel hv1.inv.ok (below_mem hw.mem)
        refine (simLoop c h1 h2 h3 hb1 hb3 hj he hn hl ih i (hp.go hpw hbw)).mono fun r q hq => ?_
        obtain ⟨env'', o⟩ := r
        cases o with
        | none => exact ⟨hq.1, hq.2.1, hbw.trans hq.2.2 (Nat.le_refl _) (Nat.le_refl _)⟩
        | some z => exact Returned.from (show Returned B w sp rest z q from hq) (hbw.mono (by omega))

/-- The code of a statement. -/
theorem simS (c : Ctx e B k m) (n : Nat) : ∀ (b : Stmt E Ex) {st st' : CSt} {env : Vars} {s : Eng} {sp : Nat} {rest : List VM.Frame},
    cStmtG (treeSubs k) b st = .ok ((), st') → InB B st.code.length st' → PosS B s st sp rest env →
    (k.ltr = false ∨ b.plainAsserts = true) → Sim e s (evalS m n b env) (PostS B s st' sp rest)
  | .skip, st, st', env, s, sp, rest, h, hb, hp, _ => by
    rw [cStmtG] at h
    cases CM.pure_eq.1 h
    exact Sim.ok ⟨hp.toPos, Below.refl _ _⟩
  | .seq a b, st, st', env, s, sp, rest, h, hb, hp, hl => by
    rw [cStmtG] at h
    obtain ⟨_, s1, h1, h2⟩ := CM.bind_eq.1 h
    have x1 := KeepsS.cStmt k a _ _ _ h1
    have x2 := KeepsS.cStmt k b _ _ _ h2
    have hl' : (k.ltr = false ∨ a.plainAsserts = true) ∧ (k.ltr = false ∨ b.plainAsserts = true) := by
      rcases hl with h | h
      · exact ⟨.inl h, .inl h⟩
      · rw [Stmt.plainAsserts, Bool.and_eq_true] at h; exact ⟨.inr h.1, .inr h.2⟩
    rw [evalS]
    exact Sim.andThen (simS c n a h1 (hb.pre x2 (Nat.le_refl _)) hp hl'.1) fun env' t hpt hbt =>
      simS c n b h2 (hb.pre (ExtS.refl _) x1.code.length_le) (hp.go hpt hbt) hl'.2
  | .decl q x init, st, st', env, s, sp, rest, h, hb, hp, _ => by
    rw [cStmtG] at h
    exact simDecl c q x init h hb hp
  | .expr x, st, st', env, s, sp, rest, h, hb, hp, hl => by
    rw [cStmtG] at h
    obtain ⟨v, s1, h1, h2⟩ := CM.bind_eq.1 h
    cases CM.pure_eq.1 h2
    have h1 : compX k x st = .ok (v, st') := checked_ok h1
    rw [evalS]
    exact simX c x h1 hb hp hl
  | .ite cond a, st, st', env, s, sp, rest, h, hb, hp, hl => by
    rw [evalS]
    by_cases hn : a.noDecl = true
    · rw [if_pos hn]
      obtain ⟨d, s1, s2, h1, h2, h3⟩ := ite_ok h
      have x1 := Keeps.cCond k cond _ _ _ h1
      have x2 := KeepsS.cStmt k a _ _ _ h2
      have l2 := x2.code.length_le
      rw [List.length_append, List.length_singleton] at l2
      have hget := prefix_get x2.code (get_last _ _)
      obtain ⟨i, lk, h4, rfl⟩ := patch_ok h3
      rw [hget] at h4
      cases h4
      have l1 := x1.code.length_le
      have hj := hb.code.atset l1 (by omega)
      have hb1 : InB B st.code.length s1 :=
        ⟨hb.code.pre (prefix_set (((Ext.code_append s1 _).toS.trans x2).code) (Nat.le_refl _)) (Nat.le_refl _),
          x2.consts.trans hb.consts⟩
      have hb2 : InB B (s1.code.length + 1) s2 := ⟨hb.code.unset (by omega) (by omega), hb.consts⟩
      refine (simCond c h1 hb1 hp.toPos).bind fun y t ht => ?_
      have hpos := hp.inv.pos
      have hp1 := hp.toPos.next x1 ht.toGone
      have hbt : Below s t (MEM_STACK + sp + 1) := ht.below.mono (by omega)
      have hr := sim_branch (e := e) c hj ht
      cases hy : truth y with
      | true =>
        rw [if_pos rfl]
        rw [hy, if_neg (by decide)] at hr
        refine Sim.after hr fun u hu => ?_
        have hbu : Below s u (MEM_STACK + sp + 1) := hbt.trans (below_mem hu.mem) (Nat.le_refl _) (Nat.le_refl _)
        have hpu : Pos B u { s1 with code := s1.code ++ [({ code := 0x06, a := 2 ^ 32 - 1, b := d }, none)] } sp rest env :=
          hp1.move (Nat.le_refl _) ⟨0, (bump_zero _).symm⟩ (by
            show At u (s1.code ++ _).length sp rest
            rw [List.length_append]; exact hu.place) hu.good hu.mem
        refine (simS c n a h2 (by rw [List.length_append]; exact hb2) (hp.go hpu hbu) hl).mono fun r q hq => ?_
        obtain ⟨env', o⟩ := r
        cases o with
        | some z => exact Returned.from (show Returned B u sp rest z q from hq) (hbu.mono (by omega))
        | none =>
          obtain ⟨q1, q2⟩ := hq
          exact ⟨q1.move (Nat.le_refl _) ⟨0, (bump_zero _).symm⟩ (by
            show At q (s2.code.set _ _).length sp rest
            rw [List.length_set]; exact q1.place) q1.good rfl, hbu.trans q2 (Nat.le_refl _) (Nat.le_refl _)⟩
      | false =>
        rw [if_neg (by decide)]
        rw [hy, if_pos rfl] at hr
        refine Reach.mono hr fun u hu => ?_
        obtain ⟨nb, hnb⟩ := noDecl_vars k a hn _ _ _ h2
        exact ⟨hp1.move x2.consts.length_le ⟨nb, hnb⟩ (by
            show At u (s2.code.set _ _).length sp rest
            rw [List.length_set]; exact hu.place) hu.good hu.mem,
          hbt.trans (below_mem hu.mem) (Nat.le_refl _) (Nat.le_refl _)⟩
    · rw [if_neg hn]; trivial
  | .iteElse cond a b, st, st', env, s, sp, rest, h, hb, hp, hl => by
    have hl' : (k.ltr = false ∨ a.plainAsserts = true) ∧ (k.ltr = false ∨ b.plainAsserts = true) := by
      rcases hl with h | h
      · exact ⟨.inl h, .inl h⟩
      · rw [Stmt.plainAsserts, Bool.and_eq_true] at h; exact ⟨.inr h.1, .inr h.2⟩
    rw [evalS]
    by_cases hn : (a.noDecl && b.noDecl) = true
    · rw [if_pos hn]
      rw [Bool.and_eq_true] at hn
      obtain ⟨d, s1, s2, s3, s4, h1, h2, h3, h4, h5⟩ := iteElse_ok h
      have x1 := Keeps.cCond k cond _ _ _ h1
      have x2 := KeepsS.cStmt k a _ _ _ h2
      have x4 := KeepsS.cStmt k b _ _ _ h4
      have l1 := x1.code.length_le
      have l2 := x2.code.length_le
      rw [List.length_append, List.length_singleton] at l2
      have hget := prefix_get (x2.code.trans (List.prefix_append s2.code [(({ code := 0x04, a := 2 ^ 32 - 1 } : Instr), (none : Option Name))])) (get_last _ _)
      obtain ⟨i, lk, h6, e3⟩ := patch_ok h3
      rw [hget] at h6
      cases h6
      have l4 := x4.code.length_le
      have hlen3 : s3.code.length = s2.code.length + 1 := by rw [e3]; simp
      have hget2 : s4.code[s2.code.length]? = some ({ code := 0x04, a := 2 ^ 32 - 1 }, none) := by
        refine prefix_get x4.code ?_
        rw [e3]
        show (List.set _ _ _)[_]? = _
        rw [List.getElem?_set_ne (by omega)]
        exact get_last _ _
      obtain ⟨i, lk, h7, e5⟩ := patch_ok h5
      rw [hget2] at h7
      cases h7
      have hb' : InB B st.code.length { s4 with code := s4.code.set s2.code.length ({ code := 0x04, a := s4.code.length }, none) } := e5 ▸ hb
      have hskip := hb'.code.atset (by omega) (by omega)
      have hb4 : InB B (s2.code.length + 1) s4 := ⟨hb'.code.unset (by omega) (by omega), hb'.consts⟩
      -- what comes before the second part is in the binary too, but for the jump over it
      have hb3 : Emb B st.code.length (s2.code.set s1.code.length ({ code := 0x06, a := s2.code.length + 1, b := d }, none)) := by
        intro j y hj hy
        have hj2 : j < s2.code.length := by
          rcases Nat.lt_or_ge j s2.code.length with h | h
          · exact h
          · rw [List.getElem?_eq_none (by rw [List.length_set]; exact h)] at hy; cases hy
        refine hb'.code j y hj ?_
        show (List.set _ _ _)[_]? = _
        rw [List.getElem?_set_ne (by omega)]
        refine prefix_get x4.code ?_
        rw [e3]
        show (List.set _ _ _)[_]? = _
        by_cases hjj : j = s1.code.length
        · subst hjj
          rw [List.getElem?_set_self (by omega)] at hy
          rw [List.getElem?_set_self (by simp; omega)]
          exact hy
        · rw [List.getElem?_set_ne (by omega)] at hy
          rw [List.getElem?_set_ne (by omega), List.getElem?_append_left hj2]
          exact hy
      have hj := hb3.atset l1 (by omega)
      have hc3 : s3.consts = s2.consts := by rw [e3]
      have hf3 : s3.frames = s2.frames := by rw [e3]
      have hcons2 : s2.consts <+: B.consts := hc3 ▸ x4.consts.trans hb'.consts
      have hb1 : InB B st.code.length s1 :=
        ⟨hb3.pre (prefix_set (((Ext.code_append s1 _).toS.trans x2).code) (Nat.le_refl _)) (Nat.le_refl _),
          x2.consts.trans hcons2⟩
      have hb2 : InB B (s1.code.length + 1) s2 := ⟨hb3.unset (by omega) (by omega), hcons2⟩
      have hlen' : st'.code.length = s4.code.length := by rw [e5]; simp
      have hc' : st'.consts = s4.consts := by rw [e5]
      have hf' : st'.frames = s4.frames := by rw [e5]
      refine (simCond c h1 hb1 hp.toPos).bind fun y t ht => ?_
      have hpos := hp.inv.pos
      have hp1 := hp.toPos.next x1 ht.toGone
      have hbt : Below s t (MEM_STACK + sp + 1) := ht.below.mono (by omega)
      have hr := sim_branch (e := e) c hj ht
      obtain ⟨nb, hnb⟩ := noDecl_vars k a hn.1 _ _ _ h2
      obtain ⟨nb', hnb'⟩ := noDecl_vars k b hn.2 _ _ _ h4
      cases hy : truth y with
      | true =>
        rw [if_pos rfl]
        rw [hy, if_neg (by decide)] at hr
        refine Sim.after hr fun u hu => ?_
        have hbu : Below s u (MEM_STACK + sp + 1) := hbt.trans (below_mem hu.mem) (Nat.le_refl _) (Nat.le_refl _)
        have hpu : Pos B u { s1 with code := s1.code ++ [({ code := 0x06, a := 2 ^ 32 - 1, b := d }, none)] } sp rest env :=
          hp1.move (Nat.le_refl _) ⟨0, (bump_zero _).symm⟩ (by
            show At u (s1.code ++ _).length sp rest
            rw [List.length_append]; exact hu.place) hu.good hu.mem
        have hsim := simS c n a h2 (by rw [List.length_append]; exact hb2) (hp.go hpu hbu) hl'.1
        have hfin : ∀ r q, PostS B u s2 sp rest r q → Reach e q (PostS B s st' sp rest r) := by
          intro r q hq
          obtain ⟨env', o⟩ := r
          cases o with
          | some z => exact .now (Returned.from (show Returned B u sp rest z q from hq) (hbu.mono (by omega)))
          | none =>
            obtain ⟨q1, q2⟩ := hq
            refine (reach_jump (e := e) q1.good q1.place hskip rfl bit0.1).mono fun w hw => ?_
            refine ⟨q1.move (by rw [hc', ← hc3]; exact x4.consts.length_le) ⟨nb', by rw [hf', hnb', hf3]⟩
              (by rw [hlen']; exact hw.place) hw.good hw.mem, ?_⟩
            exact (hbu.trans q2 (Nat.le_refl _) (Nat.le_refl _)).trans (below_mem hw.mem) (Nat.le_refl _) (Nat.le_refl _)
        have := hsim.bind (f := fun r => some (.ok r)) (Q := PostS B s st' sp rest) fun r q hq => hfin r q hq
        have heq : evb (evalS m n a env) (fun r => some (.ok r)) = evalS m n a env := by
          cases evalS m n a env with
          | none => rfl
          | some r => cases r <;> rfl
        rw [heq] at this
        exact this
      | false =>
        rw [if_neg (by decide)]
        rw [hy, if_pos rfl] at hr
        refine Sim.after hr fun u hu => ?_
        have hbu : Below s u (MEM_STACK + sp + 1) := hbt.trans (below_mem hu.mem) (Nat.le_refl _) (Nat.le_refl _)
        have hpu : Pos B u s3 sp rest env :=
          hp1.move (by rw [hc3]; exact x2.consts.length_le) ⟨nb, by rw [hf3]; exact hnb⟩ (by rw [hlen3]; exact hu.place) hu.good hu.mem
        refine (simS c n b h4 (by rw [hlen3]; exact hb4) (hp.go hpu hbu) hl'.2).mono fun r q hq => ?_
        obtain ⟨env', o⟩ := r
        cases o with
        | some z => exact Returned.from (show Returned B u sp rest z q from hq) (hbu.mono (by omega))
        | none =>
          obtain ⟨q1, q2⟩ := hq
          exact ⟨q1.move (by rw [hc']; exact Nat.le_refl _) ⟨0, by rw [hf', bump_zero]⟩ (by rw [hlen']; exact q1.place) q1.good rfl,
            hbu.trans q2 (Nat.le_refl _) (Nat.le_refl _)⟩
    · rw [if_neg hn]; trivial
  | .loop cond a p, st, st', env, s, sp, rest, h, hb, hp, hl => by
    have hl' : (k.ltr = false ∨ a.plainAsserts = true) ∧ (k.ltr = false ∨ p.all Ex.plainAssert = true) := by
      rcases hl with h | h
      · exact ⟨.inl h, .inl h⟩
      · rw [Stmt.plainAsserts, Bool.and_eq_true] at h; exact ⟨.inr h.1, .inr h.2⟩
    rw [evalS]
    by_cases hn : a.noDecl = true
    · rw [if_pos hn]
      obtain ⟨d, s1, s2, s3, h1, h2, h3, h4⟩ := loop_ok h
      have x1 := Keeps.cCond k cond _ _ _ h1
      have x2 := KeepsS.cStmt k a _ _ _ h2
      have x3 := Keeps.cExprs k p _ _ _ h3
      have l1 := x1.code.length_le
      have l2 := x2.code.length_le
      have l3 := x3.code.length_le
      rw [List.length_append, List.length_singleton] at l2
      have x03 := (Ext.code_append s1 [(({ code := 0x06, a := 2 ^ 32 - 1, b := d } : Instr), (none : Option Name))]).toS.trans (x2.trans x3.toS)
      have hget := prefix_get ((x2.code.trans x3.code).trans (List.prefix_append s3.code [(({ code := 0x04, a := st.code.length } : Instr), (none : Option Name))])) (get_last _ _)
      obtain ⟨i, lk, h6, rfl⟩ := patch_ok h4
      rw [hget] at h6
      cases h6
      have hj := hb.code.atset l1 (by rw [List.length_append]; omega)
      have hb1 : InB B st.code.length s1 :=
        ⟨hb.code.pre (prefix_set (x03.code.trans (List.prefix_append _ _)) (Nat.le_refl _)) (Nat.le_refl _),
          x03.consts.trans hb.consts⟩
      have hemb : Emb B (s1.code.length + 1) (s3.code ++ [({ code := 0x04, a := st.code.length }, none)]) := hb.code.unset (by omega) (by omega)
      have hend := hemb.last (by omega)
      have hb3 : InB B (s1.code.length + 1) s3 := ⟨hemb.pre (List.prefix_append _ _) (Nat.le_refl _), hb.consts⟩
      have hb2 : InB B (s1.code.length + 1) s2 := hb3.pre x3.toS (Nat.le_refl _)
      refine (simLoop c h1 h2 h3 hb1 hb3 hj hend hn hl'.2
        (fun hq => simS c n a h2 (by rw [List.length_append]; exact hb2) hq hl'.1) n hp).mono fun r q hq => ?_
      obtain ⟨env', o⟩ := r
      cases o with
      | some z => exact hq
      | none =>
        obtain ⟨q1, q2, q3⟩ := hq
        obtain ⟨nb, hnb⟩ := noDecl_vars k a hn _ _ _ h2
        have hp0 : Pos B { q with frames := ⟨st.code.length, sp⟩ :: rest } st sp rest env' :=
          ⟨⟨rfl, hp.place.sp, hp.place.depth⟩, q1.good.frames _, hp.inv, rel_below q2 hp.inv.ok (below_mem rfl)⟩
        obtain ⟨n1, e1⟩ := x1.frames
        obtain ⟨n3, e3⟩ := x3.frames
        exact ⟨hp0.move (Nat.le_trans x1.consts.length_le x03.consts.length_le)
          ⟨n1 + (nb + n3), by show s3.frames = _; rw [e3, hnb, e1, bump_bump, bump_bump]⟩ (by
            show At q (List.set _ _ _).length sp rest
            rw [List.length_set, List.length_append]; exact q1.place) q1.good rfl, q3⟩
    · rw [if_neg hn]; trivial
  | .scope a, st, st', env, s, sp, rest, h, hb, hp, hl => by
    obtain ⟨s1, f, l, h1, h2, rfl⟩ := scope_ok h
    have x1 := KeepsS.cStmt k a _ _ _ h1
    obtain ⟨rfl, x2⟩ := ExtS.scope x1 h2
    have h1 : cStmtG (treeSubs k) a { st with frames := { off := offOf st.frames, vars := [] } :: st.frames } = .ok ((), s1) := by
      rw [← h1]; unfold offOf; cases st.frames <;> rfl
    have hp' : PosS B s { st with frames := { off := offOf st.frames, vars := [] } :: st.frames } sp rest ([] :: env) := by
      refine ⟨⟨hp.place, hp.good, ⟨hp.inv.pos, hp.inv.pos, Nat.le_refl _, ?_, hp.inv.ok.apart, hp.inv.ok⟩, ?_⟩, hp.result⟩
      · intro v hv; cases hv
      · exact ⟨trivial, hp.rel⟩
    rw [evalS]
    refine (simS c n a h1 ⟨hb.code, hb.consts⟩ hp' hl).bind fun r q hq => Sim.ok ?_
    obtain ⟨env', o⟩ := r
    cases o with
    | some z => exact hq
    | none =>
      obtain ⟨q1, q2⟩ := hq
      have hrel := q1.rel
      rw [h2] at hrel
      cases env' with
      | nil => exact hrel.elim
      | cons c0 env' =>
        exact ⟨⟨q1.place, q1.good, ⟨hp.inv.pos, hp.inv.ok.mono x1.consts.length_le⟩, hrel.2⟩, q2⟩

end

end Verif.Comp
