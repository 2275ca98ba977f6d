import Verif.Compile.SimExpr
/-
  The code of a statement does what the statement says.
-/
namespace Verif.Comp
open Verif Verif.VM
open Verif.Codec (Bytes)

/-- In a function that has not returned: null is where its result will be. -/
structure PosS (B : Binary) (s : Eng) (st : CSt) (sp : Nat) (rest : List VM.Frame) (env : Vars) : Prop
    extends Pos B s st sp rest env where
  result : Has s (MEM_STACK + sp) .nil

/-- After a statement: past its code, or back from the function. -/
def PostS (B : Binary) (s : Eng) (st' : CSt) (sp : Nat) (rest : List VM.Frame) : Vars × Option Val → Eng → Prop
  | (env, none), t => Pos B t st' sp rest env ∧ Below s t (MEM_STACK + sp + 1)
  | (_, some v), t => Returned B s sp rest v t

theorem Returned.from {B : Binary} {s t u : Eng} {sp : Nat} {rest : List VM.Frame} {v : Val} (h : Returned B t sp rest v u)
    (hb : Below s t (MEM_STACK + sp)) : Returned B s sp rest v u :=
  ⟨h.good, h.frames, hb.trans h.below (Nat.le_refl _) (Nat.le_refl _), h.has, h.scalar⟩

theorem PostS.from {B : Binary} {s t u : Eng} {st' : CSt} {sp : Nat} {rest : List VM.Frame} {r : Vars × Option Val}
    (h : PostS B t st' sp rest r u) (hb : Below s t (MEM_STACK + sp + 1)) : PostS B s st' sp rest r u := by
  obtain ⟨env, r⟩ := r
  cases r with
  | none => exact ⟨h.1, hb.trans h.2 (Nat.le_refl _) (Nat.le_refl _)⟩
  | some v => exact Returned.from h (hb.mono (by omega))

theorem PosS.go {B : Binary} {s t : Eng} {st st' : CSt} {sp : Nat} {rest : List VM.Frame} {env env' : Vars}
    (h : PosS B s st sp rest env) (hp : Pos B t st' sp rest env') (hb : Below s t (MEM_STACK + sp + 1)) :
    PosS B t st' sp rest env' := ⟨hp, hb.has (by omega) h.result⟩

/-- Other code, the same variables. -/
theorem Pos.move {B : Binary} {s t : Eng} {st st' : CSt} {sp : Nat} {rest : List VM.Frame} {env : Vars}
    (h : Pos B s st sp rest env) (hc : st.consts.length ≤ st'.consts.length) (hf : ∃ n, st'.frames = bump n st.frames)
    (ha : At t st'.code.length sp rest) (hg : Good B t) (hm : t.mem = s.mem) : Pos B t st' sp rest env := by
  obtain ⟨n, hn⟩ := hf
  refine ⟨ha, hg, ⟨?_, ?_⟩, ?_⟩
  · rw [hn]; exact Nat.le_trans h.inv.pos (offOf_bump n _)
  · rw [hn]; exact (h.inv.ok.mono hc).bump
  · rw [hn, bump_vars]
    exact rel_below h.rel h.inv.ok (fun a _ => by rw [hm])

theorem below_mem {s t : Eng} {x : Nat} (h : t.mem = s.mem) : Below s t x := fun a _ => by rw [h]

section
variable {e : Env} {B : Binary} {k : Cfg} {m : Sem}

theorem emits_code (k : Cfg) : ∀ (x : E) {st st' : CSt} {v : VRef}, x.emits = false → compE k x st = .ok (v, st') → st'.code = st.code
  | .const x, st, st', v, _, h => by
    rw [compE] at h
    obtain ⟨a, h1, _⟩ := nodeConst_ok h
    obtain ⟨_, rfl, _⟩ := constAddr_ok h1; rfl
  | .var x, st, st', v, _, h => by rw [compE] at h; rw [(nodeIdent_ok h).1]
  | .paren a, st, st', v, hx, h => by
    rw [compE] at h
    obtain ⟨r, s1, h1, h3⟩ := CM.bind_eq.1 h
    obtain ⟨_, s2, h4, h5⟩ := CM.bind_eq.1 h3
    obtain ⟨_, _, rfl⟩ := checkValue_ok h4
    cases CM.pure_eq.1 h5
    exact emits_code k a hx h1
  | .bin .., _, _, _, h, _ => by cases h
  | .shift .., _, _, _, h, _ => by cases h
  | .not .., _, _, _, h, _ => by cases h
  | .bnot .., _, _, _, h, _ => by cases h
  | .call .., _, _, _, h, _ => by cases h

theorem checked_ok {c : CM VRef} {st st' : CSt} {v : VRef} (h : checked c st = .ok (v, st')) : c st = .ok (v, st') := by
  unfold checked at h
  obtain ⟨r, s1, h1, h3⟩ := CM.bind_eq.1 h
  obtain ⟨_, s2, h4, h5⟩ := CM.bind_eq.1 h3
  obtain ⟨_, _, rfl⟩ := checkValue_ok h4
  cases CM.pure_eq.1 h5
  exact h1

theorem findVar_vars (x : Name) : ∀ {l l' : List Frame}, l.map (·.vars) = l'.map (·.vars) → findVar x l = findVar x l'
  | [], [], _ => rfl
  | [], _ :: _, h => by cases h
  | _ :: _, [], h => by cases h
  | g :: l, g' :: l', h => by
    simp only [List.map_cons, List.cons.injEq] at h
    simp only [findVar]
    rw [h.1, findVar_vars x h.2]

/-- A variable gets a new value. -/
theorem put_pos {s t : Eng} {st st' : CSt} {sp : Nat} {rest : List VM.Frame} {env : Vars} {x : Name} {w : Var} {v : Val}
    (hp : Pos B s st sp rest env) (he : Ext st st') (hfind : findVar x st.frames = some w) (hs : MEM_STACK < w.address)
    (hw : Wrote B s st'.code.length sp rest (ab sp w.address) v t) :
    Pos B t st' sp rest (put x v env) ∧ Below s t (MEM_STACK + sp + 1) := by
  refine ⟨⟨hw.place, hw.good, hp.inv.ext he, ?_⟩, ?_⟩
  · rw [he.vars]
    exact rel_put (Nat.le_of_lt hs) hw.has hw.scalar hw.other hp.rel hp.inv.ok.apart hfind
  · intro a ha
    rw [hw.other a (by rw [ab_stack (Nat.le_of_lt hs)]; omega)]

/-- What an assignment means, when the name is that of a variable that can be changed. -/
theorem update_sim {s : Eng} {st : CSt} {sp : Nat} {rest : List VM.Frame} {env : Vars} {x : Name} {f : Val → Res Val}
    {Q : Vars × Option Val → Eng → Prop} (hp : Pos B s st sp rest env)
    (h : ∀ w y, findVar x st.frames = some w → w.isConst = false → MEM_STACK < w.address →
      AddrOk st.consts.length (offOf st.frames) w.address → Has s (ab sp w.address) y → Scalar y →
      Sim e s (some (f y)) (fun v t => Q (put x v env, none) t)) : Sim e s (update env x f) Q := by
  unfold update
  rcases rel_find x hp.rel with ⟨h2, h3⟩ | ⟨w, y, h2, h3, h4, h5, h6⟩
  · simp only [h3]; trivial
  · simp only [h3]
    cases hc : w.isConst with
    | true => trivial
    | false =>
      have hok := hp.inv.ok.all w h4
      have hs : MEM_STACK < w.address := by
        rcases hok with h | h
        · rw [hc] at h; cases h.1
        · exact h.1
      dsimp only
      have := h w y h2 hc hs hok.addr h5 h6
      refine this.bind fun v t hv => Sim.ok hv

theorem ident_var {st st' : CSt} {x : Name} {w : Var} {v : VRef} (h : nodeIdent k x none st = .ok (v, st'))
    (hf : findVar x st.frames = some w) :
    st' = st ∧ v = { isConst := w.isConst, address := some w.address, name := true } := by
  obtain ⟨h1, h2⟩ := nodeIdent_ok h
  refine ⟨h1, ?_⟩
  rcases h2 with ⟨w', h7, rfl⟩ | ⟨h7, _⟩ | ⟨h7, _⟩
  · rw [hf] at h7; cases h7; rfl
  · rw [hf] at h7; cases h7
  · rw [hf] at h7; cases h7

theorem flags_math (k : Cfg) (up : Bool) : (BinOp.flags k (if up then .add else .sub)) = mathFlags k := by cases up <;> rfl
theorem code_incdec (up : Bool) : (BinOp.code (if up then .add else .sub)) = if up = true then 0x20 else 0x21 := by cases up <;> rfl

/-- `++` and `--`: one added to or taken from what is at `b`. -/
theorem sim_one (c : Ctx e B k m) {up : Bool} {st st1 : CSt} {one : Nat} (h1 : constAddr (.uint 1) st = .ok (one, st1))
    (hc : st1.consts <+: B.consts) {s : Eng} {sp ip : Nat} {rest : List VM.Frame} (ha : At s ip sp rest) (hg : Good B s)
    {a b : Nat} (hs : MEM_STACK ≤ a)
    (hi : B.code[ip]? = some { code := if up = true then 0x20 else 0x21, flags := mathFlags k, a := a, b := b, c := one })
    {y : Val} (hb : Has s (ab sp b) y) (hsc : Scalar y) :
    Sim e s (some (binVal m.catchOvf (if up then .add else .sub) y (.uint 1))) (Wrote B s (ip + 1) sp rest (ab sp a)) := by
  obtain ⟨_, _, o1, o2⟩ := const_at c.fits h1 hc hg sp
  obtain ⟨fA, fB, fC, _⟩ := fits_of c.fits hi
  have hans := ans_plain (e := e) (k := k) (o := if up then .add else .sub) (out := a) (b := b) (c := one) c.version
    ((ha.room hg).gas (g := s.gas + INSTR_COST)) hs fA fB fC hb.gas o1.gas hsc o2
  rw [flags_math, code_incdec, ← c.ovf] at hans
  refine sim_ans c.fits hg ha hi ?_ (by rw [ab_stack hs]; omega) hans
  rw [← code_incdec]; exact ord_code _

/-- The code of an expression that stands alone. -/
theorem simX (c : Ctx e B k m) (x : Ex) {st st' : CSt} {v : VRef} {env : Vars} {s : Eng} {sp : Nat} {rest : List VM.Frame}
    (h : compX k x st = .ok (v, st')) (hb : InB B st.code.length st') (hp : PosS B s st sp rest env)
    (hltr : k.ltr = false ∨ x.plainAssert = true) : Sim e s (evalX m env x) (PostS B s st' sp rest) := by
  cases x with
  | val x =>
    rw [compX] at h
    rw [evalX]
    have x1 := Keeps.compE k x _ _ _ h
    refine (simE c x h hb hp.toPos).bind fun y t ht => Sim.ok ?_
    exact ⟨hp.toPos.next x1 ht.toGone, ht.below.mono (by have := hp.inv.pos; omega)⟩
  | set x a =>
    rw [compX] at h
    obtain ⟨l, s1, h1, k1⟩ := CM.bind_eq.1 h
    obtain ⟨_, s2, h2, k2⟩ := CM.bind_eq.1 k1
    obtain ⟨_, e2⟩ := chk_eq.1 h2
    cases e2
    obtain ⟨r, s3, h3, h4⟩ := CM.bind_eq.1 k2
    obtain ⟨e1, _⟩ := nodeIdent_ok h1
    rw [e1] at h3
    have x1 := Keeps.compE k a _ _ _ h3
    have x2 := Keeps.copy _ _ _ _ _ h4
    rw [evalX]
    refine (simE c a h3 (hb.pre x2.toS (Nat.le_refl _)) hp.toPos).bind fun y t ht => ?_
    have hp1 := hp.toPos.next x1 ht.toGone
    refine update_sim hp1 fun w y' f1 f2 f3 f4 f5 f6 => ?_
    have f1' : findVar x st.frames = some w := by rw [← findVar_vars x x1.vars]; exact f1
    obtain ⟨_, rfl⟩ := ident_var h1 f1'
    obtain ⟨b, b1, b2, b3⟩ := ht.is.has
    obtain ⟨_, hr⟩ := sim_copy (e := e) c.fits h4 (hb.code.pre (List.prefix_refl _) x1.code.length_le) hp1.place hp1.good rfl
      (Nat.le_of_lt f3) b1 b3 ht.is.scalar
    refine Reach.mono hr fun u hu => ?_
    obtain ⟨g1, g2⟩ := put_pos hp1 x2 f1 f3 hu
    exact ⟨g1, (ht.below.mono (by have := hp.inv.pos; omega)).trans g2 (Nat.le_refl _) (Nat.le_refl _)⟩
  | asg o x a =>
    rw [compX] at h
    obtain ⟨l, s1, h1, k1⟩ := CM.bind_eq.1 h
    obtain ⟨r, s3, h3, h4⟩ := CM.bind_eq.1 k1
    obtain ⟨e1, h1'⟩ := nodeIdent_ok h1
    rw [e1] at h3
    have x1 := Keeps.compE k a _ _ _ h3
    have x2 := Keeps.treeAsg _ _ _ _ _ _ _ h4
    rw [evalX]
    refine (simE c a h3 (hb.pre x2.toS (Nat.le_refl _)) hp.toPos).bind fun y t ht => ?_
    have hp1 := hp.toPos.next x1 ht.toGone
    refine update_sim hp1 fun w y' f1 f2 f3 f4 f5 f6 => ?_
    have f1' : findVar x st.frames = some w := by rw [← findVar_vars x x1.vars]; exact f1
    obtain ⟨_, rfl⟩ := ident_var h1 f1'
    unfold treeAsg at h4
    obtain ⟨b, s4, h5, k5⟩ := CM.bind_eq.1 h4
    obtain ⟨_, _, rfl, e4⟩ := get_ok h5
    rw [e4] at k5
    obtain ⟨i, s5, h6, k6⟩ := CM.bind_eq.1 k5
    obtain ⟨_, s6, h7, k7⟩ := CM.bind_eq.1 k6
    obtain ⟨_, _, e6⟩ := checkValue_ok h7
    rw [e6] at k7
    obtain ⟨_, s7, h8, k8⟩ := CM.bind_eq.1 k7
    cases emit_ok h8
    cases CM.pure_eq.1 k8
    have hcode : s5.code = s3.code := by
      rcases select_ok h6 with ⟨_, _, _, _, rfl⟩ | ⟨_, _, _, _, hc, _⟩ | ⟨_, rfl⟩
      · rfl
      · obtain ⟨_, rfl, _⟩ := constAddr_ok hc; rfl
      · rfl
    have hi := hb.code
    dsimp only at hi
    rw [hcode] at hi
    have hi := (hi.pre (List.prefix_refl _) x1.code.length_le).last (Nat.le_refl _)
    obtain ⟨ho, hans⟩ := sel_ans c h6 hb.consts hp1.good hp1.place (Nat.le_of_lt f3) hi f5 (addrOf_is ht.is).2 f6 ht.is.scalar
    refine (sim_ans c.fits hp1.good hp1.place hi ho (by
      show MEM_STACK ≤ ab sp w.address
      rw [ab_stack (Nat.le_of_lt f3)]; omega) hans).mono fun z u hu => ?_
    have hu' : Wrote B t (s5.code ++ [(({ code := i.code, flags := i.flags, a := w.address, b := w.address, c := i.rhs } : Instr), (none : Option Name))]).length sp rest (ab sp w.address) z u := by
      rw [List.length_append, hcode]; exact hu
    obtain ⟨g1, g2⟩ := put_pos hp1 x2 f1 f3 hu'
    exact ⟨g1, (ht.below.mono (by have := hp.inv.pos; omega)).trans g2 (Nat.le_refl _) (Nat.le_refl _)⟩
  | inc up post x =>
    rw [evalX]
    refine update_sim hp.toPos fun w y f1 f2 f3 f4 f5 f6 => ?_
    cases post with
    | false =>
      rw [compX] at h
      obtain ⟨l, s1, h1, k1⟩ := CM.bind_eq.1 h
      obtain ⟨e1, rfl⟩ := ident_var h1 f1
      rw [e1] at k1
      have x2 := Keeps.treePre _ _ _ _ _ _ k1
      unfold treePre at k1
      obtain ⟨_, s2, h2, k2⟩ := CM.bind_eq.1 k1
      obtain ⟨_, e2⟩ := chk_eq.1 h2
      cases e2
      obtain ⟨one, s3, h3, k3⟩ := CM.bind_eq.1 k2
      obtain ⟨_, s4, h4, k4⟩ := CM.bind_eq.1 k3
      have e4 := emit_ok h4
      obtain ⟨_, s5, h5, k5⟩ := CM.bind_eq.1 k4
      cases CM.pure_eq.1 k5
      obtain ⟨_, _, _, _, _, _, ⟨q, _⟩ | ⟨_, e5⟩⟩ := copy_ok h5
      · exact absurd rfl q
      have hc3 : s3.code = st.code := by obtain ⟨_, rfl, _⟩ := constAddr_ok h3; rfl
      have hcode : st'.code = st.code ++ [({ code := if up = true then 0x20 else 0x21, flags := mathFlags k, a := w.address, b := w.address, c := one }, none)] := by
        rw [e5, e4, ← hc3]; rfl
      have hcons : st'.consts = s3.consts := by rw [e5, e4]
      have hi := hb.code
      rw [hcode] at hi
      have hi := hi.last (Nat.le_refl _)
      refine (sim_one c h3 (hcons ▸ hb.consts) hp.place hp.good (Nat.le_of_lt f3) hi f5 f6).mono fun z u hu => ?_
      have hu' : Wrote B s st'.code.length sp rest (ab sp w.address) z u := by
        rw [hcode, List.length_append]; exact hu
      exact put_pos hp.toPos x2 f1 f3 hu'
    | true =>
      rw [compX] at h
      obtain ⟨l, s1, h1, k1⟩ := CM.bind_eq.1 h
      obtain ⟨e1, rfl⟩ := ident_var h1 f1
      rw [e1] at k1
      have x2 := Keeps.treePost _ _ _ _ _ _ k1
      unfold treePost at k1
      obtain ⟨_, s2, h2, k2⟩ := CM.bind_eq.1 k1
      obtain ⟨_, e2⟩ := chk_eq.1 h2
      cases e2
      obtain ⟨t0, s3, h3, k3⟩ := CM.bind_eq.1 k2
      have y3 := Keeps.newAddr _ _ _ h3
      obtain ⟨f, fl, q1, rfl, q2⟩ := newAddr_ok h3
      obtain ⟨out, s4, h4, k4⟩ := CM.bind_eq.1 k3
      have y4 := Keeps.copy _ _ _ _ _ h4
      obtain ⟨one, s5, h5, k5⟩ := CM.bind_eq.1 k4
      obtain ⟨_, s6, h6, k6⟩ := CM.bind_eq.1 k5
      have e6 := emit_ok h6
      obtain ⟨_, s7, h7, k7⟩ := CM.bind_eq.1 k6
      cases CM.pure_eq.1 k7
      obtain ⟨_, _, _, _, _, _, ⟨q, _⟩ | ⟨_, e7⟩⟩ := copy_ok h7
      · exact absurd rfl q
      have hc3 : s3.code = st.code := by rw [q2]
      have hc5 : s5.code = s4.code := by obtain ⟨_, rfl, _⟩ := constAddr_ok h5; rfl
      have hoff : offOf st.frames = f.off := by rw [q1]; rfl
      have y5 := Keeps.constAddr _ _ _ _ h5
      have hb4 : Emb B st.code.length s4.code := by
        refine hb.code.pre ?_ (Nat.le_refl _)
        rw [e7, e6, ← hc5]
        exact List.prefix_append _ _
      have hp0 : At s s3.code.length sp rest := by rw [hc3]; exact hp.place
      obtain ⟨rfl, hr⟩ := sim_copy (e := e) c.fits h4 (hb4.pre (List.prefix_refl _) (by rw [hc3]; exact Nat.le_refl _)) hp0 hp.good
        (d := ref (MEM_STACK + f.off)) rfl (Nat.le_add_right _ _) rfl f5 f6
      refine Sim.after hr fun t ht => ?_
      have hab : ab sp (MEM_STACK + f.off) = MEM_STACK + f.off + sp := ab_stack (Nat.le_add_right _ _)
      have g4 : Gone B s st s4 sp rest t := ⟨ht.place, ht.good, fun a ha => ht.other a (by rw [hab]; omega)⟩
      have hp4 : Pos B t s4 sp rest env := hp.toPos.next (y3.trans y4) g4
      have hcode : st'.code = s4.code ++ [({ code := if up = true then 0x20 else 0x21, flags := mathFlags k, a := w.address, b := MEM_STACK + f.off, c := one }, none)] := by
        rw [e7, e6, ← hc5]; rfl
      have hcons : st'.consts = s5.consts := by rw [e7, e6]
      have hl4 : st.code.length ≤ s4.code.length := (y3.trans y4).code.length_le
      have hi := hb.code.pre (List.prefix_refl _) hl4
      rw [hcode] at hi
      have hi := hi.last (Nat.le_refl _)
      refine (sim_one c h5 (hcons ▸ hb.consts) ht.place ht.good (Nat.le_of_lt f3) hi ht.has f6).mono fun z u hu => ?_
      have hu' : Wrote B t st'.code.length sp rest (ab sp w.address) z u := by
        rw [hcode, List.length_append]; exact hu
      have x4 : Ext s4 st' := by
        refine y5.trans ?_
        rw [e7, e6]
        exact Ext.code_append _ _
      have f1' : findVar x s4.frames = some w := by
        have : s4.frames = { f with off := f.off + 1 } :: fl := by
          obtain ⟨_, _, _, _, _, _, ⟨_, e9⟩ | ⟨_, e9⟩⟩ := copy_ok h4 <;> rw [e9, q2]
        rw [this]
        rw [q1] at f1
        exact f1
      obtain ⟨g1, g2⟩ := put_pos hp4 x4 f1' f3 hu'
      exact ⟨g1, (g4.below.mono (by have := hp.inv.pos; omega)).trans g2 (Nat.le_refl _) (Nat.le_refl _)⟩
  | ret a =>
    cases a with
    | none =>
      rw [compX] at h
      obtain ⟨_, s1, h1, k1⟩ := CM.bind_eq.1 h
      cases emit_ok h1
      cases CM.pure_eq.1 k1
      rw [evalX]
      have hi := hb.code.last (Nat.le_refl _)
      refine Reach.mono (reach_ret (e := e) c.fits hp.good hp.place hi rfl) fun t ht => ?_
      exact ⟨ht.good, ht.frames, ht.below.mono (by omega), ht.below.has (by omega) hp.result, trivial⟩
    | some a =>
      rw [compX] at h
      obtain ⟨r, s1, h1, k1⟩ := CM.bind_eq.1 h
      obtain ⟨r', s2, h2, k2⟩ := CM.bind_eq.1 k1
      obtain ⟨_, s3, h3, k3⟩ := CM.bind_eq.1 k2
      cases emit_ok h3
      cases CM.pure_eq.1 k3
      have x1 := Keeps.compE k a _ _ _ h1
      have x2 := Keeps.copy _ _ _ _ _ h2
      have hb2 : InB B st.code.length s2 := hb.pre (Ext.code_append _ _).toS (Nat.le_refl _)
      rw [evalX]
      refine (simE c a h1 (hb2.pre x2.toS (Nat.le_refl _)) hp.toPos).bind fun y t ht => ?_
      have hp1 := hp.toPos.next x1 ht.toGone
      obtain ⟨b, b1, b2, b3⟩ := ht.is.has
      obtain ⟨_, hr⟩ := sim_copy (e := e) c.fits h2 (hb2.code.pre (List.prefix_refl _) x1.code.length_le) hp1.place hp1.good
        (d := ref MEM_STACK) rfl (Nat.le_refl _) b1 b3 ht.is.scalar
      refine Reach.trans hr fun u hu => ?_
      have hab : ab sp MEM_STACK = MEM_STACK + sp := ab_stack (Nat.le_refl _)
      have hi := (hb.code.pre (List.prefix_refl _) (x1.trans x2).code.length_le).last (Nat.le_refl _)
      refine Reach.mono (reach_ret (e := e) c.fits hu.good hu.place hi rfl) fun w hw => ?_
      refine ⟨hw.good, hw.frames, ?_, hw.below.has (by omega) (hab ▸ hu.has), hu.scalar⟩
      intro a ha
      rw [hw.below a (by omega), hu.other a (by omega), ht.below a (by omega)]
  | assert a =>
    rw [compX] at h
    have x0 := Keeps.treeAssert k a _ _ _ h
    unfold treeAssert at h
    obtain ⟨_, s1, h1, k1⟩ := CM.bind_eq.1 h
    have hjump : ∃ r s0, compE k a st = .ok (r, s0) ∧ r.func = none ∧
        s1 = { s0 with code := s0.code ++ [({ code := 0x05, a := s0.code.length + 2, b := addrOf r }, none)] } := by
      cases hl : k.ltr with
      | true =>
        simp only [hl, if_true] at h1
        obtain ⟨n, q0, c0, d0⟩ := CM.bind_eq.1 h1
        obtain ⟨rfl, rfl⟩ := here_ok c0
        obtain ⟨r, q1, c1, d1⟩ := CM.bind_eq.1 d0
        have c1 := checked_ok c1
        obtain ⟨b, q2, c2, d2⟩ := CM.bind_eq.1 d1
        obtain ⟨c3, _, rfl, e3⟩ := get_ok c2
        rw [e3] at d2
        have hx : a.emits = false := by
          rcases hltr with h | h
          · rw [hl] at h; cases h
          · simpa [Ex.plainAssert] using h
        have hcode := emits_code k a hx c1
        refine ⟨r, q1, c1, c3, ?_⟩
        rw [emit_ok d2, hcode]
      | false =>
        simp only [hl, Bool.false_eq_true, if_false] at h1
        obtain ⟨r, q1, c1, d1⟩ := CM.bind_eq.1 h1
        have c1 := checked_ok c1
        obtain ⟨b, q2, c2, d2⟩ := CM.bind_eq.1 d1
        obtain ⟨c3, _, rfl, e3⟩ := get_ok c2
        rw [e3] at d2
        obtain ⟨n, q3, c4, d4⟩ := CM.bind_eq.1 d2
        obtain ⟨rfl, e5⟩ := here_ok c4
        rw [e5] at d4
        exact ⟨r, q1, c1, c3, emit_ok d4⟩
    obtain ⟨r, s0, h0, _, e1⟩ := hjump
    obtain ⟨txt, s2, h2, k2⟩ := CM.bind_eq.1 k1
    obtain ⟨_, s3, h3, k3⟩ := CM.bind_eq.1 k2
    have e3 := emit_ok h3
    cases CM.pure_eq.1 k3
    have hc2 : s2.code = s1.code := by obtain ⟨_, rfl, _⟩ := constAddr_ok h2; rfl
    have hcode : st'.code = (s0.code ++ [({ code := 0x05, a := s0.code.length + 2, b := addrOf r }, none)]) ++ [({ code := 0xC4, a := txt }, none)] := by
      rw [e3]; dsimp only; rw [hc2, e1]
    have hcons : st'.consts = s2.consts := by rw [e3]
    have x1 := Keeps.compE k a _ _ _ h0
    have x2 := Keeps.constAddr _ _ _ _ h2
    have x01 : Ext s0 st' := by
      refine Ext.trans (t := s1) (by rw [e1]; exact Ext.code_append _ _) (x2.trans ?_)
      rw [e3]; exact Ext.code_append _ _
    rw [evalX]
    refine (simE c a h0 (hb.pre x01.toS (Nat.le_refl _)) hp.toPos).bind fun y t ht => ?_
    have hp1 := hp.toPos.next x1 ht.toGone
    have hi := hb.code.pre (List.prefix_refl _) x1.code.length_le
    rw [hcode] at hi
    have hi1 := (hi.pre (List.prefix_append _ _) (Nat.le_refl _)).last (Nat.le_refl _)
    have hi2 := hi.last (by simp)
    obtain ⟨_, fB, _, _⟩ := fits_of c.fits hi1
    have hr := reach_jumpIf (e := e) hp1.good hp1.place hi1 fB bit0.1 bit0.2.1 (addrOf_is ht.is).2 (want := true) rfl
    cases hy : truth y with
    | true =>
      rw [if_pos rfl]
      rw [hy, if_pos rfl] at hr
      refine Reach.mono hr fun u hu => ?_
      have hlen : st'.code.length = s0.code.length + 2 := by rw [hcode]; simp
      exact ⟨hp1.move x01.consts.length_le x01.frames (by rw [hlen]; exact hu.place) hu.good hu.mem,
        (ht.below.mono (by have := hp.inv.pos; omega)).trans (below_mem hu.mem) (Nat.le_refl _) (Nat.le_refl _)⟩
    | false =>
      rw [if_neg (by decide)]
      rw [hy, if_neg (by decide)] at hr
      refine Reach.fails hr fun u hu => ?_
      obtain ⟨_, _, o1, _⟩ := const_at c.fits h2 (hcons ▸ hb.consts) hu.good sp
      have hpl : At u (s0.code ++ [(({ code := 0x05, a := s0.code.length + 2, b := addrOf r } : Instr), (none : Option Name))]).length sp rest := by
        rw [List.length_append]; exact hu.place
      obtain ⟨fA, _, _, _⟩ := fits_of c.fits hi2
      exact fails_fail hu.good hpl hi2 rfl fA bit0.1 bit0.2.1 o1

end

end Verif.Comp
