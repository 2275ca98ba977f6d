import Verif.Compile.Vars
/-
  The code of an expression computes its value.
-/
namespace Verif.Comp
open Verif Verif.VM
open Verif.Codec (Bytes)

/-- A call is over: the result is on top of what the caller had. -/
structure Returned (B : Binary) (s : Eng) (sp : Nat) (rest : List VM.Frame) (v : Val) (t : Eng) : Prop where
  good : Good B t
  frames : t.frames = popped rest
  below : Below s t (MEM_STACK + sp)
  has : Has t (MEM_STACK + sp) v
  scalar : Scalar v

/-- The code at the address of a function does what a call of it means. -/
def CallOk (e : Env) (B : Binary) (m : Sem) : Prop :=
  ∀ f g vs a s sp rest, findFunc f m.funcs = some g → entry f B.entries = some a → vs.length = g.params.length →
    (∀ v ∈ vs, Scalar v) → At s a sp rest → Good B s →
    (∀ i v, vs[i]? = some v → Has s (MEM_STACK + sp + 1 + i) v) → Sim e s (m.call f vs) (Returned B s sp rest)

structure Ctx (e : Env) (B : Binary) (k : Cfg) (m : Sem) : Prop where
  fits : B.Fits
  version : e.version ≥ 1
  ovf : m.catchOvf = k.catchOvf
  funcs : m.funcs = k.funcs
  nil : B.consts[0]? = some .nil
  call : CallOk e B m

/-- The engine is where the compiler was. -/
structure Pos (B : Binary) (s : Eng) (st : CSt) (sp : Nat) (rest : List VM.Frame) (env : Vars) : Prop where
  place : At s st.code.length sp rest
  good : Good B s
  inv : Inv st
  rel : Rel s sp (st.frames.map (·.vars)) env

/-- Code and constants are in the binary. -/
structure InB (B : Binary) (lo : Nat) (st : CSt) : Prop where
  code : Emb B lo st.code
  consts : st.consts <+: B.consts

theorem InB.pre {B : Binary} {lo lo' : Nat} {s t : CSt} (h : InB B lo t) (he : ExtS s t) (hl : lo ≤ lo') : InB B lo' s :=
  ⟨h.code.pre he.code hl, he.consts.trans h.consts⟩

structure Gone (B : Binary) (s : Eng) (st st' : CSt) (sp : Nat) (rest : List VM.Frame) (t : Eng) : Prop where
  place : At t st'.code.length sp rest
  good : Good B t
  below : Below s t (MEM_STACK + sp + offOf st.frames)

structure PostE (B : Binary) (s : Eng) (st st' : CSt) (sp : Nat) (rest : List VM.Frame) (v : VRef) (x : Val) (t : Eng) : Prop
    extends Gone B s st st' sp rest t where
  is : IsAt st'.consts.length (offOf st'.frames) t sp v x

theorem Pos.next {B : Binary} {s t : Eng} {st st' : CSt} {sp : Nat} {rest : List VM.Frame} {env : Vars}
    (h : Pos B s st sp rest env) (he : Ext st st') (hg : Gone B s st st' sp rest t) : Pos B t st' sp rest env :=
  ⟨hg.place, hg.good, h.inv.ext he, by rw [he.vars]; exact rel_below h.rel h.inv.ok hg.below⟩

theorem Gone.trans {B : Binary} {s t u : Eng} {st st' st'' : CSt} {sp : Nat} {rest : List VM.Frame}
    (h : Gone B s st st' sp rest t) (h' : Gone B t st' st'' sp rest u) (he : Ext st st') : Gone B s st st'' sp rest u :=
  ⟨h'.place, h'.good, h.below.trans h'.below (Nat.le_refl _) (by have := he.off; omega)⟩

theorem IsAt.next {B : Binary} {s t : Eng} {st st' : CSt} {sp : Nat} {rest : List VM.Frame} {v : VRef} {x : Val}
    (h : IsAt st.consts.length (offOf st.frames) s sp v x) (he : Ext st st') (hg : Gone B s st st' sp rest t) :
    IsAt st'.consts.length (offOf st'.frames) t sp v x := h.mono hg.below he.consts.length_le he.off

section
variable {e : Env} {B : Binary} {k : Cfg} {m : Sem}

theorem const_at (hf : B.Fits) {c : Val} {st st' : CSt} {a : Nat} (h : constAddr c st = .ok (a, st'))
    (hp : st'.consts <+: B.consts) {s : Eng} (hg : Good B s) (sp : Nat) :
    a < st'.consts.length ∧ a < MEM_STACK ∧ Has s (ab sp a) c ∧ Scalar c := by
  obtain ⟨l, _, h2⟩ := constAddr_ok h
  have h3 := h2 (fun w hw => hf.scalar w (hp.subset hw))
  have h4 : a < st'.consts.length := by
    rcases Nat.lt_or_ge a st'.consts.length with h | h
    · exact h
    · rw [List.getElem?_eq_none h] at h3; cases h3
  have h5 := hp.length_le
  have h6 := hf.consts
  have h7 := mem_stack_extern
  have h8 : a < MEM_STACK := by omega
  have h9 := prefix_get hp h3
  exact ⟨h4, h8, by rw [ab_const h8]; exact hg.consts a c h9, hf.scalar c (List.mem_of_getElem? h9)⟩

theorem fits_of (hf : B.Fits) {i : Instr} {n : Nat} (h : B.code[n]? = some i) :
    Fit i.a ∧ Fit i.b ∧ Fit i.c ∧ (i.code = 7 → i.b < 2 ^ 20) := by
  obtain ⟨h1, h2, h3, h4⟩ := hf.args i (List.mem_of_getElem? h)
  exact ⟨h1, h2, h3, h4⟩

theorem ord_code (o : BinOp) : ordinary o.code := by unfold ordinary; cases o <;> decide
theorem ord_shr : ordinary 0x47 := by unfold ordinary; decide
theorem ord_shift (l : Bool) : ordinary (if l = true then 0x46 else 0x47) := by unfold ordinary; cases l <;> decide
theorem ord_and : ordinary 0x42 := by unfold ordinary; decide
theorem ord_not : ordinary 0x40 := by unfold ordinary; decide
theorem ord_copy : ordinary 0x02 := by unfold ordinary; decide
theorem bit0 : (0 : Nat).testBit 0 = false ∧ (0 : Nat).testBit 1 = false ∧ (0 : Nat).testBit 2 = false := by decide
theorem bit64 : (64 : Nat).testBit 0 = false ∧ (64 : Nat).testBit 1 = false ∧ (64 : Nat).testBit 2 = false ∧
    (64 : Nat).testBit 6 = true := by decide
theorem bit4 : (4 : Nat).testBit 0 = false ∧ (4 : Nat).testBit 1 = false ∧ (4 : Nat).testBit 2 = true := by decide
theorem bitIf (b : Bool) : (if b = true then 64 else 0 : Nat).testBit 0 = false ∧ (if b = true then 64 else 0 : Nat).testBit 1 = false ∧
    (if b = true then 64 else 0 : Nat).testBit 6 = b := by cases b <;> decide

/-- The instruction for an operator. -/
theorem sel_ans (c : Ctx e B k m) {o : BinOp} {a : Nat} {i : Sel} {st st' : CSt} (h : select k o a st = .ok (i, st'))
    (hp : st'.consts <+: B.consts) {s : Eng} (hg : Good B s) {ip sp : Nat} {rest : List VM.Frame} (ha : At s ip sp rest)
    {out b : Nat} (hdst : MEM_STACK ≤ out) {n : Nat}
    (hi : B.code[n]? = some { code := i.code, flags := i.flags, a := out, b := b, c := i.rhs })
    {l r : Val} (hl : Has s (ab sp b) l) (hr : Has s (ab sp a) r) (hls : Scalar l) (hrs : Scalar r) :
    ordinary i.code ∧
    Ans (execOp e { code := i.code, flags := i.flags, a := out, b := b, c := i.rhs }) (more s) (ab sp out)
      (binVal m.catchOvf o l r) := by
  rw [c.ovf]
  obtain ⟨fA, fB, fC, _⟩ := fits_of c.fits hi
  have hroom : Room (more s) sp := (ha.room hg).gas
  have hpow : ∀ n, powTwo k st.consts a = some n → r = .uint (2 ^ n) ∧ n < 256 := by
    intro n hn
    obtain ⟨h1, h2⟩ := powTwo_eq hn
    have h3 := prefix_get ((Keeps.select k o a _ _ _ h).consts.trans hp) h1
    have h4 : a < B.consts.length := by
      rcases Nat.lt_or_ge a B.consts.length with h | h
      · exact h
      · rw [List.getElem?_eq_none h] at h3; cases h3
    have h5 := c.fits.consts
    have h6 := mem_stack_extern
    rw [ab_const (by omega)] at hr
    exact ⟨hr.inj (hg.consts a _ h3), h2⟩
  rcases select_ok h with ⟨n, rfl, hn, rfl, rfl⟩ | ⟨n, c', rfl, hn, hc, rfl⟩ | ⟨rfl, rfl⟩
  · obtain ⟨rfl, _⟩ := hpow n hn
    exact ⟨ord_shr, ans_shr (i := ⟨0x47, 0, out, b, n, 0⟩) hroom hdst fA fB bit0.1 bit0.2.1 bit0.2.2 _ hl.gas hls⟩
  · obtain ⟨rfl, h2⟩ := hpow n hn
    obtain ⟨_, _, h3, _⟩ := const_at c.fits hc hp hg sp
    exact ⟨ord_and, ans_and (i := ⟨0x42, 64, out, b, c', 0⟩) hroom ⟨hdst, fA, fB, fC, bit64.1, bit64.2.1, bit64.2.2.1⟩ bit64.2.2.2 _ h2 hl.gas h3.gas hls⟩
  · refine ⟨ord_code o, ans_plain c.version hroom hdst fA fB fC hl.gas hr.gas hls hrs⟩

theorem addrOf_is {n off : Nat} {s : Eng} {sp : Nat} {v : VRef} {x : Val} (h : IsAt n off s sp v x) :
    AddrOk n off (addrOf v) ∧ Has s (ab sp (addrOf v)) x := by
  obtain ⟨a, h1, h2, h3⟩ := h.has
  have : addrOf v = a := by simp only [addrOf, h1, Option.getD_some]
  rw [this]; exact ⟨h2, h3⟩

/-- A result in a new place. -/
theorem wrote_new {s t : Eng} {st st' : CSt} {sp : Nat} {rest : List VM.Frame} {x : Val} {a : Nat} (ha : MEM_STACK + offOf st.frames ≤ a) (hlt : a < MEM_STACK + offOf st'.frames)
    (hpos : 1 ≤ offOf st.frames) (h : Wrote B s st'.code.length sp rest (ab sp a) x t) :
    PostE B s st st' sp rest (ref a) x t := by
  have h1 : ab sp a = a + sp := ab_stack (by omega)
  refine ⟨⟨h.place, h.good, fun y hy => h.other y (by omega)⟩, ⟨rfl, ⟨a, rfl, .inr ⟨by omega, hlt⟩, h.has⟩, h.scalar⟩⟩

theorem sim_bin (c : Ctx e B k m) {o : BinOp} {l r v : VRef} {st st' : CSt} (h : treeBin k o l r st = .ok (v, st'))
    (hb : InB B st.code.length st') {s : Eng} {sp : Nat} {rest : List VM.Frame} (ha : At s st.code.length sp rest)
    (hg : Good B s) (hinv : Inv st) {x y : Val} (hl : IsAt st.consts.length (offOf st.frames) s sp l x)
    (hr : IsAt st.consts.length (offOf st.frames) s sp r y) :
    Sim e s (some (binVal m.catchOvf o x y)) (PostE B s st st' sp rest v) := by
  unfold treeBin at h
  obtain ⟨a, s1, h1, k1⟩ := CM.bind_eq.1 h
  obtain ⟨_, _, rfl, rfl⟩ := get_ok h1
  obtain ⟨i, s2, h2, k2⟩ := CM.bind_eq.1 k1
  obtain ⟨out, s3, h3, k3⟩ := CM.bind_eq.1 k2
  obtain ⟨f, fl, e1, rfl, rfl⟩ := newAddr_ok h3
  obtain ⟨b, s4, h4, k4⟩ := CM.bind_eq.1 k3
  obtain ⟨_, _, rfl, rfl⟩ := get_ok h4
  obtain ⟨_, s5, h5, k5⟩ := CM.bind_eq.1 k4
  cases emit_ok h5
  cases CM.pure_eq.1 k5
  have hcode : s2.code = s1.code := by
    rcases select_ok h2 with ⟨_, _, _, _, rfl⟩ | ⟨_, _, _, _, hc, _⟩ | ⟨_, rfl⟩
    · rfl
    · obtain ⟨_, rfl, _⟩ := constAddr_ok hc; rfl
    · rfl
  have hfr : s2.frames = s1.frames := by
    rcases select_ok h2 with ⟨_, _, _, _, rfl⟩ | ⟨_, _, _, _, hc, _⟩ | ⟨_, rfl⟩
    · rfl
    · obtain ⟨_, rfl, _⟩ := constAddr_ok hc; rfl
    · rfl
  have hi := hb.code
  dsimp only at hi
  rw [hcode] at hi
  have hi := hi.last (Nat.le_refl _)
  have hoff : offOf s1.frames = f.off := by rw [← hfr, e1]; rfl
  obtain ⟨ho, hans⟩ := sel_ans c h2 hb.consts hg ha (Nat.le_add_right _ _) hi (addrOf_is hl).2 (addrOf_is hr).2 hl.scalar hr.scalar
  refine (sim_ans c.fits hg ha hi ho (by rw [ab_stack (Nat.le_add_right _ _)]; omega) hans).mono fun z t hz => ?_
  refine wrote_new (by rw [hoff]; exact Nat.le_refl _) (by show _ < MEM_STACK + (f.off + 1); omega) hinv.pos ?_
  simpa [hcode] using hz

theorem sim_not (c : Ctx e B k m) {bw : Bool} {r v : VRef} {st st' : CSt} (h : treeNot bw r st = .ok (v, st'))
    (hb : InB B st.code.length st') {s : Eng} {sp : Nat} {rest : List VM.Frame} (ha : At s st.code.length sp rest)
    (hg : Good B s) (hinv : Inv st) {x : Val} (hr : IsAt st.consts.length (offOf st.frames) s sp r x) :
    Sim e s (some (if bw then bnotVal x else .ok (ofBool (!truth x)))) (PostE B s st st' sp rest v) := by
  unfold treeNot at h
  obtain ⟨out, s3, h3, k3⟩ := CM.bind_eq.1 h
  obtain ⟨f, fl, e1, rfl, rfl⟩ := newAddr_ok h3
  obtain ⟨b, s4, h4, k4⟩ := CM.bind_eq.1 k3
  obtain ⟨_, _, rfl, rfl⟩ := get_ok h4
  obtain ⟨_, s5, h5, k5⟩ := CM.bind_eq.1 k4
  cases emit_ok h5
  cases CM.pure_eq.1 k5
  have hi := hb.code.last (Nat.le_refl _)
  dsimp only at hi
  obtain ⟨fA, fB, _, _⟩ := fits_of c.fits hi
  have hoff : offOf st.frames = f.off := by rw [e1]; rfl
  have hans : Ans (execOp e { code := 0x40, flags := if bw = true then 64 else 0, a := MEM_STACK + f.off, b := addrOf r })
      (more s) (ab sp (MEM_STACK + f.off)) (if bw then bnotVal x else .ok (ofBool (!truth x))) := by
    have := ans_not (e := e) (i := { code := 0x40, flags := if bw = true then 64 else 0, a := MEM_STACK + f.off, b := addrOf r })
      (ha.room hg).gas (Nat.le_add_right _ _) fA fB (bitIf bw).1 (bitIf bw).2.1
      (s := more s) (addrOf_is hr).2.gas hr.scalar
    have hbw : (⟨0x40, if bw = true then 64 else 0, MEM_STACK + f.off, addrOf r, 0, 0⟩ : Instr).bitwise = bw := (bitIf bw).2.2
    rw [hbw] at this
    exact this
  refine (sim_ans c.fits hg ha hi ord_not (by rw [ab_stack (Nat.le_add_right _ _)]; omega) hans).mono
    fun z t hz => ?_
  refine wrote_new (by rw [hoff]; exact Nat.le_refl _) (by show _ < MEM_STACK + (f.off + 1); omega) hinv.pos ?_
  simpa using hz

/-- A shift into a place given before. -/
theorem sim_shift (c : Ctx e B k m) {left : Bool} {out : Nat} {l r v : VRef} {st st' : CSt}
    (h : treeShift left out l r st = .ok (v, st')) (hb : InB B st.code.length st') {s : Eng} {sp : Nat}
    {rest : List VM.Frame} (ha : At s st.code.length sp rest) (hg : Good B s) (hout : MEM_STACK ≤ out) {x y : Val}
    (hl : IsAt st.consts.length (offOf st.frames) s sp l x) (hr : IsAt st.consts.length (offOf st.frames) s sp r y) :
    v = ref out ∧ st'.frames = st.frames ∧
    Sim e s (some (shiftVal left x y)) (Wrote B s st'.code.length sp rest (ab sp out)) := by
  unfold treeShift at h
  obtain ⟨b, s4, h4, k4⟩ := CM.bind_eq.1 h
  obtain ⟨_, _, rfl, rfl⟩ := get_ok h4
  obtain ⟨b, s4, h6, k6⟩ := CM.bind_eq.1 k4
  obtain ⟨_, _, rfl, rfl⟩ := get_ok h6
  obtain ⟨_, s5, h5, k5⟩ := CM.bind_eq.1 k6
  cases emit_ok h5
  cases CM.pure_eq.1 k5
  refine ⟨rfl, rfl, ?_⟩
  have hi := hb.code.last (Nat.le_refl _)
  obtain ⟨fA, fB, fC, _⟩ := fits_of c.fits hi
  have hans : Ans (execOp e { code := if left = true then 0x46 else 0x47, flags := 4, a := out, b := addrOf l, c := addrOf r })
      (more s) (ab sp out) (shiftVal left x y) := by
    have := ans_shift (e := e) (i := { code := if left = true then 0x46 else 0x47, flags := 4, a := out, b := addrOf l, c := addrOf r })
      (ha.room hg).gas left hout fA fB fC bit4.1 bit4.2.1 bit4.2.2 (s := more s) (addrOf_is hl).2.gas (addrOf_is hr).2.gas hl.scalar
    cases left <;> exact this
  refine (sim_ans c.fits hg ha hi (ord_shift left) (by rw [ab_stack hout]; omega) hans).mono
    fun z t hz => ?_
  simpa using hz

/-- A copy. -/
theorem sim_copy (hf : B.Fits) {d v r : VRef} {st st' : CSt} (h : copy d v st = .ok (r, st'))
    (hb : Emb B st.code.length st'.code) {s : Eng} {sp : Nat} {rest : List VM.Frame} (ha : At s st.code.length sp rest)
    (hg : Good B s) {a b : Nat} (hd : d.address = some a) (hs : MEM_STACK ≤ a) (hv : v.address = some b) {x : Val}
    (hx : Has s (ab sp b) x) (hsc : Scalar x) :
    r = d ∧ Reach e s (Wrote B s st'.code.length sp rest (ab sp a) x) := by
  obtain ⟨rfl, _, _, _, _, _, ⟨h1, rfl⟩ | ⟨h1, rfl⟩⟩ := copy_ok h
  · refine ⟨rfl, ?_⟩
    have e1 : addrOf r = a := by simp only [addrOf, hd, Option.getD_some]
    have e2 : addrOf v = b := by simp only [addrOf, hv, Option.getD_some]
    rw [hd, hv] at h1
    rw [e1, e2] at hb ⊢
    have hi := hb.last (Nat.le_refl _)
    obtain ⟨fA, fB, fC, _⟩ := fits_of hf hi
    have hans := ans_copy (e := e) (i := { code := 0x02, a := a, b := b }) (s := more s) (ha.room hg).gas rfl hs fA fB bit0.1 bit0.2.1
      (fun hc => h1 (congrArg some hc)) hx.gas hsc
    have := sim_ans hf hg ha hi ord_copy (by rw [ab_stack hs]; omega) hans
    refine Reach.mono this fun t hz => ?_
    simpa using hz
  · refine ⟨rfl, .now ?_⟩
    rw [hd, hv] at h1
    cases h1
    exact ⟨ha, hg, hx, fun _ _ => rfl, hsc⟩

/-- Several values, one after the other. -/
structure Filled (B : Binary) (s : Eng) (ip sp : Nat) (rest : List VM.Frame) (to : Nat) (vs : List Val) (t : Eng) : Prop where
  place : At t ip sp rest
  good : Good B t
  below : Below s t (MEM_STACK + sp + to)
  has : ∀ i v, vs[i]? = some v → Has t (MEM_STACK + sp + to + i) v

theorem fill_cons {s t u : Eng} {ip ip' sp to : Nat} {rest : List VM.Frame} {x : Val} {vs : List Val}
    (h : Wrote B s ip sp rest (MEM_STACK + sp + to) x t) (h' : Filled B t ip' sp rest (to + 1) vs u) :
    Filled B s ip' sp rest to (x :: vs) u := by
  refine ⟨h'.place, h'.good, ?_, ?_⟩
  · intro a ha
    rw [h'.below a (by omega), h.other a (by omega)]
  · intro i v hi
    cases i with
    | zero => cases hi; exact h'.below.has (by omega) h.has
    | succ i =>
      have := h'.has i v hi
      rw [show MEM_STACK + sp + (to + 1) + i = MEM_STACK + sp + to + (i + 1) by omega] at this
      exact this

theorem sim_copyArgs (hf : B.Fits) {n off sp : Nat} {rest : List VM.Frame} : ∀ {vs : List VRef} {xs : List Val} {to : Nat} {st st' : CSt}
    {u : Unit} {s : Eng}, copyArgs (MEM_STACK + to) vs st = .ok (u, st') → Emb B st.code.length st'.code → off ≤ to →
    At s st.code.length sp rest → Good B s → All2 (IsAt n off s sp) vs xs →
    Reach e s (Filled B s st'.code.length sp rest to xs)
  | [], [], to, st, st', u, s, h, _, _, ha, hg, _ => by
    cases CM.pure_eq.1 h
    exact .now ⟨ha, hg, Below.refl _ _, fun i v h => by cases h⟩
  | [], _ :: _, _, _, _, _, _, _, _, _, _, _, h => h.elim
  | _ :: _, [], _, _, _, _, _, _, _, _, _, _, h => h.elim
  | v :: vs, x :: xs, to, st, st', u, s, h, hb, ho, ha, hg, hv => by
    rw [copyArgs] at h
    obtain ⟨r, s1, h1, h2⟩ := CM.bind_eq.1 h
    have hk := Keeps.copyArgs _ _ _ _ _ h2
    obtain ⟨b, hb1, hb2, hb3⟩ := hv.1.has
    obtain ⟨_, h3⟩ := sim_copy (e := e) hf h1 (hb.pre hk.code (Nat.le_refl _)) ha hg (d := ref (MEM_STACK + to)) rfl
      (Nat.le_add_right _ _) hb1 hb3 hv.1.scalar
    rw [ab_stack (Nat.le_add_right _ _), show MEM_STACK + to + sp = MEM_STACK + sp + to by omega] at h3
    refine h3.trans fun t ht => ?_
    have hlt : Below s t (MEM_STACK + sp + off) := fun a ha => ht.other a (by omega)
    refine (sim_copyArgs hf (vs := vs) (to := to + 1) h2 (hb.pre (List.prefix_refl _) (Keeps.copy _ _ _ _ _ h1).code.length_le)
      (by omega) ht.place ht.good (hv.2.mono fun v x _ h => h.mono hlt (Nat.le_refl _) (Nat.le_refl _))).mono fun w hw => ?_
    exact fill_cons ht hw

theorem sim_copyDflts (c : Ctx e B k m) {sp : Nat} {rest : List VM.Frame} : ∀ {ps : List Param} {to : Nat} {st st' : CSt}
    {u : Unit} {s : Eng}, copyDflts (MEM_STACK + to) ps st = .ok (u, st') → InB B st.code.length st' →
    At s st.code.length sp rest → Good B s →
    Reach e s (Filled B s st'.code.length sp rest to (ps.map (fun p => p.dflt.getD .nil))) ∧
      ∀ v ∈ ps.map (fun p => p.dflt.getD .nil), Scalar v
  | [], to, st, st', u, s, h, _, ha, hg => by
    cases CM.pure_eq.1 h
    exact ⟨.now ⟨ha, hg, Below.refl _ _, fun i v h => by cases h⟩, fun v h => by cases h⟩
  | p :: ps, to, st, st', u, s, h, hb, ha, hg => by
    rw [copyDflts] at h
    obtain ⟨a, s1, h1, h2⟩ := CM.bind_eq.1 h
    obtain ⟨_, s2, h3, h4⟩ := CM.bind_eq.1 h2
    have e2 := emit_ok h3
    have hk := Keeps.copyDflts _ _ _ _ _ h4
    have hc1 : s1.code = st.code := by
      unfold dfltAddr at h1
      cases hd : p.dflt with
      | some v => rw [hd] at h1; obtain ⟨_, rfl, _⟩ := constAddr_ok h1; rfl
      | none => rw [hd] at h1; cases CM.pure_eq.1 h1; rfl
    have hp1 : s1.consts <+: B.consts := by
      have : s2.consts = s1.consts := by rw [e2]
      exact (this ▸ hk.consts).trans hb.consts
    have hdf : ∀ t, Good B t → a < MEM_STACK ∧ Has t (ab sp a) (p.dflt.getD .nil) ∧ Scalar (p.dflt.getD .nil) := by
      intro t ht
      unfold dfltAddr at h1
      cases hd : p.dflt with
      | some v =>
        rw [hd] at h1
        obtain ⟨_, h5, h6, h7⟩ := const_at c.fits h1 hp1 ht sp
        exact ⟨h5, h6, h7⟩
      | none =>
        rw [hd] at h1
        cases CM.pure_eq.1 h1
        have : (0 : Nat) < MEM_STACK := by decide
        exact ⟨this, by rw [ab_const this]; exact ht.consts 0 _ c.nil, trivial⟩
    obtain ⟨d1, d2, d3⟩ := hdf s hg
    have hi : B.code[st.code.length]? = some { code := 0x02, a := MEM_STACK + to, b := a } := by
      have : Emb B st.code.length s2.code := hb.code.pre hk.code (Nat.le_refl _)
      rw [e2] at this
      dsimp only at this
      rw [hc1] at this
      exact this.last (Nat.le_refl _)
    obtain ⟨fA, fB, fC, _⟩ := fits_of c.fits hi
    have hans := ans_copy (e := e) (i := { code := 0x02, a := MEM_STACK + to, b := a }) (s := more s) (ha.room hg).gas rfl
      (Nat.le_add_right _ _) fA fB bit0.1 bit0.2.1 (by show ¬ (MEM_STACK + to = a); omega) d2.gas d3
    have h5 := sim_ans c.fits hg ha hi ord_copy
      (by show MEM_STACK ≤ ab sp (MEM_STACK + to); rw [ab_stack (Nat.le_add_right _ _)]; omega) hans
    dsimp only at h5
    rw [ab_stack (Nat.le_add_right _ _), show MEM_STACK + to + sp = MEM_STACK + sp + to by omega] at h5
    have hl2 : s2.code.length = st.code.length + 1 := by rw [e2]; simp [hc1]
    refine ⟨Reach.trans h5 fun t ht => ?_, ?_⟩
    · obtain ⟨h6, _⟩ := sim_copyDflts c (ps := ps) (to := to + 1) h4 ⟨hb.code.pre (List.prefix_refl _) (by omega), hb.consts⟩
        (by rw [hl2]; exact ht.place) ht.good
      exact h6.mono fun w hw => fill_cons ht hw
    · obtain ⟨_, h7⟩ := sim_copyDflts (s := { s with frames := ⟨s2.code.length, sp⟩ :: rest }) c (ps := ps) (to := to + 1) h4
        ⟨hb.code.pre (List.prefix_refl _) (by omega), hb.consts⟩
        ⟨rfl, ha.sp, ha.depth⟩ (hg.frames _)
      intro v hv
      rcases List.mem_cons.1 hv with rfl | hv
      · exact d3
      · exact h7 v hv

theorem All2.scalar {n off : Nat} {s : Eng} {sp : Nat} : ∀ {vs : List VRef} {xs : List Val}, All2 (IsAt n off s sp) vs xs →
    ∀ x ∈ xs, Scalar x
  | [], [], _, x, h => by cases h
  | [], _ :: _, h, _, _ => h.elim
  | _ :: _, [], h, _, _ => h.elim
  | _ :: _, _ :: _, h, x, hx => by
    rcases List.mem_cons.1 hx with rfl | hx
    · exact h.1.scalar
    · exact All2.scalar h.2 x hx

/-- A call. -/
theorem sim_call (c : Ctx e B k m) {f : Name} {g : Sig} (hfn : findFunc f m.funcs = some g) {vs : List VRef} {xs : List Val}
    {v : VRef} {st st' : CSt} (h : treeCall g vs st = .ok (v, st')) (hb : InB B st.code.length st') {s : Eng} {sp : Nat}
    {rest : List VM.Frame} (ha : At s st.code.length sp rest) (hg : Good B s) (hinv : Inv st)
    (hlen : vs.length ≤ g.params.length) (hv : All2 (IsAt st.consts.length (offOf st.frames) s sp) vs xs) :
    Sim e s (m.call f (complete g xs)) (PostE B s st st' sp rest v) := by
  have hname : g.name = f := by
    have := List.find?_some hfn
    simpa using this
  unfold treeCall at h
  obtain ⟨out, s1, h1, k1⟩ := CM.bind_eq.1 h
  obtain ⟨fr, fl, e1, rfl, rfl⟩ := newAddr_ok h1
  obtain ⟨_, s2, h2, k2⟩ := CM.bind_eq.1 k1
  obtain ⟨_, s3, h3, k3⟩ := CM.bind_eq.1 k2
  obtain ⟨_, s4, h4, k4⟩ := CM.bind_eq.1 k3
  cases emitLinked_ok h4
  cases CM.pure_eq.1 k4
  have hoff : offOf st.frames = fr.off := by rw [e1]; rfl
  rw [Nat.add_assoc] at h2
  rw [Nat.add_assoc, Nat.add_assoc] at h3
  have x2 := Keeps.copyArgs _ _ _ _ _ h2
  have x3 := Keeps.copyDflts _ _ _ _ _ h3
  have l2 := x2.code.length_le
  have l3 := x3.code.length_le
  dsimp only at l2
  have hb3 : InB B st.code.length s3 := hb.pre (Ext.code_append s3 _).toS (Nat.le_refl _)
  have hb2 : InB B st.code.length s2 := hb3.pre x3.toS (Nat.le_refl _)
  obtain ⟨a, hent, hi⟩ := hb.code.linked (show st.code.length ≤ s3.code.length by omega)
  rw [hname] at hent
  have hxl := hv.length
  refine Sim.after (sim_copyArgs (e := e) c.fits (n := st.consts.length) (off := offOf st.frames) h2 hb2.code (by rw [hoff]; omega) ha hg hv) fun t ht => ?_
  obtain ⟨hr3, hsc3⟩ := sim_copyDflts c h3 (hb3.pre (ExtS.refl _) l2) ht.place ht.good
  refine Sim.after hr3 fun u hu => ?_
  obtain ⟨_, _, _, hbb⟩ := fits_of c.fits hi
  refine Sim.after (reach_call (e := e) hu.good hu.place hi rfl (hbb rfl) bit0.1 bit0.2.1) fun w hw => ?_
  dsimp only at hw
  rw [Nat.add_sub_cancel_left] at hw
  have hwm : w.mem = u.mem := hw.mem
  have hargs : ∀ i v, (complete g xs)[i]? = some v → Has w (MEM_STACK + (sp + fr.off) + 1 + i) v := by
    intro i v hi
    have key : Has u (MEM_STACK + (sp + fr.off) + 1 + i) v := by
      unfold complete at hi
      rcases Nat.lt_or_ge i xs.length with hlt | hge
      · rw [List.getElem?_append_left hlt] at hi
        have := ht.has i v hi
        rw [show MEM_STACK + (sp + fr.off) + 1 + i = MEM_STACK + sp + (fr.off + 1) + i by omega]
        exact hu.below.has (by omega) this
      · rw [List.getElem?_append_right hge] at hi
        have hi' : (List.map (fun p : Param => p.dflt.getD .nil) (List.drop vs.length g.params))[i - vs.length]? = some v := by
          rw [hxl]; exact hi
        have := hu.has (i - vs.length) v hi'
        rw [show MEM_STACK + (sp + fr.off) + 1 + i = MEM_STACK + sp + (fr.off + (1 + vs.length)) + (i - vs.length) by omega]
        exact this
    obtain ⟨d, q1, q2⟩ := key
    exact ⟨d, by rw [hwm]; exact q1, q2⟩
  have hcl : (complete g xs).length = g.params.length := by
    unfold complete
    rw [List.length_append, List.length_map, List.length_drop]
    omega
  have hcs : ∀ v ∈ complete g xs, Scalar v := by
    intro v hv'
    unfold complete at hv'
    rcases List.mem_append.1 hv' with hv' | hv'
    · exact hv.scalar v hv'
    · rw [← hxl] at hv'; exact hsc3 v hv'
  refine (c.call f g (complete g xs) a w (sp + fr.off) _ hfn hent hcl hcs hw.place hw.good hargs).mono fun z q hq => ?_
  have hfr := hq.frames
  refine ⟨⟨⟨?_, ha.sp, ha.depth⟩, hq.good, ?_⟩, ⟨rfl, ⟨MEM_STACK + fr.off, rfl, .inr ⟨?_, ?_⟩, ?_⟩, hq.scalar⟩⟩
  · rw [hfr]; simp [popped]
  · intro y hy
    rw [hoff] at hy
    rw [hq.below y (by omega), hwm, hu.below y (by omega), ht.below y (by omega)]
  · have := hinv.pos; omega
  · have h5 := x2.off
    have h6 := x3.off
    have h7 : offOf ({ fr with off := fr.off + 1 } :: fl) = fr.off + 1 := rfl
    dsimp only at h5
    rw [h7] at h5
    show MEM_STACK + fr.off < MEM_STACK + offOf s3.frames
    omega
  · have := hq.has
    rw [ab_stack (Nat.le_add_right _ _), show MEM_STACK + fr.off + sp = MEM_STACK + (sp + fr.off) by omega]
    exact this

end

structure PostA (B : Binary) (s : Eng) (st st' : CSt) (sp : Nat) (rest : List VM.Frame) (vs : List VRef) (xs : List Val)
    (t : Eng) : Prop extends Gone B s st st' sp rest t where
  all : All2 (IsAt st'.consts.length (offOf st'.frames) t sp) vs xs

theorem compArgs_length (k : Cfg) : ∀ (l : Args) {st st' : CSt} {vs : List VRef}, compArgs k l st = .ok (vs, st') →
    vs.length = l.length
  | .nil, st, st', vs, h => by rw [compArgs] at h; cases CM.pure_eq.1 h; rfl
  | .cons e l, st, st', vs, h => by
    rw [compArgs] at h
    obtain ⟨v, s1, _, k1⟩ := CM.bind_eq.1 h
    obtain ⟨_, s2, _, k2⟩ := CM.bind_eq.1 k1
    obtain ⟨ws, s3, h3, k3⟩ := CM.bind_eq.1 k2
    cases CM.pure_eq.1 k3
    simp [Args.length, compArgs_length k l h3]

mutual
/-- The code of an expression computes its value. -/
theorem simE {e : Env} {B : Binary} {k : Cfg} {m : Sem} (c : Ctx e B k m) : ∀ (x : E) {st st' : CSt} {v : VRef} {env : Vars} {s : Eng}
    {sp : Nat} {rest : List VM.Frame}, compE k x st = .ok (v, st') → InB B st.code.length st' → Pos B s st sp rest env →
    Sim e s (evalE m env x) (PostE B s st st' sp rest v)
  | .const x, st, st', v, env, s, sp, rest, h, hb, hp => by
    rw [compE] at h
    obtain ⟨a, h1, rfl⟩ := nodeConst_ok h
    obtain ⟨h2, h3, h4, h5⟩ := const_at c.fits h1 hb.consts hp.good sp
    have hc : st'.code = st.code := by obtain ⟨_, rfl, _⟩ := constAddr_ok h1; rfl
    rw [evalE]
    exact Sim.ok ⟨⟨by rw [hc]; exact hp.place, hp.good, Below.refl _ _⟩, rfl, ⟨a, rfl, .inl ⟨h2, h3⟩, h4⟩, h5⟩
  | .var x, st, st', v, env, s, sp, rest, h, hb, hp => by
    rw [compE] at h
    obtain ⟨rfl, h1⟩ := nodeIdent_ok h
    rw [evalE]
    rcases rel_find x hp.rel with ⟨h2, h3⟩ | ⟨w, y, h2, h3, h4, h5, h6⟩
    · simp only [h3]; trivial
    · simp only [h3]
      rcases h1 with ⟨w', h7, rfl⟩ | ⟨h7, _⟩ | ⟨h7, _⟩
      · rw [h2] at h7; cases h7
        exact Sim.ok ⟨⟨hp.place, hp.good, Below.refl _ _⟩, rfl, ⟨w.address, rfl, (hp.inv.ok.all w h4).addr, h5⟩, h6⟩
      · rw [h2] at h7; cases h7
      · rw [h2] at h7; cases h7
  | .bin o a b, st, st', v, env, s, sp, rest, h, hb, hp => by
    rw [compE] at h
    obtain ⟨l, s1, h1, k1⟩ := CM.bind_eq.1 h
    obtain ⟨r, s2, h2, h3⟩ := CM.bind_eq.1 k1
    have x1 := Keeps.compE k a _ _ _ h1
    have x2 := Keeps.compE k b _ _ _ h2
    have x3 := Keeps.treeBin _ _ _ _ _ _ _ h3
    have hb2 : InB B st.code.length s2 := hb.pre x3.toS (Nat.le_refl _)
    have hb1 : InB B st.code.length s1 := hb2.pre x2.toS (Nat.le_refl _)
    rw [evalE]
    refine (simE c a h1 hb1 hp).bind fun y t ht => ?_
    have hp1 := hp.next x1 ht.toGone
    refine (simE c b h2 (hb2.pre (ExtS.refl _) x1.code.length_le) hp1).bind fun z u hu => ?_
    have hp2 := hp1.next x2 hu.toGone
    refine (sim_bin c h3 (hb.pre (ExtS.refl _) (x1.trans x2).code.length_le) hp2.place hp2.good hp2.inv
      (ht.is.next x2 hu.toGone) hu.is).mono fun q w hw => ?_
    exact ⟨(ht.toGone.trans (hu.toGone.trans hw.toGone x2) x1), hw.is⟩
  | .shift left a b, st, st', v, env, s, sp, rest, h, hb, hp => by
    rw [compE] at h
    obtain ⟨l, s1, h1, k1⟩ := CM.bind_eq.1 h
    obtain ⟨out, s2, h2, k2⟩ := CM.bind_eq.1 k1
    obtain ⟨r, s3, h3, h4⟩ := CM.bind_eq.1 k2
    have x1 := Keeps.compE k a _ _ _ h1
    have x2 := Keeps.newAddr _ _ _ h2
    have x3 := Keeps.compE k b _ _ _ h3
    have x4 := Keeps.treeShift _ _ _ _ _ _ _ h4
    have hb3 : InB B st.code.length s3 := hb.pre x4.toS (Nat.le_refl _)
    have hb1 : InB B st.code.length s1 := hb3.pre (x2.trans x3).toS (Nat.le_refl _)
    obtain ⟨f, fl, e1, rfl, e2⟩ := newAddr_ok h2
    have ho1 : offOf s1.frames = f.off := by rw [e1]; rfl
    have ho2 : offOf s2.frames = f.off + 1 := by rw [e2]; rfl
    have hc2 : s2.code = s1.code := by rw [e2]
    rw [evalE]
    refine (simE c a h1 hb1 hp).bind fun y t ht => ?_
    have hp1 := hp.next x1 ht.toGone
    have g2 : Gone B t s1 s2 sp rest t := ⟨by rw [hc2]; exact hp1.place, hp1.good, Below.refl _ _⟩
    have hp2 := hp1.next x2 g2
    refine (simE c b h3 (hb3.pre (ExtS.refl _) (x1.trans x2).code.length_le) hp2).bind fun z u hu => ?_
    have hp3 := hp2.next x3 hu.toGone
    obtain ⟨rfl, hfr, hs⟩ := sim_shift c h4 (hb.pre (ExtS.refl _) ((x1.trans x2).trans x3).code.length_le) hp3.place hp3.good
      (Nat.le_add_right _ _) ((ht.is.next x2 g2).next x3 hu.toGone) hu.is
    refine hs.mono fun q w hw => ?_
    have hab : ab sp (MEM_STACK + f.off) = MEM_STACK + f.off + sp := ab_stack (Nat.le_add_right _ _)
    have hx1 := x1.off
    have hx3 := x3.off
    refine ⟨⟨hw.place, hw.good, ?_⟩, rfl, ⟨_, rfl, .inr ⟨?_, ?_⟩, hw.has⟩, hw.scalar⟩
    · intro y hy
      rw [hw.other y (by omega), hu.below y (by omega), ht.below y hy]
    · have := hp1.inv.pos; omega
    · rw [hfr]; omega
  | .not a, st, st', v, env, s, sp, rest, h, hb, hp => by
    rw [compE] at h
    obtain ⟨r, s1, h1, h3⟩ := CM.bind_eq.1 h
    have x1 := Keeps.compE k a _ _ _ h1
    have x3 := Keeps.treeNot _ _ _ _ _ h3
    rw [evalE]
    refine (simE c a h1 (hb.pre x3.toS (Nat.le_refl _)) hp).bind fun y t ht => ?_
    have hp1 := hp.next x1 ht.toGone
    refine (sim_not c h3 (hb.pre (ExtS.refl _) x1.code.length_le) hp1.place hp1.good hp1.inv ht.is).mono fun q w hw => ?_
    exact ⟨ht.toGone.trans hw.toGone x1, hw.is⟩
  | .bnot a, st, st', v, env, s, sp, rest, h, hb, hp => by
    rw [compE] at h
    obtain ⟨r, s1, h1, h3⟩ := CM.bind_eq.1 h
    have x1 := Keeps.compE k a _ _ _ h1
    have x3 := Keeps.treeNot _ _ _ _ _ h3
    rw [evalE]
    refine (simE c a h1 (hb.pre x3.toS (Nat.le_refl _)) hp).bind fun y t ht => ?_
    have hp1 := hp.next x1 ht.toGone
    refine (sim_not c h3 (hb.pre (ExtS.refl _) x1.code.length_le) hp1.place hp1.good hp1.inv ht.is).mono fun q w hw => ?_
    exact ⟨ht.toGone.trans hw.toGone x1, hw.is⟩
  | .paren a, st, st', v, env, s, sp, rest, h, hb, hp => by
    rw [compE] at h
    obtain ⟨r, s1, h1, h3⟩ := CM.bind_eq.1 h
    obtain ⟨_, s2, h4, h5⟩ := CM.bind_eq.1 h3
    obtain ⟨_, _, rfl⟩ := checkValue_ok h4
    cases CM.pure_eq.1 h5
    rw [evalE]
    exact simE c a h1 hb hp
  | .call f args, st, st', v, env, s, sp, rest, h, hb, hp => by
    rw [compE] at h
    obtain ⟨l, s1, h1, k1⟩ := CM.bind_eq.1 h
    obtain ⟨rfl, h2⟩ := nodeIdent_ok h1
    unfold treeCallee at k1
    rcases h2 with ⟨w, _, rfl⟩ | ⟨_, g, h7, rfl⟩ | ⟨_, _, rfl⟩
    · cases k1
    · dsimp only at k1
      obtain ⟨_, s2, h3, k2⟩ := CM.bind_eq.1 k1
      obtain ⟨_, e3⟩ := chk_eq.1 h3
      cases e3
      obtain ⟨_, s2, h4, k3⟩ := CM.bind_eq.1 k2
      obtain ⟨h5, e4⟩ := chk_eq.1 h4
      cases e4
      obtain ⟨vs, s3, h6, k4⟩ := CM.bind_eq.1 k3
      have x1 := Keeps.compArgs k args _ _ _ h6
      have x2 := Keeps.treeCall _ _ _ _ _ k4
      have hl := compArgs_length k args h6
      rw [← c.funcs] at h7
      rw [evalE]
      refine (simArgs c args h6 (hb.pre x2.toS (Nat.le_refl _)) hp).bind fun xs t ht => ?_
      have hp1 := hp.next x1 ht.toGone
      simp only [h7]
      refine (sim_call c h7 k4 (hb.pre (ExtS.refl _) x1.code.length_le) hp1.place hp1.good hp1.inv (by omega) ht.all).mono
        fun q w hw => ?_
      exact ⟨ht.toGone.trans hw.toGone x1, hw.is⟩
    · cases k1

theorem simArgs {e : Env} {B : Binary} {k : Cfg} {m : Sem} (c : Ctx e B k m) : ∀ (l : Args) {st st' : CSt} {vs : List VRef} {env : Vars}
    {s : Eng} {sp : Nat} {rest : List VM.Frame}, compArgs k l st = .ok (vs, st') → InB B st.code.length st' →
    Pos B s st sp rest env → Sim e s (evalArgs m env l) (PostA B s st st' sp rest vs)
  | .nil, st, st', vs, env, s, sp, rest, h, hb, hp => by
    rw [compArgs] at h
    cases CM.pure_eq.1 h
    rw [evalArgs]
    exact Sim.ok ⟨⟨hp.place, hp.good, Below.refl _ _⟩, trivial⟩
  | .cons x l, st, st', vs, env, s, sp, rest, h, hb, hp => by
    rw [compArgs] at h
    obtain ⟨v, s1, h1, k1⟩ := CM.bind_eq.1 h
    obtain ⟨_, s2, h4, k2⟩ := CM.bind_eq.1 k1
    obtain ⟨_, _, rfl⟩ := checkValue_ok h4
    obtain ⟨ws, s3, h3, k3⟩ := CM.bind_eq.1 k2
    cases CM.pure_eq.1 k3
    have x1 := Keeps.compE k x _ _ _ h1
    have x2 := Keeps.compArgs k l _ _ _ h3
    rw [evalArgs]
    refine (simE c x h1 (hb.pre x2.toS (Nat.le_refl _)) hp).bind fun y t ht => ?_
    have hp1 := hp.next x1 ht.toGone
    refine (simArgs c l h3 (hb.pre (ExtS.refl _) x1.code.length_le) hp1).bind fun ys u hu => ?_
    exact Sim.ok ⟨ht.toGone.trans hu.toGone x1, ht.is.next x2 hu.toGone, hu.all⟩
end

end Verif.Comp
