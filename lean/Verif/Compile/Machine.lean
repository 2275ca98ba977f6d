import Verif.Compile.Spec
import Verif.VM.MemLemmas
/-
  What single instructions do to an engine whose stack holds plain values only.
-/
namespace Verif.Comp
open Verif Verif.VM
open Verif.Codec (Bytes)

/-! ### Association lists in order -/

theorem aset_aset (m : AMap Nat) (x : Nat) (v w : Cell) : aset ltN (aset ltN m x v) x w = aset ltN m x w := by
  induction m with
  | nil => simp [aset]
  | cons p m ih =>
    obtain ⟨k, u⟩ := p
    by_cases h : k = x
    · subst h; simp [aset]
    · by_cases hl : ltN x k
      · simp [aset, h, hl]
      · simp [aset, h, hl, ih]

def Sorted (m : AMap Nat) : Prop := m.Pairwise (fun p q => p.1 < q.1)

theorem mem_aset {m : AMap Nat} {x : Nat} {v : Cell} {p : Nat × Cell} (h : p ∈ aset ltN m x v) :
    p = (x, v) ∨ p ∈ m := by
  induction m with
  | nil => simp [aset] at h; exact .inl h
  | cons q m ih =>
    obtain ⟨k, u⟩ := q
    unfold aset at h
    by_cases hk : k = x
    · rw [if_pos hk] at h
      cases h with
      | head => exact .inl rfl
      | tail _ h => exact .inr (List.mem_cons_of_mem _ h)
    · rw [if_neg hk] at h
      by_cases hl : ltN x k
      · rw [if_pos hl] at h
        cases h with
        | head => exact .inl rfl
        | tail _ h => exact .inr h
      · rw [if_neg hl] at h
        cases h with
        | head => exact .inr (List.mem_cons_self ..)
        | tail _ h =>
          cases ih h with
          | inl h => exact .inl h
          | inr h => exact .inr (List.mem_cons_of_mem _ h)

theorem sorted_aset {m : AMap Nat} (h : Sorted m) (x : Nat) (v : Cell) : Sorted (aset ltN m x v) := by
  induction m with
  | nil => simp [aset, Sorted]
  | cons q m ih =>
    obtain ⟨k, u⟩ := q
    have h' := List.pairwise_cons.1 h
    unfold aset
    by_cases hk : k = x
    · rw [if_pos hk]; subst hk
      exact List.pairwise_cons.2 ⟨h'.1, h'.2⟩
    · rw [if_neg hk]
      by_cases hl : ltN x k
      · rw [if_pos hl]
        have hlt : x < k := by simpa [ltN] using hl
        refine List.pairwise_cons.2 ⟨?_, h⟩
        intro p hp
        cases hp with
        | head => exact hlt
        | tail _ hp => exact Nat.lt_trans hlt (h'.1 p hp)
      · rw [if_neg hl]
        have hlt : k < x := by have : ¬ x < k := by simpa [ltN] using hl
                               omega
        refine List.pairwise_cons.2 ⟨?_, ih h'.2⟩
        intro p hp
        cases mem_aset hp with
        | inl e => rw [e]; exact hlt
        | inr e => exact h'.1 p e

theorem aget_of_mem {m : AMap Nat} (h : Sorted m) {p : Nat × Cell} (hp : p ∈ m) : aget m p.1 = some p.2 := by
  induction m with
  | nil => cases hp
  | cons q m ih =>
    obtain ⟨k, u⟩ := q
    have h' := List.pairwise_cons.1 h
    cases hp with
    | head => simp [aget]
    | tail _ hp =>
      have := h'.1 p hp
      simp only [aget]
      rw [if_neg (by dsimp only at this; omega)]
      exact ih h'.2 hp

theorem mem_of_aget {m : AMap Nat} {x : Nat} {c : Cell} (h : aget m x = some c) : (x, c) ∈ m := by
  induction m with
  | nil => cases h
  | cons q m ih =>
    obtain ⟨k, u⟩ := q
    simp only [aget] at h
    by_cases hk : k = x
    · rw [if_pos hk] at h; cases h; rw [hk]; exact List.mem_cons_self ..
    · rw [if_neg hk] at h; exact List.mem_cons_of_mem _ (ih h)

theorem sorted_adel {m : AMap Nat} (h : Sorted m) (x : Nat) : Sorted (adel m x) := List.Pairwise.filter _ h

/-! ### Plain cells -/

/-- A cell with a value that is no reference, neither constant nor deleted. -/
structure Plain (c : Cell) : Prop where
  const : c.const = false
  deleted : c.deleted = false
  val : Scalar c.val

theorem Scalar.plain {v : Val} (h : Scalar v) : plain v = true := by
  cases v <;> first | rfl | exact h.elim

theorem Scalar.size {v : Val} (h : Scalar v) : ¬ numBytes v > MAX_VALUE_BYTES := by
  cases v <;> simp only [numBytes, MAX_VALUE_BYTES] <;> unfold Scalar at h <;> first | omega | exact h.elim

theorem clear_scalar {c : Cell} (h : Scalar c.val) : clear c = pure () := by
  unfold clear clearWith
  cases hv : c.val <;> rw [hv] at h <;> first | rfl | exact h.elim

/-- One stack cell gets another value; nothing else changes but gas. -/
structure Upd (s t : Eng) (a : Nat) (v : Val) : Prop where
  code : t.code = s.code
  limit : t.limit = s.limit
  frames : t.frames = s.frames
  mem : ∃ c, t.mem = aset ltN s.mem a c ∧ Plain c ∧ c.val = v

/-- All cells of the stack are plain. -/
def StackOk (s : Eng) : Prop := ∀ a c, MEM_STACK ≤ a → a < MEM_STATIC → aget s.mem a = some c → Plain c

/-- A stack address. -/
def OnStack (a : Nat) : Prop := MEM_STACK ≤ a ∧ a < MEM_STATIC

theorem fetch_stack (e : Env) {a : Nat} (h : OnStack a) (s : Eng) : fetch e a s = .ok () s := by
  have h1 : ¬ (s.haveInit ∧ a < MEM_EXTERN) := fun h2 => by
    have := h.1; have := h2.2; unfold MEM_STACK at *; omega
  have h2 : ¬ (a ≥ MEM_STATIC ∧ a < s.heapBase) := fun h2 => by have := h.2; omega
  simp only [fetch, bind_def, gets, id]
  rw [show need (¬ (s.haveInit ∧ a < MEM_EXTERN)) s = .ok () s by rw [need, if_pos h1]; rfl]
  dsimp only
  cases aget s.mem a with
  | some c => rfl
  | none => dsimp only; rw [if_neg h2]; rfl

theorem assignCell_upd {s : Eng} {a : Nat} {v : Val} (h : StackOk s) (ha : OnStack a) (hv : Scalar v) :
    ∃ t, assignCell (.mem a) v s = .ok () t ∧ Upd s t a v := by
  have hn : ∀ u : Eng, need (¬ numBytes v > MAX_VALUE_BYTES) u = .ok () u := fun u => by
    rw [need, if_pos hv.size]; rfl
  have hr : addrefVal v = pure () := addrefVal_plain hv.plain
  cases hc : aget s.mem a with
  | none =>
    have h1 : assignCell (.mem a) v s = .ok () { s with
        gas := s.gas + (WRITE_COST + numBytes v * WRITE_32_BYTE_COST / 32)
        mem := aset ltN s.mem a { val := v, dirty := true } } := by
      simp only [assignCell, replaceCell, getCell, bind_def, gets, hc, pure_def, hn, addGas, VM.modify, setCell, hr]
    exact ⟨_, h1, rfl, rfl, rfl, _, rfl, ⟨rfl, rfl, hv⟩, rfl⟩
  | some c =>
    have hp := h a c ha.1 ha.2 hc
    have h1 : assignCell (.mem a) v s = .ok () { s with
        gas := s.gas + (WRITE_COST + numBytes v * WRITE_32_BYTE_COST / 32)
        mem := aset ltN s.mem a { c with val := v, ver := c.ver + 1, dirty := true, deleted := false } } := by
      simp only [assignCell, replaceCell, getCell, bind_def, gets, hc, pure_def, need, hp.const,
        clear_scalar hp.val, hv.size, addGas, VM.modify, setCell, hr, Bool.false_eq_true, not_false_eq_true, if_true]
    exact ⟨_, h1, rfl, rfl, rfl, _, rfl, ⟨hp.const, rfl, hv⟩, rfl⟩

theorem assign_upd (e : Env) {s : Eng} {a : Nat} {v : Val} (h : StackOk s) (ha : OnStack a) (hv : Scalar v) :
    ∃ t, assign e a v s = .ok () t ∧ Upd s t a v := by
  have hw : withAddr a v = v := by cases v <;> first | rfl | exact hv.elim
  obtain ⟨t, h1, h2⟩ := assignCell_upd h ha hv
  refine ⟨t, ?_, h2⟩
  rw [assign, bind_def, fetch_stack e ha]
  dsimp only
  rw [hw, h1]

/-- The write in place, or what is left to do. -/
theorem inPlace_upd {s : Eng} {a : Nat} {c : Cell} {v : Val} (hp : Plain c) (hv : Scalar v) :
    (∃ t, writeInPlace (.mem a) c v { s with mem := aset ltN s.mem a c } = .ok true t ∧ Upd s t a v) ∨
    writeInPlace (.mem a) c v { s with mem := aset ltN s.mem a c } =
      .ok false { s with mem := aset ltN s.mem a c } := by
  have hset : ∀ w : Val, Scalar w → Upd s { s with mem := aset ltN (aset ltN s.mem a c) a { c with dirty := true, val := w } } a w :=
    fun w hw => ⟨rfl, rfl, rfl, { c with dirty := true, val := w }, aset_aset _ _ _ _, ⟨hp.const, hp.deleted, hw⟩, rfl⟩
  have hkeep : Upd s { s with mem := aset ltN s.mem a c } a c.val := ⟨rfl, rfl, rfl, c, rfl, hp, rfl⟩
  have hc := hp.val
  cases v with
  | ref _ => exact hv.elim
  | arr _ _ => exact hv.elim
  | map _ => exact hv.elim
  | uint n =>
    cases hw : c.val with
    | uint o =>
      refine .inl ?_
      by_cases hn : n = o
      · refine ⟨_, ?_, by rw [hn, ← hw]; exact hkeep⟩
        simp only [writeInPlace, hw, bind_def, if_pos hn, pure_def]
      · refine ⟨_, ?_, hset (.uint n) hv⟩
        simp only [writeInPlace, hw, bind_def, if_neg hn, pure_def, setCell, VM.modify]
    | ref _ => rw [hw] at hc; exact hc.elim
    | _ => refine .inr ?_; simp [writeInPlace, hw, simple]; rfl
  | str b => refine .inr ?_; simp [writeInPlace, simple]; rfl
  | bin b => refine .inr ?_; simp [writeInPlace, simple]; rfl
  | nil =>
    by_cases hs : simple c.val = true
    · refine .inl ?_
      by_cases hn : Val.nil = c.val
      · refine ⟨_, ?_, hn ▸ hkeep⟩
        simp only [writeInPlace]
        rw [if_pos ⟨rfl, hs⟩, bind_def, if_pos hn]; rfl
      · refine ⟨_, ?_, hset .nil hv⟩
        simp only [writeInPlace]
        rw [if_pos ⟨rfl, hs⟩, bind_def, if_neg hn]; rfl
    · refine .inr ?_
      simp only [writeInPlace]
      rw [if_neg (fun h => hs h.2)]; rfl
  | fls =>
    by_cases hs : simple c.val = true
    · refine .inl ?_
      by_cases hn : Val.fls = c.val
      · refine ⟨_, ?_, hn ▸ hkeep⟩
        simp only [writeInPlace]
        rw [if_pos ⟨rfl, hs⟩, bind_def, if_pos hn]; rfl
      · refine ⟨_, ?_, hset .fls hv⟩
        simp only [writeInPlace]
        rw [if_pos ⟨rfl, hs⟩, bind_def, if_neg hn]; rfl
    · refine .inr ?_
      simp only [writeInPlace]
      rw [if_neg (fun h => hs h.2)]; rfl
  | tru =>
    by_cases hs : simple c.val = true
    · refine .inl ?_
      by_cases hn : Val.tru = c.val
      · refine ⟨_, ?_, hn ▸ hkeep⟩
        simp only [writeInPlace]
        rw [if_pos ⟨rfl, hs⟩, bind_def, if_pos hn]; rfl
      · refine ⟨_, ?_, hset .tru hv⟩
        simp only [writeInPlace]
        rw [if_pos ⟨rfl, hs⟩, bind_def, if_neg hn]; rfl
    · refine .inr ?_
      simp only [writeInPlace]
      rw [if_neg (fun h => hs h.2)]; rfl

theorem Upd.after {s u t : Eng} {a : Nat} {c : Cell} {v : Val} (hu : u = { s with mem := aset ltN s.mem a c })
    (h : Upd u t a v) : Upd s t a v := by
  subst hu
  obtain ⟨d, h1, h2, h3⟩ := h.mem
  exact ⟨h.code, h.limit, h.frames, d, by rw [h1, aset_aset], h2, h3⟩

/-- A value in memory: the address is there and not deleted. -/
def Has (s : Eng) (a : Nat) (v : Val) : Prop := ∃ c, aget s.mem a = some c ∧ c.deleted = false ∧ c.val = v

theorem stackOk_aset {s : Eng} {a : Nat} {c : Cell} (h : StackOk s) (hc : Plain c) :
    StackOk { s with mem := aset ltN s.mem a c } := by
  intro x d h1 h2 h3
  dsimp only at h3
  rw [aget_aset] at h3
  by_cases hx : a = x
  · rw [if_pos hx] at h3; cases h3; exact hc
  · rw [if_neg hx] at h3; exact h x d h1 h2 h3

/-- The general write: from a temporary, or from another object. -/
theorem write_upd (e : Env) {s : Eng} {a : Nat} {v : Val} {src : Src} {sc : Cell} (h : StackOk s) (ha : OnStack a)
    (hv : Scalar v) (hat : src.isAt (.mem a) = false) (hs : ∀ u : Eng, (∀ x, x ≠ a → aget u.mem x = aget s.mem x) →
      srcCell src u = .ok sc u) (hd : sc.deleted = false) (hsv : sc.val = v) :
    ∃ t, write e a src s = .ok () t ∧ Upd s t a v := by
  have hnd : ∀ u : Eng, need (¬ sc.deleted) u = .ok () u := fun u => by
    rw [need, if_pos (by rw [hd]; decide)]; rfl
  have h0 := hs s (fun _ _ => rfl)
  rw [write, bind_def, fetch_stack e ha]
  dsimp only
  cases hc : aget s.mem a with
  | none =>
    obtain ⟨t, h1, h2⟩ := assignCell_upd h ha hv
    refine ⟨t, ?_, h2⟩
    have hpre : writePre (.mem a) src s = .ok false s := by
      simp only [writePre, bind_def, h0, hat, Bool.false_eq_true, if_false, hnd, getCell, gets, hc, pure_def]
    simp only [writeMemCell, bind_def, hpre, Bool.false_eq_true, if_false, h0]
    rw [hsv]
    cases v <;> first | exact h1 | exact hv.elim
  | some c =>
    have hp := h a c ha.1 ha.2 hc
    have hrev : revive c = c := by simp [revive, hp.deleted]
    have hpre : writePre (.mem a) src s = writeInPlace (.mem a) c v { s with mem := aset ltN s.mem a c } := by
      simp only [writePre, bind_def, h0, hat, Bool.false_eq_true, if_false, getCell, gets, hc, need, hp.const, hd,
        not_false_eq_true, if_true, pure_def, hrev, setCell, VM.modify, hsv]
    rcases inPlace_upd (s := s) (a := a) hp hv with ⟨t, h1, h2⟩ | h1
    · refine ⟨t, ?_, h2⟩
      simp only [writeMemCell, bind_def, hpre, h1, if_true, pure_def]
    · have hok := stackOk_aset (a := a) h hp
      obtain ⟨t, h2, h3⟩ := assignCell_upd hok ha hv
      refine ⟨t, ?_, h3.after rfl⟩
      have h4 := hs { s with mem := aset ltN s.mem a c } (fun x hx => by
        dsimp only; rw [aget_aset, if_neg (Ne.symm hx)])
      simp only [writeMemCell, bind_def, hpre, h1, Bool.false_eq_true, if_false, h4]
      rw [hsv]
      cases v <;> first | exact h2 | exact hv.elim

theorem writeVal_upd (e : Env) {s : Eng} {a : Nat} {v : Val} (h : StackOk s) (ha : OnStack a) (hv : Scalar v) :
    ∃ t, writeVal e a v s = .ok () t ∧ Upd s t a v :=
  write_upd e (sc := { val := v }) h ha hv rfl (fun _ _ => rfl) rfl rfl

theorem writeFrom_upd (e : Env) {s : Eng} {a b : Nat} {v : Val} (h : StackOk s) (ha : OnStack a) (hb : Has s b v)
    (hv : Scalar v) (hab : a ≠ b) : ∃ t, writeFrom e a b s = .ok () t ∧ Upd s t a v := by
  obtain ⟨c, h1, h2, h3⟩ := hb
  rw [writeFrom, bind_def, readFail_mem h1 h2]
  dsimp only
  refine write_upd e (sc := c) h ha hv ?_ ?_ h2 h3
  · simp only [Src.isAt]
    exact decide_eq_false (fun h => hab (Loc.mem.inj h).symm)
  · intro u hu
    simp only [srcCell, getCell, bind_def, gets, hu b (Ne.symm hab), h1, safe, if_true, pure_def]

/-! ### Operands -/

/-- The address an operand stands for. -/
def ab (sp x : Nat) : Nat := if MEM_STACK ≤ x then x + sp else x

/-- Operands of code that fits. -/
def Fit (x : Nat) : Prop := x < MEM_STACK + 2 ^ 20

theorem stackAddr_ab {s : Eng} {f : VM.Frame} {l : List VM.Frame} {x : Nat} (hf : s.frames = f :: l)
    (hsp : f.sp + 2 ^ 20 ≤ STACK_SIZE) (hx : Fit x) : stackAddr x s = .ok (ab f.sp x) s := by
  unfold Fit at hx
  have hst : MEM_STATIC = MEM_STACK + STACK_SIZE := rfl
  simp only [stackAddr, ab]
  by_cases h : MEM_STACK ≤ x
  · have key : ∀ MS ST SZ sp x : Nat, ST = MS + SZ → sp + 2 ^ 20 ≤ SZ → x < MS + 2 ^ 20 → x < ST ∧ ¬ x + sp ≥ ST := by
      intros; omega
    obtain ⟨h1, h2⟩ := key _ _ _ _ _ hst hsp hx
    have h3 : need (¬ x + f.sp ≥ MEM_STATIC) s = .ok () s := by rw [need, if_pos h2]; rfl
    rw [if_pos ⟨h, h1⟩, if_pos h]
    simp only [bind_def, getFrame, gets, id, hf, pure_def, h3]
  · rw [if_neg (fun h' => h h'.1), if_neg h]; rfl

theorem Has.peek {s : Eng} {a : Nat} {v : Val} (h : Has s a v) : peek s a = some v := by
  obtain ⟨c, h1, h2, h3⟩ := h
  rw [peek_of h1 h2, h3]

theorem Has.gas {s : Eng} {a g : Nat} {v : Val} (h : Has s a v) : Has { s with gas := g } a v := h

theorem Has.inj {s : Eng} {a : Nat} {v w : Val} (h : Has s a v) (h' : Has s a w) : v = w := by
  obtain ⟨c, h1, _, h3⟩ := h
  obtain ⟨d, h4, _, h5⟩ := h'
  rw [h1] at h4; cases h4; rw [← h3, ← h5]

theorem has_readFail (e : Env) {s : Eng} {a : Nat} {v : Val} (h : Has s a v) :
    ∃ c, readFail e a s = .ok c s ∧ c.val = v := readFail_peek h.peek

theorem readUint_not (e : Env) {s : Eng} {a : Nat} {v : Val} (h : Has s a v) (hn : ∀ n, v ≠ .uint n) :
    readUint e a s = .throw s := by
  obtain ⟨c, h1, h2⟩ := has_readFail e h
  rw [readUint, bind_def, h1]
  cases v <;> simp only [h2] <;> first | rfl | exact absurd rfl (hn _)

/-! ### Outcome of an operation with one result -/

/-- The operation puts the result at `a`, or throws. -/
def Ans (m : EM Unit) (s : Eng) (a : Nat) : Res Val → Prop
  | .ok v => ∃ t, m s = .ok () t ∧ Upd s t a v ∧ Scalar v
  | .throw => ∃ t, m s = .throw t
  | .ub => True

theorem Ans.val {s : Eng} (e : Env) {a : Nat} {v : Val} (h : StackOk s) (ha : OnStack a) (hv : Scalar v) :
    Ans (writeVal e a v) s a (.ok v) := by
  obtain ⟨t, h1, h2⟩ := writeVal_upd e h ha hv
  exact ⟨t, h1, h2, hv⟩

theorem need_pos {c : Prop} [Decidable c] (h : c) (s : Eng) : need c s = .ok () s := by rw [need, if_pos h]; rfl
theorem need_neg {c : Prop} [Decidable c] (h : ¬ c) (s : Eng) : need c s = .throw s := by rw [need, if_neg h]; rfl

theorem need_not {c : Prop} [Decidable c] (h : ¬ c) (s : Eng) : need (¬ c) s = .ok () s := need_pos h s
theorem need_nnot {c : Prop} [Decidable c] (h : c) (s : Eng) : need (¬ c) s = .throw s := need_neg (fun h' => h' h) s

theorem Ans.gas {m : EM Unit} {s : Eng} {a g : Nat} {r : Res Val} (h : Ans m { s with gas := g } a r) :
    Ans (VM.modify (fun s => { s with gas := g }) >>= fun _ => m) s a r := by
  cases r with
  | ok v => obtain ⟨t, h1, h2, h3⟩ := h; exact ⟨t, h1, ⟨h2.code, h2.limit, h2.frames, h2.mem⟩, h3⟩
  | throw => obtain ⟨t, h1⟩ := h; exact ⟨t, h1⟩
  | ub => trivial

theorem Ans.addGas {m : EM Unit} {s : Eng} {a g : Nat} {r : Res Val} (h : Ans m { s with gas := s.gas + g } a r) :
    Ans (do addGas g; m) s a r := by
  cases r with
  | ok v => obtain ⟨t, h1, h2, h3⟩ := h; exact ⟨t, h1, ⟨h2.code, h2.limit, h2.frames, h2.mem⟩, h3⟩
  | throw => obtain ⟨t, h1⟩ := h; exact ⟨t, h1⟩
  | ub => trivial

/-- What an instruction needs to know of the engine. -/
structure Room (s : Eng) (sp : Nat) : Prop where
  top : ∃ ip l, s.frames = ⟨ip, sp⟩ :: l
  sp : sp + 2 ^ 20 ≤ STACK_SIZE
  stack : StackOk s

theorem Room.gas {s : Eng} {sp g : Nat} (h : Room s sp) : Room { s with gas := g } sp := ⟨h.top, h.sp, h.stack⟩

theorem Room.addr {s : Eng} {sp x : Nat} (h : Room s sp) (hx : Fit x) : stackAddr x s = .ok (ab sp x) s := by
  obtain ⟨ip, l, hf⟩ := h.top
  exact stackAddr_ab hf h.sp hx

theorem Room.onStack {s : Eng} {sp x : Nat} (h : Room s sp) (hx : Fit x) (hs : MEM_STACK ≤ x) : OnStack (ab sp x) := by
  have := h.sp
  unfold Fit at hx
  have hst : MEM_STATIC = MEM_STACK + STACK_SIZE := rfl
  unfold ab OnStack
  rw [if_pos hs]
  omega

section
variable {e : Env} {s : Eng} {sp : Nat} {i : Instr} {l r : Val}

theorem addrA_eq (h : Room s sp) (hx : Fit i.a) (hr : i.refA = false) : addrA e i s = .ok (ab sp i.a) s := by
  simp only [addrA, derefAddr, bind_def, h.addr hx, hr, Bool.false_eq_true, if_false, pure_def]
theorem addrB_eq (h : Room s sp) (hx : Fit i.b) (hr : i.refB = false) : addrB e i s = .ok (ab sp i.b) s := by
  simp only [addrB, derefAddr, bind_def, h.addr hx, hr, Bool.false_eq_true, if_false, pure_def]
theorem addrC_eq (h : Room s sp) (hx : Fit i.c) (hr : i.refC = false) : addrC e i s = .ok (ab sp i.c) s := by
  simp only [addrC, derefAddr, bind_def, h.addr hx, hr, Bool.false_eq_true, if_false, pure_def]

/-- The operands of an instruction: a target on the stack, all in range and none by reference. -/
structure Three (i : Instr) : Prop where
  dst : MEM_STACK ≤ i.a
  a : Fit i.a
  b : Fit i.b
  c : Fit i.c
  rA : i.refA = false
  rB : i.refB = false
  rC : i.refC = false

/-- A result on two numbers; any other operands are an error. -/
def onUints (G : Nat → Nat → Res Nat) : Val → Val → Res Val
  | .uint x, .uint y => num (G x y)
  | _, _ => .throw

theorem onUints_right {G : Nat → Nat → Res Nat} (l : Val) (h : ¬ ∃ y, r = .uint y) : onUints G l r = .throw := by
  cases l <;> cases r <;> first | rfl | exact absurd ⟨_, rfl⟩ h

theorem onUints_left {G : Nat → Nat → Res Nat} (r : Val) (h : ¬ ∃ y, l = .uint y) : onUints G l r = .throw := by
  cases l <;> first | rfl | exact absurd ⟨_, rfl⟩ h

theorem ans_uints (h : Room s sp) (ho : Three i) {F : Nat × Nat × Nat → EM Unit} {G : Nat → Nat → Res Nat}
    (hl : Has s (ab sp i.b) l) (hr : Has s (ab sp i.c) r)
    (hF : ∀ x y, l = .uint x → r = .uint y → Ans (F (ab sp i.a, x, y)) s (ab sp i.a) (num (G x y))) :
    Ans (opUints e i >>= F) s (ab sp i.a) (onUints G l r) := by
  by_cases h1 : ∃ x, l = .uint x
  · obtain ⟨x, rfl⟩ := h1
    by_cases h2 : ∃ y, r = .uint y
    · obtain ⟨y, rfl⟩ := h2
      have : opUints e i s = .ok (ab sp i.a, x, y) s := by
        simp only [opUints, bind_def, addrA_eq h ho.a ho.rA, addrB_eq h ho.b ho.rB, addrC_eq h ho.c ho.rC,
          readUint_peek hl.peek, readUint_peek hr.peek, pure_def]
      have hf := hF x y rfl rfl
      simp only [onUints]
      cases hg : num (G x y) with
      | ok v =>
        rw [hg] at hf
        obtain ⟨t, h3, h4⟩ := hf
        exact ⟨t, by rw [bind_def, this]; exact h3, h4⟩
      | throw =>
        rw [hg] at hf
        obtain ⟨t, h3⟩ := hf
        exact ⟨t, by rw [bind_def, this]; exact h3⟩
      | ub => trivial
    · have : opUints e i s = .throw s := by
        simp only [opUints, bind_def, addrA_eq h ho.a ho.rA, addrB_eq h ho.b ho.rB, addrC_eq h ho.c ho.rC,
          readUint_peek hl.peek, readUint_not e hr (fun n hn => h2 ⟨n, hn⟩)]
      rw [onUints_right _ h2]
      exact ⟨s, by rw [bind_def, this]⟩
  · have : opUints e i s = .throw s := by
      simp only [opUints, bind_def, addrA_eq h ho.a ho.rA, addrB_eq h ho.b ho.rB, addrC_eq h ho.c ho.rC,
        readUint_not e hl (fun n hn => h1 ⟨n, hn⟩)]
    rw [onUints_left _ h1]
    exact ⟨s, by rw [bind_def, this]⟩

theorem ans_checked {dst n : Nat} {c : Prop} [Decidable c] {res : Res Nat} (h : StackOk s) (hd : OnStack dst)
    (hn : n < 2 ^ 256) (hc : (c ∧ res = .throw) ∨ (¬ c ∧ res = .ok n)) :
    Ans (do need (¬ c); writeVal e dst (.uint n)) s dst (num res) := by
  rcases hc with ⟨h1, rfl⟩ | ⟨h1, rfl⟩
  · exact ⟨s, by rw [bind_def, need_nnot h1]⟩
  · obtain ⟨t, h2, h3⟩ := writeVal_upd e h hd (v := .uint n) hn
    exact ⟨t, by rw [bind_def, need_not h1]; exact h2, h3, hn⟩

theorem arith_add (b : Bool) {M x y : Nat} (hx : x < M) (hy : y < M) :
    ((b = true ∧ (x + y) % M < x) ∧ (if x + y < M then Res.ok (x + y) else if b = true then .throw else .ok (x + y - M)) = .throw) ∨
    (¬ (b = true ∧ (x + y) % M < x) ∧
      (if x + y < M then Res.ok (x + y) else if b = true then .throw else .ok (x + y - M)) = .ok ((x + y) % M)) := by
  by_cases h1 : x + y < M
  · rw [if_pos h1, Nat.mod_eq_of_lt h1]
    exact .inr ⟨fun h => by omega, rfl⟩
  · rw [if_neg h1]
    have hu : (x + y) % M = x + y - M := by
      rw [Nat.mod_eq_sub_mod (by omega), Nat.mod_eq_of_lt (by omega)]
    rw [hu]
    cases b with
    | true => exact .inl ⟨⟨rfl, by omega⟩, rfl⟩
    | false => exact .inr ⟨fun h => (nomatch h.1), rfl⟩

theorem arith_sub (b : Bool) {M x y : Nat} (hx : x < M) (hy : y < M) :
    ((b = true ∧ (x + M - y) % M > x) ∧ (if y ≤ x then Res.ok (x - y) else if b = true then .throw else .ok (x + M - y)) = .throw) ∨
    (¬ (b = true ∧ (x + M - y) % M > x) ∧
      (if y ≤ x then Res.ok (x - y) else if b = true then .throw else .ok (x + M - y)) = .ok ((x + M - y) % M)) := by
  by_cases h1 : y ≤ x
  · have hu : (x + M - y) % M = x - y := by
      rw [Nat.mod_eq_sub_mod (by omega), Nat.mod_eq_of_lt (by omega)]; omega
    rw [if_pos h1, hu]
    exact .inr ⟨fun h => by omega, rfl⟩
  · rw [if_neg h1]
    have hu : (x + M - y) % M = x + M - y := Nat.mod_eq_of_lt (by omega)
    rw [hu]
    cases b with
    | true => exact .inl ⟨⟨rfl, by omega⟩, rfl⟩
    | false => exact .inr ⟨fun h => (nomatch h.1), rfl⟩

theorem arith_mul (b : Bool) {M x y : Nat} {ov : Bool} (hov : ov = true ↔ ¬ x * y < M) :
    ((b = true ∧ ov = true) ∧ (if x * y < M then Res.ok (x * y) else if b = true then .throw else .ok (x * y % M)) = .throw) ∨
    (¬ (b = true ∧ ov = true) ∧
      (if x * y < M then Res.ok (x * y) else if b = true then .throw else .ok (x * y % M)) = .ok (x * y % M)) := by
  by_cases h1 : x * y < M
  · rw [if_pos h1, Nat.mod_eq_of_lt h1]
    exact .inr ⟨fun h => hov.1 h.2 h1, rfl⟩
  · rw [if_neg h1]
    cases b with
    | true => exact .inl ⟨⟨rfl, hov.2 h1⟩, rfl⟩
    | false => exact .inr ⟨fun h => (nomatch h.1), rfl⟩

theorem mulOverflow_iff {v x y : Nat} (hver : v ≥ 1) : mulOverflow v x y = true ↔ ¬ x * y < 2 ^ 256 := by
  simp only [mulOverflow, if_pos hver, decide_eq_true_eq]
  have hM : 2 ^ 256 - 1 + 1 = 2 ^ 256 := rfl
  generalize 2 ^ 256 - 1 = N at *
  rw [← hM]
  constructor
  · rintro ⟨h1, h2⟩ h3
    have : y ≤ N / x := by
      rw [Nat.le_div_iff_mul_le (by omega), Nat.mul_comm]; omega
    omega
  · intro h1
    by_cases h0 : x = 0
    · subst h0; simp at h1
    · refine ⟨h0, ?_⟩
      rw [gt_iff_lt, Nat.div_lt_iff_lt_mul (by omega), Nat.mul_comm]
      omega

theorem u256_lt (n : Nat) : u256 n < 2 ^ 256 := Nat.mod_lt _ (by decide)

variable (h : Room s sp) (ho : Three i) (hl : Has s (ab sp i.b) l) (hr : Has s (ab sp i.c) r)
  (hls : Scalar l) (hrs : Scalar r)
include h ho hl hr hls hrs

theorem ans_add : Ans (opAdd e i) s (ab sp i.a) (binVal i.catchOverflow .add l r) := by
  have hb : binVal i.catchOverflow .add l r = onUints (arith i.catchOverflow .add) l r := by
    cases l <;> cases r <;> rfl
  rw [hb]
  refine ans_uints (e := e) (G := arith i.catchOverflow .add) h ho hl hr ?_
  rintro x y rfl rfl
  exact ans_checked h.stack (h.onStack ho.a ho.dst) (u256_lt _) (arith_add i.catchOverflow hls hrs)

theorem ans_sub : Ans (opSub e i) s (ab sp i.a) (binVal i.catchOverflow .sub l r) := by
  have hb : binVal i.catchOverflow .sub l r = onUints (arith i.catchOverflow .sub) l r := by
    cases l <;> cases r <;> rfl
  rw [hb]
  refine ans_uints (e := e) (G := arith i.catchOverflow .sub) h ho hl hr ?_
  rintro x y rfl rfl
  exact ans_checked h.stack (h.onStack ho.a ho.dst) (u256_lt _) (arith_sub i.catchOverflow hls hrs)

omit hls hrs in
theorem ans_mul (hver : e.version ≥ 1) : Ans (opMul e i) s (ab sp i.a) (binVal i.catchOverflow .mul l r) := by
  have hb : binVal i.catchOverflow .mul l r = onUints (arith i.catchOverflow .mul) l r := by
    cases l <;> cases r <;> rfl
  rw [hb]
  refine ans_uints (e := e) (G := arith i.catchOverflow .mul) h ho hl hr ?_
  rintro x y rfl rfl
  exact Ans.addGas (ans_checked h.gas.stack (h.onStack ho.a ho.dst) (u256_lt _)
    (arith_mul i.catchOverflow (mulOverflow_iff hver)))

omit hrs in
theorem ans_div (c : Bool) : Ans (opDiv e i false) s (ab sp i.a) (binVal c .div l r) := by
  have hb : binVal c .div l r = onUints (arith c .div) l r := by cases l <;> cases r <;> rfl
  rw [hb]
  refine ans_uints (e := e) (G := arith c .div) h ho hl hr ?_
  rintro x y rfl rfl
  have hx : x < 2 ^ 256 := hls
  simp only [arith]
  by_cases h1 : y = 0
  · rw [if_pos h1]
    exact ⟨s, by rw [bind_def, need_nnot h1]⟩
  · rw [if_neg h1]
    have hv : Scalar (.uint (x / y)) := Nat.lt_of_le_of_lt (Nat.div_le_self x y) hx
    obtain ⟨t, h2, h3⟩ := writeVal_upd (s := { s with gas := s.gas + divCost x }) e h.stack (h.onStack ho.a ho.dst) hv
    refine ⟨t, ?_, ⟨h3.code, h3.limit, h3.frames, h3.mem⟩, hv⟩
    rw [bind_def, need_not h1]
    exact h2

omit hrs in
theorem ans_mod (c : Bool) : Ans (opDiv e i true) s (ab sp i.a) (binVal c .mod l r) := by
  have hb : binVal c .mod l r = onUints (arith c .mod) l r := by cases l <;> cases r <;> rfl
  rw [hb]
  refine ans_uints (e := e) (G := arith c .mod) h ho hl hr ?_
  rintro x y rfl rfl
  have hx : x < 2 ^ 256 := hls
  simp only [arith]
  by_cases h1 : y = 0
  · rw [if_pos h1]
    exact ⟨s, by rw [bind_def, need_nnot h1]⟩
  · rw [if_neg h1]
    have hv : Scalar (.uint (x % y)) := Nat.lt_of_le_of_lt (Nat.mod_le x y) hx
    obtain ⟨t, h2, h3⟩ := writeVal_upd (s := { s with gas := s.gas + divCost x }) e h.stack (h.onStack ho.a ho.dst) hv
    refine ⟨t, ?_, ⟨h3.code, h3.limit, h3.frames, h3.mem⟩, hv⟩
    rw [bind_def, need_not h1]
    exact h2

omit h ho hl hr hls hrs in
theorem truth_eq (v : Val) : VM.isTrue v = truth v := by
  cases v with
  | uint n => by_cases h : n = 0 <;> simp [VM.isTrue, truth, h]
  | str b => cases b <;> simp [VM.isTrue, truth]
  | bin b => cases b <;> simp [VM.isTrue, truth]
  | _ => rfl

omit h ho hl hr hls hrs in
theorem scalar_bool (b : Bool) : Scalar (ofBool b) := by cases b <;> exact trivial

/-- A step on two numbers or on two byte strings. -/
def onBits {α : Type} (k : Nat → Nat → α) (q : Bytes → Bytes → α) (d : α) : Val → Val → α
  | .uint x, .uint y => k x y
  | .bin x, .bin y => q x y
  | _, _ => d

omit h ho hl hr hls hrs in
theorem zipWith_length (f : Nat → Nat → Nat) {x y : Bytes} (h : x.length = y.length) :
    (List.zipWith f x y).length = x.length := by rw [List.length_zipWith]; omega

/-- Bitwise operators. -/
theorem ans_bits {o : BinOp} {f : Nat → Nat → Nat} {g : Bool → Bool → Bool} (hf : f = bits o)
    (ho3 : o = .band ∨ o = .bor ∨ o = .bxor) (hb : i.bitwise = true) (c : Bool) :
    Ans (opLogic e i f g) s (ab sp i.a) (binVal c o l r) := by
  subst hf
  have hlt : ∀ x y, x < 2 ^ 256 → y < 2 ^ 256 → bits o x y < 2 ^ 256 := by
    intro x y hx hy
    rcases ho3 with rfl | rfl | rfl
    · exact Nat.and_lt_two_pow x hy
    · exact Nat.or_lt_two_pow hx hy
    · exact Nat.xor_lt_two_pow hx hy
  have hval : binVal c o l r = onBits (fun x y => .ok (.uint (bits o x y)))
      (fun x y => if x.length = y.length then .ok (.bin (List.zipWith (bits o) x y)) else .throw) .throw l r := by
    rcases ho3 with rfl | rfl | rfl <;> cases l <;> cases r <;> rfl
  rw [hval]
  obtain ⟨cl, h1, h2⟩ := has_readFail e hl
  obtain ⟨cr, h3, h4⟩ := has_readFail e hr
  have hrun : opLogic e i (bits o) g s = onBits (fun x y => writeVal e (ab sp i.a) (.uint (bits o x y)))
    (fun x y => (do
      need (x.length = y.length)
      assign e (ab sp i.a) (.bin (List.zipWith (bits o) x y)) : EM Unit))
    raise l r s := by
    simp only [opLogic, bind_def, addrA_eq h ho.a ho.rA, addrB_eq h ho.b ho.rB, addrC_eq h ho.c ho.rC, h1, h3, hb,
      if_true, h2, h4]
    cases l <;> cases r <;> rfl
  have hd := h.onStack ho.a ho.dst
  have hthrow : ∀ {m : EM Unit}, opLogic e i (bits o) g s = m s → m = raise → Ans (opLogic e i (bits o) g) s (ab sp i.a) .throw := by
    intro m h1 h2
    exact ⟨s, by rw [h1, h2]; rfl⟩
  by_cases hu : (∃ x, l = .uint x) ∧ ∃ y, r = .uint y
  · obtain ⟨⟨x, rfl⟩, y, rfl⟩ := hu
    obtain ⟨t, h5, h6⟩ := writeVal_upd e h.stack hd (v := .uint (bits o x y)) (hlt x y hls hrs)
    exact ⟨t, by rw [hrun]; exact h5, h6, hlt x y hls hrs⟩
  · by_cases hbb : (∃ x, l = .bin x) ∧ ∃ y, r = .bin y
    · obtain ⟨⟨x, rfl⟩, y, rfl⟩ := hbb
      dsimp only [onBits]
      by_cases hn : x.length = y.length
      · rw [if_pos hn]
        have hv : Scalar (.bin (List.zipWith (bits o) x y)) := by
          show (List.zipWith (bits o) x y).length ≤ 2 ^ 20
          rw [zipWith_length _ hn]; exact hls
        obtain ⟨t, h5, h6⟩ := assign_upd e h.stack hd hv
        exact ⟨t, by rw [hrun]; dsimp only [onBits]; rw [bind_def, need_pos hn]; exact h5, h6, hv⟩
      · rw [if_neg hn]
        exact ⟨s, by rw [hrun]; dsimp only [onBits]; rw [bind_def, need_neg hn]⟩
    · cases l <;> cases r <;>
        first
          | exact ⟨s, hrun⟩
          | exact absurd ⟨⟨_, rfl⟩, _, rfl⟩ hu
          | exact absurd ⟨⟨_, rfl⟩, _, rfl⟩ hbb

omit hls hrs in
/-- Logical operators. -/
theorem ans_logic {f : Nat → Nat → Nat} {g : Bool → Bool → Bool} (hb : i.bitwise = false) :
    Ans (opLogic e i f g) s (ab sp i.a) (.ok (ofBool (g (truth l) (truth r)))) := by
  obtain ⟨cl, h1, h2⟩ := has_readFail e hl
  obtain ⟨cr, h3, h4⟩ := has_readFail e hr
  have hv := scalar_bool (g (truth l) (truth r))
  obtain ⟨t, h5, h6⟩ := writeVal_upd e h.stack (h.onStack ho.a ho.dst) hv
  refine ⟨t, ?_, h6, hv⟩
  simp only [opLogic, bind_def, addrA_eq h ho.a ho.rA, addrB_eq h ho.b ho.rB, addrC_eq h ho.c ho.rC, h1, h3, hb,
      Bool.false_eq_true, if_false, h2, h4, truth_eq]
  exact h5

omit h ho hl hr in
theorem compare_order {x : Ordering} (ho : order l r = some x) : VM.compare l r = x := by
  have hcmp : ∀ a b : Nat, cmpN a b = (if a < b then .lt else if b < a then .gt else .eq) := by
    intro a b; unfold cmpN
    by_cases h1 : a = b
    · subst h1; simp
    · by_cases h2 : a < b
      · simp [h1, h2]
      · simp [h1, h2, show b < a by omega]
  have hby : ∀ a b : Bytes, (if a.length = b.length then memcmp a b else if a.length < b.length then .lt else .gt) = orderBytes a b := by
    intro a b; unfold orderBytes
    by_cases h1 : a.length = b.length
    · simp [h1]
    · by_cases h2 : a.length < b.length
      · simp [h1, h2]
      · simp [h1, h2, show b.length < a.length by omega]
  cases l <;> cases r <;> simp only [order] at ho <;>
    first
      | (cases ho; done)
      | (injection ho with ho; subst ho; simp [VM.compare, Val.code, hcmp, hby])
      | exact (show False from hls).elim
      | exact Option.some.inj ho
      | skip

omit h ho hl hr in
theorem compare_eq_iff : VM.compare l r = .eq ↔ l = r := by
  have hby : ∀ a b : Bytes, (if a.length = b.length then memcmp a b else if a.length < b.length then .lt else .gt) = Ordering.eq ↔ a = b := by
    intro a b
    by_cases h1 : a.length = b.length
    · rw [if_pos h1, memcmp_eq h1]
    · rw [if_neg h1]
      constructor
      · intro h; split at h <;> cases h
      · intro h; rw [h] at h1; exact absurd rfl h1
  cases l <;> cases r <;> first | exact hls.elim | exact hrs.elim | skip
  all_goals simp [VM.compare, Val.code, cmpN_eq, hby]

omit h ho hl hr in
theorem order_some : (order l r).isSome = true ↔ l.code = r.code := by
  cases l <;> cases r <;> first | exact hls.elim | exact hrs.elim | simp [order, Val.code]

/-- Comparisons. -/
theorem ans_cmp {o : BinOp} (ho6 : o = .eq ∨ o = .ne ∨ o = .lt ∨ o = .gt ∨ o = .le ∨ o = .ge) (hc : i.code = o.code)
    (c : Bool) : Ans (opCmp e i) s (ab sp i.a) (binVal c o l r) := by
  obtain ⟨cl, h1, h2⟩ := has_readFail e hl
  obtain ⟨cr, h3, h4⟩ := has_readFail e hr
  have hd := h.onStack ho.a ho.dst
  have hrun : opCmp e i s = (do
      need (i.code = 0x60 ∨ i.code = 0x61 ∨ l.code = r.code)
      writeVal e (ab sp i.a) (boolVal (cmpResult i.code (VM.compare l r)))) s := by
    simp only [opCmp, bind_def, addrA_eq h ho.a ho.rA, addrB_eq h ho.b ho.rB, addrC_eq h ho.c ho.rC, h1, h3, h2, h4]
  have done : ∀ b : Bool, (i.code = 0x60 ∨ i.code = 0x61 ∨ l.code = r.code) → cmpResult i.code (VM.compare l r) = b →
      Ans (opCmp e i) s (ab sp i.a) (.ok (ofBool b)) := by
    intro b hn hcb
    obtain ⟨t, h5, h6⟩ := writeVal_upd e h.stack hd (scalar_bool b)
    refine ⟨t, ?_, h6, scalar_bool b⟩
    rw [hrun, bind_def, need_pos hn, hcb]
    exact h5
  have hord : ∀ o : BinOp, i.code = o.code → (o = .lt ∨ o = .gt ∨ o = .le ∨ o = .ge) →
      Ans (opCmp e i) s (ab sp i.a) (binVal c o l r) := by
    intro o hc ho4
    have hb : binVal c o l r = (order l r).elim .throw (fun x => .ok (ofBool (holdsFor o x))) := by
      rcases ho4 with rfl | rfl | rfl | rfl <;> simp only [binVal] <;> cases order l r <;> rfl
    rw [hb]
    cases hx : order l r with
    | some x =>
      refine done _ (.inr (.inr ((order_some hls hrs).1 (by rw [hx]; rfl)))) ?_
      rw [compare_order hls hrs hx, hc]
      rcases ho4 with rfl | rfl | rfl | rfl <;> rfl
    | none =>
      refine ⟨s, ?_⟩
      rw [hrun, bind_def, need_neg]
      have : ¬ l.code = r.code := fun h => by
        have := (order_some hls hrs).2 h; rw [hx] at this; cases this
      rw [hc]
      rcases ho4 with rfl | rfl | rfl | rfl <;> simp [BinOp.code, this]
  rcases ho6 with rfl | rfl | rfl | rfl | rfl | rfl
  · refine done _ (.inl hc) ?_
    rw [hc]
    show (VM.compare l r == .eq) = (l == r)
    rw [Bool.eq_iff_iff]
    simp only [beq_iff_eq]
    exact compare_eq_iff hls hrs
  · refine done _ (.inr (.inl hc)) ?_
    rw [hc]
    show (VM.compare l r != .eq) = (l != r)
    rw [Bool.eq_iff_iff]
    simp only [bne_iff_ne, ne_eq]
    rw [compare_eq_iff hls hrs]
  · exact hord .lt hc (by simp)
  · exact hord .gt hc (by simp)
  · exact hord .le hc (by simp)
  · exact hord .ge hc (by simp)

end

theorem shr_value {x n : Nat} (hx : x < 2 ^ 256) : (if n ≥ 256 then 0 else x >>> n) = x / 2 ^ n := by
  by_cases h : n ≥ 256
  · rw [if_pos h]
    exact (Nat.div_eq_of_lt (Nat.lt_of_lt_of_le hx (Nat.pow_le_pow_right (by decide) h))).symm
  · rw [if_neg h, Nat.shiftRight_eq_div_pow]

theorem shl_value {x n : Nat} : (if n ≥ 256 then 0 else u256 (x <<< n)) = x * 2 ^ n % 2 ^ 256 := by
  by_cases h : n ≥ 256
  · rw [if_pos h]
    obtain ⟨k, rfl⟩ : ∃ k, n = 256 + k := ⟨n - 256, by omega⟩
    rw [Nat.pow_add, Nat.mul_comm (2 ^ 256), ← Nat.mul_assoc, Nat.mul_mod_left]
  · rw [if_neg h, Nat.shiftLeft_eq]; rfl

theorem shift_value (left : Bool) {x n : Nat} (hx : x < 2 ^ 256) :
    (if n ≥ 256 then 0 else if left = true then u256 (x <<< n) else x >>> n) =
      (if left = true then x * 2 ^ n % 2 ^ 256 else x / 2 ^ n) := by
  cases left with
  | true => rw [if_pos rfl, if_pos rfl, shl_value]
  | false => rw [if_neg (by decide : ¬ false = true), if_neg (by decide : ¬ false = true), shr_value hx]

theorem shift_lt (left : Bool) {x n : Nat} (hx : x < 2 ^ 256) :
    (if left = true then x * 2 ^ n % 2 ^ 256 else x / 2 ^ n) < 2 ^ 256 := by
  cases left with
  | true => rw [if_pos rfl]; exact Nat.mod_lt _ (by decide)
  | false => rw [if_neg (by decide)]; exact Nat.lt_of_le_of_lt (Nat.div_le_self _ _) hx

section
variable {e : Env} {s : Eng} {sp : Nat} {i : Instr} {l r : Val}

/-- The shift operators. -/
theorem ans_shift (h : Room s sp) (left : Bool) (hdst : MEM_STACK ≤ i.a) (hA : Fit i.a) (hB : Fit i.b) (hC : Fit i.c)
    (rA : i.refA = false) (rB : i.refB = false) (rC : i.refC = true)
    (hl : Has s (ab sp i.b) l) (hr : Has s (ab sp i.c) r) (hls : Scalar l) :
    Ans (opShift e i left) s (ab sp i.a) (shiftVal left l r) := by
  have hd := h.onStack hA hdst
  by_cases h1 : ∃ y, r = .uint y
  · obtain ⟨y, rfl⟩ := h1
    have hc : valC e i s = .ok (u64 y) s := by
      simp only [valC, derefValue, rC, if_true, bind_def, derefAddr, h.addr hC, Bool.false_eq_true, if_false, pure_def,
        readUint_peek hr.peek]
    by_cases h2 : ∃ x, l = .uint x
    · obtain ⟨x, rfl⟩ := h2
      unfold shiftVal
      dsimp only
      by_cases hy : y ≥ 2 ^ 64
      · rw [if_pos hy]; trivial
      · rw [if_neg hy]
        have hu : u64 y = y := Nat.mod_eq_of_lt (by omega)
        obtain ⟨t, h3, h4⟩ := writeVal_upd e h.stack hd (v := .uint (if left = true then x * 2 ^ y % 2 ^ 256 else x / 2 ^ y))
          (shift_lt left hls)
        refine ⟨t, ?_, h4, shift_lt left hls⟩
        simp only [opShift, bind_def, addrA_eq h hA rA, addrB_eq h hB rB, hc, hu, readUint_peek hl.peek]
        rw [shift_value left hls]
        exact h3
    · have hs : shiftVal left l (.uint y) = .throw := by
        cases l <;> first | rfl | exact absurd ⟨_, rfl⟩ h2
      rw [hs]
      exact ⟨s, by simp only [opShift, bind_def, addrA_eq h hA rA, addrB_eq h hB rB, hc,
        readUint_not e hl (fun n hn => h2 ⟨n, hn⟩)]⟩
  · have hs : shiftVal left l r = .throw := by
      cases l <;> cases r <;> first | rfl | exact absurd ⟨_, rfl⟩ h1
    rw [hs]
    refine ⟨s, ?_⟩
    simp only [opShift, bind_def, addrA_eq h hA rA, addrB_eq h hB rB]
    simp only [valC, derefValue, rC, if_true, bind_def, derefAddr, h.addr hC, Bool.false_eq_true, if_false, pure_def,
      readUint_not e hr (fun n hn => h1 ⟨n, hn⟩)]

/-- A shift to the right by a fixed number: a division by a power of two. -/
theorem ans_shr (h : Room s sp) (hdst : MEM_STACK ≤ i.a) (hA : Fit i.a) (hB : Fit i.b)
    (rA : i.refA = false) (rB : i.refB = false) (rC : i.refC = false) (c : Bool)
    (hl : Has s (ab sp i.b) l) (hls : Scalar l) :
    Ans (opShift e i false) s (ab sp i.a) (binVal c .div l (.uint (2 ^ i.c))) := by
  have hd := h.onStack hA hdst
  have hc : valC e i s = .ok i.c s := by
    simp only [valC, derefValue, rC, Bool.false_eq_true, if_false, pure_def]
  by_cases h2 : ∃ x, l = .uint x
  · obtain ⟨x, rfl⟩ := h2
    have hb : binVal c .div (.uint x) (.uint (2 ^ i.c)) = .ok (.uint (x / 2 ^ i.c)) := by
      have : 2 ^ i.c ≠ 0 := by have := Nat.two_pow_pos i.c; omega
      simp only [binVal, arith, if_neg this, num]
    have hlt : x / 2 ^ i.c < 2 ^ 256 := Nat.lt_of_le_of_lt (Nat.div_le_self _ _) hls
    rw [hb]
    obtain ⟨t, h3, h4⟩ := writeVal_upd e h.stack hd (v := .uint (x / 2 ^ i.c)) hlt
    refine ⟨t, ?_, h4, hlt⟩
    simp only [opShift, bind_def, addrA_eq h hA rA, addrB_eq h hB rB, hc, readUint_peek hl.peek, Bool.false_eq_true,
      if_false]
    rw [shr_value hls]
    exact h3
  · have hb : binVal c .div l (.uint (2 ^ i.c)) = .throw := by
      cases l <;> first | rfl | exact absurd ⟨_, rfl⟩ h2
    rw [hb]
    exact ⟨s, by simp only [opShift, bind_def, addrA_eq h hA rA, addrB_eq h hB rB, hc,
        readUint_not e hl (fun n hn => h2 ⟨n, hn⟩)]⟩

/-- A bitwise and with the bits below a power of two: a remainder. -/
theorem ans_and (h : Room s sp) (ho : Three i) (hb : i.bitwise = true) (c : Bool) {n : Nat} (hn : n < 256)
    (hl : Has s (ab sp i.b) l) (hr : Has s (ab sp i.c) (.uint (2 ^ n - 1))) (hls : Scalar l) :
    Ans (opLogic e i (· &&& ·) and) s (ab sp i.a) (binVal c .mod l (.uint (2 ^ n))) := by
  have hrs : Scalar (.uint (2 ^ n - 1)) := by
    show 2 ^ n - 1 < 2 ^ 256
    have := Nat.pow_lt_pow_right (a := 2) (by decide) hn
    omega
  have ha := ans_bits (e := e) (o := .band) (g := and) h ho hl hr hls hrs rfl (.inl rfl) hb c
  have heq : binVal c .mod l (.uint (2 ^ n)) = binVal c .band l (.uint (2 ^ n - 1)) := by
    have h0 : 2 ^ n ≠ 0 := by have := Nat.two_pow_pos n; omega
    cases l with
    | uint x => simp only [binVal, arith, if_neg h0, num, bits, Nat.and_two_pow_sub_one_eq_mod]
    | _ => rfl
  rw [heq]
  exact ha

/-- A step on a number or on a byte string. -/
def onOne {α : Type} (k : Nat → α) (q : Bytes → α) (d : α) : Val → α
  | .uint x => k x
  | .bin x => q x
  | _ => d

/-- `!` and `~`. -/
theorem ans_not (h : Room s sp) (hdst : MEM_STACK ≤ i.a) (hA : Fit i.a) (hB : Fit i.b)
    (rA : i.refA = false) (rB : i.refB = false) (hl : Has s (ab sp i.b) l) (hls : Scalar l) :
    Ans (opNot e i) s (ab sp i.a) (if i.bitwise then bnotVal l else .ok (ofBool (!truth l))) := by
  have hd := h.onStack hA hdst
  obtain ⟨cl, h1, h2⟩ := has_readFail e hl
  cases hb : i.bitwise with
  | false =>
    rw [if_neg (by decide)]
    obtain ⟨t, h3, h4⟩ := writeVal_upd e h.stack hd (scalar_bool (!truth l))
    refine ⟨t, ?_, h4, scalar_bool _⟩
    simp only [opNot, bind_def, addrA_eq h hA rA, addrB_eq h hB rB, h1, hb, Bool.false_eq_true, if_false, h2, truth_eq]
    exact h3
  | true =>
    rw [if_pos rfl]
    have hrun : opNot e i s = onOne (fun n => writeVal e (ab sp i.a) (.uint (2 ^ 256 - 1 - n)))
      (fun b => assign e (ab sp i.a) (.bin (b.map (255 - ·)))) raise l s := by
      simp only [opNot, bind_def, addrA_eq h hA rA, addrB_eq h hB rB, h1, hb, if_true, h2]
      cases l <;> rfl
    cases l with
    | uint n =>
      have hv : Scalar (.uint (2 ^ 256 - 1 - n)) :=
        Nat.lt_of_le_of_lt (Nat.sub_le _ _) (by decide)
      obtain ⟨t, h3, h4⟩ := writeVal_upd e h.stack hd hv
      exact ⟨t, by rw [hrun]; exact h3, h4, hv⟩
    | bin b =>
      have hv : Scalar (.bin (b.map (255 - ·))) := by
        show (b.map (255 - ·)).length ≤ 2 ^ 20
        rw [List.length_map]; exact hls
      obtain ⟨t, h3, h4⟩ := assign_upd e h.stack hd hv
      exact ⟨t, by rw [hrun]; exact h3, h4, hv⟩
    | _ => exact ⟨s, hrun⟩

/-- OP_COPY. -/
theorem ans_copy (h : Room s sp) (hc : i.code = 0x02) (hdst : MEM_STACK ≤ i.a) (hA : Fit i.a) (hB : Fit i.b)
    (rA : i.refA = false) (rB : i.refB = false) (hne : i.a ≠ i.b) (hl : Has s (ab sp i.b) l) (hls : Scalar l) :
    Ans (execOp e i) s (ab sp i.a) (.ok l) := by
  have hd := h.onStack hA hdst
  have hne' : ab sp i.a ≠ ab sp i.b := by
    unfold ab; rw [if_pos hdst]; split <;> omega
  obtain ⟨t, h1, h2⟩ := writeFrom_upd e h.stack hd hl hls hne'
  refine ⟨t, ?_, h2, hls⟩
  have ha : args2 e (addrA e i) (addrB e i) s = .ok (ab sp i.a, ab sp i.b) s := by
    unfold args2
    split <;> simp only [bind_def, addrA_eq h hA rA, addrB_eq h hB rB, pure_def]
  have hx : execOp e i = (args2 e (addrA e i) (addrB e i) >>= fun x => opCopy e x.1 x.2) := by
    unfold execOp; rw [hc]; rfl
  rw [hx, bind_def, ha]
  dsimp only
  rw [opCopy, if_pos hne']
  exact h1

end

end Verif.Comp
