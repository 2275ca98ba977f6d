import Verif.Compile.Machine
/-
  Runs of the engine: what a stretch of code does, step by step.
-/
namespace Verif.Comp
open Verif Verif.VM
open Verif.Codec (Bytes)

/-! ### Reaching a state -/

def steps (e : Env) : Nat → EM Unit
  | 0 => pure ()
  | n + 1 => do step e; steps e n

theorem step_frames {e : Env} {s t : Eng} (h : step e s = .ok () t) : s.frames.isEmpty = false := by
  cases hf : s.frames with
  | cons f l => rfl
  | nil =>
    have : step e s = .throw s := by
      simp only [step, bind_def, getFrame, gets, id, hf]; rfl
    rw [this] at h; cases h

theorem run_succ (e : Env) (n : Nat) (s : Eng) :
    run e (n + 1) s = (if s.frames.isEmpty then .ok true s else (step e >>= fun _ => run e n) s) := by
  show (gets id >>= fun s => if s.frames.isEmpty then pure true else (step e >>= fun _ => run e n)) s = _
  simp only [bind_def, gets, id]
  split <;> rfl

theorem run_steps {e : Env} : ∀ {n : Nat} {s t : Eng} (m : Nat), steps e n s = .ok () t → run e (n + m) s = run e m t
  | 0, s, t, m, h => by
    have : s = t := by
      have h' : (Out.ok () s : Out Unit) = .ok () t := h
      injection h'
    rw [this, Nat.zero_add]
  | n + 1, s, t, m, h => by
    simp only [steps, bind_def] at h
    cases hs : step e s with
    | ok u s' =>
      rw [hs] at h
      rw [show n + 1 + m = (n + m) + 1 by omega, run_succ, step_frames hs, if_neg (by decide), bind_def, hs]
      exact run_steps m h
    | throw s' => rw [hs] at h; cases h
    | ub => rw [hs] at h; cases h

theorem steps_add {e : Env} : ∀ {n m : Nat} {s t u : Eng}, steps e n s = .ok () t → steps e m t = .ok () u →
    steps e (n + m) s = .ok () u
  | 0, m, s, t, u, h, h' => by
    have : s = t := by
      have h1 : (Out.ok () s : Out Unit) = .ok () t := h
      injection h1
    rw [this, Nat.zero_add]; exact h'
  | n + 1, m, s, t, u, h, h' => by
    simp only [steps, bind_def] at h
    rw [show n + 1 + m = (n + m) + 1 by omega]
    simp only [steps, bind_def]
    cases hs : step e s with
    | ok x s' => rw [hs] at h; exact steps_add h h'
    | throw s' => rw [hs] at h; cases h
    | ub => rw [hs] at h; cases h

/-- The engine gave up for want of gas, or at the limit on nested calls. -/
def Exhausted (t : Eng) : Prop := t.gas > t.limit ∨ t.frames.length ≥ MAX_CALL_RECURSION

/-- The run throws. -/
def Fails (e : Env) (s : Eng) : Prop := ∃ n t, run e n s = .throw t

/-- The run throws because a limit was met. -/
def Spent (e : Env) (s : Eng) : Prop := ∃ n t, run e n s = .throw t ∧ Exhausted t

/-- The run comes to a state with `Q`, or meets a limit. -/
def Reach (e : Env) (s : Eng) (Q : Eng → Prop) : Prop := (∃ n t, steps e n s = .ok () t ∧ Q t) ∨ Spent e s

theorem Spent.fails {e : Env} {s : Eng} (h : Spent e s) : Fails e s := by
  obtain ⟨n, t, h, _⟩ := h; exact ⟨n, t, h⟩

theorem Reach.now {e : Env} {s : Eng} {Q : Eng → Prop} (h : Q s) : Reach e s Q := .inl ⟨0, s, rfl, h⟩

theorem Reach.trans {e : Env} {s : Eng} {P Q : Eng → Prop} (h : Reach e s P) (h' : ∀ t, P t → Reach e t Q) :
    Reach e s Q := by
  rcases h with ⟨n, t, h1, h2⟩ | h
  · rcases h' t h2 with ⟨m, u, h3, h4⟩ | ⟨m, u, h3, h4⟩
    · exact .inl ⟨n + m, u, steps_add h1 h3, h4⟩
    · exact .inr ⟨n + m, u, by rw [run_steps m h1]; exact h3, h4⟩
  · exact .inr h

theorem Reach.fails {e : Env} {s : Eng} {P : Eng → Prop} (h : Reach e s P) (h' : ∀ t, P t → Fails e t) : Fails e s := by
  rcases h with ⟨n, t, h1, h2⟩ | h
  · obtain ⟨m, u, h3⟩ := h' t h2
    exact ⟨n + m, u, by rw [run_steps m h1]; exact h3⟩
  · exact h.fails

theorem Reach.mono {e : Env} {s : Eng} {P Q : Eng → Prop} (h : Reach e s P) (h' : ∀ t, P t → Q t) : Reach e s Q :=
  h.trans fun t ht => .now (h' t ht)

/-- The run does what the source says. -/
def Sim {α : Type} (e : Env) (s : Eng) (r : Option (Res α)) (Q : α → Eng → Prop) : Prop :=
  match r with
  | none => True
  | some (.ok a) => Reach e s (Q a)
  | some .throw => Fails e s
  | some .ub => True

theorem Sim.bind {α β : Type} {e : Env} {s : Eng} {r : Option (Res α)} {f : α → Option (Res β)}
    {P : α → Eng → Prop} {Q : β → Eng → Prop} (h : Sim e s r P) (h' : ∀ a t, P a t → Sim e t (f a) Q) :
    Sim e s (evb r f) Q := by
  cases r with
  | none => trivial
  | some r =>
    cases r with
    | ok a =>
      show Sim e s (f a) Q
      have h : Reach e s (P a) := h
      cases hf : f a with
      | none => trivial
      | some q =>
        cases q with
        | ok b =>
          refine Reach.trans h fun t ht => ?_
          have := h' a t ht
          rw [hf] at this; exact this
        | throw =>
          refine Reach.fails h fun t ht => ?_
          have := h' a t ht
          rw [hf] at this; exact this
        | ub => trivial
    | throw => exact h
    | ub => trivial

theorem Sim.after {α : Type} {e : Env} {s : Eng} {r : Option (Res α)} {P : Eng → Prop} {Q : α → Eng → Prop}
    (h : Reach e s P) (h' : ∀ t, P t → Sim e t r Q) : Sim e s r Q :=
  Sim.bind (r := some (.ok ())) (f := fun _ => r) (P := fun _ => P) h (fun _ => h')

theorem Sim.mono {α : Type} {e : Env} {s : Eng} {r : Option (Res α)} {P Q : α → Eng → Prop}
    (h : Sim e s r P) (h' : ∀ a t, P a t → Q a t) : Sim e s r Q := by
  cases r with
  | none => trivial
  | some r =>
    cases r with
    | ok a => exact Reach.mono h (h' a)
    | throw => exact h
    | ub => trivial

theorem Sim.ok {α : Type} {e : Env} {s : Eng} {a : α} {Q : α → Eng → Prop} (h : Q a s) : Sim e s (some (.ok a)) Q :=
  Reach.now h

/-! ### One instruction -/

/-- Where the engine is: the innermost frame, with room on the stack. -/
structure At (s : Eng) (ip sp : Nat) (rest : List VM.Frame) : Prop where
  frames : s.frames = ⟨ip, sp⟩ :: rest
  sp : sp ≤ rest.length * 2 ^ 20
  depth : rest.length < MAX_CALL_RECURSION

/-- The engine has the code and the constants, and plain values on its stack. -/
structure Good (B : Binary) (s : Eng) : Prop where
  code : s.code = B.code
  consts : ∀ i v, B.consts[i]? = some v → Has s i v
  stack : StackOk s
  sorted : Sorted s.mem

/-- Code and constants are within their limits. -/
structure Binary.Fits (B : Binary) : Prop where
  args : ∀ i ∈ B.code, i.a < MEM_STACK + 2 ^ 20 ∧ i.b < MEM_STACK + 2 ^ 20 ∧ i.c < MEM_STACK + 2 ^ 20 ∧
    (i.code = 0x07 → i.b < 2 ^ 20)
  consts : B.consts.length < MEM_EXTERN
  scalar : ∀ v ∈ B.consts, Scalar v

def Below (s t : Eng) (x : Nat) : Prop := ∀ a, a < x → aget t.mem a = aget s.mem a

theorem Below.refl (s : Eng) (x : Nat) : Below s s x := fun _ _ => rfl
theorem Below.trans {s t u : Eng} {x y z : Nat} (h : Below s t x) (h' : Below t u y) (hx : z ≤ x) (hy : z ≤ y) :
    Below s u z := fun a ha => by rw [h' a (by omega), h a (by omega)]
theorem Below.has {s t : Eng} {x a : Nat} {v : Val} (h : Below s t x) (ha : a < x) (hv : Has s a v) : Has t a v := by
  obtain ⟨c, h1, h2⟩ := hv
  exact ⟨c, by rw [h a ha, h1], h2⟩
theorem Below.mono {s t : Eng} {x y : Nat} (h : Below s t x) (hy : y ≤ x) : Below s t y := fun a ha => h a (by omega)

theorem At.room {B : Binary} {s : Eng} {ip sp : Nat} {rest : List VM.Frame} (h : At s ip sp rest) (hg : Good B s) :
    Room s sp := by
  refine ⟨⟨ip, rest, h.frames⟩, ?_, hg.stack⟩
  have h1 := h.sp
  have h2 := h.depth
  have h0 : MAX_CALL_RECURSION = 1000 := rfl
  have : rest.length * 2 ^ 20 ≤ 999 * 2 ^ 20 := Nat.mul_le_mul_right _ (by omega)
  have : STACK_SIZE = 1024 * 2 ^ 20 := by decide
  omega

theorem Good.gas {B : Binary} {s : Eng} (g : Nat) (h : Good B s) : Good B { s with gas := g } :=
  ⟨h.code, h.consts, h.stack, h.sorted⟩
theorem Good.frames {B : Binary} {s : Eng} (l : List VM.Frame) (h : Good B s) : Good B { s with frames := l } :=
  ⟨h.code, h.consts, h.stack, h.sorted⟩

theorem mem_stack_extern : MEM_EXTERN ≤ MEM_STACK := by decide

theorem Good.upd {B : Binary} {s t : Eng} {a : Nat} {v : Val} (h : Good B s) (hf : B.Fits) (ha : MEM_STACK ≤ a)
    (hu : Upd s t a v) : Good B t := by
  obtain ⟨c, h1, h2, h3⟩ := hu.mem
  refine ⟨by rw [hu.code, h.code], ?_, ?_, by rw [h1]; exact sorted_aset h.sorted _ _⟩
  · intro i w hi
    obtain ⟨d, h4, h5⟩ := h.consts i w hi
    refine ⟨d, ?_, h5⟩
    have : i < B.consts.length := by
      rcases Nat.lt_or_ge i B.consts.length with h | h
      · exact h
      · rw [List.getElem?_eq_none h] at hi; cases hi
    have := hf.consts
    have := mem_stack_extern
    rw [h1, aget_aset, if_neg (by omega), h4]
  · intro x d h4 h5 h6
    rw [h1, aget_aset] at h6
    by_cases hx : a = x
    · rw [if_pos hx] at h6; cases h6; exact h2
    · rw [if_neg hx] at h6; exact h.stack x d h4 h5 h6

theorem Upd.has {s t : Eng} {a : Nat} {v : Val} (hu : Upd s t a v) : Has t a v := by
  obtain ⟨c, h1, h2, h3⟩ := hu.mem
  exact ⟨c, by rw [h1, aget_aset, if_pos rfl], h2.deleted, h3⟩

theorem Upd.other {s t : Eng} {a x : Nat} {v : Val} (hu : Upd s t a v) (hx : x ≠ a) : aget t.mem x = aget s.mem x := by
  obtain ⟨c, h1, _⟩ := hu.mem
  rw [h1, aget_aset, if_neg (Ne.symm hx)]

theorem Upd.below {s t : Eng} {a : Nat} {v : Val} (hu : Upd s t a v) : Below s t a := fun x hx => hu.other (by omega)

section
variable {e : Env} {B : Binary} {s : Eng} {ip sp : Nat} {rest : List VM.Frame} {i : Instr}

theorem step_eq (hg : Good B s) (ha : At s ip sp rest) (hi : B.code[ip]? = some i) :
    step e s = (exec e i >>= fun _ => checkGas) s := by
  simp only [step, bind_def, getFrame, gets, id, ha.frames, pure_def]
  rw [hg.code, hi]
  rfl

theorem checkGas_pos {t : Eng} (h : t.gas > t.limit) : checkGas t = .throw t := by
  show (gets id >>= fun s => need (¬ s.gas > s.limit)) t = _
  rw [bind_def]; exact need_nnot h t
theorem checkGas_neg {t : Eng} (h : ¬ t.gas > t.limit) : checkGas t = .ok () t := by
  show (gets id >>= fun s => need (¬ s.gas > s.limit)) t = _
  rw [bind_def]; exact need_not h t

theorem run_throw {t : Eng} (h : step e s = .throw t) (hn : s.frames.isEmpty = false) : run e 1 s = .throw t := by
  rw [run_succ, hn, if_neg (by decide), bind_def, h]

/-- An instruction that goes through. -/
theorem reach_ok {t : Eng} {Q : Eng → Prop} (hg : Good B s) (ha : At s ip sp rest) (hi : B.code[ip]? = some i)
    (hx : exec e i s = .ok () t) (hq : Q t) : Reach e s Q := by
  by_cases h : t.gas > t.limit
  · refine .inr ⟨1, t, run_throw ?_ (by rw [ha.frames]; rfl), .inl h⟩
    rw [step_eq hg ha hi, bind_def, hx]; exact checkGas_pos h
  · refine .inl ⟨1, t, ?_, hq⟩
    show (step e >>= fun _ => pure ()) s = _
    rw [bind_def, step_eq hg ha hi, bind_def, hx]
    dsimp only
    rw [checkGas_neg h]
    rfl

theorem throws_step {t : Eng} (hg : Good B s) (ha : At s ip sp rest) (hi : B.code[ip]? = some i)
    (hx : exec e i s = .throw t) : run e 1 s = .throw t :=
  run_throw (by rw [step_eq hg ha hi, bind_def, hx]) (by rw [ha.frames]; rfl)

/-- An instruction that throws. -/
theorem fails_throw {t : Eng} (hg : Good B s) (ha : At s ip sp rest) (hi : B.code[ip]? = some i)
    (hx : exec e i s = .throw t) : Fails e s := ⟨1, t, throws_step hg ha hi hx⟩

/-- Not a jump, call or return. -/
def ordinary (c : Nat) : Prop := c ≠ 4 ∧ c ≠ 5 ∧ c ≠ 6 ∧ c ≠ 7 ∧ c ≠ 8

theorem exec_ordinary (hc : ordinary i.code) :
    exec e i = (do addGas INSTR_COST; execOp e i; advance) := by
  obtain ⟨h4, h5, h6, h7, h8⟩ := hc
  unfold exec
  split <;> first | contradiction | rfl

def more (s : Eng) : Eng := { s with gas := s.gas + INSTR_COST }

/-- What an ordinary instruction leaves. -/
structure Wrote (B : Binary) (s : Eng) (ip sp : Nat) (rest : List VM.Frame) (a : Nat) (v : Val) (t : Eng) : Prop where
  place : At t ip sp rest
  good : Good B t
  has : Has t a v
  other : ∀ x, x ≠ a → aget t.mem x = aget s.mem x
  scalar : Scalar v

theorem sim_ans (hf : B.Fits) (hg : Good B s) (ha : At s ip sp rest) (hi : B.code[ip]? = some i) (hc : ordinary i.code)
    {a : Nat} (hs : MEM_STACK ≤ a) {r : Res Val} (h : Ans (execOp e i) (more s) a r) :
    Sim e s (some r) (Wrote B s (ip + 1) sp rest a) := by
  cases r with
  | ok v =>
    obtain ⟨t, h1, h2, h3⟩ := h
    have hfr : t.frames = ⟨ip, sp⟩ :: rest := by rw [h2.frames]; exact ha.frames
    have hgt : Good B t := (Good.gas _ hg).upd hf hs h2
    refine reach_ok (t := { t with frames := ⟨ip + 1, sp⟩ :: rest }) hg ha hi ?_ ?_
    · rw [exec_ordinary hc, bind_def]
      show (execOp e i >>= fun _ => advance) (more s) = _
      rw [bind_def, h1]
      simp only [advance, bind_def, getFrame, gets, id, hfr, pure_def, VM.modify, setTop]
    · exact ⟨⟨rfl, ha.sp, ha.depth⟩, hgt.frames _, h2.has, fun x hx => h2.other hx, h3⟩
  | throw =>
    obtain ⟨t, h1⟩ := h
    refine fails_throw hg ha hi (t := t) ?_
    rw [exec_ordinary hc, bind_def]
    show (execOp e i >>= fun _ => advance) (more s) = _
    rw [bind_def, h1]
  | ub => trivial

theorem At.set {t : Eng} (ip' : Nat) (h : At s ip sp rest) (ht : t.frames = ⟨ip', sp⟩ :: rest) : At t ip' sp rest :=
  ⟨ht, h.sp, h.depth⟩

/-- Only the instruction pointer and gas change. -/
structure Moved (B : Binary) (s : Eng) (ip sp : Nat) (rest : List VM.Frame) (t : Eng) : Prop where
  place : At t ip sp rest
  good : Good B t
  mem : t.mem = s.mem

theorem jump_eq (n : Nat) (h : s.frames = ⟨ip, sp⟩ :: rest) : jump n s = .ok () { s with frames := ⟨n, sp⟩ :: rest } := by
  simp only [jump, bind_def, getFrame, gets, id, h, pure_def, VM.modify, setTop]

theorem advance_eq (h : s.frames = ⟨ip, sp⟩ :: rest) :
    advance s = .ok () { s with frames := ⟨ip + 1, sp⟩ :: rest } := by
  simp only [advance, bind_def, getFrame, gets, id, h, pure_def, VM.modify, setTop]

/-- OP_JUMP. -/
theorem reach_jump (hg : Good B s) (ha : At s ip sp rest) (hi : B.code[ip]? = some i) (hc : i.code = 4)
    (hr : i.refA = false) : Reach e s (Moved B s i.a sp rest) := by
  refine reach_ok hg ha hi (t := { more s with frames := ⟨i.a, sp⟩ :: rest }) ?_ ?_
  · unfold exec
    rw [hc, bind_def]
    show (valA e i >>= jump) (more s) = _
    simp only [bind_def, valA, derefValue, hr, Bool.false_eq_true, if_false, pure_def]
    exact jump_eq i.a ha.frames
  · exact ⟨⟨rfl, ha.sp, ha.depth⟩, (Good.gas _ hg).frames _, rfl⟩

theorem opJumpIf_eq (hg : Good B s) (ha : At s ip sp rest) (hb : Fit i.b)
    (hrA : i.refA = false) (hrB : i.refB = false) {v : Val} (hv : Has s (ab sp i.b) v) (want : Bool) :
    opJumpIf e i want (more s) =
      .ok () { more s with frames := ⟨if truth v = want then i.a else ip + 1, sp⟩ :: rest } := by
  obtain ⟨c, h1, h2⟩ := has_readFail e (hv.gas (g := s.gas + INSTR_COST))
  have hroom : Room (more s) sp := (ha.room hg).gas
  unfold opJumpIf
  rw [bind_def, addrB_eq hroom hb hrB]
  dsimp only
  rw [bind_def]
  rw [show readFail e (ab sp i.b) (more s) = .ok c (more s) from h1]
  dsimp only
  rw [h2, truth_eq]
  by_cases hw : truth v = want
  · rw [if_pos hw, if_pos hw]
    simp only [bind_def, valA, derefValue, hrA, Bool.false_eq_true, if_false, pure_def]
    exact jump_eq i.a ha.frames
  · rw [if_neg hw, if_neg hw]
    exact advance_eq ha.frames

/-- OP_JUMPI and OP_JUMPN. -/
theorem reach_jumpIf (hg : Good B s) (ha : At s ip sp rest) (hi : B.code[ip]? = some i) (hb : Fit i.b)
    (hrA : i.refA = false) (hrB : i.refB = false) {v : Val} (hv : Has s (ab sp i.b) v) {want : Bool}
    (hc : i.code = if want then 5 else 6) :
    Reach e s (Moved B s (if truth v = want then i.a else ip + 1) sp rest) := by
  refine reach_ok hg ha hi (t := { more s with frames := ⟨if truth v = want then i.a else ip + 1, sp⟩ :: rest }) ?_ ?_
  · have := opJumpIf_eq (e := e) hg ha hb hrA hrB hv want
    unfold exec
    rw [hc, bind_def]
    cases want <;> exact this
  · exact ⟨⟨rfl, ha.sp, ha.depth⟩, (Good.gas _ hg).frames _, rfl⟩

/-- OP_FAIL. -/
theorem fails_fail (hg : Good B s) (ha : At s ip sp rest) (hi : B.code[ip]? = some i) (hc : i.code = 0xC4)
    (hA : Fit i.a) (hrA : i.refA = false) (hrB : i.refB = false) {v : Val} (hv : Has s (ab sp i.a) v) : Fails e s := by
  have hroom : Room (more s) sp := (ha.room hg).gas
  obtain ⟨c, h1, h2⟩ := has_readFail e (hv.gas (g := s.gas + INSTR_COST))
  obtain ⟨d, h3, h4, _⟩ := hv
  refine fails_throw hg ha hi (t := more s) ?_
  rw [exec_ordinary (by rw [hc]; unfold ordinary; decide), bind_def]
  show (execOp e i >>= fun _ => advance) (more s) = _
  have hx : execOp e i = opFail e i := by unfold execOp; rw [hc]; rfl
  have hread : read e (ab sp i.a) (more s) = .ok (some d) (more s) := by
    simp only [VM.read, getCell, bind_def, gets, more, h3, unlessDeleted, h4, pure_def]
    rfl
  rw [bind_def, hx]
  unfold opFail
  simp only [bind_def, valB, derefValue, hrB, Bool.false_eq_true, if_false, pure_def, addrA_eq hroom hA hrA, hread]
  rfl

/-- OP_CALL: on to the function, or the limit on nested calls. -/
theorem reach_call (hg : Good B s) (ha : At s ip sp rest) (hi : B.code[ip]? = some i) (hc : i.code = 7)
    (hb : i.b < 2 ^ 20) (hrA : i.refA = false) (hrB : i.refB = false) :
    Reach e s (Moved B s i.a (sp + i.b) (⟨ip, sp⟩ :: rest)) := by
  have hargs : args2 e (valA e i) (valB e i) (more s) = .ok (i.a, i.b) (more s) := by
    unfold args2
    split <;> simp only [bind_def, valA, valB, derefValue, hrA, hrB, Bool.false_eq_true, if_false, pure_def]
  have hlen : (more s).frames.length = rest.length + 1 := by
    show s.frames.length = _
    rw [ha.frames]; rfl
  have hx : exec e i s = opCall i.a i.b (more s) := by
    unfold exec
    rw [hc, bind_def]
    show ((need (¬ i.refB = true)) >>= fun _ => args2 e (valA e i) (valB e i) >>= fun p => opCall p.1 p.2) (more s) = _
    rw [bind_def, need_not (by rw [hrB]; decide)]
    dsimp only
    rw [bind_def, hargs]
  have hsz : ¬ i.b ≥ STACK_SIZE := by
    have : STACK_SIZE = 1024 * 2 ^ 20 := by decide
    omega
  by_cases hd : rest.length + 1 ≥ MAX_CALL_RECURSION
  · have ht : opCall i.a i.b (more s) = .throw (more s) := by
      unfold opCall
      rw [bind_def, need_not hsz]
      dsimp only
      simp only [bind_def, gets, id]
      rw [need_nnot (by rw [hlen]; exact hd)]
    refine .inr ⟨1, more s, throws_step hg ha hi (hx.trans ht), .inr ?_⟩
    rw [hlen]; exact hd
  · have ht : opCall i.a i.b (more s) = .ok () { s with
        gas := s.gas + INSTR_COST + INSTR_CALL_COST, frames := ⟨i.a, sp + i.b⟩ :: ⟨ip, sp⟩ :: rest } := by
      unfold opCall
      rw [bind_def, need_not hsz]
      dsimp only
      simp only [bind_def, gets, id]
      rw [need_not (by rw [hlen]; exact hd)]
      have hfr : (more s).frames = ⟨ip, sp⟩ :: rest := ha.frames
      simp only [addGas, VM.modify, bind_def, getFrame, gets, id, hfr, pure_def]
      rfl
    refine reach_ok hg ha hi (hx.trans ht) ?_
    refine ⟨⟨rfl, ?_, ?_⟩, ⟨hg.code, hg.consts, hg.stack, hg.sorted⟩, rfl⟩
    · have := ha.sp
      show sp + i.b ≤ (rest.length + 1) * 2 ^ 20
      rw [Nat.add_mul]; omega
    · show rest.length + 1 < _
      omega

end

/-! ### Return -/

theorem aget_adel_ne {m : AMap Nat} {x y : Nat} (h : x ≠ y) : aget (adel m x) y = aget m y := by
  induction m with
  | nil => rfl
  | cons p m ih =>
    obtain ⟨k, c⟩ := p
    unfold adel at ih ⊢
    by_cases hk : k = x
    · subst hk
      rw [List.filter_cons_of_neg (by simp)]
      rw [ih]
      simp only [aget]
      rw [if_neg h]
    · rw [List.filter_cons_of_pos (by simpa using hk)]
      simp only [aget]
      rw [ih]

theorem aget_adel_eq {m : AMap Nat} {x : Nat} : aget (adel m x) x = none := by
  induction m with
  | nil => rfl
  | cons p m ih =>
    obtain ⟨k, c⟩ := p
    unfold adel at ih ⊢
    by_cases hk : k = x
    · subst hk
      rw [List.filter_cons_of_neg (by simp)]
      exact ih
    · rw [List.filter_cons_of_pos (by simpa using hk)]
      simp only [aget]
      rw [if_neg hk]; exact ih

/-- After the cells were dropped. -/
structure Dropped (s t : Eng) (P : Nat → Prop) : Prop where
  code : t.code = s.code
  limit : t.limit = s.limit
  frames : t.frames = s.frames
  gas : t.gas = s.gas
  gone : ∀ a, P a → aget t.mem a = none
  kept : ∀ a, ¬ P a → aget t.mem a = aget s.mem a
  sorted : Sorted t.mem

theorem clearCells_ok : ∀ (ks : List Nat) (s : Eng), Sorted s.mem → ks.Pairwise (· ≠ ·) →
    (∀ a ∈ ks, ∃ c, aget s.mem a = some c ∧ Plain c) → ¬ s.gas > s.limit →
    ∃ t, clearCells ks s = .ok () t ∧ Dropped s t (· ∈ ks)
  | [], s, hs, _, _, _ => ⟨s, rfl, rfl, rfl, rfl, rfl, fun a h => (nomatch h), fun _ _ => rfl, hs⟩
  | a :: ks, s, hs, hp, hc, hg => by
    obtain ⟨c, h1, h2⟩ := hc a (List.mem_cons_self ..)
    have hp' := List.pairwise_cons.1 hp
    obtain ⟨t, h3, h4⟩ := clearCells_ok ks (dropCell a s) (sorted_adel hs a) hp'.2 (fun b hb => by
      obtain ⟨d, h5, h6⟩ := hc b (List.mem_cons_of_mem _ hb)
      exact ⟨d, (aget_adel_ne (hp'.1 b hb)).trans h5, h6⟩) hg
    refine ⟨t, ?_, h4.code, h4.limit, h4.frames, h4.gas, ?_, ?_, h4.sorted⟩
    · have h6 : clearCells (a :: ks) s = ((do clear c; VM.modify (dropCell a); checkGas) >>= fun _ => clearCells ks) s := by
        show ((getCell (.mem a) >>= _) >>= fun _ => clearCells ks) s = _
        simp only [bind_def, getCell, gets, h1]
      rw [h6, clear_scalar h2.val]
      have h7 : (pure () >>= fun _ => VM.modify (dropCell a) >>= fun _ => checkGas : EM Unit) s = .ok () (dropCell a s) := by
        simp only [bind_def, pure_def, VM.modify]
        exact checkGas_neg hg
      rw [bind_def, h7]
      exact h3
    · intro b hb
      by_cases hab : b ∈ ks
      · exact h4.gone b hab
      · have : b = a := by cases hb with
          | head => rfl
          | tail _ h => exact absurd h hab
        rw [h4.kept b hab, this]
        exact aget_adel_eq
    · intro b hb
      rw [h4.kept b (fun h => hb (List.mem_cons_of_mem _ h))]
      exact aget_adel_ne (fun h => hb (by rw [h]; exact List.mem_cons_self ..))

theorem clearCells_spent : ∀ (ks : List Nat) (s : Eng), (∀ a ∈ ks, ∃ c, aget s.mem a = some c ∧ Plain c) →
    s.gas > s.limit → ks ≠ [] → ∃ t, clearCells ks s = .throw t ∧ t.gas > t.limit
  | [], _, _, _, h => absurd rfl h
  | a :: ks, s, hc, hg, _ => by
    obtain ⟨c, h1, h2⟩ := hc a (List.mem_cons_self ..)
    refine ⟨dropCell a s, ?_, hg⟩
    have h6 : clearCells (a :: ks) s = ((do clear c; VM.modify (dropCell a); checkGas) >>= fun _ => clearCells ks) s := by
      show ((getCell (.mem a) >>= _) >>= fun _ => clearCells ks) s = _
      simp only [bind_def, getCell, gets, h1]
    rw [h6, clear_scalar h2.val]
    have h7 : (pure () >>= fun _ => VM.modify (dropCell a) >>= fun _ => checkGas : EM Unit) s = .throw (dropCell a s) := by
      simp only [bind_def, pure_def, VM.modify]
      exact checkGas_pos hg
    rw [bind_def, h7]

/-- Frames after the innermost one has returned. -/
def popped : List VM.Frame → List VM.Frame
  | [] => []
  | f :: l => { f with ip := f.ip + 1 } :: l

/-- A function has returned: its stack is gone but for the result. -/
structure Left (B : Binary) (s : Eng) (sp : Nat) (rest : List VM.Frame) (t : Eng) : Prop where
  good : Good B t
  frames : t.frames = popped rest
  below : Below s t (MEM_STACK + sp + 1)

theorem stackKeys {s : Eng} (hs : Sorted s.mem) (n : Nat) :
    ((s.mem.filter (fun p => n ≤ p.1 ∧ p.1 < MEM_STATIC)).map (·.1)).Pairwise (· ≠ ·) := by
  have h : (s.mem.filter (fun p => n ≤ p.1 ∧ p.1 < MEM_STATIC)).Pairwise (fun p q => p.1 < q.1) := List.Pairwise.filter _ hs
  exact (List.pairwise_map.2 h).imp (fun h => Nat.ne_of_lt h)

theorem mem_stackKeys {s : Eng} {n a : Nat} (h : a ∈ (s.mem.filter (fun p => n ≤ p.1 ∧ p.1 < MEM_STATIC)).map (·.1)) :
    n ≤ a ∧ a < MEM_STATIC ∧ ∃ c, (a, c) ∈ s.mem := by
  obtain ⟨p, h1, rfl⟩ := List.mem_map.1 h
  obtain ⟨h2, h3⟩ := List.mem_filter.1 h1
  simp only [decide_eq_true_eq] at h3
  exact ⟨h3.1, h3.2, p.2, h2⟩

/-- OP_RET. -/
theorem reach_ret {e : Env} {B : Binary} {s : Eng} {ip sp : Nat} {rest : List VM.Frame} {i : Instr} (hf : B.Fits)
    (hg : Good B s) (ha : At s ip sp rest) (hi : B.code[ip]? = some i) (hc : i.code = 8) :
    Reach e s (Left B s sp rest) := by
  have hroom := ha.room hg
  have hle : MEM_STACK + (sp + 1) ≤ MEM_STATIC := by
    have h1 := hroom.sp
    have h2 : MEM_STATIC = MEM_STACK + STACK_SIZE := rfl
    omega
  let ks := ((more s).mem.filter (fun p => MEM_STACK + (sp + 1) ≤ p.1 ∧ p.1 < MEM_STATIC)).map (·.1)
  have hks : ∀ a ∈ ks, ∃ c, aget (more s).mem a = some c ∧ Plain c := by
    intro a h
    obtain ⟨h1, h2, c, h3⟩ := mem_stackKeys h
    have h4 := aget_of_mem hg.sorted h3
    exact ⟨c, h4, hg.stack a c (by omega) h2 h4⟩
  have hclear : clearStack (sp + 1) (more s) = clearCells ks (more s) := by
    unfold clearStack
    simp only [bind_def, gets, id]
    rw [if_pos hle]
  have hex : exec e i s = (opRet >>= fun last => if last then pure () else advance) (more s) := by
    unfold exec
    rw [hc, bind_def]
    rfl
  have hret : opRet (more s) = (clearCells ks >>= fun _ => VM.modify (fun s => { s with frames := s.frames.tail }) >>= fun _ =>
      gets fun s => s.frames.isEmpty) (more s) := by
    have hfr : (more s).frames = ⟨ip, sp⟩ :: rest := ha.frames
    unfold opRet
    simp only [bind_def, getFrame, gets, id, hfr, pure_def]
    rw [hclear]
  by_cases hgas : (more s).gas > (more s).limit ∧ ks ≠ []
  · obtain ⟨t, h1, h2⟩ := clearCells_spent ks (more s) hks hgas.1 hgas.2
    refine .inr ⟨1, t, throws_step hg ha hi ?_, .inl h2⟩
    rw [hex, bind_def, hret, bind_def, h1]
  · have : ∃ t, clearCells ks (more s) = .ok () t ∧ Dropped (more s) t (· ∈ ks) := by
      by_cases hk : ks = []
      · rw [hk]
        exact ⟨more s, rfl, rfl, rfl, rfl, rfl, fun a h => (nomatch h), fun _ _ => rfl, hg.sorted⟩
      · exact clearCells_ok ks (more s) hg.sorted (stackKeys hg.sorted _) hks (fun h => hgas ⟨h, hk⟩)
    obtain ⟨t, h1, h2⟩ := this
    have hin : ∀ a, a ∈ ks → MEM_STACK + sp + 1 ≤ a := fun a h => by
      have := (mem_stackKeys h).1; omega
    have hkept : ∀ a, a < MEM_STACK + sp + 1 → aget t.mem a = aget s.mem a := fun a h =>
      h2.kept a (fun h' => by have := hin a h'; omega)
    have htf : t.frames = ⟨ip, sp⟩ :: rest := by rw [h2.frames]; exact ha.frames
    refine reach_ok (t := { t with frames := popped rest }) hg ha hi ?_ ?_
    · rw [hex, bind_def, hret, bind_def, h1]
      simp only [VM.modify, bind_def, gets, htf, List.tail_cons]
      cases rest with
      | nil => rfl
      | cons f l => simp only [List.isEmpty_cons, Bool.false_eq_true, if_false]; exact advance_eq rfl
    · refine ⟨⟨by rw [show ({ t with frames := popped rest } : Eng).code = s.code from h2.code, hg.code], ?_, ?_, h2.sorted⟩, rfl, hkept⟩
      · intro j v hj
        obtain ⟨c, h3, h4⟩ := hg.consts j v hj
        refine ⟨c, ?_, h4⟩
        have : j < B.consts.length := by
          rcases Nat.lt_or_ge j B.consts.length with h | h
          · exact h
          · rw [List.getElem?_eq_none h] at hj; cases hj
        have := hf.consts
        have := mem_stack_extern
        exact (hkept j (by omega)).trans h3
      · intro a c h3 h4 h5
        by_cases h6 : a ∈ ks
        · have h7 : aget t.mem a = none := h2.gone a h6
          rw [show ({ t with frames := popped rest } : Eng).mem = t.mem from rfl, h7] at h5; cases h5
        · exact hg.stack a c h3 h4 ((h2.kept a h6).symm.trans h5)

end Verif.Comp
