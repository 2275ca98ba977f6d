import Verif.VM.EngSteps
/-
  C17: gas bounds the length of every contract execution.
-/
namespace Verif.VM
open Verif.Codec (Bytes)

/-! ### Specification -/

/-- `n` instructions in a row, each of them without an error. -/
inductive Steps (e : Env) : Nat → Eng → Eng → Prop where
  | zero (s : Eng) : Steps e 0 s s
  | succ {n : Nat} {s t u : Eng} : s.frames ≠ [] → step e s = .ok () t → Steps e n t u → Steps e (n + 1) s u

/-! ### Proofs -/

/-- At least the base price more gas. -/
structure Paid (s t : Eng) : Prop where
  gas : s.gas + 20 ≤ t.gas
  limit : t.limit = s.limit
  code : t.code = s.code

/-- What follows the first charge. -/
def execRest (e : Env) (i : Instr) : EM Unit :=
  match i.code with
  | 0x04 => do let a ← valA e i; jump a
  | 0x05 => opJumpIf e i true
  | 0x06 => opJumpIf e i false
  | 0x07 => do
    need (¬ i.refB)
    let (a, b) ← args2 e (valA e i) (valB e i)
    opCall a b
  | 0x08 => do
    let last ← opRet
    if last then pure () else advance
  | _ => do
    execOp e i
    advance

theorem exec_eq (e : Env) (i : Instr) : exec e i = (addGas INSTR_COST >>= fun _ => execRest e i) := rfl

instance m_execRest (e : Env) (i : Instr) : Pres Mono (execRest e i) := by unfold execRest; pres

theorem exec_paid (e : Env) (i : Instr) : Pres Paid (exec e i) := by
  rw [exec_eq]
  have hr := m_execRest e i
  constructor
  · intro s u b h
    have h' : execRest e i { s with gas := s.gas + INSTR_COST } = .ok b u := h
    have m := hr.ok h'
    exact ⟨m.gas, m.limit, m.code⟩
  · intro s u h
    have h' : execRest e i { s with gas := s.gas + INSTR_COST } = .throw u := h
    have m := hr.thrown h'
    exact ⟨m.gas, m.limit, m.code⟩

theorem getFrame_ok {s t : Eng} {f : Frame} (h : getFrame s = .ok f t) : s = t ∧ ∃ l, s.frames = f :: l := by
  unfold getFrame at h
  obtain ⟨x, u, h1, h2⟩ := bind_ok_iff.1 h
  obtain ⟨rfl, rfl⟩ := getsId_ok h1
  cases hl : s.frames with
  | nil => rw [hl] at h2; cases h2
  | cons g l =>
    rw [hl] at h2
    obtain ⟨rfl, rfl⟩ := pure_ok h2
    exact ⟨rfl, l, rfl⟩

/-- A successful step is one instruction of the code, executed, with the gas within the limit. -/
theorem step_ok {e : Env} {s t : Eng} (h : step e s = .ok () t) :
    ∃ f l i, s.frames = f :: l ∧ s.code[f.ip]? = some i ∧ exec e i s = .ok () t ∧ t.gas ≤ t.limit := by
  unfold step at h
  obtain ⟨f, u, h1, h2⟩ := bind_ok_iff.1 h
  obtain ⟨rfl, l, hl⟩ := getFrame_ok h1
  obtain ⟨x, u, h3, h4⟩ := bind_ok_iff.1 h2
  obtain ⟨rfl, rfl⟩ := getsId_ok h3
  cases hi : s.code[f.ip]? with
  | none => rw [hi] at h4; cases h4
  | some i =>
    rw [hi] at h4
    obtain ⟨y, v, h5, h6⟩ := bind_ok_iff.1 h4
    obtain ⟨rfl, hg⟩ := checkGas_ok h6
    exact ⟨f, l, i, hl, hi, h5, hg⟩

theorem step_paid {e : Env} {s t : Eng} (h : step e s = .ok () t) : Paid s t ∧ t.gas ≤ t.limit := by
  obtain ⟨f, l, i, _, _, h1, h2⟩ := step_ok h
  exact ⟨(exec_paid e i).ok h1, h2⟩

/-! ### Theorems -/

/-- C17, price: every instruction, whether it succeeds or fails, costs at least 20 gas, and no
    instruction changes the limit or the code. -/
theorem C17_every_instruction_paid (e : Env) (i : Instr) (s : Eng) :
    (∀ t, exec e i s = .ok () t → s.gas + 20 ≤ t.gas ∧ t.limit = s.limit ∧ t.code = s.code) ∧
    (∀ t, exec e i s = .throw t → s.gas + 20 ≤ t.gas ∧ t.limit = s.limit ∧ t.code = s.code) :=
  ⟨fun _ h => have p := (exec_paid e i).ok h; ⟨p.gas, p.limit, p.code⟩,
   fun _ h => have p := (exec_paid e i).thrown h; ⟨p.gas, p.limit, p.code⟩⟩

/-- C17, limit: an instruction that leaves the gas above the limit is an error. -/
theorem C17_over_limit_fails (e : Env) (s t : Eng) (h : step e s = .ok () t) : t.gas ≤ s.limit := by
  obtain ⟨p, g⟩ := step_paid h
  rw [p.limit] at g
  exact g

/-- C17, length: `n` instructions without an error cost at least `20 n` gas, all within the limit. -/
theorem C17_steps_within_gas {e : Env} {n : Nat} {s t : Eng} (h : Steps e n s t) (hn : n ≠ 0) :
    s.gas + 20 * n ≤ t.gas ∧ t.gas ≤ s.limit := by
  suffices H : s.gas + 20 * n ≤ t.gas ∧ t.limit = s.limit ∧ (n ≠ 0 → t.gas ≤ t.limit) from
    ⟨H.1, H.2.1 ▸ H.2.2 hn⟩
  clear hn
  induction h with
  | zero s => exact ⟨Nat.le_refl _, rfl, fun h => absurd rfl h⟩
  | @succ n s t u _ hs hr ih =>
    obtain ⟨p, g⟩ := step_paid hs
    obtain ⟨i1, i2, i3⟩ := ih
    refine ⟨?_, i2.trans p.limit, fun _ => ?_⟩
    · have := p.gas; omega
    · cases n with
      | zero => cases hr; exact g
      | succ n => exact i3 (by omega)

/-- C17, length: there are no more than `limit / 20` instructions. -/
theorem C17_bounded_length {e : Env} {n : Nat} {s t : Eng} (h : Steps e n s t) : n ≤ s.limit / 20 := by
  cases n with
  | zero => omega
  | succ n => have := C17_steps_within_gas h (by omega); omega

/-- Running with a bound that is reached: that many steps were made. -/
theorem run_false {e : Env} {n : Nat} {s t : Eng} (h : run e n s = .ok false t) : Steps e n s t := by
  induction n generalizing s with
  | zero =>
    unfold run at h
    obtain ⟨_, rfl⟩ := gets_ok h
    exact .zero _
  | succ n ih =>
    unfold run at h
    obtain ⟨x, u, h1, h2⟩ := bind_ok_iff.1 h
    obtain ⟨rfl, rfl⟩ := getsId_ok h1
    split at h2
    · obtain ⟨h3, _⟩ := pure_ok h2; cases h3
    · next hf =>
      obtain ⟨_, v, h3, h4⟩ := bind_ok_iff.1 h2
      refine .succ ?_ h3 (ih h4)
      intro h0
      exact hf (by rw [h0]; rfl)

theorem run_true {e : Env} {n : Nat} {s t : Eng} (h : run e n s = .ok true t) :
    t.frames = [] ∧ ∃ m, m ≤ n ∧ Steps e m s t := by
  induction n generalizing s with
  | zero =>
    unfold run at h
    obtain ⟨h1, rfl⟩ := gets_ok h
    exact ⟨List.isEmpty_iff.1 h1, 0, Nat.le_refl _, .zero _⟩
  | succ n ih =>
    unfold run at h
    obtain ⟨x, u, h1, h2⟩ := bind_ok_iff.1 h
    obtain ⟨rfl, rfl⟩ := getsId_ok h1
    split at h2
    · next hf =>
      obtain ⟨_, rfl⟩ := pure_ok h2
      exact ⟨List.isEmpty_iff.1 hf, 0, Nat.zero_le _, .zero _⟩
    · next hf =>
      obtain ⟨_, v, h3, h4⟩ := bind_ok_iff.1 h2
      obtain ⟨h5, m, h6, h7⟩ := ih h4
      refine ⟨h5, m + 1, by omega, .succ ?_ h3 h7⟩
      intro h0
      exact hf (by rw [h0]; rfl)

/-- C17, termination: with a bound of more than `limit / 20` instructions, the bound is never what
    ends a run, whatever the program, the memory, the storage and the remote contracts. -/
theorem C17_run_terminates (e : Env) (s t : Eng) (n : Nat) (hn : s.limit / 20 < n) :
    run e n s ≠ .ok false t := by
  intro h
  have := C17_bounded_length (run_false h)
  omega

/-- C17: past that bound a larger one makes no difference, so `run` is the unbounded loop of the
    code. -/
theorem C17_run_stable (e : Env) (s : Eng) (n m : Nat) (hn : s.limit / 20 < n) (hm : n ≤ m) :
    run e m s = run e n s := by
  have key : ∀ (n m : Nat) (s : Eng), n ≤ m → (∀ t, run e n s ≠ .ok false t) → run e m s = run e n s := by
    intro n
    induction n with
    | zero =>
      intro m s _ h
      cases hb : s.frames.isEmpty with
      | false => exact absurd (by rw [← hb]; rfl) (h s)
      | true =>
        have h0 : run e 0 s = .ok true s := by
          show Out.ok s.frames.isEmpty s = _
          rw [hb]
        rw [h0]
        cases m with
        | zero => exact h0
        | succ m =>
          show (gets id >>= fun s : Eng => if s.frames.isEmpty then pure true else step e >>= fun _ => run e m) s = _
          rw [bind_def]
          simp only [gets, id]
          rw [if_pos hb]; rfl
    | succ n ih =>
      intro m s hm h
      cases m with
      | zero => omega
      | succ m =>
        have u : ∀ k, run e (k + 1) s = (if s.frames.isEmpty then (pure true : EM Bool) else step e >>= fun _ => run e k) s :=
          fun _ => rfl
        rw [u, u]
        by_cases hb : s.frames.isEmpty
        · rw [if_pos hb, if_pos hb]
        · rw [if_neg hb, if_neg hb, bind_def, bind_def]
          cases hs : step e s with
          | ok a t =>
            refine ih m t (by omega) fun v hv => h v ?_
            rw [u, if_neg hb, bind_def, hs]; exact hv
          | throw t => rfl
          | ub => rfl
  exact key n m s hm fun t => C17_run_terminates e s t n hn

/-- C17, success: an execution that reports success has used no more gas than the limit, from
    start to commit, and ended with an empty call stack. -/
theorem C17_success_within_limit {e : Env} {n : Nat} {c : Bool} {s t : Eng} {w : List SWrite}
    (h : execute e n c s = .ok (some w) t) : s.gas ≤ t.gas ∧ t.gas ≤ s.limit ∧ t.frames = [] := by
  unfold execute at h
  obtain ⟨fin, u, h1, h2⟩ := bind_ok_iff.1 h
  split at h2
  · next hf =>
    subst hf
    obtain ⟨hfr, m, hle, hst⟩ := run_true h1
    obtain ⟨w', v, h3, h4⟩ := bind_ok_iff.1 h2
    obtain ⟨_, v', h5, h6⟩ := bind_ok_iff.1 h4
    obtain ⟨rfl, hg⟩ := checkGas_ok h5
    obtain ⟨_, rfl⟩ := pure_ok h6
    have q : Quiet u v := by
      split at h3
      · exact (q_commit e).ok h3
      · obtain ⟨_, rfl⟩ := pure_ok h3; exact Pre.refl _
    have hm : s.gas ≤ u.gas ∧ u.limit = s.limit := by
      clear hle h1 h3 hg h2 h4 h5 h6 hfr q h
      induction hst with
      | zero s => exact ⟨Nat.le_refl _, rfl⟩
      | succ _ hs _ ih =>
        obtain ⟨p, _⟩ := step_paid hs
        exact ⟨by have := p.gas; omega, ih.2.trans p.limit⟩
    refine ⟨by have := q.gas; omega, ?_, q.frames.trans hfr⟩
    rw [← hm.2, ← q.limit]; exact hg
  · obtain ⟨h3, _⟩ := pure_ok h2; cases h3

/-! ### The hypotheses can be met -/

/-- An environment with empty storage and no remote contracts. -/
def env0 : Env :=
  { contract := List.replicate 32 7, version := 1, readOnly := false, ltr := true
    storMem := fun _ _ => none, storEnt := fun _ _ _ => none, storKey := fun _ _ => 0
    storBal := fun _ _ => some 1000, storRefuse := fun _ _ _ => false
    sha256 := fun b => b.take 32, ecdsa := fun _ _ _ => some true, uintStr := fun _ n => [n % 256]
    strUint := fun _ b => b.length, hexStr := id, hexParse := id, addrStr := id, addrParse := some
    remote := fun _ _ _ _ => [], field := fun _ _ _ _ => [] }

def outEng {α : Type} : Out α → Option Eng
  | .ok _ s => some s
  | .throw s => some s
  | .ub => none

def isOk {α : Type} : Out α → Bool
  | .ok _ _ => true
  | _ => false

def isUb {α : Type} : Out α → Bool
  | .ub => true
  | _ => false

/-- A machine with the constants nil, 5, 7 that is ready to run the given code. -/
def ready (code : List Instr) (limit : Nat) : Option Eng :=
  outEng (boot env0 [] [.nil, .uint 5, .uint 7] [] 0 (newEng code limit))

/-- ADD [stack 0] = 5 + 7; RET. -/
def addRet : List Instr := [{ code := 0x20, flags := 32, a := MEM_STACK, b := 1, c := 2, d := 0 }, { code := 8, flags := 0, a := 0, b := 0, c := 0, d := 0 }]

/-- An endless loop. -/
def loop : List Instr := [{ code := 4, flags := 0, a := 0, b := 0, c := 0, d := 0 }]

/-- A program that ends, commits and reports success. -/
example : ((ready addRet 100000).map fun s => isOk (execute env0 10 true s)) = some true := by decide +kernel

/-- An endless loop with 1000 gas, 210 of it spent on the constants: 39 turns, then an error. -/
example : ((ready loop 1000).bind fun s => some (isOk (run env0 3 s), (outEng (run env0 60 s)).map (·.gas), isOk (run env0 60 s)))
    = some (true, some 1010, false) := by decide +kernel

end Verif.VM
