import Verif.VM.PropsSend
/-
  C21: contract integer arithmetic is exact or aborts.
-/
namespace Verif.VM
open Verif.Codec (Bytes)

/-! ### Specification -/

/-- The address an operand stands for: operands in the stack segment are relative to the frame, and
    a marked operand goes through the reference found there. -/
def Denotes (s : Eng) (x : Nat) (marked : Bool) (a : Nat) : Prop :=
  ∃ b, (if MEM_STACK ≤ x ∧ x < MEM_STATIC
        then ∃ f l, s.frames = f :: l ∧ b = x + f.sp ∧ b < MEM_STATIC
        else b = x) ∧
    if marked then ∃ v, peek s b = some v ∧ a = (match v with | .ref y => y | _ => b)
    else a = b

/-- An instruction with code `code`, target `d`, and operands that hold the numbers `l` and `r`. -/
structure Binary (s : Eng) (i : Instr) (code d l r : Nat) : Prop where
  code : i.code = code
  target : Denotes s i.a i.refA d
  left : ∃ x, Denotes s i.b i.refB x ∧ peek s x = some (.uint l)
  right : ∃ x, Denotes s i.c i.refC x ∧ peek s x = some (.uint r)
  lbound : l < 2 ^ 256
  rbound : r < 2 ^ 256

/-- The instruction ended in an exception. -/
def Aborts {α : Type} (o : Out α) : Prop := ∃ t, o = .throw t

/-! ### Operands -/

theorem stackAddr_eq {s : Eng} {x b : Nat}
    (h : if MEM_STACK ≤ x ∧ x < MEM_STATIC then ∃ f l, s.frames = f :: l ∧ b = x + f.sp ∧ b < MEM_STATIC else b = x) :
    stackAddr x s = .ok b s := by
  unfold stackAddr
  split at h
  · next hx =>
    obtain ⟨f, l, h1, rfl, h2⟩ := h
    rw [if_pos hx]
    simp only [bind_def, getFrame, gets, h1, pure_def, id, need]
    rw [if_pos (by omega)]
    rfl
  · next hx => subst h; rw [if_neg hx]; rfl

theorem derefAddr_eq {e : Env} {s : Eng} {x a : Nat} {m : Bool} (h : Denotes s x m a) : derefAddr e x m s = .ok a s := by
  obtain ⟨b, h1, h2⟩ := h
  unfold derefAddr
  rw [bind_def, stackAddr_eq h1]
  cases m with
  | false => rw [if_neg (by decide)] at h2; subst h2; rfl
  | true =>
    rw [if_pos rfl] at h2
    obtain ⟨v, hv, rfl⟩ := h2
    obtain ⟨c, hc, rfl⟩ := readFail_peek (e := e) hv
    show deref e b s = _
    unfold deref
    rw [bind_def, hc]
    dsimp only
    cases c.val <;> rfl

theorem opUints_eq {e : Env} {s : Eng} {i : Instr} {code d l r : Nat} (h : Binary s i code d l r) :
    opUints e i s = .ok (d, l, r) s := by
  obtain ⟨x, h1, h2⟩ := h.left
  obtain ⟨y, h3, h4⟩ := h.right
  unfold opUints addrA addrB addrC
  simp only [bind_def, derefAddr_eq h.target, derefAddr_eq h1, derefAddr_eq h3, readUint_peek h2, readUint_peek h4]
  rfl

theorem Denotes.gas {s : Eng} {x a g : Nat} {m : Bool} (h : Denotes s x m a) : Denotes { s with gas := g } x m a := h

theorem Binary.gas {s : Eng} {i : Instr} {c d l r g : Nat} (h : Binary s i c d l r) :
    Binary { s with gas := g } i c d l r :=
  ⟨h.code, h.target, h.left, h.right, h.lbound, h.rbound⟩

/-- Not a jump, a call or a return. -/
def straight (i : Instr) : Prop := i.code ≠ 4 ∧ i.code ≠ 5 ∧ i.code ≠ 6 ∧ i.code ≠ 7 ∧ i.code ≠ 8

theorem exec_straight (e : Env) (i : Instr) (h : straight i) (s : Eng) :
    exec e i s = (do execOp e i; advance : EM Unit) { s with gas := s.gas + 20 } := by
  obtain ⟨h1, h2, h3, h4, h5⟩ := h
  have key : execRest e i = (do execOp e i; advance : EM Unit) := by
    unfold execRest
    split <;> first | contradiction | rfl
  rw [exec_eq, key]
  rfl

theorem advance_peek {s t : Eng} {x : Unit} (h : advance s = .ok x t) (a : Nat) : peek t a = peek s a := by
  unfold advance at h
  obtain ⟨f, u, h1, h2⟩ := bind_ok_iff.1 h
  obtain ⟨rfl, _⟩ := getFrame_ok h1
  cases modify_ok h2
  unfold setTop
  split <;> rfl

theorem need_false {c : Prop} [Decidable c] {β : Type} {f : Unit → EM β} {s : Eng} (h : ¬ c) :
    (need c >>= f) s = .throw s := by
  unfold need; rw [if_neg h]; rfl

theorem need_true {c : Prop} [Decidable c] {β : Type} {f : Unit → EM β} {s : Eng} (h : c) :
    (need c >>= f) s = f () s := by
  unfold need; rw [if_pos h]; rfl

variable {e : Env} {s t : Eng} {i : Instr} {d l r : Nat}

/-- Not a jump, a call or a return: everything in a `Binary` here has a code from 0x20. -/
theorem Binary.straight {c : Nat} (h : Binary s i c d l r) (hc : 0x20 ≤ c) : straight i := by
  have := h.code
  unfold VM.straight
  omega

/-- An instruction that throws if `p`, and else ends in writing a plain value. -/
theorem exec_result {p : Prop} [Decidable p] {v : Val} {u w : Eng} (hs : straight i) (hv : plain v)
    (hop : execOp e i { s with gas := s.gas + 20 } = if p then .throw u else writeVal e d v w) :
    (p → Aborts (exec e i s)) ∧ (∀ t, exec e i s = .ok () t → ¬ p ∧ peek t d = some v) := by
  rw [exec_straight e i hs, bind_def, hop]
  by_cases hp : p
  · rw [if_pos hp]
    exact ⟨fun _ => ⟨_, rfl⟩, fun t h => nomatch h⟩
  · rw [if_neg hp]
    refine ⟨fun h => absurd h hp, fun t h => ⟨hp, ?_⟩⟩
    cases hw : writeVal e d v w with
    | ok x y =>
      rw [hw] at h
      rw [advance_peek h]
      exact writeVal_peek hv hw
    | throw y => rw [hw] at h; cases h
    | ub => rw [hw] at h; cases h

/-! ### C21 -/

/-- C21, ADD. With overflow checking: a sum beyond 256 bits aborts, and a success stores the exact
    sum. Without: the sum modulo `2^256`. -/
theorem C21_add (h : Binary s i 0x20 d l r) :
    (i.catchOverflow → 2 ^ 256 ≤ l + r → Aborts (exec e i s)) ∧
    (∀ t, exec e i s = .ok () t →
      (i.catchOverflow → peek t d = some (.uint (l + r))) ∧ peek t d = some (.uint ((l + r) % 2 ^ 256))) := by
  have hl := h.lbound; have hr := h.rbound
  have hop : execOp e i { s with gas := s.gas + 20 } = if i.catchOverflow ∧ 2 ^ 256 ≤ l + r then .throw { s with gas := s.gas + 20 }
      else writeVal e d (.uint ((l + r) % 2 ^ 256)) { s with gas := s.gas + 20 } := by
    unfold execOp
    rw [h.code]
    simp only
    unfold opAdd
    rw [bind_def, opUints_eq h.gas]
    simp only
    unfold u256
    by_cases hp : i.catchOverflow ∧ 2 ^ 256 ≤ l + r
    · rw [if_pos hp, need_false]
      refine fun hn => hn ⟨hp.1, ?_⟩
      omega
    · rw [if_neg hp, need_true]
      rintro ⟨h1, h2⟩
      exact hp ⟨h1, by omega⟩
  obtain ⟨h1, h2⟩ := exec_result (h.straight (by decide)) rfl hop
  refine ⟨fun a b => h1 ⟨a, b⟩, fun t ht => ⟨fun a => ?_, (h2 t ht).2⟩⟩
  obtain ⟨h3, h4⟩ := h2 t ht
  rw [h4, Nat.mod_eq_of_lt]
  exact Nat.lt_of_not_le fun hn => h3 ⟨a, hn⟩

/-- C21, SUB. With overflow checking: a negative difference aborts, and a success stores the exact
    difference. Without: the difference modulo `2^256`. -/
theorem C21_sub (h : Binary s i 0x21 d l r) :
    (i.catchOverflow → l < r → Aborts (exec e i s)) ∧
    (∀ t, exec e i s = .ok () t →
      (i.catchOverflow → ∃ x, x + r = l ∧ peek t d = some (.uint x)) ∧
      peek t d = some (.uint ((l + (2 ^ 256 - r)) % 2 ^ 256))) := by
  have hl := h.lbound; have hr := h.rbound
  have hop : execOp e i { s with gas := s.gas + 20 } = if i.catchOverflow ∧ l < r then .throw { s with gas := s.gas + 20 }
      else writeVal e d (.uint ((l + (2 ^ 256 - r)) % 2 ^ 256)) { s with gas := s.gas + 20 } := by
    unfold execOp
    rw [h.code]
    simp only
    unfold opSub
    rw [bind_def, opUints_eq h.gas]
    simp only
    unfold u256
    rw [Nat.add_sub_assoc (by omega)]
    by_cases hp : i.catchOverflow ∧ l < r
    · rw [if_pos hp, need_false]
      refine fun hn => hn ⟨hp.1, ?_⟩
      omega
    · rw [if_neg hp, need_true]
      rintro ⟨h1, h2⟩
      exact hp ⟨h1, by omega⟩
  obtain ⟨h1, h2⟩ := exec_result (h.straight (by decide)) rfl hop
  refine ⟨fun a b => h1 ⟨a, b⟩, fun t ht => ⟨fun a => ?_, (h2 t ht).2⟩⟩
  obtain ⟨h3, h4⟩ := h2 t ht
  have : ¬ l < r := fun hn => h3 ⟨a, hn⟩
  refine ⟨l - r, by omega, ?_⟩
  rw [h4]
  congr 2
  omega

/-- C21, MUL (partial: engine version 0 is left out, see `C21_mul_version0_wrong`). With overflow
    checking, from engine version 1 on: a product beyond 256 bits aborts,
    and a success stores the exact product. Without: the product modulo `2^256`. -/
theorem C21_mul_partial (h : Binary s i 0x22 d l r) :
    (i.catchOverflow → 1 ≤ e.version → 2 ^ 256 ≤ l * r → Aborts (exec e i s)) ∧
    (∀ t, exec e i s = .ok () t →
      (i.catchOverflow → 1 ≤ e.version → peek t d = some (.uint (l * r))) ∧
      peek t d = some (.uint (l * r % 2 ^ 256))) := by
  have hl := h.lbound; have hr := h.rbound
  have hov : 1 ≤ e.version → (mulOverflow e.version l r = true ↔ 2 ^ 256 ≤ l * r) := by
    intro hv
    unfold mulOverflow
    rw [if_pos hv]
    simp only [decide_eq_true_eq]
    constructor
    · rintro ⟨h0, h1⟩
      have := (Nat.div_lt_iff_lt_mul (Nat.pos_of_ne_zero h0)).1 h1
      rw [Nat.mul_comm]
      omega
    · intro h1
      have h0 : l ≠ 0 := by rintro rfl; omega
      refine ⟨h0, (Nat.div_lt_iff_lt_mul (Nat.pos_of_ne_zero h0)).2 ?_⟩
      rw [Nat.mul_comm]
      omega
  let g := s.gas + 20 + (if l / 2 ^ 64 ≠ 0 ∨ r / 2 ^ 64 ≠ 0 then INSTR_MUL_256_COST else INSTR_MUL_128_COST)
  have hop : execOp e i { s with gas := s.gas + 20 } = if i.catchOverflow ∧ mulOverflow e.version l r then .throw { s with gas := g }
      else writeVal e d (.uint (l * r % 2 ^ 256)) { s with gas := g } := by
    unfold execOp
    rw [h.code]
    simp only
    unfold opMul
    rw [bind_def, opUints_eq h.gas]
    simp only
    rw [bind_def]
    show (need _ >>= _) { s with gas := g } = _
    by_cases hp : i.catchOverflow ∧ mulOverflow e.version l r
    · rw [if_pos hp, need_false (fun hn => hn hp)]
    · rw [if_neg hp, need_true hp]
      rfl
  obtain ⟨h1, h2⟩ := exec_result (h.straight (by decide)) rfl hop
  refine ⟨fun a hv b => h1 ⟨a, (hov hv).2 b⟩, fun t ht => ⟨fun a hv => ?_, (h2 t ht).2⟩⟩
  obtain ⟨h3, h4⟩ := h2 t ht
  rw [h4, Nat.mod_eq_of_lt]
  exact Nat.lt_of_not_le fun hn => h3 ⟨a, (hov hv).2 hn⟩

/-- MUL with overflow checking of the constants 1 and 2 into the stack. -/
def mulInstr : Instr := ⟨0x22, 32, MEM_STACK, 1, 2, 0⟩

/-- The full claim is false for engine version 0: with overflow checking, `3 * (2^255 + 3)` does not
    abort but gives `2^255 + 9`. -/
theorem C21_mul_version0_wrong :
    ((outEng (boot env0 [] [.nil, .uint 3, .uint (2 ^ 255 + 3)] [] 0 (newEng [] 100000))).bind fun s =>
      (outEng (exec { env0 with version := 0 } mulInstr s)).map fun t =>
        mulInstr.catchOverflow && isUint (peek s 1) 3 && isUint (peek s 2) (2 ^ 255 + 3) &&
        isOk (exec { env0 with version := 0 } mulInstr s) && isUint (peek t MEM_STACK) (2 ^ 255 + 9) &&
        !isOk (exec env0 mulInstr s)) = some true ∧
    2 ^ 256 ≤ 3 * (2 ^ 255 + 3) := by decide +kernel

/-- C21, DIV and MOD: zero aborts; otherwise quotient and remainder are exact. -/
theorem C21_div_mod (m : Bool) (h : Binary s i (if m then 0x24 else 0x23) d l r) :
    (r = 0 → Aborts (exec e i s)) ∧
    (∀ t, exec e i s = .ok () t → ∃ q x, l = q * r + x ∧ x < r ∧ peek t d = some (.uint (if m then x else q))) := by
  have hop : execOp e i { s with gas := s.gas + 20 } = if r = 0 then .throw { s with gas := s.gas + 20 }
      else writeVal e d (.uint (if m then l % r else l / r)) { s with gas := s.gas + 20 + divCost l } := by
    have key : opDiv e i m { s with gas := s.gas + 20 } = if r = 0 then .throw { s with gas := s.gas + 20 }
      else writeVal e d (.uint (if m then l % r else l / r)) { s with gas := s.gas + 20 + divCost l } := by
      unfold opDiv
      rw [bind_def, opUints_eq h.gas]
      simp only
      by_cases hp : r = 0
      · rw [if_pos hp, need_false (fun hn => hn hp)]
      · rw [if_neg hp, need_true hp]
        rfl
    unfold execOp
    rw [h.code]
    cases m <;> exact key
  obtain ⟨h1, h2⟩ := exec_result (h.straight (by cases m <;> decide)) rfl hop
  refine ⟨h1, fun t ht => ?_⟩
  obtain ⟨h3, h4⟩ := h2 t ht
  refine ⟨l / r, l % r, ?_, Nat.mod_lt _ (Nat.pos_of_ne_zero h3), h4⟩
  rw [Nat.mul_comm]; exact (Nat.div_add_mod l r).symm

/-- C21, MIN and MAX. -/
theorem C21_min_max (m : Bool) (h : Binary s i (if m then 0x45 else 0x44) d l r) (hx : exec e i s = .ok () t) :
    peek t d = some (.uint (if m then Nat.max l r else Nat.min l r)) := by
  have hop : execOp e i { s with gas := s.gas + 20 } = if False then .throw s
      else writeVal e d (.uint (if m then Nat.max l r else Nat.min l r)) { s with gas := s.gas + 20 } := by
    rw [if_neg id]
    have key : opMinMax e i m { s with gas := s.gas + 20 } =
        writeVal e d (.uint (if m then Nat.max l r else Nat.min l r)) { s with gas := s.gas + 20 } := by
      unfold opMinMax
      rw [bind_def, opUints_eq h.gas]
      simp only
      congr 2
      cases m
      · show (if l < r then l else r) = min l r
        split <;> omega
      · show (if l > r then l else r) = max l r
        split <;> omega
    unfold execOp
    rw [h.code]
    cases m <;> exact key
  exact ((exec_result (h.straight (by cases m <;> decide)) rfl hop).2 t hx).2

theorem cmpN_cases (a b : Nat) : (a < b ∧ cmpN a b = .lt) ∨ (a = b ∧ cmpN a b = .eq) ∨ (b < a ∧ cmpN a b = .gt) := by
  unfold cmpN
  split
  · next h => exact .inr (.inl ⟨h, rfl⟩)
  · split
    · next h => exact .inl ⟨h, rfl⟩
    · exact .inr (.inr ⟨by omega, rfl⟩)

/-- What the six comparisons mean for numbers. -/
def Compares (code l r : Nat) : Prop :=
  (code = 0x60 ∧ l = r) ∨ (code = 0x61 ∧ l ≠ r) ∨ (code = 0x62 ∧ l < r) ∨ (code = 0x63 ∧ l > r) ∨
  (code = 0x64 ∧ l ≤ r) ∨ (code = 0x65 ∧ l ≥ r)

/-- C21, comparisons of numbers give the boolean of the mathematical relation. -/
theorem C21_compare (code : Nat) (h : Binary s i code d l r) (hc : 0x60 ≤ code ∧ code ≤ 0x65)
    (hx : exec e i s = .ok () t) :
    (Compares code l r → peek t d = some .tru) ∧ (¬ Compares code l r → peek t d = some .fls) := by
  obtain ⟨x, h1, h2⟩ := h.left
  obtain ⟨y, h3, h4⟩ := h.right
  have hop : execOp e i { s with gas := s.gas + 20 } = if False then .throw s
      else writeVal e d (boolVal (cmpResult code (cmpN l r))) { s with gas := s.gas + 20 } := by
    rw [if_neg id]
    have key : opCmp e i { s with gas := s.gas + 20 } =
        writeVal e d (boolVal (cmpResult code (cmpN l r))) { s with gas := s.gas + 20 } := by
      obtain ⟨c1, hc1, hv1⟩ := readFail_peek (e := e) (s := { s with gas := s.gas + 20 }) (a := x) h2
      obtain ⟨c2, hc2, hv2⟩ := readFail_peek (e := e) (s := { s with gas := s.gas + 20 }) (a := y) h4
      unfold opCmp addrA addrB addrC
      rw [bind_def, derefAddr_eq h.target.gas]
      simp only
      rw [bind_def, derefAddr_eq h1.gas]
      simp only
      rw [bind_def, derefAddr_eq h3.gas]
      simp only
      rw [bind_def, hc1]
      simp only
      rw [bind_def, hc2]
      simp only
      rw [need_true (by rw [hv1, hv2]; exact .inr (.inr rfl)), hv1, hv2, h.code]
      rfl
    unfold execOp
    rw [h.code]
    have : code = 0x60 ∨ code = 0x61 ∨ code = 0x62 ∨ code = 0x63 ∨ code = 0x64 ∨ code = 0x65 := by omega
    rcases this with rfl | rfl | rfl | rfl | rfl | rfl <;> exact key
  have hp : plain (boolVal (cmpResult code (cmpN l r))) := by unfold boolVal; split <;> rfl
  have hr := ((exec_result (h.straight (by omega)) hp hop).2 t hx).2
  have key : cmpResult code (cmpN l r) = true ↔ Compares code l r := by
    have : code = 0x60 ∨ code = 0x61 ∨ code = 0x62 ∨ code = 0x63 ∨ code = 0x64 ∨ code = 0x65 := by omega
    unfold Compares
    rcases cmpN_cases l r with ⟨ho, hcmp⟩ | ⟨ho, hcmp⟩ | ⟨ho, hcmp⟩ <;> rw [hcmp] <;>
      rcases this with rfl | rfl | rfl | rfl | rfl | rfl <;> simp [cmpResult] <;> omega
  constructor
  · intro hC
    rw [hr, key.2 hC]; rfl
  · intro hC
    rw [hr]
    have : cmpResult code (cmpN l r) = false := by
      cases hb : cmpResult code (cmpN l r) with
      | true => exact absurd (key.1 hb) hC
      | false => rfl
    rw [this]; rfl

/-! ### The hypotheses can be met -/

/-- The example of C17 is an addition with overflow checking, 5 + 7, on the stack. -/
example : ((ready addRet 100000).bind fun s => (outEng (exec env0 ⟨0x20, 32, MEM_STACK, 1, 2, 0⟩ s)).map fun t =>
    isUint (peek s 1) 5 && isUint (peek s 2) 7 && isOk (exec env0 ⟨0x20, 32, MEM_STACK, 1, 2, 0⟩ s) &&
    (Instr.catchOverflow ⟨0x20, 32, MEM_STACK, 1, 2, 0⟩) && isUint (peek t MEM_STACK) 12) = some true := by decide +kernel

/-- 5 - 7 aborts with overflow checking. -/
example : ((ready addRet 100000).map fun s => isOk (exec env0 ⟨0x21, 32, MEM_STACK, 1, 2, 0⟩ s)) = some false := by
  decide +kernel

/-- Through a reference: with nil, 5, and a reference to address 1 as constants, `[2]` denotes 1. -/
example : ((outEng (boot env0 [] [.nil, .uint 5, .ref 1] [] 0 (newEng [] 100000))).bind fun s =>
    (outEng (exec env0 ⟨0x22, 32 + 4, MEM_STACK, 1, 2, 0⟩ s)).map fun t => isUint (peek t MEM_STACK) 25) = some true := by
  decide +kernel

end Verif.VM
