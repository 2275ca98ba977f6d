import Verif.Compile.Run
import Verif.Compile.Tree
/-
  The instruction chosen for a binary operator computes that operator.
-/
namespace Verif.Comp
open Verif Verif.VM
open Verif.Codec (Bytes)

/-- The instruction of an operator, as it stands in `simple_code_map`. -/
theorem ans_plain {e : Env} {s : Eng} {sp : Nat} {k : Cfg} {o : BinOp} {out b c : Nat} {l r : Val}
    (hver : e.version ≥ 1) (h : Room s sp) (hdst : MEM_STACK ≤ out) (hA : Fit out) (hB : Fit b) (hC : Fit c)
    (hl : Has s (ab sp b) l) (hr : Has s (ab sp c) r) (hls : Scalar l) (hrs : Scalar r) :
    Ans (execOp e { code := o.code, flags := o.flags k, a := out, b := b, c := c }) s (ab sp out)
      (binVal k.catchOvf o l r) := by
  have hbits : ∀ n, n = 0 ∨ n = 32 ∨ n = 64 → n.testBit 0 = false ∧ n.testBit 1 = false ∧ n.testBit 2 = false := by
    rintro n (rfl | rfl | rfl) <;> decide
  have hfl : o.flags k = 0 ∨ o.flags k = 32 ∨ o.flags k = 64 := by
    cases o <;> simp [BinOp.flags, mathFlags] <;> split <;> simp
  obtain ⟨f0, f1, f2⟩ := hbits _ hfl
  have ho : Three { code := o.code, flags := o.flags k, a := out, b := b, c := c } :=
    ⟨hdst, hA, hB, hC, f0, f1, f2⟩
  have hcatch : (o.flags k = mathFlags k) →
      (⟨o.code, o.flags k, out, b, c, 0⟩ : Instr).catchOverflow = k.catchOvf := by
    intro h1
    unfold Instr.catchOverflow
    dsimp only
    rw [h1]
    unfold mathFlags
    cases k.catchOvf <;> decide
  cases o with
  | add => rw [← hcatch rfl]; exact ans_add h ho hl hr hls hrs
  | sub => rw [← hcatch rfl]; exact ans_sub h ho hl hr hls hrs
  | mul => rw [← hcatch rfl]; exact ans_mul h ho hl hr hver
  | div => exact ans_div h ho hl hr hls _
  | mod => exact ans_mod h ho hl hr hls _
  | band => exact ans_bits (o := .band) (g := and) h ho hl hr hls hrs rfl (.inl rfl) (by show (64 : Nat).testBit 6 = true; decide) _
  | bor => exact ans_bits (o := .bor) (g := or) h ho hl hr hls hrs rfl (.inr (.inl rfl)) (by show (64 : Nat).testBit 6 = true; decide) _
  | bxor => exact ans_bits (o := .bxor) (g := xor) h ho hl hr hls hrs rfl (.inr (.inr rfl)) (by show (64 : Nat).testBit 6 = true; decide) _
  | land => exact ans_logic (g := and) h ho hl hr (by show (0 : Nat).testBit 6 = false; decide)
  | lor => exact ans_logic (g := or) h ho hl hr (by show (0 : Nat).testBit 6 = false; decide)
  | lxor => exact ans_logic (g := xor) h ho hl hr (by show (0 : Nat).testBit 6 = false; decide)
  | gt => exact ans_cmp (o := .gt) h ho hl hr hls hrs (by simp) rfl _
  | lt => exact ans_cmp (o := .lt) h ho hl hr hls hrs (by simp) rfl _
  | ge => exact ans_cmp (o := .ge) h ho hl hr hls hrs (by simp) rfl _
  | le => exact ans_cmp (o := .le) h ho hl hr hls hrs (by simp) rfl _
  | ne => exact ans_cmp (o := .ne) h ho hl hr hls hrs (by simp) rfl _
  | eq => exact ans_cmp (o := .eq) h ho hl hr hls hrs (by simp) rfl _

/-! ### Powers of two -/

theorem zeros_pow : ∀ (r n : Nat), n ≠ 0 → n &&& (n - 1) = 0 → zeros r n < r → n = 2 ^ zeros r n
  | 0, _, _, _, h => absurd h (by simp [zeros])
  | r + 1, n, h0, hn, hz => by
    unfold zeros at hz ⊢
    by_cases h2 : n % 2 = 0
    · rw [if_pos h2] at hz ⊢
      obtain ⟨m, rfl⟩ : ∃ m, n = 2 * m := ⟨n / 2, by omega⟩
      have hm : 2 * m / 2 = m := by omega
      rw [hm] at hz ⊢
      have hm0 : m ≠ 0 := by omega
      have hand : m &&& (m - 1) = 0 := by
        apply Nat.eq_of_testBit_eq
        intro j
        have h3 : (2 * m &&& (2 * m - 1)).testBit (j + 1) = false := by rw [hn]; exact Nat.zero_testBit _
        rw [Nat.testBit_and, Nat.testBit_succ, Nat.testBit_succ, show (2 * m - 1) / 2 = m - 1 by omega, hm] at h3
        rw [Nat.testBit_and, h3, Nat.zero_testBit]
      have := zeros_pow r m hm0 hand (by omega)
      rw [Nat.pow_succ, Nat.mul_comm, ← this]
    · rw [if_neg h2]
      have h3 : n - 1 = 0 := by
        apply Nat.eq_of_testBit_eq
        intro j
        rw [Nat.zero_testBit]
        cases j with
        | zero => rw [Nat.testBit_zero]; simp; omega
        | succ j =>
          have h4 : (n &&& (n - 1)).testBit (j + 1) = false := by rw [hn]; exact Nat.zero_testBit _
          rw [Nat.testBit_and, Nat.testBit_succ, Nat.testBit_succ, show (n - 1) / 2 = n / 2 by omega, Bool.and_self] at h4
          rw [Nat.testBit_succ, show (n - 1) / 2 = n / 2 by omega, h4]
      rw [Nat.pow_zero]; omega

theorem powTwo_eq {k : Cfg} {consts : List Val} {a n : Nat} (h : powTwo k consts a = some n) :
    consts[a]? = some (.uint (2 ^ n)) ∧ n < 256 := by
  unfold powTwo at h
  split at h
  · next x hx =>
    split at h
    · next hc =>
      injection h with h
      obtain ⟨_, h1, h2, h3⟩ := hc
      have := zeros_pow 257 x h1 h2 (by omega)
      rw [h] at this
      exact ⟨by rw [hx, ← this], by omega⟩
    · cases h
  · cases h

/-! ### Constants -/

theorem compare_eq_left {w v : Val} (hw : Scalar w) (h : VM.compare w v = .eq) : w = v := by
  by_cases hc : w.code = v.code
  · have hv : Scalar v := by
      cases w <;> cases v <;> simp only [Val.code] at hc <;>
        first | trivial | exact (show False from hw).elim | (exfalso; revert hc; decide) | skip
      · simp only [VM.compare, Val.code, ne_eq, not_true_eq_false, if_false, cmpN_eq] at h
        rw [← h]; exact hw
      · next a b =>
        have : a = b := by
          simp only [VM.compare, Val.code, ne_eq, not_true_eq_false, if_false] at h
          by_cases h1 : a.length = b.length
          · rw [if_pos h1, memcmp_eq h1] at h; exact h
          · rw [if_neg h1] at h; split at h <;> cases h
        rw [← this]; exact hw
      · next a b =>
        have : a = b := by
          simp only [VM.compare, Val.code, ne_eq, not_true_eq_false, if_false] at h
          by_cases h1 : a.length = b.length
          · rw [if_pos h1, memcmp_eq h1] at h; exact h
          · rw [if_neg h1] at h; split at h <;> cases h
        rw [← this]; exact hw
    exact (compare_eq_iff hw hv).1 h
  · exfalso
    unfold VM.compare at h
    rw [if_pos hc] at h
    split at h <;> cases h

theorem constIdx_some : ∀ {l : List Val} {v : Val} {i : Nat}, (∀ w ∈ l, Scalar w) →
    constIdx v l = some i → l[i]? = some v
  | [], _, _, _, h => by cases h
  | w :: l, v, i, hl, h => by
    unfold constIdx at h
    by_cases hc : VM.compare w v = .eq
    · rw [if_pos hc] at h
      injection h with h
      subst h
      rw [List.getElem?_cons_zero, compare_eq_left (hl w (List.mem_cons_self ..)) hc]
    · rw [if_neg hc] at h
      cases hi : constIdx v l with
      | none => rw [hi] at h; cases h
      | some j =>
        rw [hi] at h
        injection h with h
        subst h
        rw [List.getElem?_cons_succ]
        exact constIdx_some (fun x hx => hl x (List.mem_cons_of_mem _ hx)) hi

end Verif.Comp
