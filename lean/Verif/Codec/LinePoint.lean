import Verif.Base
/-
  Line points of plot files, include/mmx/pos/encoding.h.
-/
namespace Verif.Codec

/-- `GetXEnc`, include/mmx/pos/encoding.h:26-37. `x` is a `uint32_t`; `x - 1` wraps for zero. -/
def getXEnc (x : Nat) : Nat :=
  let a := x
  let b := (x + 2 ^ 32 - 1) % 2 ^ 32
  if a % 2 = 0 then u64 ((a / 2) * b) else u64 (a * (b / 2))

/-- The loop of `LinePointToSquare`, include/mmx/pos/encoding.h:43-48, with `i` bits left. -/
def squareLoop (index : Nat) : Nat → Nat → Nat
  | 0, x => x
  | i + 1, x =>
    let newX := u32 (x + 2 ^ i)
    squareLoop index i (if getXEnc newX ≤ index then newX else x)

/-- `LinePointToSquare`, include/mmx/pos/encoding.h:39-50 (both results are `uint32_t`). -/
def linePointToSquare (index : Nat) : Nat × Nat :=
  let x := squareLoop index 32 0
  (x, u32 (sub64 index (getXEnc x)))

/-- Unsigned 32-bit decrement. -/
def dec32 (x : Nat) : Nat := (x + 2 ^ 32 - 1) % 2 ^ 32

/-- `LinePointToSquare3`, include/mmx/pos/encoding.h:53-63. -/
def linePointToSquare3 (index : Nat) : Nat × Nat :=
  let res := linePointToSquare index
  if res.2 = 0 then (dec32 res.1, dec32 res.1) else res

/-- `LinePointToSquare2`, include/mmx/pos/encoding.h:66-72. -/
def linePointToSquare2 (index : Nat) : Nat × Nat :=
  let res := linePointToSquare3 index
  (dec32 res.1, dec32 res.2)

/-! ### Lemmas -/

/-- Triangular number `x (x - 1) / 2`. -/
def tri : Nat → Nat
  | 0 => 0
  | x + 1 => tri x + x

theorem tri_succ (x : Nat) : tri (x + 1) = tri x + x := rfl

attribute [irreducible] tri

theorem two_tri (x : Nat) : 2 * tri x + x = x * x := by
  induction x with
  | zero => rw [show tri 0 = 0 by unfold tri; rfl]
  | succ x ih =>
    rw [tri_succ]
    have : (x + 1) * (x + 1) = x * x + 2 * x + 1 := by
      rw [Nat.add_mul, Nat.mul_add]; omega
    omega

theorem tri_mono {x y : Nat} (h : x ≤ y) : tri x ≤ tri y := by
  induction y with
  | zero => rw [Nat.le_zero.1 h]; exact Nat.le_refl _
  | succ y ih =>
    by_cases e : x = y + 1
    · subst e; exact Nat.le_refl _
    · have := ih (by omega); rw [tri_succ]; omega

theorem tri_lt {x : Nat} (h : x ≤ 2 ^ 32) : tri x < 2 ^ 64 := by
  have h1 := two_tri x
  have h2 : x * x ≤ 2 ^ 32 * 2 ^ 32 := Nat.mul_le_mul h h
  omega

theorem getXEnc_eq {x : Nat} (h : x < 2 ^ 32) : getXEnc x = tri x := by
  unfold getXEnc
  dsimp only
  have ht := two_tri x
  have hlt := tri_lt (Nat.le_of_lt h)
  by_cases h0 : x = 0
  · subst h0; rw [show tri 0 = 0 by unfold tri; rfl]; decide
  · have hb : (x + 2 ^ 32 - 1) % 2 ^ 32 = x - 1 := by omega
    rw [hb]
    have key : x * (x - 1) = 2 * tri x := by
      rw [Nat.mul_sub, Nat.mul_one]; omega
    by_cases he : x % 2 = 0
    · rw [if_pos he]
      have e : x / 2 * (x - 1) = tri x := by
        have : 2 * (x / 2 * (x - 1)) = 2 * tri x := by
          rw [← Nat.mul_assoc, show 2 * (x / 2) = x by omega, key]
        omega
      rw [e, u64_of_lt hlt]
    · rw [if_neg he]
      have e : x * ((x - 1) / 2) = tri x := by
        have : 2 * (x * ((x - 1) / 2)) = 2 * tri x := by
          rw [Nat.mul_left_comm, show 2 * ((x - 1) / 2) = x - 1 by omega, key]
        omega
      rw [e, u64_of_lt hlt]

theorem squareLoop_spec {index : Nat} (i : Nat) : ∀ x, x + 2 ^ i ≤ 2 ^ 32 → tri x ≤ index →
    index < tri (x + 2 ^ i) →
    tri (squareLoop index i x) ≤ index ∧ index < tri (squareLoop index i x + 1) ∧
      squareLoop index i x < x + 2 ^ i := by
  induction i with
  | zero =>
    intro x _ h1 h2
    exact ⟨h1, h2, by unfold squareLoop; omega⟩
  | succ i ih =>
    intro x hx h1 h2
    have hp : 2 ^ (i + 1) = 2 ^ i + 2 ^ i := by rw [Nat.pow_succ]; omega
    have hpos : 0 < 2 ^ i := Nat.two_pow_pos i
    unfold squareLoop
    dsimp only
    rw [u32_of_lt (by omega), getXEnc_eq (by omega)]
    split
    · rename_i hc
      have := ih (x + 2 ^ i) (by omega) hc (by rw [Nat.add_assoc, ← hp]; exact h2)
      exact ⟨this.1, this.2.1, by omega⟩
    · rename_i hc
      have := ih x (by omega) h1 (by omega)
      exact ⟨this.1, this.2.1, by omega⟩

theorem linePoint_spec {index : Nat} (h : index < tri (2 ^ 32)) :
    (linePointToSquare index).1 < 2 ^ 32 ∧
    (linePointToSquare index).2 < (linePointToSquare index).1 ∧
    tri (linePointToSquare index).1 + (linePointToSquare index).2 = index := by
  obtain ⟨h1, h2, h3⟩ := squareLoop_spec (index := index) 32 0 (by decide) (by rw [show tri 0 = 0 by unfold tri; rfl]; exact Nat.zero_le _)
    (by rw [Nat.zero_add]; exact h)
  unfold linePointToSquare
  dsimp only
  rw [Nat.zero_add] at h3
  have hi : index < 2 ^ 64 := Nat.lt_trans h (tri_lt (Nat.le_refl _))
  rw [getXEnc_eq h3, sub64_of_le hi h1]
  have ht : tri (squareLoop index 32 0 + 1) = tri (squareLoop index 32 0) + squareLoop index 32 0 := tri_succ _
  rw [u32_of_lt (by omega)]
  omega

theorem linePoint_unique {x y x' y' : Nat} (hy : y < x) (hy' : y' < x')
    (h : tri x + y = tri x' + y') : x = x' ∧ y = y' := by
  have hs : ∀ z, tri (z + 1) = tri z + z := tri_succ
  have key : ∀ {a b c d : Nat}, b < a → d < c → tri a + b = tri c + d → ¬ a < c := by
    intro a b c d h1 h2 h3 hlt
    have := tri_mono (show a + 1 ≤ c by omega)
    have := hs a
    omega
  have h1 := key hy hy' h
  have h2 := key hy' hy h.symm
  have : x = x' := by omega
  subst this
  exact ⟨rfl, by omega⟩

end Verif.Codec
