/-
  Shared vocabulary of the numeric models: outcomes of a call and the machine integers.
-/
namespace Verif

/-- Outcome of a C++ call: a value, a thrown exception, or undefined behaviour
    (integer division by zero, signed overflow, shift by the width or more). -/
inductive Res (α : Type) where
  | ok (a : α)
  | throw
  | ub
  deriving DecidableEq, Repr

namespace Res

def bind {α β : Type} (x : Res α) (f : α → Res β) : Res β :=
  match x with
  | ok a => f a
  | throw => .throw
  | ub => .ub

instance : Monad Res where
  pure := Res.ok
  bind := Res.bind

/-- `if(!c) throw`: the check passes exactly when `c` holds. -/
def chk (c : Prop) [Decidable c] : Res Unit := if c then .ok () else .throw

/-- The operation is undefined unless `c` holds. -/
def defd (c : Prop) [Decidable c] : Res Unit := if c then .ok () else .ub

@[simp] theorem bind_ok {α β : Type} (a : α) (f : α → Res β) : (Res.ok a >>= f) = f a := rfl
@[simp] theorem bind_throw {α β : Type} (f : α → Res β) :
    ((Res.throw : Res α) >>= f) = .throw := rfl
@[simp] theorem bind_ub {α β : Type} (f : α → Res β) : ((Res.ub : Res α) >>= f) = .ub := rfl
@[simp] theorem pure_eq {α : Type} (a : α) : (pure a : Res α) = .ok a := rfl

theorem chk_bind {α : Type} {c : Prop} [Decidable c] {f : Unit → Res α} {r : α} :
    (chk c >>= f) = .ok r ↔ c ∧ f () = .ok r := by
  unfold chk; split <;> simp_all

theorem defd_bind {α : Type} {c : Prop} [Decidable c] {f : Unit → Res α} {r : α} :
    (defd c >>= f) = .ok r ↔ c ∧ f () = .ok r := by
  unfold defd; split <;> simp_all

theorem bind_eq_ok {α β : Type} {x : Res α} {f : α → Res β} {r : β} :
    (x >>= f) = .ok r ↔ ∃ a, x = .ok a ∧ f a = .ok r := by
  cases x <;> simp

end Res

/-- Conversion to `uint32_t` / `uint64_t` / `uint128_t` / `uint256_t`: reduction modulo `2^N`. -/
def u32 (n : Nat) : Nat := n % 2 ^ 32
def u64 (n : Nat) : Nat := n % 2 ^ 64
def u128 (n : Nat) : Nat := n % 2 ^ 128
def u256 (n : Nat) : Nat := n % 2 ^ 256

/-- Unsigned 64-bit subtraction (wraps). -/
def sub64 (a b : Nat) : Nat := (a + 2 ^ 64 - b % 2 ^ 64) % 2 ^ 64

theorem u32_of_lt {n : Nat} (h : n < 2 ^ 32) : u32 n = n := Nat.mod_eq_of_lt h
theorem u64_of_lt {n : Nat} (h : n < 2 ^ 64) : u64 n = n := Nat.mod_eq_of_lt h
theorem u128_of_lt {n : Nat} (h : n < 2 ^ 128) : u128 n = n := Nat.mod_eq_of_lt h
theorem u256_of_lt {n : Nat} (h : n < 2 ^ 256) : u256 n = n := Nat.mod_eq_of_lt h
theorem u32_lt (n : Nat) : u32 n < 2 ^ 32 := Nat.mod_lt _ (by decide)
theorem u64_lt (n : Nat) : u64 n < 2 ^ 64 := Nat.mod_lt _ (by decide)
theorem u128_lt (n : Nat) : u128 n < 2 ^ 128 := Nat.mod_lt _ (by decide)
theorem u256_lt (n : Nat) : u256 n < 2 ^ 256 := Nat.mod_lt _ (by decide)
theorem u64_le (n : Nat) : u64 n ≤ n := Nat.mod_le _ _

theorem sub64_of_le {a b : Nat} (ha : a < 2 ^ 64) (h : b ≤ a) : sub64 a b = a - b := by
  unfold sub64; omega

end Verif
