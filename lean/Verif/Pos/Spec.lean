import Verif.Pos.Tables
/-
  What a proof of space is, stated without the tables.
-/
namespace Verif.Pos

variable {α β : Type}

/-- `xs` are the leaves, from left to right, of a complete binary tree of depth `d` in which `Y` of
    every right child is one more than `Y` of its sibling. `y` and `m` are those of the root. -/
inductive Tree (fn : Fns α β) : Nat → List Nat → Nat → α → Prop
  | leaf (x : Nat) : Tree fn 0 [x] (fn.f1 x).1 (fn.f1 x).2
  | node {d : Nat} {l r : List Nat} {yl : Nat} {ml mr : α} :
      Tree fn d l yl ml → Tree fn d r (yl + 1) mr →
      Tree fn (d + 1) (l ++ r) (fn.f ml mr).1 (fn.f ml mr).2

/-- A tree whose leaves are among the given values. -/
def Over (fn : Fns α β) (d : Nat) (X xs : List Nat) (y : Nat) (m : α) : Prop :=
  Tree fn d xs y m ∧ ∀ x ∈ xs, x ∈ X

/-- `Y` is a function of the meta data, below `2^32`. -/
structure Good (fn : Fns α β) : Prop where
  f1_lt : ∀ x, (fn.f1 x).1 < 2 ^ 32
  f_lt : ∀ a b, (fn.f a b).1 < 2 ^ 32
  y_eq : ∃ g : α → Nat, (∀ x, (fn.f1 x).1 = g (fn.f1 x).2) ∧ ∀ a b, (fn.f a b).1 = g (fn.f a b).2

/-- No two different trees of depth 8 over the values have the same meta data. A pair that violates
    it is a collision of SHA-512 cut to 14 times `ksize` bits. -/
def NoCollision (fn : Fns α β) (X : List Nat) : Prop :=
  ∀ (xs xs' : List Nat) (y y' : Nat) (m : α), Over fn 8 X xs y m → Over fn 8 X xs' y' m → xs = xs'

end Verif.Pos
