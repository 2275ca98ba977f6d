import Mathlib.Data.Nat.Basic

/-!
# Specification of a table with several values per key

A version number and the list of the inserted `(key, version, value)` that have not been undone,
oldest first.  No index numbers, no byte keys, no iterators.
-/

namespace Verif.DB

structure MSpec (A W : Type) where
  cur : Nat
  log : List (A × Nat × W)
  locks : Nat

namespace MSpec

variable {A W : Type}

def empty : MSpec A W := { cur := 0, log := [], locks := 0 }

/-- The values of a key, in the order of insertion. -/
def vals [DecidableEq A] (m : MSpec A W) (k : A) : List W :=
  (m.log.filter fun x => decide (x.1 = k)).map fun x => x.2.2

/-- Add values for a key, as many as there is room for when a key can have `cap` values. -/
def insert [DecidableEq A] (cap : Nat) (m : MSpec A W) (k : A) (xs : List W) : MSpec A W :=
  { m with log := m.log ++ (xs.take (cap - (m.vals k).length)).map fun x => (k, m.cur, x) }

/-- Forget what was inserted at or above a version. -/
def revert (m : MSpec A W) (v : Nat) : MSpec A W :=
  { m with cur := v, log := m.log.filter fun x => decide (x.2.1 < v) }

/-- Nothing inserted since the last `commit` / `revert`. -/
def clean (m : MSpec A W) : Prop := ∀ x ∈ m.log, x.2.1 < m.cur

end MSpec

end Verif.DB
