import Verif.DB.Model

/-!
# Specification of a versioned table

A table is a version number and the chronological list of the writes that have not been undone.
There is no memory block, no index, no block file and no compaction in this specification.
-/

namespace Verif.DB

variable {K V : Type} [LinearOrder K]

/-- Abstract table. -/
structure Spec (K V : Type) where
  cur : Nat
  writes : List (Entry K V)   -- oldest first
  locks : Nat                 -- live iterators

namespace Spec

def empty : Spec K V := { cur := 0, writes := [], locks := 0 }

/-- The most recent surviving write of `key` at a version of at most `maxV`. -/
def find (s : Spec K V) (key : K) (maxV : Nat) : Option V :=
  ((s.writes.filter fun w => decide (w.key = key ∧ w.ver ≤ maxV)).getLast?).map (·.val)

/-- Is the call accepted? -/
def accepts (s : Spec K V) : Op K V → Prop
  | .insert _ _ => s.locks = 0
  | .commit v _ => s.cur < v ∧ v < u32max
  | .flush => s.locks = 0
  | .revert v => s.locks = 0 ∧ v ≤ s.cur
  | .iterOpen => True
  | .iterClose => True

instance (s : Spec K V) (op : Op K V) : Decidable (s.accepts op) := by
  cases op <;> unfold accepts <;> infer_instance

/-- Effect of an accepted call: `insert` adds a write at the current version, `revert` forgets the
writes at or above the given version, `commit` moves the version, `flush` does nothing. -/
def effect (s : Spec K V) : Op K V → Spec K V
  | .insert k v => { s with writes := s.writes ++ [{ key := k, ver := s.cur, val := v }] }
  | .commit v _ => { s with cur := v }
  | .flush => s
  | .revert v => { s with cur := v, writes := s.writes.filter fun w => decide (w.ver < v) }
  | .iterOpen => { s with locks := s.locks + 1 }
  | .iterClose => { s with locks := s.locks - 1 }

def apply (s : Spec K V) (op : Op K V) : Spec K V := if s.accepts op then s.effect op else s

def run (s : Spec K V) (h : List (Op K V)) : Spec K V := h.foldl apply s

/-- No write since the last `commit` / `revert`. -/
def clean (s : Spec K V) : Prop := ∀ w ∈ s.writes, w.ver < s.cur

/-- Calling discipline: `flush` is called only when nothing is uncommitted.  In the node, `flush`
is only called by `commit` itself (DataBase.cpp:408), by `DataBase::commit` right after
`Table::commit` (DataBase.cpp:1025-1027). `undisciplined_flush_loses_data` shows that the
discipline is needed. -/
def Disciplined (s : Spec K V) : List (Op K V) → Prop
  | [] => True
  | op :: h => (op = .flush → s.clean) ∧ Disciplined (s.apply op) h

end Spec

end Verif.DB
