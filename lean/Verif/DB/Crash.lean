import Verif.DB.Spec

/-!
# Crashes: executions of a table with its directory, and what may be lost

An execution is a sequence of calls.  The process may die at any file operation of a call, or at
any file operation of the constructor that runs after such a crash, any number of times.
-/

namespace Verif.DB

variable {K V : Type} [LinearOrder K]

/-- Has the command record of a `commit` or `revert` reached the file?  `p` file operations of the
call were done and `n` of the buffered records survive; `b` records were buffered before. -/
def durable (p n b : Nat) : Bool := decide (2 ≤ p ∨ (1 ≤ p ∧ b < n))

/-- The specification after a restart that reports version `c`: the writes of committed versions are
all kept, those of the version in progress are all gone, no iterator is alive. -/
def Spec.crashed (s : Spec K V) (c : Nat) : Spec K V :=
  { cur := c, writes := s.writes.filter (fun w => decide (w.ver < s.cur)), locks := 0 }

/-- No `NNNNNN.dat` covers the version ranges of two others.  `Table::rewrite` deletes its inputs one
by one (DataBase.cpp:691-694); in between, the merged file and several inputs exist together.  The
constructor handles one leftover input but not two (`C06_two_leftovers_lose_data`). -/
def NoDouble (files : List (Block K V)) : Prop :=
  ∀ m ∈ files, ∀ a ∈ files, ∀ b ∈ files, a.id ≠ m.id → b.id ≠ m.id →
    m.minV ≤ a.minV → a.maxV ≤ m.maxV → m.minV ≤ b.minV → b.maxV ≤ m.maxV → a.id = b.id

/-- Directories that can be found after a crash that left `d`, when the constructor is started and
dies as well, any number of times. -/
inductive Down (o : Options K V) : Disk K V → Disk K V → Prop
  | here (d : Disk K V) : Down o d d
  | again {d d' : Disk K V} {t : Table K V} {ops : List (FsOp K V)} (k n : Nat) :
      Down o d d' → openTable o d' = some (t, ops) →
      (k < ops.length → NoDouble (d'.run (ops.take k)).files) →
      Down o d ((d'.run (ops.take k)).crash n)

/-- The directory left by a crash during call `op`: `p` of its file operations were done and `n` of
the records buffered in the log stream survive. -/
def crashIn (o : Options K V) (t : Table K V) (d : Disk K V) (op : Op K V) (p n : Nat) : Disk K V :=
  (d.run ((t.apply o op).ops.take p)).crash n

/-- The specification a crash falls back to: the state after `op` if its command record reached the
file, the state before `op` otherwise. -/
def Spec.survivor (s : Spec K V) (op : Op K V) (p n b : Nat) : Spec K V :=
  if durable p n b then s.apply op else s

/-- Executions with crashes: table, directory, specification. -/
inductive Reach (o : Options K V) : Table K V → Disk K V → Spec K V → Prop
  | init : Reach o Table.empty { files := [], tmps := [], log := [], buf := [] } Spec.empty
  | call {t : Table K V} {d : Disk K V} {s : Spec K V} (op : Op K V) :
      Reach o t d s → (op = .flush → s.clean) →
      Reach o (t.apply o op).tab (d.run (t.apply o op).ops) (s.apply op)
  | crash {t t' : Table K V} {d d' : Disk K V} {s : Spec K V} {ops : List (FsOp K V)}
      (op : Op K V) (p n : Nat) :
      Reach o t d s → (op = .flush → s.clean) →
      (p < (t.apply o op).ops.length → NoDouble (d.run ((t.apply o op).ops.take p)).files) →
      Down o (crashIn o t d op p n) d' →
      openTable o d' = some (t', ops) →
      Reach o t' (d'.run ops) ((s.survivor op p n d.buf.length).crashed t'.cur)

/-- Executions whose crashes happen between calls and whose restarts complete. -/
inductive ReachB (o : Options K V) : Table K V → Disk K V → Spec K V → Prop
  | init : ReachB o Table.empty { files := [], tmps := [], log := [], buf := [] } Spec.empty
  | call {t : Table K V} {d : Disk K V} {s : Spec K V} (op : Op K V) :
      ReachB o t d s → (op = .flush → s.clean) →
      ReachB o (t.apply o op).tab (d.run (t.apply o op).ops) (s.apply op)
  | crash {t t' : Table K V} {d : Disk K V} {s : Spec K V} {ops : List (FsOp K V)} (n : Nat) :
      ReachB o t d s → openTable o (d.crash n) = some (t', ops) →
      ReachB o t' ((d.crash n).run ops) (s.crashed t'.cur)

end Verif.DB
