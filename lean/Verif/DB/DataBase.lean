import Verif.DB.Crash

/-!
# Model of `mmx::DataBase` (`src/DataBase.cpp:1005-1072`)

A database is a list of tables.  `revert` and the flushes of `commit` run as thread pool tasks, one
table each; a task touches only its own table, so their order does not matter and the model handles
the tables one after the other.
-/

namespace Verif.DB

variable {K V : Type} [LinearOrder K]

/-- One table of a database with its options (`Table::options` is per table). -/
structure Slot (K V : Type) where
  opts : Options K V
  tab : Table K V

/-- `DataBase::tables`. -/
structure Db (K V : Type) where
  slots : List (Slot K V)

/-- `DataBase::version` (DataBase.cpp:1045-1052). -/
def Db.version (db : Db K V) : Nat :=
  match db.slots with
  | [] => 0
  | s :: _ => s.tab.cur

/-- `DataBase::min_version` (DataBase.cpp:1054-1065). -/
def Db.minVersion (db : Db K V) : Nat :=
  match db.slots with
  | [] => 0
  | ss => ss.foldl (fun m s => min s.tab.cur m) u32max

/-- `DataBase::revert` (DataBase.cpp:1034-1043).  The second component tells whether a task threw;
the other tasks run all the same. -/
def Db.revert (db : Db K V) (v : Nat) : Db K V × Bool :=
  ({ slots := db.slots.map fun s => { s with tab := (s.tab.revert s.opts v).tab } },
   db.slots.any fun s => (s.tab.revert s.opts v).threw)

/-- `DataBase::recover` (DataBase.cpp:1067-1072): new state, whether it threw, result. -/
def Db.recover (db : Db K V) : Db K V × Bool × Nat :=
  let v := db.minVersion
  let r := db.revert v
  (r.1, r.2, v)

/-- The body of the loop of `DataBase::commit` for one table (DataBase.cpp:1024-1030):
`commit(new_version, false)`, and a flush if `do_flush()` says so. -/
def Slot.commit (s : Slot K V) (v : Nat) : Slot K V × Bool :=
  let r := s.tab.commit s.opts v false
  if r.threw then ({ s with tab := r.tab }, true)
  else if r.tab.doFlush s.opts then
    let f := r.tab.flush s.opts
    ({ s with tab := f.tab }, f.threw)
  else ({ s with tab := r.tab }, false)

/-- Loop of `DataBase::commit` (DataBase.cpp:1021-1032).  A `commit` that throws ends the loop:
the tables after it are not committed (`Table::commit` is not run as a task). -/
def commitSlots (v : Nat) : List (Slot K V) → List (Slot K V) × Bool
  | [] => ([], false)
  | s :: ss =>
    if (s.tab.commit s.opts v false).threw then (s :: ss, true)
    else
      let r := commitSlots v ss
      ((s.commit v).1 :: r.1, (s.commit v).2 || r.2)

/-- `DataBase::commit` (DataBase.cpp:1021-1032). -/
def Db.commit (db : Db K V) (v : Nat) : Db K V × Bool :=
  let r := commitSlots v db.slots
  ({ slots := r.1 }, r.2)

end Verif.DB
