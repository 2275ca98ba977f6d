import Verif.Pos.Tables
/-
  Model of src/ProofServer.cpp and of the part of `compute` (src/pos/verify.cpp) that asks a proof server.
-/
namespace Verif.Pos

variable {α β : Type}

/-- What `compute` returns and what it leaves in `X_out`. -/
structure Computed (β : Type) where
  entries : List (Nat × β)
  xOut : List Nat
  deriving DecidableEq, Repr

/-- `table_entry_t`, interface/table_entry_t.vni. -/
structure Row (β : Type) where
  y : Nat
  mt : β
  xs : List Nat
  deriving DecidableEq, Repr

/-- `compute` without a proof server and with `X_out` given, verify.cpp:92-100 and 134-200. `order` is the
    order of table 1, as in `computeFull`. -/
def localCompute [DecidableEq α] (fn : Fns α β) (sort : List α → List Entry → List Entry)
    (ksize xbits : Int) (order : List Nat) : Res (Computed β) := do
  Res.chk (¬ (ksize < 8 ∨ ksize > 32))
  Res.chk (¬ (xbits < 0 ∨ xbits > ksize))
  let outs ← computeFull fn sort order
  .ok { entries := outs.map fun o => (o.y, fn.cut o.mt), xOut := outs.flatMap fun o => o.xs }

/-- ProofServer.cpp:63-65: `n` values from position `i`. -/
def slice (X : List Nat) (i : Nat) : Nat → Res (List Nat)
  | 0 => .ok []
  | n + 1 => match X[i]? with
    | none => .ub
    | some x => do
      let r ← slice X (i + 1) n
      .ok (x :: r)

/-- ProofServer.cpp:59-67, from entry `i`. -/
def rows (X : List Nat) (count : Nat) (i : Nat) : List (Nat × β) → Res (List (Row β))
  | [] => .ok []
  | e :: rest => do
    let xs ← slice X (i * count) count
    let r ← rows X count (i + 1) rest
    .ok ({ y := e.1, mt := e.2, xs := xs } :: r)

/-- `ProofServer::compute_async`, ProofServer.cpp:51-73; an exception goes to the client. -/
def serve [DecidableEq α] (fn : Fns α β) (sort : List α → List Entry → List Entry)
    (ksize xbits : Int) (order : List Nat) : Res (List (Row β)) := do
  let c ← localCompute fn sort ksize xbits order
  if c.entries.length = 0 then .ok []
  else rows c.xOut (c.xOut.length / c.entries.length) 0 c.entries

/-- `compute` with a proof server, verify.cpp:95-100 and 110-132. -/
def remoteCompute [DecidableEq α] (fn : Fns α β) (sort : List α → List Entry → List Entry)
    (ksize xbits : Int) (order : List Nat) : Res (Computed β) := do
  Res.chk (¬ (ksize < 8 ∨ ksize > 32))
  Res.chk (¬ (xbits < 0 ∨ xbits > ksize))
  let res ← serve fn sort ksize xbits order
  .ok { entries := res.map fun e => (e.y, e.mt), xOut := res.flatMap fun e => e.xs }

end Verif.Pos
