/-
  Which contracts a contract depends on (`Node::get_all_depends`, src/Node.cpp:1728-1765).
-/
import Verif.Base

namespace Verif.Rules

/-- `max_rcall_depth` and `max_rcall_width`, interface/ChainParams.vni:57-58. -/
structure Lim where
  depth : Nat
  width : Nat

/-- The table `contract_depends` (include/mmx/Node.h:503); contracts without dependencies are not in it
    (src/Node.cpp:1203-1211). -/
abbrev Deps := Nat → Option (List Nat)

/-- Insertion of a range into a `std::set`; the order of the set is not modelled. -/
def union (s : List Nat) : List Nat → List Nat
  | [] => s
  | a :: l => union (if a ∈ s then s else s ++ [a]) l

/-- The outcome of a call: how many calls were made in all, and the result or `none` for an exception. -/
structure Done where
  calls : Nat
  result : Option (List Nat)
  deriving DecidableEq

/-- The loop over the dependencies, src/Node.cpp:1737-1740 and 1752-1755; an exception ends it.  `none`: a call does
    not return. -/
def each (f : Nat → Option Done) : List Nat → List Nat → Option Done
  | [], out => some ⟨0, some out⟩
  | a :: l, out =>
    match f a with
    | none => none
    | some ⟨n, none⟩ => some ⟨n, none⟩
    | some ⟨n, some t⟩ =>
      match each f l (union out t) with
      | none => none
      | some r => some ⟨n + r.calls, r.result⟩

/-- The checks at the end, src/Node.cpp:1758-1763. -/
def limits (L : Lim) (depth : Nat) (out : List Nat) : Option (List Nat) :=
  if out ≠ [] ∧ L.depth < depth then none
  else if L.width < out.length then none
  else some out

/-- What follows the loop, src/Node.cpp:1756-1764. -/
def close (L : Lim) (depth : Nat) (l : List Nat) (r : Done) : Done :=
  ⟨r.calls + 1, match r.result with
    | none => none
    | some out => limits L depth (union out l)⟩

/-- `get_all_depends(address, depth)`, src/Node.cpp:1747-1765; `none`: recursion deeper than the first argument. -/
def allDeps (g : Deps) (L : Lim) : Nat → Nat → Nat → Option Done
  | 0, _, _ => none
  | fuel + 1, a, depth =>
    match g a with
    | none => some ⟨1, some []⟩
    | some l =>
      match each (fun b => allDeps g L fuel b (depth + 1)) l [] with
      | none => none
      | some r => some (close L depth l r)

/-- `get_all_depends(exec)`, src/Node.cpp:1728-1745; `depends` are the addresses the contract to be deployed names. -/
def execDeps (g : Deps) (L : Lim) (fuel : Nat) (depends : List Nat) : Option Done :=
  let s := union [] depends
  if L.width < s.length then some ⟨1, none⟩
  else
    match each (fun b => allDeps g L fuel b 2) s s with
    | none => none
    | some r => some ⟨r.calls + 1, match r.result with
        | none => none
        | some out => if L.width < out.length then none else some out⟩

/-- The entry a deployed contract gets, src/Node.cpp:1203-1211. -/
def record (g : Deps) (a : Nat) (depends : List Nat) : Deps := fun b =>
  if b = a then (if union [] depends = [] then none else some (union [] depends)) else g b

/-- One deployment after the other: each is checked against the table (src/Node_validate.cpp:84-95) and recorded.  That
    the contracts it names exist is checked nowhere.  `none` if one is refused. -/
def deployAll (L : Lim) (fuel : Nat) : Deps → List (Nat × List Nat) → Option Deps
  | g, [] => some g
  | g, (a, ds) :: l =>
    match execDeps g L fuel ds with
    | some ⟨_, some _⟩ => deployAll L fuel (record g a ds) l
    | _ => none

/-! ### specification -/

/-- `b` is called by `a`, or by what `a` calls, and so on. -/
inductive Reach (g : Deps) : Nat → Nat → Prop
  | one {a b l} : g a = some l → b ∈ l → Reach g a b
  | step {a b c l} : g a = some l → b ∈ l → Reach g b c → Reach g a c

/-- There is a chain of `n` calls that begins with `a`. -/
inductive Chain (g : Deps) : Nat → Nat → Prop
  | nil (a) : Chain g 0 a
  | cons {n a b l} : g a = some l → b ∈ l → Chain g n b → Chain g (n + 1) a

end Verif.Rules
