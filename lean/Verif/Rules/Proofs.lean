/-
  The proofs a node knows for a challenge (`Node::add_proof`, src/Node_verify.cpp:24-50, `Node::find_best_proof`,
  src/Node.cpp:1767-1777, and the start of `Node::commit`, src/Node.cpp:945-952), and how two partly signed transactions
  are put together (`Transaction::merge_sign`, src/Transaction.cpp:263-283).
-/
import Verif.Base

namespace Verif.Rules

/-- `proof_data_t` (include/mmx/Node.h): the hash of the proof and the farmer it came from. -/
structure PData where
  hash : Nat
  mac : Nat

/-- `proof_map` and `challenge_map` (include/mmx/Node.h:531-532). -/
structure Known where
  proofs : Nat → List PData
  index : List (Nat × Nat)

def Known.init : Known := { proofs := fun _ => [], index := [] }

/-- Appending and sorting, src/Node_verify.cpp:44-49: the list was sorted before, and all hashes are different, so that
    there is one result only. -/
def place (d : PData) : List PData → List PData
  | [] => [d]
  | x :: l => if d.hash < x.hash then d :: x :: l else x :: place d l

/-- The list of one challenge after a proof, src/Node_verify.cpp:28-49. -/
def addTo (d : PData) (l : List PData) : List PData :=
  if d.hash ∈ l.map (·.hash) then l else place d l

/-- `Node::add_proof`, src/Node_verify.cpp:24-50; `farmer_keys` is not modelled. -/
def addProof (challenge vdfHeight : Nat) (d : PData) (s : Known) : Known :=
  { proofs := fun c => if c = challenge then addTo d (s.proofs c) else s.proofs c
    index := if s.proofs challenge = [] then (vdfHeight, challenge) :: s.index else s.index }

/-- `Node::find_best_proof`, src/Node.cpp:1767-1777. -/
def findBest (challenge : Nat) (s : Known) : Option PData := (s.proofs challenge).head?

/-- The start of `Node::commit` of a block, src/Node.cpp:945-952. -/
def forget (vdfHeight : Nat) (s : Known) : Known :=
  { proofs := fun c => if c ∈ (s.index.filter (·.1 ≤ vdfHeight)).map (·.2) then [] else s.proofs c
    index := s.index.filter fun e => ¬ e.1 ≤ vdfHeight }

inductive KOp
  | add (challenge vdfHeight : Nat) (d : PData)
  | commit (vdfHeight : Nat)

def KOp.step (s : Known) : KOp → Known
  | .add c h d => addProof c h d s
  | .commit h => forget h s

/-! ### merging signatures -/

variable {σ : Type}

/-- `inputs[i].solution` of the inputs, and `solutions`. -/
structure STx (σ : Type) where
  inputs : List Nat
  solutions : List σ

/-- `import_map.find`. -/
def found (k : Nat) : List (Nat × Nat) → Option Nat
  | [] => none
  | (a, b) :: l => if a = k then some b else found k l

/-- The loop of `Transaction::merge_sign`, src/Transaction.cpp:266-282, over the inputs of both; `solution` is a number
    of 16 bits.  The result: the solutions of our inputs, and all solutions. -/
def mergeLoop (other : List σ) : List Nat → List Nat → List (Nat × Nat) → List σ → List Nat × List σ
  | [], _, _, sols => ([], sols)
  | a :: as, [], _, sols => (a :: as, sols)
  | a :: as, b :: bs, im, sols =>
    match other[b]? with
    | none => let r := mergeLoop other as bs im sols; (a :: r.1, r.2)
    | some s =>
      if sols.length ≤ a then
        match found b im with
        | some k => let r := mergeLoop other as bs im sols; (k :: r.1, r.2)
        | none =>
          let r := mergeLoop other as bs ((b, sols.length % 2 ^ 16) :: im) (sols ++ [s])
          (sols.length % 2 ^ 16 :: r.1, r.2)
      else let r := mergeLoop other as bs im sols; (a :: r.1, r.2)

/-- `Transaction::merge_sign`, src/Transaction.cpp:263-283. -/
def mergeSign (us other : STx σ) : STx σ :=
  let r := mergeLoop other.solutions us.inputs other.inputs [] us.solutions
  { inputs := r.1, solutions := r.2 }

end Verif.Rules
