import Verif.Node.Model
/-
  What the chain of a node should be, stated without the node's own bookkeeping.
-/
namespace Verif.Node

variable {S C : Type}

/-- `Replay R chain s`: starting from empty tables and applying the blocks of `chain` (newest first) one after
the other, each accepted by validation against the tables its predecessor left, gives the tables `s`.  This is
what a node does that never sees another fork. -/
inductive Replay (R : Rules S C) : List Block → S → Prop where
  | genesis {s : S} : R.exec R.init R.genesis none = some s → Replay R [R.genesis] s
  | block {b p : Block} {bs : List Block} {s s' : S} {c : C} :
      Replay R (p :: bs) s → b.prev = p.hash → b.height = p.height + 1 → R.static b = true →
      R.check s p b = some c → R.exec s b (some c) = some s' → Replay R (b :: p :: bs) s'

/-- The blocks of the node's chain, newest first. -/
def St.chain (st : St S C) : List Block := st.db.map (·.block)

/-- The tables of the node. -/
def St.tables (R : Rules S C) (st : St S C) : S := ledger R st.db

/-- Assumptions on the blocks a node ever sees (`U`): no two different ones have the same hash, and genesis is
at height zero with a predecessor hash that no block has. -/
structure World (R : Rules S C) (U : Block → Prop) : Prop where
  inj : ∀ a b, U a → U b → a.hash = b.hash → a = b
  gen : U R.genesis
  zero : R.genesis.height = 0
  first : ∀ b, U b → b.hash ≠ R.genesis.prev

/-- All blocks handed to the node are among `U`. -/
def Op.In (U : Block → Prop) : Op → Prop
  | .add b => U b
  | _ => True

/-- Heights are honest: a block is one above the block it names as predecessor. -/
def Honest (U : Block → Prop) : Prop := ∀ a b, U a → U b → a.prev = b.hash → a.height = b.height + 1

/-- What validates can be applied. -/
def Total (R : Rules S C) : Prop :=
  ∀ (s : S) (p b : Block) (c : C), R.check s p b = some c → ∃ s', R.exec s b (some c) = some s'

/-- No block is lost. -/
def Op.Safe : Op → Prop
  | .restart _ lost => ∀ n, lost n = false
  | _ => True

/-- A state the node can get to from an empty database by the given operations. -/
def Reached (R : Rules S C) (U : Block → Prop) (os : List Op) (st : St S C) : Prop :=
  (∀ o ∈ os, o.In U) ∧ ∃ s0, start R = some s0 ∧ run R s0 os = some st

/-- The committed part of the chain: the root and what is below it. -/
def St.committed (st : St S C) : List Block := st.chain.filter fun b => b.height ≤ st.root.height

/-- The fork with this hash is marked invalid. -/
def Marked (fs : List (Fork C)) (h : Nat) : Prop := ∃ f, findFork fs h = some f ∧ f.invalid = true

/-- No valid chain ends in this block. -/
def Dead (R : Rules S C) (U : Block → Prop) (b : Block) : Prop :=
  ∀ bs s, (∀ x ∈ bs, U x) → ¬ Replay R (b :: bs) s

/-! ### The fork to choose -/

/-- The fork and its predecessors in the tree, down to the height just above the root. -/
inductive Ancestry (st : St S C) : Fork C → List (Fork C) → Prop where
  | base {f : Fork C} : f.block.height = st.root.height + 1 → Ancestry st f [f]
  | step {f p : Fork C} {l : List (Fork C)} : f.block.height ≠ st.root.height + 1 →
      findFork st.forks f.block.prev = some p → Ancestry st p l → Ancestry st f (f :: l)

/-- A fork that may be chosen: every block from it down to the root has a verified proof and none is known to
be invalid, and the block the line starts from is known; while blocks below the root are being fetched (`wait`)
that block has to be the root. -/
structure Candidate (st : St S C) (wait : Bool) (f : Fork C) (l : List (Fork C)) (r : Block) : Prop where
  mem : f ∈ st.forks
  line : Ancestry st f l
  proved : ∀ g ∈ l, g.proved = true
  valid : ∀ g ∈ l, g.invalid = false
  start : ∃ g, l.getLast? = some g ∧ getBlock st g.block.prev = some r
  wait : wait = true → r.hash = st.root.hash

/-- Every known block just above the root is built on the root: no fork leaves the committed chain. -/
def NoDeep (st : St S C) : Prop :=
  ∀ b ∈ st.forks.map (·.block), b.height = st.root.height + 1 → b.prev = st.root.hash

/-- The state in which `update` chooses: proofs verified and votes counted. -/
def prepare (R : Rules S C) (env : Env) (st : St S C) : St S C :=
  let st1 := verifyBlocks R st env.synced env.vdf env.far
  { st1 with forks := (castVotes env.best st1.forks env.votes).1 }

/-- The votes given to the blocks of a line. -/
def votesOf (l : List (Fork C)) : Nat := (l.map (·.votes)).sum

/-- More votes; with the same votes higher; at the same height the smaller hash. -/
def Preferred (v1 : Nat) (b1 : Block) (v2 : Nat) (b2 : Block) : Prop :=
  v1 > v2 ∨ v1 = v2 ∧ (b1.height > b2.height ∨ b1.height = b2.height ∧ b1.hash < b2.hash)

/-! ### Commitment and votes -/

/-- How long a block has to wait under the peak before it is committed: shorter if the blocks above the root have
enough weight. -/
def waitTime (R : Rules S C) (root : Block) (line : List Block) (peak : Block) : Nat :=
  if (line.map (·.proofs)).sum * 100 / ((peak.vdf - root.vdf) * R.avgProofs) ≥ R.minWeight then R.delay
  else R.weakDelay

/-- The votes that reach the node. -/
def Op.votes : Op → List Vote
  | .update env => env.votes
  | _ => []

end Verif.Node
