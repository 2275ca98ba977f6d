/-
  What the properties of the Router say, in terms of its log of outputs only (the newest first).
-/
import Verif.Router.Gossip

namespace Verif.Router

/-- The messages a peer is known to have: those it sent us, those it sent a receive note for and
    those we sent it, since its connection was set up. -/
def contacts (c : Client) : List Event → List Hash
  | [] => []
  | .conn c' :: l => if c' = c then [] else contacts c l
  | .recv c' h :: l => if c' = c then h :: contacts c l else contacts c l
  | .noted c' h :: l => if c' = c then h :: contacts c l else contacts c l
  | .sent c' h :: l => if c' = c then h :: contacts c l else contacts c l
  | _ :: l => contacts c l

/-- The messages the Router got from peers or from its node. -/
def met : List Event → List Hash
  | [] => []
  | .recv _ h :: l => h :: met l
  | .handled h :: l => h :: met l
  | _ :: l => met l

/-- More than `n` different messages are in the list. -/
def Many (n : Nat) (l : List Hash) : Prop :=
  ∃ d : List Hash, d.Nodup ∧ n < d.length ∧ ∀ h ∈ d, h ∈ l

/-- Blocks of a farmer at a VDF height that were put up for sending before they were verified. -/
def earlyBlocks (v : Nat) (k : Key) : List Event → Nat
  | [] => 0
  | .early m :: l =>
    (if m.kind = .block ∧ m.vdfHeight = v ∧ m.key = k then 1 else 0) + earlyBlocks v k l
  | _ :: l => earlyBlocks v k l

/-- Verified proofs of a farmer at a VDF height. -/
def goodProofs (v : Nat) (k : Key) : List Event → Nat
  | [] => 0
  | .earned m :: l =>
    (if m.kind = .proof ∧ m.vdfHeight = v ∧ m.key = k then 1 else 0) + goodProofs v k l
  | _ :: l => goodProofs v k l

/-- VDFs of a timelord that were put up for sending before they were verified. -/
def earlyVdfs (k : Key) : List Event → Nat
  | [] => 0
  | .early m :: l => (if m.kind = .vdf ∧ m.key = k then 1 else 0) + earlyVdfs k l
  | _ :: l => earlyVdfs k l

/-- Verified VDFs of a timelord. -/
def goodVdfs (k : Key) : List Event → Nat
  | [] => 0
  | .earned m :: l => (if m.kind = .vdf ∧ m.key = k then 1 else 0) + goodVdfs k l
  | _ :: l => goodVdfs k l

end Verif.Router
