/-
  Partials: proofs sent to a pool (src/Partial.cpp, src/Farmer.cpp:265-335, src/Node_api.cpp:1534-1589).
-/
import Verif.Farm.Harvest
import Verif.Codec.HashBytes

namespace Verif.Farm

open Verif.Pos Verif.Codec

/-- `std::to_string` of a number below `10 ^ (fuel + 1)`. -/
def decB : Nat → Nat → List Nat
  | 0, n => [48 + n % 10]
  | fuel + 1, n => if n < 10 then [48 + n] else decB fuel (n / 10) ++ [48 + n % 10]

/-- `std::to_string` of an unsigned number of at most 64 bits. -/
def dec (n : Nat) : List Nat := decB 19 n

/-- The fields of a proof in the text.  Hashes, keys and addresses are given by the strings that `to_string` makes of
    them. -/
structure TProof where
  score : Nat
  plotId : List Nat
  challenge : List Nat
  difficulty : Nat
  farmerKey : List Nat
  ksize : Nat
  seed : List Nat
  xs : List Nat
  contract : Option (List Nat)

/-- `Partial` (interface/Partial.vni) without hash and signature. -/
structure TPart where
  vdfHeight : Nat
  contract : List Nat
  account : List Nat
  poolUrl : List Nat
  harvester : List Nat
  lookupTime : Nat
  proof : TProof

/-- `proof_xs`, Partial.cpp:40-42. -/
def xsText : List Nat → List Nat
  | [] => []
  | x :: l => dec x ++ b!"," ++ xsText l

/-- The fields of a proof for a plot NFT only, Partial.cpp:35-44. -/
def nftText (p : TProof) : List Nat :=
  match p.contract with
  | none => []
  | some c => b!"ksize:" ++ dec p.ksize ++ b!"seed:" ++ p.seed ++ b!"proof_xs:" ++ xsText p.xs ++ b!"contract:" ++ c

/-- `get_type_name()` of the proof, Partial.cpp:28. -/
def typeName (p : TProof) : List Nat :=
  match p.contract with
  | none => b!"mmx.ProofOfSpaceOG"
  | some _ => b!"mmx.ProofOfSpaceNFT"

/-- The fields of any proof, Partial.cpp:27-34. -/
def proofText (p : TProof) : List Nat :=
  typeName p ++ b!"/" ++ b!"score:" ++ dec p.score ++ b!"plot_id:" ++ p.plotId ++ b!"challenge:" ++ p.challenge ++
    b!"difficulty:" ++ dec p.difficulty ++ b!"farmer_key:" ++ p.farmerKey

/-- The text that is hashed: `Partial::calc_hash`, Partial.cpp:16-46; with a proof (the farmer sends no partial without
    one, Farmer.cpp:267-269). -/
def partText (t : TPart) : List Nat :=
  b!"mmx.Partial" ++ b!"/" ++ b!"vdf_height:" ++ dec t.vdfHeight ++ b!"contract:" ++ t.contract ++ b!"account:" ++
    t.account ++ b!"pool_url:" ++ t.poolUrl ++ b!"harvester:" ++ t.harvester ++ b!"lookup_time_ms:" ++
    dec t.lookupTime ++ b!"proof:" ++ proofText t.proof ++ nftText t.proof

/-! ### checking a partial -/

/-- `pooling_error_e` (interface/pooling_error_e.vni) as far as a node answers with it. -/
inductive PoolErr
  | none
  | invalidProof
  | invalidSignature
  | notConfirmed
  | notFound
  | reverted
  | invalidContract
  deriving DecidableEq

variable {η σ κ : Type}

/-- A partial as a node gets it; `text` is what `calc_hash` gives for it. -/
structure Part (η σ : Type) where
  vdfHeight : Nat
  contract : η
  account : η
  hash : η
  text : η
  proof : Option (Proof η)
  sig : Option σ

/-- What a node knows: whether it is in sync, `get_vdf_height`, `find_challenge`, and `verify_plot_nft_target` being
    without error (Node_api.cpp:1514-1532). -/
structure PoolView (η : Type) where
  synced : Bool
  vdfHeight : Nat
  find : Nat → Option (η × Nat)
  target : η → η → Bool

/-- The check of the contract, Node_api.cpp:1574-1588. -/
def checkTarget [DecidableEq η] (v : PoolView η) (t : Part η σ) (pr : Proof η) (target : Option η) : PoolErr :=
  match target with
  | none => .none
  | some a =>
    match pr.contract with
    | none => .invalidContract
    | some c =>
      if ¬ t.contract = c then .invalidContract
      else if v.target c a = false then .invalidContract
      else .none

/-- From the challenge on, Node_api.cpp:1559-1588; `verify_proof` gets the difficulty of the proof. -/
def checkProof [DecidableEq η] (sort : List (List Nat) → List Entry → List Entry) (hs : Hashes η) (p : Params)
    (order : List Nat) (v : PoolView η) (t : Part η σ) (pr : Proof η) (target : Option η) : Res PoolErr :=
  match v.find t.vdfHeight with
  | none => .ok .notFound
  | some (ch, _) =>
    if ¬ pr.challenge = ch then .ok .reverted
    else
      match verifyProof sort hs p pr order ch pr.difficulty t.vdfHeight with
      | .ok _ => .ok (checkTarget v t pr target)
      | .throw => .ok .invalidProof
      | .ub => .ub

/-- `Node::verify_partial`, Node_api.cpp:1534-1589. -/
def verifyPartial [DecidableEq η] (sort : List (List Nat) → List Entry → List Entry) (hs : Hashes η) (p : Params)
    (cr : Crypto η σ κ) (order : List Nat) (v : PoolView η) (t : Part η σ) (target : Option η) : Res PoolErr :=
  if v.synced = false then .throw
  else
    match t.proof with
    | none => .ok .invalidProof
    | some pr =>
      if ¬ t.hash = t.text then .ok .invalidSignature
      else
        match t.sig with
        | none => .ok .invalidSignature
        | some s =>
          if cr.verify pr.farmerKey t.hash s = false then .ok .invalidSignature
          else if v.vdfHeight < t.vdfHeight then .ok .notConfirmed
          else checkProof sort hs p order v t pr target

end Verif.Farm
