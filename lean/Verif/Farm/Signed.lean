/-
  What the key of a farmer signs: src/Farmer.cpp:249-380, src/ProofResponse.cpp, src/ValidatorVote.cpp.
-/
import Verif.Codec.BlockHash
import Verif.Farm.Partial

namespace Verif.Farm

open Verif.Codec

/-- `VNX_TYPE_HASH`, generated/src/ProofResponse.cpp:18. -/
def TH_RESPONSE : Nat := 0x816e898b36befae0

/-- Hash input of `ProofResponse::calc_hash`, ProofResponse.cpp:23-37; with a proof, as `is_valid` has asked for one, line 16. -/
def encResponse (H : Bytes → Bytes) (vdfHeight : Nat) (p : Space) : Bytes :=
  encU TH_RESPONSE ++ (fld b!"vdf_height" ++ (encU vdfHeight ++ (fld b!"proof" ++ encBytes (H (encSpace p)))))

/-- Input of the hash that `sign_vote` signs and `ValidatorVote::is_valid` checks, Farmer.cpp:378, ValidatorVote.cpp:16. -/
def encVote (hash key : Bytes) : Bytes := b!"MMX/validator/vote/" ++ (hash ++ key)

/-- What the key of a farmer is used for. `sign_block` takes blocks and bare headers alike. -/
inductive Signed where
  | block (h : Head)
  | header (h : Head)
  | response (vdfHeight : Nat) (p : Space)
  | pool (t : TPart)
  | vote (hash key : Bytes)

/-- The bytes whose hash is signed: `sign_block` Farmer.cpp:366-367, `handle(ProofResponse)` 251-257 (`is_valid` has compared the
    hash, ProofResponse.cpp:19), `handle(Partial)` 276-279, `sign_vote` 378-379. -/
def Signed.bytes (H : Bytes → Bytes) (hardfork2 : Nat) : Signed → Bytes
  | .block h => encHead H hardfork2 TH_BLOCK h
  | .header h => encHead H hardfork2 TH_HEADER h
  | .response n p => encResponse H n p
  | .pool t => partText t
  | .vote hash key => encVote hash key

end Verif.Farm
