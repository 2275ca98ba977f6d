import Verif.Base
/-
  Who may spend: the single-key and multi-signature contracts.
  src/contract/PubKey.cpp, src/contract/MultiSig.cpp.
-/
namespace Verif.Contract

/-- Addresses, public keys, signatures and transaction ids are opaque; `addrOf` is
    `pubkey_t::get_addr` and `verify` is `signature_t::verify`, neither of which is modelled. -/
structure SigEnv (A PK Sg Id : Type) where
  addrOf : PK → A
  verify : PK → Sg → Id → Bool

/-- `solution::PubKey`, `solution::MultiSig` (a map, in key order) or any other type. Entries may be
    null. -/
inductive Sol (A PK Sg : Type) where
  | pubKey (pubkey : PK) (signature : Sg)
  | multiSig (solutions : List (A × Option (Sol A PK Sg))) (numRequired : Nat)
  | other

variable {A PK Sg Id : Type} [DecidableEq A]

/-- `contract::PubKey::validate`, src/contract/PubKey.cpp:47-65. -/
def pubKeyValidate (E : SigEnv A PK Sg Id) (address : A) (s : Option (Sol A PK Sg)) (txid : Id) :
    Res Unit :=
  match s with
  | some (.pubKey pk sg) => do
    Res.chk (E.addrOf pk = address)
    Res.chk (E.verify pk sg txid = true)
  | _ => .throw

/-- The loop of `contract::MultiSig::validate`, src/contract/MultiSig.cpp:69-92,
    returning `count`. -/
def multiLoop (E : SigEnv A PK Sg Id) (owners : List A) (txid : Id) (txVersion : Nat) :
    List (A × Option (Sol A PK Sg)) → Nat → Res Nat
  | [], count => .ok count
  | (owner, s) :: rest, count =>
    if txVersion ≥ 1 ∧ owner ∉ owners then .throw
    else if owner ∈ owners then
      match s with
      | some (.pubKey pk sg) =>
        if E.addrOf pk ≠ owner then .throw
        else if E.verify pk sg txid = false then .throw
        else multiLoop E owners txid txVersion rest (count + 1)
      | _ =>
        if txVersion ≥ 1 then .throw else multiLoop E owners txid txVersion rest count
    else multiLoop E owners txid txVersion rest count

/-- `contract::MultiSig::validate`, src/contract/MultiSig.cpp:44-103. `owners` is a set. -/
def multiSigValidate (E : SigEnv A PK Sg Id) (numRequired : Nat) (owners : List A)
    (s : Option (Sol A PK Sg)) (txid : Id) (txVersion : Nat) : Res Unit :=
  match s with
  | some (.pubKey pk sg) =>
    if numRequired ≠ 1 then .throw
    else if E.addrOf pk ∈ owners then
      if E.verify pk sg txid = false then .throw else .ok ()
    else .throw
  | some (.multiSig sols req) =>
    if txVersion ≥ 1 ∧ req ≠ numRequired then .throw
    else
      match multiLoop E owners txid txVersion sols 0 with
      | .ok count => if count < numRequired then .throw else .ok ()
      | .throw => .throw
      | .ub => .ub
  | _ => .throw

/-- `contract::MultiSig::is_valid`, src/contract/MultiSig.cpp:19-22 (the base check aside). -/
def multiSigIsValid (numRequired : Nat) (owners : List A) : Bool :=
  decide (numRequired > 0) && decide (owners.length ≥ numRequired)

end Verif.Contract
