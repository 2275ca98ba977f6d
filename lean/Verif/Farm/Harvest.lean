/-
  What a harvester answers to a challenge (src/Harvester.cpp:154-330) from one plot, and how the farmer signs it
  and a node takes it.
-/
import Verif.Farm.Prover
import Verif.Pos.Tables

namespace Verif.Farm

open Verif.Pos

variable {η : Type}

/-- A plot file: the header (interface/PlotHeader.vni), the table of Y values, the meta data stored for an entry
    (Prover.cpp:139-152) and the inputs of table 1 that follow from the values stored for it, in the order in which
    table 1 is filled (Prover.cpp:171-229; the pointers and line points are the subject of C36 to C38).  Reading may
    throw. -/
structure Plot (η : Type) where
  ksize : Nat
  hasMeta : Bool
  seed : η
  plotId : η
  farmerKey : η
  contract : Option η
  table : YTable
  metas : Nat → Res (List Nat)
  inputs : Nat → Res (List Nat)

/-- The functions of a plot. -/
def Plot.fns (hs : Hashes η) (pl : Plot η) : Fns (List Nat) (List Nat) := hashFns (hs.g1 pl.plotId) hs.h pl.ksize

/-- `Prover::get_full_proof`, Prover.cpp:165-250: the values and the meta data cut. -/
def Plot.full (hs : Hashes η) (sort : List (List Nat) → List Entry → List Entry) (pl : Plot η) (i : Nat) :
    Res (List Nat × List Nat) := do
  let order ← pl.inputs i
  fullProof (pl.fns hs) sort order

/-- `proof_data_t`, include/mmx/pos/Prover.h:19-26. -/
structure Quality where
  valid : Bool
  index : Nat
  proof : List Nat
  mt : List Nat

/-- One entry of the result of `get_qualities`, Prover.cpp:137-160. -/
def Plot.quality (hs : Hashes η) (sort : List (List Nat) → List Entry → List Entry) (pl : Plot η) (i : Nat) :
    Res Quality :=
  if pl.hasMeta then
    match pl.metas i with
    | .ok m => .ok { valid := true, index := i, proof := [], mt := m }
    | .throw => .throw
    | .ub => .ub
  else
    match pl.full hs sort i with
    | .ok r => .ok { valid := true, index := i, proof := r.1, mt := r.2 }
    | .throw => .ok { valid := false, index := 0, proof := [], mt := [] }
    | .ub => .ub

/-- The loop over the entries found, Prover.cpp:135-161. -/
def Plot.qualityAll (hs : Hashes η) (sort : List (List Nat) → List Entry → List Entry) (pl : Plot η) :
    List Nat → Res (List Quality)
  | [] => .ok []
  | i :: l => do
    let q ← pl.quality hs sort i
    let r ← pl.qualityAll hs sort l
    .ok (q :: r)

/-- `Prover::get_qualities`, Prover.cpp:29-163. -/
def Plot.qualities (hs : Hashes η) (sort : List (List Nat) → List Entry → List Entry) (pl : Plot η) (challenge : η)
    (plotFilter : Nat) : Res (List Quality) := do
  let l ← pl.table.entries (hs.word0 challenge &&& kmask pl.ksize) plotFilter
  pl.qualityAll hs sort l

/-- The fields of `Challenge` that are used. -/
structure Challenge (η : Type) where
  vdfHeight : Nat
  challenge : η
  difficulty : Nat

/-- What a harvester publishes: a partial for a pool, or a proof for a block. -/
inductive Answer (η : Type)
  | part (pr : Proof η)
  | solo (pr : Proof η)

/-- The proof published, Harvester.cpp:260-269 and 284-304.  `Partial` carries further fields, which are not modelled here. -/
def Plot.proof (pl : Plot η) (c : Challenge η) (difficulty score : Nat) (xs : List Nat) : Proof η :=
  { score := score, plotId := pl.plotId, challenge := c.challenge, difficulty := difficulty, farmerKey := pl.farmerKey
    ksize := pl.ksize, seed := pl.seed, contract := pl.contract, xs := xs }

/-- Whether a proof is good enough for the pool, Harvester.cpp:246-247. -/
def partOk (p : Params) (ksize quality : Nat) (pool : Option Nat) (hardFork : Bool) : Res Bool :=
  match pool with
  | none => .ok false
  | some d => thresholdOk p ksize quality d hardFork

/-- The values of the proof as far as they are known before its quality, Harvester.cpp:231-236. -/
def Plot.early (hs : Hashes η) (sort : List (List Nat) → List Entry → List Entry) (pl : Plot η) (hardFork : Bool)
    (q : Quality) : Res (List Nat) :=
  if q.proof ≠ [] then .ok q.proof
  else if hardFork then do
    let r ← pl.full hs sort q.index
    .ok r.1
  else .ok []

/-- The values of the proof, Harvester.cpp:252-254. -/
def Plot.late (hs : Hashes η) (sort : List (List Nat) → List Entry → List Entry) (pl : Plot η) (q : Quality)
    (xs : List Nat) : Res (List Nat) :=
  if xs = [] then do
    let r ← pl.full hs sort q.index
    .ok r.1
  else .ok xs

/-- The partial, Harvester.cpp:259-281. -/
def Plot.partials (pl : Plot η) (c : Challenge η) (pool : Option Nat) (part : Bool) (score : Nat) (xs : List Nat) :
    List (Answer η) :=
  match pool with
  | some d => if part then [.part (pl.proof c d score xs)] else []
  | none => []

/-- What is published for one quality, Harvester.cpp:222-307.  `pool` is the difficulty of the pool of the contract of
    the plot, if there is one (Harvester.cpp:211-217; a difficulty above zero only, 183). -/
def Plot.judge (hs : Hashes η) (sort : List (List Nat) → List Entry → List Entry) (p : Params) (pl : Plot η)
    (c : Challenge η) (pool : Option Nat) (q : Quality) : Res (List (Answer η)) :=
  let pc := hs.plotChallenge c.challenge pl.plotId
  let hardFork : Bool := p.hardfork1 ≤ c.vdfHeight
  if q.valid = false then .ok []
  else if hardFork = true ∧ ¬ (hs.postHash pc q.mt >>> (256 - p.postFilter) == 0) = true then .ok []
  else do
    let xs1 ← pl.early hs sort hardFork q
    let quality := if hardFork then hs.proofHash pc xs1 else hs.quality pc q.mt
    let solo ← thresholdOk p pl.ksize quality c.difficulty hardFork
    let part ← partOk p pl.ksize quality pool hardFork
    if solo = true ∨ part = true then do
      let xs ← pl.late hs sort q xs1
      let score := scoreOf (hs.proofHash c.challenge xs)
      .ok (pl.partials c pool part score xs ++ if solo then [.solo (pl.proof c c.difficulty score xs)] else [])
    else .ok []

/-- An exception is caught: nothing is published, Harvester.cpp:308-311. -/
def caught (r : Res (List (Answer η))) : Res (List (Answer η)) :=
  match r with
  | .ok a => .ok a
  | .throw => .ok []
  | .ub => .ub

/-- All qualities; an exception concerns one of them only (Harvester.cpp:222, 308-311). -/
def Plot.judgeAll (hs : Hashes η) (sort : List (List Nat) → List Entry → List Entry) (p : Params) (pl : Plot η)
    (c : Challenge η) (pool : Option Nat) : List Quality → Res (List (Answer η))
  | [] => .ok []
  | q :: l => do
    let a ← caught (pl.judge hs sort p c pool q)
    let r ← pl.judgeAll hs sort p c pool l
    .ok (a ++ r)

/-- The task for one plot, Harvester.cpp:204-315; `plot_id` there is the one of the header (Harvester.cpp:565-567). -/
def Plot.lookup (hs : Hashes η) (sort : List (List Nat) → List Entry → List Entry) (p : Params) (pl : Plot η)
    (c : Challenge η) (pool : Option Nat) : Res (List (Answer η)) :=
  if plotFilterOk hs p c.challenge pl.plotId then
    match pl.qualities hs sort (hs.plotChallenge c.challenge pl.plotId) p.plotFilter with
    | .ok qs => pl.judgeAll hs sort p c pool qs
    | .throw => .ok []
    | .ub => .ub
  else .ok []

/-! ### From the harvester to the node -/

/-- `ProofResponse` (interface/ProofResponse.vni) without the lookup time and the address of the farmer. -/
structure Response (η σ : Type) where
  proof : Proof η
  vdfHeight : Nat
  harvester : List Nat
  hash : η
  sig : σ
  content : η

/-- Hashes and signatures: `calc_hash` of a response (src/ProofResponse.cpp:23-37, a function of the height and the proof),
    `calc_content_hash` (39-42), signing with the key that belongs to a farmer key, and verifying. -/
structure Crypto (η σ κ : Type) where
  hash : Nat → Proof η → η
  content : η → σ → η
  none : σ
  sign : κ → η → σ
  verify : η → η → σ → Bool

variable {σ κ : Type}

/-- `Harvester::send_response`, Harvester.cpp:69-87; `substr(0, 1024)` of the name. -/
def respond (cr : Crypto η σ κ) (name : List Nat) (vdfHeight : Nat) (pr : Proof η) : Response η σ :=
  let h := cr.hash vdfHeight pr
  { proof := pr, vdfHeight := vdfHeight, harvester := name.take 1024, hash := h, sig := cr.none
    content := cr.content h cr.none }

/-- `ProofResponse::is_valid`, ProofResponse.cpp:14-21, with `is_valid` of the proof (ProofOfSpaceOG.cpp:15-18, ProofOfSpaceNFT.cpp:15-18). -/
def Response.isValid [DecidableEq η] (cr : Crypto η σ κ) (r : Response η σ) : Bool :=
  decide (0 < r.proof.ksize ∧ r.proof.xs.length ≤ 256) && decide (r.harvester.length < 1024) &&
    decide (r.hash = cr.hash r.vdfHeight r.proof) && decide (r.content = cr.content r.hash r.sig)

/-- `Farmer::handle(ProofResponse)`, Farmer.cpp:249-263; `keys` is `get_skey`, which throws if there is no such key. -/
def farm [DecidableEq η] (cr : Crypto η σ κ) (keys : η → Option κ) (r : Response η σ) : Option (Response η σ) :=
  if r.isValid cr = true then
    match keys r.proof.farmerKey with
    | none => none
    | some k =>
      let s := cr.sign k r.hash
      some { r with sig := s, content := cr.content r.hash s }
  else none

/-- `Node::verify(ProofResponse)`, Node_verify.cpp:52-72, with `ProofResponse::validate` (ProofResponse.cpp:44-54);
    `root` is the VDF height of the root, `find` is `find_challenge`.  `validate` of the proof is repeated in
    `verify_proof`. -/
def nodeVerify [DecidableEq η] (sort : List (List Nat) → List Entry → List Entry) (hs : Hashes η) (p : Params)
    (cr : Crypto η σ κ) (root : Option Nat) (find : Nat → Option (η × Nat)) (order : List Nat) (r : Response η σ) :
    Res Unit := do
  Res.chk (r.isValid cr = true)
  Res.chk (hs.plotId r.proof.ksize r.proof.seed r.proof.farmerKey r.proof.contract = r.proof.plotId)
  Res.chk (cr.verify r.proof.farmerKey r.hash r.sig = true)
  Res.chk (∀ h, root = some h → h < r.vdfHeight)
  match find r.vdfHeight with
  | none => .throw
  | some (challenge, spaceDiff) => verifyProof sort hs p r.proof order challenge spaceDiff r.vdfHeight

end Verif.Farm
