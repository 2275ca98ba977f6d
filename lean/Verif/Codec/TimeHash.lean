import Verif.Codec.BlockHash
/-
  What the hashes of proofs of time and of VDF points cover: src/ProofOfTime.cpp, src/VDF_Point.cpp, and who makes them.
-/
namespace Verif.Codec

/-- `VNX_TYPE_HASH`, generated/src/ProofOfTime.cpp:18. -/
def TH_TIME : Nat := 0xa84a63942b8e5c6a
/-- generated/src/VDF_Point.cpp:17. -/
def TH_POINT : Nat := 0x1671551501b6c956

/-- interface/ProofOfTime.vni. -/
structure TimeProof where
  version : Nat
  hash : Bytes
  vdfHeight : Nat
  start : Nat
  numIters : Nat
  segmentSize : Nat
  input : Bytes
  prev : Bytes
  rewardAddr : Bytes
  segments : List Bytes
  timelordKey : Bytes
  timelordSig : Bytes
  contentHash : Bytes
  deriving DecidableEq

/-- Hash input of `ProofOfTime::calc_hash`, ProofOfTime.cpp:24-45. -/
def encTime (p : TimeProof) : Bytes :=
  encU TH_TIME ++ (fld b!"version" ++ encU p.version ++ fld b!"vdf_height" ++ encU p.vdfHeight ++ fld b!"start" ++ encU p.start
    ++ fld b!"num_iters" ++ encU p.numIters ++ fld b!"segment_size" ++ encU p.segmentSize ++ fld b!"input" ++ encBytes p.input
    ++ fld b!"prev" ++ encBytes p.prev ++ fld b!"reward_addr" ++ encBytes p.rewardAddr
    ++ fld b!"segments" ++ encVec encBytes p.segments)

/-- Input of `calc_content_hash`, ProofOfTime.cpp:47-50; `+` puts the bytes one after the other, bytes_t.hpp:198-204. -/
def encTimeContent (p : TimeProof) : Bytes := p.hash ++ (p.timelordKey ++ p.timelordSig)

/-- `ProofOfTime::is_valid`, ProofOfTime.cpp:14-22. -/
def timeValid (H : Bytes → Bytes) (p : TimeProof) : Bool :=
  p.version == 0 && p.vdfHeight != 0 && p.numIters != 0 && p.segments.length != 0
    && p.hash == H (encTime p) && p.contentHash == H (encTimeContent p)

/-- `get_output`, ProofOfTime.cpp:52-58: all zero if there are no segments. -/
def timeOutput (p : TimeProof) : Bytes :=
  match p.segments.getLast? with
  | some s => s
  | none => List.replicate 32 0

/-- `ProofOfTime::validate`, ProofOfTime.cpp:65-70: does it return; `verify key msg sig` is `signature_t::verify`. -/
def timeSigned (verify : Bytes → Bytes → Bytes → Bool) (p : TimeProof) : Bool := verify p.timelordKey p.hash p.timelordSig

/-- How a timelord completes a proof, TimeLord.cpp:258-260; `sign` is with its key. -/
def timeFinish (H : Bytes → Bytes) (sign : Bytes → Bytes) (p : TimeProof) : TimeProof :=
  let p1 := { p with hash := H (encTime p) }
  let p2 := { p1 with timelordSig := sign p1.hash }
  { p2 with contentHash := H (encTimeContent p2) }

/-- interface/VDF_Point.vni. -/
structure TimePoint where
  vdfHeight : Nat
  start : Nat
  numIters : Nat
  input : Bytes
  output : Bytes
  prev : Bytes
  rewardAddr : Bytes
  contentHash : Bytes
  recvTime : Int
  proof : Option TimeProof
  deriving DecidableEq

/-- Hash input of `VDF_Point::calc_hash`, VDF_Point.cpp:19-38. -/
def encPoint (p : TimePoint) : Bytes :=
  encU TH_POINT ++ (fld b!"vdf_height" ++ encU p.vdfHeight ++ fld b!"start" ++ encU p.start ++ fld b!"num_iters" ++ encU p.numIters
    ++ fld b!"input" ++ encBytes p.input ++ fld b!"output" ++ encBytes p.output ++ fld b!"prev" ++ encBytes p.prev
    ++ fld b!"reward_addr" ++ encBytes p.rewardAddr)

/-- `VDF_Point::is_valid`, VDF_Point.cpp:14-17. -/
def pointValid (H : Bytes → Bytes) (p : TimePoint) : Bool := p.contentHash == H (encPoint p)

/-- The point that a node makes of a proof that it verified, Node_verify.cpp:433-443. -/
def pointOf (H : Bytes → Bytes) (p : TimeProof) (recvTime : Int) : TimePoint :=
  let q : TimePoint := {
    vdfHeight := p.vdfHeight, start := p.start, numIters := p.numIters, input := p.input, output := timeOutput p,
    prev := p.prev, rewardAddr := p.rewardAddr, contentHash := [], recvTime := recvTime, proof := some p }
  { q with contentHash := H (encPoint q) }

end Verif.Codec
