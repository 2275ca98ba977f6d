import Verif.Codec.TimeHash
import Verif.Codec.PropsBlockHash
import Verif.Farm.Signed
/-
  C190: what a timelord signs, and what the hash of a proof of time or of a VDF point settles.
-/
namespace Verif.Codec

/-- The sizes that the types of the code give. -/
structure TimeProof.Ok (p : TimeProof) : Prop where
  version : U64 p.version
  vdfHeight : U64 p.vdfHeight
  start : U64 p.start
  numIters : U64 p.numIters
  segmentSize : U64 p.segmentSize
  input : Len32 p.input
  prev : Len32 p.prev
  rewardAddr : Len32 p.rewardAddr
  segments : VecOk Len32 p.segments
  hash : Len32 p.hash
  timelordKey : p.timelordKey.length = 33
  timelordSig : p.timelordSig.length = 64

structure TimePoint.Ok (p : TimePoint) : Prop where
  vdfHeight : U64 p.vdfHeight
  start : U64 p.start
  numIters : U64 p.numIters
  input : Len32 p.input
  output : Len32 p.output
  prev : Len32 p.prev
  rewardAddr : Len32 p.rewardAddr

/-- What two proofs of time say is the same, whoever signed them. -/
structure SameClaim (a b : TimeProof) : Prop where
  version : a.version = b.version
  vdfHeight : a.vdfHeight = b.vdfHeight
  start : a.start = b.start
  numIters : a.numIters = b.numIters
  segmentSize : a.segmentSize = b.segmentSize
  input : a.input = b.input
  prev : a.prev = b.prev
  rewardAddr : a.rewardAddr = b.rewardAddr
  segments : a.segments = b.segments

/-! ### lemmas -/

theorem time_inj {a b : TimeProof} (ha : a.Ok) (hb : b.Ok) (h : encTime a = encTime b) : SameClaim a b := by
  delta encTime at h
  simp only [List.append_assoc] at h
  cut h; cut h
  obtain ⟨e1, h⟩ := pf_U _ _ _ _ ha.version hb.version h
  cut h
  obtain ⟨e2, h⟩ := pf_U _ _ _ _ ha.vdfHeight hb.vdfHeight h
  cut h
  obtain ⟨e3, h⟩ := pf_U _ _ _ _ ha.start hb.start h
  cut h
  obtain ⟨e4, h⟩ := pf_U _ _ _ _ ha.numIters hb.numIters h
  cut h
  obtain ⟨e5, h⟩ := pf_U _ _ _ _ ha.segmentSize hb.segmentSize h
  cut h
  obtain ⟨e6, h⟩ := pf_32 _ _ _ _ ha.input hb.input h
  cut h
  obtain ⟨e7, h⟩ := pf_32 _ _ _ _ ha.prev hb.prev h
  cut h
  obtain ⟨e8, h⟩ := pf_32 _ _ _ _ ha.rewardAddr hb.rewardAddr h
  cut h
  obtain ⟨e9, -⟩ := pf_Vec pf_32 _ _ [] [] ha.segments hb.segments (by rw [h])
  exact ⟨e1, e2, e3, e4, e5, e6, e7, e8, e9⟩

theorem point_inj {a b : TimePoint} (ha : a.Ok) (hb : b.Ok) (h : encPoint a = encPoint b) :
    a.vdfHeight = b.vdfHeight ∧ a.start = b.start ∧ a.numIters = b.numIters ∧ a.input = b.input ∧ a.output = b.output ∧
    a.prev = b.prev ∧ a.rewardAddr = b.rewardAddr := by
  delta encPoint at h
  simp only [List.append_assoc] at h
  cut h; cut h
  obtain ⟨e2, h⟩ := pf_U _ _ _ _ ha.vdfHeight hb.vdfHeight h
  cut h
  obtain ⟨e3, h⟩ := pf_U _ _ _ _ ha.start hb.start h
  cut h
  obtain ⟨e4, h⟩ := pf_U _ _ _ _ ha.numIters hb.numIters h
  cut h
  obtain ⟨e6, h⟩ := pf_32 _ _ _ _ ha.input hb.input h
  cut h
  obtain ⟨e5, h⟩ := pf_32 _ _ _ _ ha.output hb.output h
  cut h
  obtain ⟨e7, h⟩ := pf_32 _ _ _ _ ha.prev hb.prev h
  cut h
  obtain ⟨e8, -⟩ := pf_32 _ _ [] [] ha.rewardAddr hb.rewardAddr (by rw [h])
  exact ⟨e2, e3, e4, e6, e5, e7, e8⟩

theorem timeValid_iff {H : Bytes → Bytes} {p : TimeProof} : timeValid H p = true ↔
    p.version = 0 ∧ p.vdfHeight ≠ 0 ∧ p.numIters ≠ 0 ∧ p.segments ≠ [] ∧ p.hash = H (encTime p) ∧ p.contentHash = H (encTimeContent p) := by
  unfold timeValid
  simp only [Bool.and_eq_true, beq_iff_eq, bne_iff_ne, ne_eq, List.length_eq_zero_iff, and_assoc]

theorem timeOutput_len {p : TimeProof} (h : p.Ok) : Len32 (timeOutput p) := by
  unfold timeOutput
  cases e : p.segments.getLast? with
  | none => rfl
  | some s => exact h.segments.2 s (List.mem_of_getLast? e)

theorem pointOf_ok {H : Bytes → Bytes} {p : TimeProof} {t : Int} (h : p.Ok) : (pointOf H p t).Ok :=
  ⟨h.vdfHeight, h.start, h.numIters, h.input, timeOutput_len h, h.prev, h.rewardAddr⟩

/-! ### the theorems -/

/-- **C190.** Two valid proofs of time with the same hash, which is what timelords sign, say the same: from where to where, how often was
    hashed, each segment, the block it builds on and the address for the reward. The hash function must not collide on these two. -/
theorem C190_signed (H : Bytes → Bytes) (a b : TimeProof) (ha : a.Ok) (hb : b.Ok) (va : timeValid H a = true) (vb : timeValid H b = true)
    (hd : H (encTime a) = H (encTime b) → encTime a = encTime b) (h : a.hash = b.hash) : SameClaim a b :=
  time_inj ha hb (hd (by rw [← (timeValid_iff.1 va).2.2.2.2.1, ← (timeValid_iff.1 vb).2.2.2.2.1, h]))

/-- **C190.** Valid proofs of time with the same content hash, by which they are told apart on the network, are the same in all. -/
theorem C190_content (H : Bytes → Bytes) (a b : TimeProof) (ha : a.Ok) (hb : b.Ok) (va : timeValid H a = true)
    (vb : timeValid H b = true)
    (hd : ∀ x ∈ [encTime a, encTimeContent a], ∀ y ∈ [encTime b, encTimeContent b], H x = H y → x = y)
    (h : a.contentHash = b.contentHash) : a = b := by
  have hc := hd (encTimeContent a) (by simp) (encTimeContent b) (by simp)
    (by rw [← (timeValid_iff.1 va).2.2.2.2.2, ← (timeValid_iff.1 vb).2.2.2.2.2, h])
  unfold encTimeContent at hc
  obtain ⟨e1, hc⟩ := List.append_inj hc (Eq.trans ha.hash hb.hash.symm)
  obtain ⟨e2, e3⟩ := List.append_inj hc (by rw [ha.timelordKey, hb.timelordKey])
  obtain ⟨f1, f2, f3, f4, f5, f6, f7, f8, f9⟩ := C190_signed H a b ha hb va vb (hd _ (by simp) _ (by simp)) e1
  cases a; cases b
  dsimp only at *
  subst e1 e2 e3 f1 f2 f3 f4 f5 f6 f7 f8 f9 h
  rfl

/-- **C190.** A timelord's proof is valid, and its signature is one of the hash of what it says; nothing else in it is changed. -/
theorem C190_finish (H : Bytes → Bytes) (sign : Bytes → Bytes) (verify : Bytes → Bytes → Bytes → Bool) (p : TimeProof)
    (hs : ∀ m, verify p.timelordKey m (sign m) = true)
    (h0 : p.version = 0) (h1 : p.vdfHeight ≠ 0) (h2 : p.numIters ≠ 0) (h3 : p.segments ≠ []) :
    timeValid H (timeFinish H sign p) = true ∧ timeSigned verify (timeFinish H sign p) = true ∧
    SameClaim (timeFinish H sign p) p ∧ (timeFinish H sign p).timelordKey = p.timelordKey :=
  ⟨timeValid_iff.2 ⟨h0, h1, h2, h3, rfl, rfl⟩, hs _, ⟨rfl, rfl, rfl, rfl, rfl, rfl, rfl, rfl, rfl⟩, rfl⟩

/-- **C190.** Valid points with the same content hash agree in all but the time at which they came in and the proof attached. -/
theorem C190_point (H : Bytes → Bytes) (a b : TimePoint) (ha : a.Ok) (hb : b.Ok) (va : pointValid H a = true) (vb : pointValid H b = true)
    (hd : H (encPoint a) = H (encPoint b) → encPoint a = encPoint b) (h : a.contentHash = b.contentHash) :
    a = { b with recvTime := a.recvTime, proof := a.proof } := by
  unfold pointValid at va vb
  have va := eq_of_beq va
  have vb := eq_of_beq vb
  obtain ⟨e1, e2, e3, e4, e5, e6, e7⟩ := point_inj ha hb (hd (by rw [← va, ← vb, h]))
  clear va vb hd ha hb
  cases a; cases b
  dsimp only at *
  subst e1 e2 e3 e4 e5 e6 e7 h
  rfl

/-- **C190.** These two are not covered: any others make a valid point too. -/
theorem C190_point_free (H : Bytes → Bytes) (p : TimePoint) (t : Int) (q : Option TimeProof) :
    pointValid H { p with recvTime := t, proof := q } = pointValid H p := rfl

/-- **C190.** The point that a node makes of a proof is valid. Two nodes get the same content hash from two proofs, no matter who signed
    them and when they came, just if the proofs agree in height, start, number of iterations, input, last segment, block and address. -/
theorem C190_made (H : Bytes → Bytes) (a b : TimeProof) (s t : Int) (ha : a.Ok) (hb : b.Ok) (na : a.segments ≠ []) (nb : b.segments ≠ [])
    (hd : H (encPoint (pointOf H a s)) = H (encPoint (pointOf H b t)) → encPoint (pointOf H a s) = encPoint (pointOf H b t)) :
    pointValid H (pointOf H a s) = true ∧
    ((pointOf H a s).contentHash = (pointOf H b t).contentHash ↔
      a.vdfHeight = b.vdfHeight ∧ a.start = b.start ∧ a.numIters = b.numIters ∧ a.input = b.input ∧
      a.segments.getLast na = b.segments.getLast nb ∧ a.prev = b.prev ∧ a.rewardAddr = b.rewardAddr) := by
  have oa : timeOutput a = a.segments.getLast na := by unfold timeOutput; rw [List.getLast?_eq_some_getLast na]
  have ob : timeOutput b = b.segments.getLast nb := by unfold timeOutput; rw [List.getLast?_eq_some_getLast nb]
  refine ⟨beq_self_eq_true _, fun h => ?_, fun ⟨e1, e2, e3, e4, e5, e6, e7⟩ => ?_⟩
  · have k := point_inj (pointOf_ok ha) (pointOf_ok hb) (hd h)
    rw [← oa, ← ob]
    exact k
  · unfold pointOf encPoint
    dsimp only
    rw [e1, e2, e3, e4, oa, ob, e5, e6, e7]

/-- **C190.** What timelords sign is never what farmers sign for a block, a header or a proof, nor what the hash of a point covers. -/
theorem C190_apart (H : Bytes → Bytes) (hf2 n : Nat) (p : TimeProof) (q : TimePoint) (h : Head) (x : Space) :
    encTime p ≠ encPoint q ∧ encTime p ≠ encHead H hf2 TH_BLOCK h ∧ encTime p ≠ encHead H hf2 TH_HEADER h ∧
    encTime p ≠ Verif.Farm.encResponse H n x ∧ encTime p ≠ encSpace x := by
  have key : ∀ {y : Nat} {s t : Bytes}, U64 y → TH_TIME ≠ y → encU TH_TIME ++ s ≠ encU y ++ t := fun hy hne e =>
    hne (pf_U _ _ _ _ (by unfold U64 TH_TIME; omega) hy e).1
  refine ⟨key (by unfold U64 TH_POINT; omega) (by decide), key (by unfold U64 TH_BLOCK; omega) (by decide),
    key (by unfold U64 TH_HEADER; omega) (by decide), key (by unfold U64 Verif.Farm.TH_RESPONSE; omega) (by decide), ?_⟩
  cases x with
  | og f => exact key (by unfold U64 TH_OG; omega) (by decide)
  | nft f c => exact key (by unfold U64 TH_NFT; omega) (by decide)

/-! ### examples -/

def exTime0 (n : Nat) (last : Nat) : TimeProof :=
  ⟨0, [], 7, 1000, n, 500, List.replicate 32 1, List.replicate 32 2, List.replicate 32 3,
    [List.replicate 32 4, List.replicate 32 last], List.replicate 33 5, [], []⟩

def exSign (m : Bytes) : Bytes := m ++ m
def exTime (n last : Nat) : TimeProof := timeFinish toyHash exSign (exTime0 n last)

theorem exTime_ok : (exTime 1000 6).Ok ∧ (exTime 1000 7).Ok :=
  ⟨⟨by unfold U64; decide, by unfold U64; decide, by unfold U64; decide, by unfold U64; decide, by unfold U64; decide, rfl, rfl, rfl,
      ⟨by unfold Sz; decide, by unfold Len32; decide⟩, by unfold Len32; decide +kernel, rfl, by decide +kernel⟩,
   ⟨by unfold U64; decide, by unfold U64; decide, by unfold U64; decide, by unfold U64; decide, by unfold U64; decide, rfl, rfl, rfl,
      ⟨by unfold Sz; decide, by unfold Len32; decide⟩, by unfold Len32; decide +kernel, rfl, by decide +kernel⟩⟩

example : timeValid toyHash (exTime 1000 6) = true ∧ timeValid toyHash (exTime 1000 7) = true ∧ timeValid toyHash (exTime 0 7) = false ∧
    (exTime 1000 6).hash ≠ (exTime 1000 7).hash ∧
    (∀ x ∈ [encTime (exTime 1000 6), encTimeContent (exTime 1000 6)], ∀ y ∈ [encTime (exTime 1000 7), encTimeContent (exTime 1000 7)],
      toyHash x = toyHash y → x = y) := by decide +kernel

/-- One who takes another's proof and puts its own key on it has another content hash, but the same point. -/
example : let mine := timeFinish toyHash exSign { exTime0 1000 6 with timelordKey := List.replicate 33 9 }
    timeValid toyHash mine = true ∧ mine.contentHash ≠ (exTime 1000 6).contentHash ∧ mine.hash = (exTime 1000 6).hash ∧
    (pointOf toyHash mine 5).contentHash = (pointOf toyHash (exTime 1000 6) 9).contentHash ∧
    (pointOf toyHash mine 5).contentHash ≠ (pointOf toyHash (exTime 1000 7) 5).contentHash := by decide +kernel

end Verif.Codec
