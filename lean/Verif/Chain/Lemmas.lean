import Verif.Chain.Spec
/-
  Helper lemmas about the chain arithmetic and the header checks.
-/
namespace Verif.Chain
open Res

theorem chk_ok {c : Prop} [Decidable c] : chk c = .ok () ↔ c := by
  unfold chk; split <;> simp_all

theorem validateDiffAdjust_ok {p : Params} {b prev : Nat} :
    validateDiffAdjust p b prev = .ok () ↔
      p.maxDiffAdjust < 64 ∧ b ≤ prev + max (prev / 2 ^ p.maxDiffAdjust) 1 ∧
        prev ≤ b + max (prev / 2 ^ p.maxDiffAdjust) 1 := by
  unfold validateDiffAdjust
  simp only [defd_bind, chk_bind, chk_ok, Nat.shiftRight_eq_div_pow]
  omega

/-- What acceptance means for the space difficulty fields. -/
def SpaceStep (p : Params) (e : Env) (prev b : Header) : Prop :=
  b.isSpaceFork = nextIsFork p e prev b ∧
  (b.isSpaceFork = true →
    calcNewSpaceDiff p prev.spaceDiff prev.spaceForkLen prev.spaceForkProofs = .ok b.spaceDiff ∧
    b.spaceForkLen = b.vdfCount ∧ b.spaceForkProofs = b.proofs) ∧
  (b.isSpaceFork = false →
    b.spaceDiff = prev.spaceDiff ∧ b.spaceForkLen = u32 (prev.spaceForkLen + b.vdfCount) ∧
    b.spaceForkProofs = prev.spaceForkProofs + b.proofs)

structure ProofStep (p : Params) (e : Env) (prev b : Header) : Prop where
  vdfCount : b.vdfCount ≤ p.maxVdfCount
  vdfHeight : b.vdfHeight = u32 (prev.vdfHeight + b.vdfCount)
  proofs0 : b.proofs ≠ 0
  proofs : b.proofs ≤ p.maxProofCount
  iters : b.vdfIters = e.expectedIters
  timeDiff : p.timeDiffDivider ≤ b.timeDiff
  adjust : validateDiffAdjust p b.timeDiff prev.timeDiff = .ok ()
  space : SpaceStep p e prev b
  weight : calcBlockWeight p b prev = .ok b.weight
  total : b.totalWeight = u128 (prev.totalWeight + b.weight)

theorem verifyProof_ok {p : Params} {e : Env} {prev b : Header}
    (h : verifyProof p e prev b = .ok ()) : ProofStep p e prev b := by
  unfold verifyProof at h
  simp only [chk_bind] at h
  obtain ⟨h1, h2, h3, h4, h5, h6, h⟩ := h
  obtain ⟨u, h7, h⟩ := bind_eq_ok.1 h
  simp only [chk_bind] at h
  obtain ⟨h8, h⟩ := h
  have hw : ∀ x : Res Unit,
      (x >>= fun _ => calcBlockWeight p b prev >>= fun w => chk (b.weight = w) >>= fun _ =>
        chk (b.totalWeight = u128 (prev.totalWeight + b.weight))) = .ok () →
      x = .ok () ∧ calcBlockWeight p b prev = .ok b.weight ∧
        b.totalWeight = u128 (prev.totalWeight + b.weight) := by
    intro x hx
    obtain ⟨u, hx1, hx⟩ := bind_eq_ok.1 hx
    obtain ⟨w, hx2, hx⟩ := bind_eq_ok.1 hx
    simp only [chk_bind, chk_ok] at hx
    exact ⟨hx1, hx.1 ▸ hx2, hx.2⟩
  cases hf : nextIsFork p e prev b with
  | true =>
    rw [hf] at h h8
    simp only [if_true] at h
    rw [bind_eq_ok] at h
    obtain ⟨d, hd, h⟩ := h
    simp only [chk_bind] at h
    obtain ⟨a1, a2, a3, h⟩ := h
    rw [bind_eq_ok] at h
    obtain ⟨w, hx2, hx⟩ := h
    simp only [chk_bind, chk_ok] at hx
    refine ⟨h1, h2, h3, h4, h5, Nat.not_lt.1 h6, h7, ⟨by rw [h8, hf], ?_, ?_⟩, hx.1 ▸ hx2, hx.2⟩
    · intro _; exact ⟨a1 ▸ hd, a2, a3⟩
    · intro hh; rw [h8] at hh; exact absurd hh (by decide)
  | false =>
    rw [hf] at h h8
    simp only [Bool.false_eq_true, if_false, chk_bind] at h
    obtain ⟨a1, a2, a3, h⟩ := h
    rw [bind_eq_ok] at h
    obtain ⟨w, hx2, hx⟩ := h
    simp only [chk_bind, chk_ok] at hx
    refine ⟨h1, h2, h3, h4, h5, Nat.not_lt.1 h6, h7, ⟨by rw [h8, hf], ?_, ?_⟩, hx.1 ▸ hx2, hx.2⟩
    · intro hh; rw [h8] at hh; exact absurd hh (by decide)
    · intro _; exact ⟨a1, a2, a3⟩

/-- What acceptance means for the reward fields. -/
def RewardStep (p : Params) (prev b : Header) : Prop :=
  (b.height % p.rewardAdjustInterval = 0 →
    calcNewBaseReward p prev.baseReward prev.rewardVoteCount prev.rewardVoteSum = .ok b.baseReward ∧
    b.rewardVoteSum = b.rewardVote ∧ b.rewardVoteCount = if b.rewardVote ≠ 0 then 1 else 0) ∧
  (b.height % p.rewardAdjustInterval ≠ 0 →
    b.baseReward = prev.baseReward ∧ b.rewardVoteSum = prev.rewardVoteSum + b.rewardVote ∧
    b.rewardVoteCount = u32 (prev.rewardVoteCount + if b.rewardVote ≠ 0 then 1 else 0))

structure ValidStep (p : Params) (prev b : Header) : Prop where
  valid : headerIsValid b
  height : b.height = u32 (prev.height + 1)
  forkLen : b.spaceForkLen ≤ u32 (p.challengeInterval * 100)
  stamp : 0 ≤ b.timeStamp
  stampHi : b.timeStamp - prev.timeStamp ≤ (b.vdfCount * p.blockIntervalMs * 2 : Nat)
  stampLo : (b.vdfCount * p.blockIntervalMs / 2 : Nat) ≤ b.timeStamp - prev.timeStamp
  space : b.spaceDiff ≠ 0
  size : b.staticCost ≤ p.maxBlockSize
  cost : b.totalCost ≤ p.maxBlockCost
  buffer : b.txfeeBuffer = calcNewTxfeeBuffer prev.txfeeBuffer prev.txFees
  vote : -1 ≤ b.rewardVote ∧ b.rewardVote ≤ 1
  payout : b.hasVdfPayout = true → b.height % p.vdfRewardInterval = 0
  base : RewardStep p prev b
  tx : b.height < p.transactionActivation → b.txCount = 0
  reward : b.hasReward = true → calcBlockReward p b prev b.txFees = .ok b.rewardAmount
  noReward : b.hasReward = false → b.rewardAmount = 0

theorem validate_ok {p : Params} {e : Env} {prev b : Header}
    (h : validate p e prev b = .ok ()) : ValidStep p prev b := by
  unfold validate at h
  simp only [chk_bind, defd_bind] at h
  obtain ⟨h1, h2, h3, h4, h5, h6, h7, h8, h9, h10, h11, _, h12, hi, h⟩ := h
  have tail : ∀ {x : Res Unit}, (x = .ok ()) →
      (b.hasReward = true → (calcBlockReward p b prev b.txFees >>= fun amount =>
        chk (b.rewardAmount = amount)) = .ok ()) := fun _ => by
    intro hr
    by_cases hm : b.height % p.rewardAdjustInterval = 0
    · simp only [hm, if_true] at h
      obtain ⟨r, _, h⟩ := bind_eq_ok.1 h
      simp only [chk_bind, hr, if_true] at h
      exact h.2.2.2.2.2
    · simp only [hm, if_false, chk_bind, hr, if_true] at h
      exact h.2.2.2.2.2
  have htx : ¬ (b.height < p.transactionActivation ∧ b.txCount ≠ 0) := by
    by_cases hm : b.height % p.rewardAdjustInterval = 0
    · simp only [hm, if_true] at h
      obtain ⟨r, _, h⟩ := bind_eq_ok.1 h
      simp only [chk_bind] at h
      exact h.2.2.2.1
    · simp only [hm, if_false, chk_bind] at h
      exact h.2.2.2.1
  have hno : b.hasReward = false → b.rewardAmount = 0 := by
    intro hr
    by_cases hm : b.height % p.rewardAdjustInterval = 0
    · simp only [hm, if_true] at h
      obtain ⟨r, _, h⟩ := bind_eq_ok.1 h
      simp only [chk_bind, hr, Bool.false_eq_true, if_false, chk_ok] at h
      exact h.2.2.2.2.2
    · simp only [hm, if_false, chk_bind, hr, Bool.false_eq_true, chk_ok] at h
      exact h.2.2.2.2.2
  refine ⟨h1, h2, h3, h4, h5, Int.not_lt.1 h6, fun h => h7 (.inr h), h8, h9, h10, h11, ?_, ⟨?_, ?_⟩,
    ?_, ?_, hno⟩
  · intro hp
    by_cases hm : b.height % p.vdfRewardInterval = 0
    · exact hm
    · rw [if_neg hm, hp] at h12; exact absurd h12 (by decide)
  · intro hm
    simp only [hm, if_true] at h
    obtain ⟨r, hr, h⟩ := bind_eq_ok.1 h
    simp only [chk_bind] at h
    exact ⟨h.1 ▸ hr, h.2.1, h.2.2.1⟩
  · intro hm
    simp only [hm, if_false, chk_bind] at h
    exact ⟨h.1, h.2.1, h.2.2.1⟩
  · intro hlt
    exact Classical.byContradiction fun hc => htx ⟨hlt, hc⟩
  · intro hr
    have := tail (x := .ok ()) rfl hr
    obtain ⟨a, ha, hb⟩ := bind_eq_ok.1 this
    rw [chk_ok] at hb
    exact hb ▸ ha

theorem accept_ok {p : Params} {e : Env} {prev b : Header} (h : accept p e prev b = .ok ()) :
    ProofStep p e prev b ∧ ValidStep p prev b := by
  unfold accept at h
  obtain ⟨u, h1, h2⟩ := bind_eq_ok.1 h
  exact ⟨verifyProof_ok h1, validate_ok h2⟩

theorem i64_of {n : Int} (h : isI64 n) : i64 n = n := by
  unfold isI64 at h; unfold i64; omega

/-- `calc_new_base_reward` without machine arithmetic. -/
theorem calcNewBaseReward_ok {p : Params} {base cnt : Nat} {sum : Int} {r : Nat}
    (hb : (base : Int) ≤ rewardCap) (ht : p.rewardAdjustTick < 2 ^ 32)
    (h : calcNewBaseReward p base cnt sum = .ok r) :
    (cnt < p.rewardAdjustInterval / 2 ∧ r = base) ∨
    (p.rewardAdjustInterval / 2 ≤ cnt ∧
      ((sum > 0 ∧ r = min (base + max (base / p.rewardAdjustDiv) p.rewardAdjustTick) rewardCap.toNat) ∨
       (sum < 0 ∧ r = base - max (base / p.rewardAdjustDiv) p.rewardAdjustTick) ∨
       (sum = 0 ∧ r = base))) := by
  unfold calcNewBaseReward at h
  split at h
  · rename_i hlt
    exact .inl ⟨hlt, by cases h; rfl⟩
  · rename_i hge
    refine .inr ⟨by omega, ?_⟩
    simp only [defd_bind] at h
    obtain ⟨_, _, h⟩ := h
    have hq : base / p.rewardAdjustDiv ≤ base := Nat.div_le_self _ _
    generalize base / p.rewardAdjustDiv = q at *
    have e1 : i64 (q : Int) = q := i64_of (by unfold isI64; unfold rewardCap at hb; omega)
    have e2 : i64 (p.rewardAdjustTick : Int) = p.rewardAdjustTick :=
      i64_of (by unfold isI64; omega)
    have e3 : i64 (base : Int) = base := i64_of (by unfold isI64; unfold rewardCap at hb; omega)
    rw [e1, e2, e3] at h
    simp only [pure_eq, Res.ok.injEq] at h
    unfold rewardCap at *
    rcases Int.lt_trichotomy sum 0 with hs | hs | hs
    · rw [if_neg (by omega), if_pos hs] at h
      exact .inr (.inl ⟨hs, by omega⟩)
    · subst hs
      simp only [Int.lt_irrefl, gt_iff_lt, if_false] at h
      exact .inr (.inr ⟨rfl, by omega⟩)
    · rw [if_pos hs] at h
      exact .inl ⟨hs, by omega⟩

theorem calcNewBaseReward_cap {p : Params} {base cnt : Nat} {sum : Int} {r : Nat}
    (hb : (base : Int) ≤ rewardCap) (ht : p.rewardAdjustTick < 2 ^ 32)
    (h : calcNewBaseReward p base cnt sum = .ok r) : (r : Int) ≤ rewardCap := by
  have := calcNewBaseReward_ok hb ht h
  unfold rewardCap at *
  omega

theorem deduction_le (buf : Nat) : calcMinRewardDeduction buf ≤ buf := by
  unfold calcMinRewardDeduction; omega

/-- `calc_new_txfee_buffer` without machine arithmetic. -/
theorem calcNewTxfeeBuffer_eq {buf fees : Nat} (hb : buf < 2 ^ 64) :
    calcNewTxfeeBuffer buf fees = (buf - calcMinRewardDeduction buf + fees) % 2 ^ 64 := by
  unfold calcNewTxfeeBuffer u64
  rw [sub64_of_le hb (deduction_le buf)]

theorem calcProjectReward_le {p : Params} {fees r : Nat} (h : calcProjectReward p fees = .ok r) :
    r ≤ fees / 2 := by
  unfold calcProjectReward at h
  simp only [defd_bind] at h
  obtain ⟨_, h⟩ := h
  simp only [pure_eq, Res.ok.injEq] at h
  omega

/-- `calc_new_space_diff` without machine arithmetic, for inputs a chain can reach. -/
theorem calcNewSpaceDiff_ok {p : Params} {diff len proofs r : Nat}
    (hd : diff < 2 ^ 48) (hl : len ≠ 0) (hexp : len * p.avgProofCount < 2 ^ 32)
    (hpr : proofs ≤ p.maxProofCount * len) (hm : p.maxProofCount < 2 ^ 15)
    (ha : 1 ≤ p.avgProofCount)
    (h : calcNewSpaceDiff p diff len proofs = .ok r) :
    (proofs > len * p.avgProofCount ∧
      r = diff + max ((diff * proofs / (len * p.avgProofCount) - diff) /
        max (u32 (16 * p.challengeInterval) / len) 1) 1 ∧
      diff ≤ diff * proofs / (len * p.avgProofCount) ∧
      diff * proofs / (len * p.avgProofCount) < 2 ^ 63) ∨
    (proofs ≤ len * p.avgProofCount ∧
      r = max (diff - max ((diff - diff * proofs / (len * p.avgProofCount)) /
        max (u32 (16 * p.challengeInterval) / len) 1) 1) 1 ∧
      diff * proofs / (len * p.avgProofCount) ≤ diff) := by
  unfold calcNewSpaceDiff at h
  have h48 : diff >>> 48 = 0 := by
    rw [Nat.shiftRight_eq_div_pow]; exact Nat.div_eq_of_lt hd
  rw [if_neg (by simp [h48]), if_neg hl] at h
  rw [u32_of_lt hexp] at h
  have hE : 1 ≤ len * p.avgProofCount := Nat.mul_pos (by omega) ha
  have hprE : proofs ≤ p.maxProofCount * (len * p.avgProofCount) := by
    calc proofs ≤ p.maxProofCount * len := hpr
      _ ≤ p.maxProofCount * (len * p.avgProofCount) :=
        Nat.mul_le_mul_left _ (Nat.le_mul_of_pos_right _ ha)
  generalize len * p.avgProofCount = E at *
  have hp32 : proofs < 2 ^ 47 := by
    calc proofs ≤ p.maxProofCount * E := hprE
      _ ≤ (2 ^ 15 - 1) * E := Nat.mul_le_mul_right _ (by omega)
      _ < 2 ^ 47 := by omega
  have hprod : diff * proofs < 2 ^ 128 := by
    calc diff * proofs ≤ 2 ^ 48 * 2 ^ 47 := Nat.mul_le_mul (by omega) (by omega)
      _ < 2 ^ 128 := by decide
  have hq : diff * proofs / E < 2 ^ 63 := by
    have : diff * proofs / E ≤ diff * p.maxProofCount := by
      apply Nat.div_le_of_le_mul
      calc diff * proofs ≤ diff * (p.maxProofCount * E) := Nat.mul_le_mul_left _ hprE
        _ = E * (diff * p.maxProofCount) := by
          rw [← Nat.mul_assoc, Nat.mul_comm E]
    have h2 : diff * p.maxProofCount ≤ 2 ^ 48 * (2 ^ 15 - 1) := Nat.mul_le_mul (by omega) (by omega)
    omega
  dsimp only at h
  rw [u128_of_lt hprod, u64_of_lt (n := diff * proofs / E) (by omega)] at h
  simp only [defd_bind] at h
  obtain ⟨_, h⟩ := h
  by_cases hinc : proofs > E
  · left
    have hle : diff ≤ diff * proofs / E := by
      rw [Nat.le_div_iff_mul_le (by omega)]
      exact Nat.mul_le_mul_left _ (by omega)
    simp only [decide_eq_true hinc, if_true, pure_eq, Res.ok.injEq] at h
    rw [sub64_of_le (by omega) hle] at h
    generalize diff * proofs / E = T at *
    have hdv : (T - diff) / max (u32 (16 * p.challengeInterval) / len) 1 ≤ T - diff :=
      Nat.div_le_self _ _
    rw [u64_of_lt (by omega)] at h
    exact ⟨hinc, h.symm, hle, hq⟩
  · right
    have hle : diff * proofs / E ≤ diff := by
      apply Nat.div_le_of_le_mul
      rw [Nat.mul_comm E]
      exact Nat.mul_le_mul_left _ (by omega)
    simp only [decide_eq_false hinc, Bool.false_eq_true, if_false, pure_eq, Res.ok.injEq] at h
    rw [sub64_of_le (by omega) hle] at h
    generalize diff * proofs / E = T at *
    refine ⟨by omega, ?_, hle⟩
    rw [← h]
    generalize (diff - T) / max (u32 (16 * p.challengeInterval) / len) 1 = q
    split <;> omega

end Verif.Chain
