import Verif.Chain.Lemmas3
/-
  Property theorems about chain arithmetic and header chains: C29, C30, C31, C45 - C48.
-/
namespace Verif.Chain
open Res

/-! ### C29: difficulty and reward parameters move only within their bounds -/

/-- C29 (time difficulty). Every accepted header changes the time difficulty by at most
    `max(prev >> max_diff_adjust, 1)` and keeps it at or above its minimum. No assumption on the
    previous header. -/
theorem C29_time_difficulty {p : Params} {e : Env} {prev b : Header}
    (h : accept p e prev b = .ok ()) :
    b.timeDiff ≤ prev.timeDiff + max (prev.timeDiff / 2 ^ p.maxDiffAdjust) 1 ∧
    prev.timeDiff ≤ b.timeDiff + max (prev.timeDiff / 2 ^ p.maxDiffAdjust) 1 ∧
    p.timeDiffDivider ≤ b.timeDiff := by
  obtain ⟨hv, _⟩ := accept_ok h
  have := validateDiffAdjust_ok.1 hv.adjust
  exact ⟨this.2.1, this.2.2, hv.timeDiff⟩

/-- C29 (space difficulty). In every accepted chain the space difficulty is positive; it changes only
    at a space fork. With `len` and `proofs` counted over the blocks since the last fork and
    `target = diff * proofs / (len * avg_proof_count)`, a fork raises it (by at least one) exactly
    when more proofs were found than expected, and it never goes beyond the target by more than one;
    a difficulty at or above 2^48 is lowered by 1/1024. -/
theorem C29_space_difficulty {p : Params} (hp : p.Sane) {b prev : Header} {rest : List Header}
    (h : Chain p (b :: prev :: rest)) :
    1 ≤ b.spaceDiff ∧ b.spaceDiff < 2 ^ 64 ∧
    (b.isSpaceFork = false → b.spaceDiff = prev.spaceDiff) ∧
    (b.isSpaceFork = true →
      let len := sumNat (·.vdfCount) (sinceFork (prev :: rest))
      let proofs := sumNat (·.proofs) (sinceFork (prev :: rest))
      let target := prev.spaceDiff * proofs / (len * p.avgProofCount)
      (2 ^ 48 ≤ prev.spaceDiff → b.spaceDiff = prev.spaceDiff - prev.spaceDiff / 1024) ∧
      (prev.spaceDiff < 2 ^ 48 → rest = [] → b.spaceDiff = prev.spaceDiff) ∧
      (prev.spaceDiff < 2 ^ 48 → rest ≠ [] → proofs > len * p.avgProofCount →
        prev.spaceDiff < b.spaceDiff ∧ b.spaceDiff ≤ max (prev.spaceDiff + 1) target) ∧
      (prev.spaceDiff < 2 ^ 48 → rest ≠ [] → proofs ≤ len * p.avgProofCount →
        b.spaceDiff ≤ max (prev.spaceDiff - 1) 1 ∧ min (prev.spaceDiff - 1) target ≤ b.spaceDiff)) := by
  have hi := chain_head hp h
  cases h with
  | step hc ht ha =>
    have ih := chain_head hp hc
    obtain ⟨hv, hw⟩ := accept_ok ha
    obtain ⟨hs1, hs2, hs3⟩ := hv.space
    refine ⟨hi.space1, by have := hi.spaceLt; omega, fun hf => (hs3 hf).1, ?_⟩
    intro hf
    have hcalc := (hs2 hf).1
    rw [ih.len, ih.proofs] at hcalc
    have hpl := ih.proofsLe
    have hll := ih.lenLe
    have hlp := ih.lenPos
    rw [ih.len] at hll hlp
    rw [ih.len, ih.proofs] at hpl
    dsimp only
    have hgen : rest = [] → sumNat (·.vdfCount) (sinceFork (prev :: rest)) = 0 := by
      intro hr
      cases hc with
      | genesis => simp [sinceFork, since, sumNat, genesis]
      | step => exact absurd hr (by simp)
    generalize sumNat (·.vdfCount) (sinceFork (prev :: rest)) = len at *
    generalize sumNat (·.proofs) (sinceFork (prev :: rest)) = proofs at *
    have hexp : len * p.avgProofCount < 2 ^ 32 :=
      Nat.lt_of_le_of_lt (Nat.mul_le_mul_right _ hll) hp.expected
    have hpos := hi.space1
    refine ⟨?_, ?_, ?_, ?_⟩
    · intro hge
      unfold calcNewSpaceDiff at hcalc
      have h48 : prev.spaceDiff >>> 48 ≠ 0 := by
        rw [Nat.shiftRight_eq_div_pow]
        have := Nat.div_le_div_right (c := 2 ^ 48) hge
        rw [Nat.div_self (by decide)] at this
        omega
      rw [if_pos h48, sub64_of_le (by have := ih.spaceLt; omega) (Nat.div_le_self _ _)] at hcalc
      exact (Res.ok.inj hcalc).symm
    · intro hlt hr
      cases hc with
      | genesis =>
        have hl0 : len = 0 := hgen rfl
        unfold calcNewSpaceDiff at hcalc
        have h48 : (genesis p).spaceDiff >>> 48 = 0 := by
          rw [Nat.shiftRight_eq_div_pow]; exact Nat.div_eq_of_lt hlt
        rw [if_neg (by simp [h48]), if_pos hl0] at hcalc
        exact (Res.ok.inj hcalc).symm
      | step => exact absurd hr (by simp)
    · intro hlt hr hgt
      rcases calcNewSpaceDiff_ok hlt (hlp hr) hexp hpl hp.proofs hp.avg hcalc with
        ⟨_, hr, hle, _⟩ | ⟨hn, _⟩
      · generalize prev.spaceDiff * proofs / (len * p.avgProofCount) = T at *
        have hdv : (T - prev.spaceDiff) / max (u32 (16 * p.challengeInterval) / len) 1 ≤
          T - prev.spaceDiff := Nat.div_le_self _ _
        omega
      · omega
    · intro hlt hr hgt
      rcases calcNewSpaceDiff_ok hlt (hlp hr) hexp hpl hp.proofs hp.avg hcalc with
        ⟨hn, _⟩ | ⟨_, hr, hle⟩
      · omega
      · generalize prev.spaceDiff * proofs / (len * p.avgProofCount) = T at *
        have hdv : (prev.spaceDiff - T) / max (u32 (16 * p.challengeInterval) / len) 1 ≤
          prev.spaceDiff - T := Nat.div_le_self _ _
        omega

/-- C29 (base reward). In every accepted chain the base reward never exceeds 4200000 MMX, changes only
    at multiples of the voting interval, changes by at most one step
    `max(base / reward_adjust_div, reward_adjust_tick)`, rises only if more blocks of the elapsed period
    voted up than down and falls only if more voted down than up, and in both cases only if at least
    half an interval of blocks voted. -/
theorem C29_base_reward {p : Params} (hp : p.Sane) {b prev : Header} {rest : List Header}
    (h : Chain p (b :: prev :: rest)) :
    b.baseReward ≤ 4200000000000 ∧
    (let period := sinceAdjust p (prev :: rest)
     let step := max (prev.baseReward / p.rewardAdjustDiv) p.rewardAdjustTick
     b.baseReward ≤ prev.baseReward + step ∧ prev.baseReward ≤ b.baseReward + step ∧
     (b.baseReward ≠ prev.baseReward → b.height % p.rewardAdjustInterval = 0 ∧
        p.rewardAdjustInterval / 2 ≤ upVotes period + downVotes period) ∧
     (prev.baseReward < b.baseReward → downVotes period < upVotes period) ∧
     (b.baseReward < prev.baseReward → upVotes period < downVotes period)) := by
  have hi := chain_head hp h
  cases h with
  | step hc ht ha =>
    have ih := chain_head hp hc
    obtain ⟨hv, hw⟩ := accept_ok ha
    obtain ⟨hb1, hb2⟩ := hw.base
    have hcap := hi.base
    have hpc := ih.base
    have hvv := ih.votes
    have hvs := ih.voteSum
    refine ⟨by unfold rewardCap at hcap; omega, ?_⟩
    dsimp only
    by_cases hm : b.height % p.rewardAdjustInterval = 0
    · have := calcNewBaseReward_ok ih.base hp.tick (hb1 hm).1
      generalize prev.baseReward / p.rewardAdjustDiv = q at *
      unfold rewardCap at *
      rcases this with ⟨h1, h2⟩ | ⟨h1, ⟨h2, h3⟩ | ⟨h2, h3⟩ | ⟨h2, h3⟩⟩
      · exact ⟨by omega, by omega, by omega, by omega, by omega⟩
      · refine ⟨by omega, by omega, ?_, ?_, ?_⟩
        · intro _; exact ⟨hm, by omega⟩
        · omega
        · omega
      · refine ⟨by omega, by omega, ?_, ?_, ?_⟩
        · intro _; exact ⟨hm, by omega⟩
        · omega
        · omega
      · exact ⟨by omega, by omega, by omega, by omega, by omega⟩
    · have := (hb2 hm).1
      exact ⟨by omega, by omega, by omega, by omega, by omega⟩

/-- C29 (fee buffer). The payout taken from the fee buffer never exceeds the buffer, and the new buffer
    is the old one minus the payout plus the fees whenever that fits into 64 bits. -/
theorem C29_fee_buffer {buf fees : Nat} (hb : buf < 2 ^ 64) :
    calcMinRewardDeduction buf ≤ buf ∧
    (buf + fees < 2 ^ 64 →
      calcNewTxfeeBuffer buf fees + calcMinRewardDeduction buf = buf + fees) := by
  refine ⟨deduction_le buf, fun h => ?_⟩
  rw [calcNewTxfeeBuffer_eq hb]
  have := deduction_le buf
  rw [Nat.mod_eq_of_lt (by omega)]
  omega

/-- A full payout of the buffer: without new fees the buffer is empty after enough blocks; it strictly
    decreases while it is not empty. -/
theorem C29_fee_buffer_drains {buf : Nat} (hb : buf < 2 ^ 64) (h0 : buf ≠ 0) :
    calcNewTxfeeBuffer buf 0 < buf := by
  rw [calcNewTxfeeBuffer_eq hb]
  unfold calcMinRewardDeduction
  rw [Nat.mod_eq_of_lt (by omega)]
  omega

/-- C29 (netspace ratio). The running ratio of original proofs, a fixed-point fraction of
    `2^(2 max_diff_adjust)`, never exceeds one, falls only on other proofs and rises only on original
    ones. -/
theorem C29_netspace_ratio {m prev r : Nat} {og : Bool} (hm : 3 * m < 64)
    (hp : prev ≤ 2 ^ m * 2 ^ m) (h : calcNewNetspaceRatio m prev og = .ok r) :
    r ≤ 2 ^ m * 2 ^ m ∧ (og = false → r ≤ prev) ∧ (og = true → prev ≤ r) := by
  unfold calcNewNetspaceRatio at h
  simp only [defd_bind, pure_eq, Res.ok.injEq] at h
  obtain ⟨_, h⟩ := h
  have hm2 : 2 ^ (2 * m) = 2 ^ m * 2 ^ m := by rw [Nat.two_mul, Nat.pow_add]
  have hlt : 2 ^ m * 2 ^ m * 2 ^ m < 2 ^ 64 := by
    have : 2 ^ m * 2 ^ m * 2 ^ m = 2 ^ (3 * m) := by
      rw [← Nat.pow_add, ← Nat.pow_add]; congr 1; omega
    rw [this]; exact Nat.pow_lt_pow_right (by decide) hm
  have hpos : 0 < 2 ^ m := Nat.two_pow_pos m
  rw [hm2] at h
  generalize 2 ^ m = M at *
  generalize hMM : M * M = Q at *
  have h1 : prev * M ≤ Q * M := Nat.mul_le_mul_right _ hp
  have h3 : prev * (M - 1) + prev = prev * M := by
    cases M with
    | zero => omega
    | succ k => simp [Nat.mul_add]
  cases og with
  | false =>
    simp only [Bool.false_eq_true, if_false, Nat.add_zero] at h
    rw [u64_of_lt (by omega)] at h
    have hr : r ≤ prev := by
      rw [← h]; apply Nat.div_le_of_le_mul; rw [Nat.mul_comm M]; omega
    exact ⟨by omega, fun _ => hr, fun hh => by cases hh⟩
  | true =>
    simp only [if_true] at h
    have h4 : Q * (M - 1) + Q = Q * M := by
      cases M with
      | zero => omega
      | succ k => simp [Nat.mul_add]
    have h5 : prev * (M - 1) ≤ Q * (M - 1) := Nat.mul_le_mul_right _ hp
    rw [u64_of_lt (by omega)] at h
    refine ⟨?_, fun hh => absurd hh (by decide), fun _ => ?_⟩
    · rw [← h]; apply Nat.div_le_of_le_mul; rw [Nat.mul_comm M]; omega
    · rw [← h, Nat.le_div_iff_mul_le hpos]; omega

/-! ### C30: block reward -/

/-- C30. Whenever the final block reward is defined and the sums fit into 64 bits, farmer reward plus
    project reward never exceed the reward plus the fees of the block, and at least half of the fees
    minus the project's share is burned. -/
theorem C30_reward_bounded {p : Params} {reward fees r pr : Nat} (hf : fees < 2 ^ 64)
    (hfit : reward + fees < 2 ^ 64)
    (h : calcFinalBlockReward p reward fees = .ok r) (hp : calcProjectReward p fees = .ok pr) :
    reward ≤ r ∧ r + pr ≤ reward + fees ∧ r = reward + (fees - fees / 2) ∧ pr ≤ fees / 2 := by
  have hle := calcProjectReward_le hp
  unfold calcFinalBlockReward at h
  rw [hp] at h
  simp only [bind_ok, pure_eq, Res.ok.injEq] at h
  rw [sub64_of_le hf (by omega)] at h
  rw [u64_of_lt (by omega)] at h
  omega

/-- C30 (block level). In an accepted chain whose 64-bit sums do not wrap, the coins created by a block
    for its farmer and the project never exceed the previous base reward plus the guaranteed minimum
    reward plus the fees paid in the block; before rewards are activated nothing but the project's
    share of the fees is paid. Afterwards the farmer gets exactly the base reward, the part of the
    minimum reward not covered by the fee buffer, and the fees that are not burned. -/
theorem C30_block_payout {p : Params} (hp : p.Sane) {b prev : Header} {rest : List Header}
    (hmin : p.minReward < 2 ^ 62) (hfees : b.txFees < 2 ^ 62)
    (h : Chain p (b :: prev :: rest)) {pr : Nat} (hpr : calcProjectReward p b.txFees = .ok pr) :
    b.rewardAmount + pr ≤ prev.baseReward + p.minReward + b.txFees ∧
    (b.height < p.rewardActivation → b.rewardAmount = 0) ∧
    (p.rewardActivation ≤ b.height → b.hasReward = true →
      b.rewardAmount = prev.baseReward + (p.minReward - calcMinRewardDeduction prev.txfeeBuffer) +
        (b.txFees - b.txFees / 2)) := by
  cases h with
  | step hc ht ha =>
    have ih := chain_head hp hc
    obtain ⟨hv, hw⟩ := accept_ok ha
    have hpc := ih.base
    have hle := calcProjectReward_le hpr
    unfold rewardCap at hpc
    cases hr : b.hasReward with
    | false =>
      have h0 := hw.noReward hr
      exact ⟨by omega, fun _ => h0, fun _ hh => absurd hh (by decide)⟩
    | true =>
      have hcb := hw.reward hr
      unfold calcBlockReward at hcb
      rw [if_neg hv.proofs0] at hcb
      by_cases hact : b.height < p.rewardActivation
      · rw [if_pos hact] at hcb
        have h0 := (Res.ok.inj hcb).symm
        exact ⟨by omega, fun _ => h0, fun hh => absurd hact (Nat.not_lt.2 hh)⟩
      · rw [if_neg hact] at hcb
        dsimp only at hcb
        split at hcb
        · rename_i hgt
          rw [u64_of_lt (by omega)] at hcb
          have := C30_reward_bounded (by omega) (by omega) hcb hpr
          exact ⟨by omega, fun hh => absurd hh hact, fun _ _ => by omega⟩
        · have := C30_reward_bounded (by omega) (by omega) hcb hpr
          exact ⟨by omega, fun hh => absurd hh hact, fun _ _ => by omega⟩

/-! ### C31: cost and fee conversion -/

/-- C31. For costs below 2^64 and fee ratios below 2^32 the fee is exactly
    `floor(cost * ratio / 1024)`; the call throws exactly when that does not fit into 64 bits. -/
theorem C31_cost_to_fee_exact {cost ratio : Nat} (hc : cost < 2 ^ 64) (hr : ratio < 2 ^ 32) :
    costToFee cost ratio =
      if cost * ratio / 1024 < 2 ^ 64 then .ok (cost * ratio / 1024) else .throw := by
  have hlt : cost * ratio < 2 ^ 128 := by
    calc cost * ratio ≤ 2 ^ 64 * 2 ^ 32 := Nat.mul_le_mul (by omega) (by omega)
      _ < 2 ^ 128 := by decide
  unfold costToFee
  simp only [u128_of_lt hlt]
  generalize cost * ratio / 1024 = f
  by_cases h : f < 2 ^ 64
  · rw [if_pos h, if_neg (by rw [Nat.div_eq_of_lt h]; simp)]
  · rw [if_neg h, if_pos]
    have := Nat.div_le_div_right (c := 2 ^ 64) (Nat.not_lt.1 h)
    rw [Nat.div_self (by decide)] at this
    omega

/-- C31. For a non-zero fee ratio the affordable cost is exactly `floor(fee * 1024 / ratio)`; the call
    throws exactly when that does not fit into 64 bits. -/
theorem C31_fee_to_cost_exact {fee ratio : Nat} (hc : fee < 2 ^ 64) (hr : ratio ≠ 0) :
    feeToCost fee ratio =
      if fee * 1024 / ratio < 2 ^ 64 then .ok (fee * 1024 / ratio) else .throw := by
  have hlt : fee * 1024 < 2 ^ 128 := by omega
  unfold feeToCost
  rw [if_neg hr]
  simp only [u128_of_lt hlt]
  generalize fee * 1024 / ratio = f
  by_cases h : f < 2 ^ 64
  · rw [if_pos h, if_neg (by rw [Nat.div_eq_of_lt h]; simp)]
  · rw [if_neg h, if_pos]
    have := Nat.div_le_div_right (c := 2 ^ 64) (Nat.not_lt.1 h)
    rw [Nat.div_self (by decide)] at this
    omega

/-- C31. A higher cost never costs less. -/
theorem C31_cost_to_fee_mono {c1 c2 ratio f1 f2 : Nat} (h2 : c2 < 2 ^ 64) (hr : ratio < 2 ^ 32)
    (hle : c1 ≤ c2) (e1 : costToFee c1 ratio = .ok f1) (e2 : costToFee c2 ratio = .ok f2) :
    f1 ≤ f2 := by
  rw [C31_cost_to_fee_exact (by omega) hr] at e1
  rw [C31_cost_to_fee_exact h2 hr] at e2
  split at e1 <;> simp at e1
  split at e2 <;> simp at e2
  subst e1 e2
  exact Nat.div_le_div_right (Nat.mul_le_mul_right _ hle)

/-- C31. A higher fee never affords less. -/
theorem C31_fee_to_cost_mono {f1 f2 ratio c1 c2 : Nat} (h2 : f2 < 2 ^ 64) (hr : ratio ≠ 0)
    (hle : f1 ≤ f2) (e1 : feeToCost f1 ratio = .ok c1) (e2 : feeToCost f2 ratio = .ok c2) :
    c1 ≤ c2 := by
  rw [C31_fee_to_cost_exact (by omega) hr] at e1
  rw [C31_fee_to_cost_exact h2 hr] at e2
  split at e1 <;> simp at e1
  split at e2 <;> simp at e2
  subst e1 e2
  exact Nat.div_le_div_right (Nat.mul_le_mul_right _ hle)

/-- C31. The cost affordable with a fee never costs more than that fee (so the gas limit derived from
    `max_fee_amount` is always paid for), and one cost unit more would cost more than the fee minus
    the price of one unit. -/
theorem C31_round_trip {fee ratio cost : Nat} (hc : fee < 2 ^ 64) (hr : ratio ≠ 0)
    (hr2 : ratio < 2 ^ 32) (h : feeToCost fee ratio = .ok cost) :
    ∃ f, costToFee cost ratio = .ok f ∧ f ≤ fee ∧ fee * 1024 < (cost + 1) * ratio := by
  rw [C31_fee_to_cost_exact hc hr] at h
  split at h
  · rename_i hlt
    have he := (Res.ok.inj h).symm
    have hmul : cost * ratio ≤ fee * 1024 := by rw [he]; exact Nat.div_mul_le_self _ _
    have hd : cost * ratio / 1024 ≤ fee := by
      apply Nat.div_le_of_le_mul; omega
    refine ⟨cost * ratio / 1024, ?_, hd, ?_⟩
    · rw [C31_cost_to_fee_exact (by omega) hr2, if_pos (by omega)]
    · rw [he]
      have := Nat.lt_div_mul_add (a := fee * 1024) (b := ratio) (by omega)
      rw [Nat.add_mul, Nat.one_mul]
      exact this
  · cases h

/-- C31, boundary case. A fee ratio of zero is outside both statements: the division is undefined. -/
theorem C31_zero_ratio_undefined (fee : Nat) : feeToCost fee 0 = .ub := by
  unfold feeToCost; rw [if_pos rfl]

/-! ### C45: accumulated header fields are what they claim to be -/

/-- C45. In every accepted chain the fields of the newest header summarise the chain exactly:
    height is the position, the space fork fields are the sums over the blocks since the last fork,
    the vote fields count the votes of the running period (whose length is at most one interval), and
    the total weight is the sum of all block weights. -/
theorem C45_accumulators {p : Params} (hp : p.Sane) {b : Header} {rest : List Header}
    (h : Chain p (b :: rest)) :
    b.height = rest.length % 2 ^ 32 ∧
    b.spaceForkLen = sumNat (·.vdfCount) (sinceFork (b :: rest)) ∧
    b.spaceForkProofs = sumNat (·.proofs) (sinceFork (b :: rest)) ∧
    b.rewardVoteCount =
      upVotes (sinceAdjust p (b :: rest)) + downVotes (sinceAdjust p (b :: rest)) ∧
    b.rewardVoteSum =
      (upVotes (sinceAdjust p (b :: rest)) : Int) - downVotes (sinceAdjust p (b :: rest)) ∧
    (sinceAdjust p (b :: rest)).length ≤ p.rewardAdjustInterval ∧
    b.totalWeight = sumNat (·.weight) (b :: rest) % 2 ^ 128 := by
  have hi := chain_head hp h
  refine ⟨hi.height, hi.len, hi.proofs, hi.votes, hi.voteSum, ?_, hi.total⟩
  rw [hi.period]
  exact Nat.mod_lt _ hp.interval

/-- C45 (fee buffer). As long as all fees of the chain together fit into 64 bits, everything paid into
    the fee buffer is either still there or has been paid out: nothing is lost or created. -/
theorem C45_fee_buffer_conserved {p : Params} (hp : p.Sane) {b : Header} {rest : List Header}
    (h : Chain p (b :: rest)) (hsum : sumNat (·.txFees) rest < 2 ^ 64) :
    b.txfeeBuffer + sumNat (fun x => calcMinRewardDeduction x.txfeeBuffer) rest =
      sumNat (·.txFees) rest :=
  (chain_head hp h).feeSum hsum

/-! ### C46: time stamps -/

/-- C46. Time stamps of an accepted chain are non-negative and advance by at least half and at most
    twice the nominal duration of the blocks covered; with a block interval of at least 2 ms they
    strictly increase. -/
theorem C46_time_stamps {p : Params} (hp : p.Sane) {b prev : Header} {rest : List Header}
    (h : Chain p (b :: prev :: rest)) :
    0 ≤ prev.timeStamp ∧
    prev.timeStamp + (b.vdfCount * p.blockIntervalMs / 2 : Nat) ≤ b.timeStamp ∧
    b.timeStamp ≤ prev.timeStamp + (b.vdfCount * p.blockIntervalMs * 2 : Nat) ∧
    (2 ≤ p.blockIntervalMs → prev.timeStamp < b.timeStamp) := by
  cases h with
  | step hc ht ha =>
    have ih := chain_head hp hc
    obtain ⟨hv, hw⟩ := accept_ok ha
    have h1 := hw.stampLo
    have h2 := hw.stampHi
    refine ⟨ih.stamp, by omega, by omega, fun hms => ?_⟩
    have hv1 : 1 ≤ b.vdfCount := by
      have hq := hv.weight
      unfold calcBlockWeight at hq
      rw [if_neg hv.proofs0] at hq
      simp only [defd_bind] at hq
      have := hq.1
      omega
    have : 2 ≤ b.vdfCount * p.blockIntervalMs := Nat.le_trans hms (Nat.le_mul_of_pos_left _ hv1)
    omega

/-! ### C47: forced space forks -/

/-- C47. After hardfork 2 the length of a space fork is bounded by the forced infusion rule, so the
    chain can never run into the "space fork too long" rejection (given that one block cannot exceed
    the bound by itself). -/
theorem C47_forced_fork {p : Params} (hp : p.Sane) {b prev : Header} {rest : List Header}
    (h : Chain p (b :: prev :: rest)) (hh : p.hardfork2Height ≤ b.height)
    (hv : p.maxVdfCount ≤ p.maxSpaceForkLen * p.challengeInterval) :
    b.spaceForkLen ≤ p.maxSpaceForkLen * p.challengeInterval := by
  cases h with
  | step hc ht ha =>
    have ih := chain_head hp hc
    obtain ⟨hvp, hw⟩ := accept_ok ha
    obtain ⟨hs1, hs2, hs3⟩ := hvp.space
    have hvc := hvp.vdfCount
    cases hf : b.isSpaceFork with
    | true => rw [(hs2 hf).2.1]; omega
    | false =>
      rw [hf] at hs1
      unfold nextIsFork at hs1
      rw [u32_of_lt hp.forkLen, ← hw.height] at hs1
      rw [(hs3 hf).2.1]
      simp only [ge_iff_le, decide_eq_true hh, Bool.and_true] at hs1
      have hs1' := hs1.symm
      rw [Bool.or_eq_false_iff] at hs1'
      have := hs1'.2
      simp at this
      exact this

/-! ### C48: a node's own blocks pass its own checks -/

/-- C48. On top of every accepted chain, a block assembled by `make_block` passes all modelled header
    checks, whatever the clock, the floating point time difficulty, the votes and the number of proofs
    found, provided: the iteration count is the demanded one, fees and costs are within the block
    limits, a reward address is present, and the space fork is not already overdue
    (which cannot happen after hardfork 2, see `C47_forced_fork`). -/
theorem C48_own_block_accepted {p : Params} (hp : p.Sane) {e : Env} {prev b : Header}
    {rest : List Header} {x : BlockInput} (h : Chain p (prev :: rest))
    (hb : makeBlock p e prev x = .ok (some b))
    (hmp : 1 ≤ p.maxProofCount)
    (hiters : e.expectedIters = u64 (prev.vdfIters + x.iters)) (hother : e.other = true)
    (hvdf : x.vdfPoints ≤ p.maxVdfCount) (htd : prev.timeDiff < 2 ^ 63)
    (hvote : -1 ≤ x.vote ∧ x.vote ≤ 1) (hsize : x.staticCost ≤ p.maxBlockSize)
    (hcost : x.totalCost ≤ p.maxBlockCost) (hrew : x.hasReward = true)
    (hlen : nextIsFork p e prev b = true ∨
      prev.spaceForkLen + x.vdfPoints ≤ p.challengeInterval * 100)
    (hlen1 : x.vdfPoints ≤ p.challengeInterval * 100) :
    accept p e prev b = .ok () := by
  have ih := chain_head hp h
  obtain ⟨m1, m2, m3, m4, m5, m6, m7, m8, m9, m10, m11, m12, m13, m14, m15, m16, m17, m18, m19, m20,
    m21, m22, m23, m24⟩ := makeBlock_ok hb
  obtain ⟨t1, t2⟩ := newTimeDiff_ok (cand := x.timeCandidate) hp.adj ih.time htd
  have hts := newTimeStamp_ok (p := p) (prev := prev.timeStamp) (now := x.now) (v := x.vdfPoints)
  have hproofs : b.proofs ≤ p.maxProofCount := by omega
  have hpm := hp.proofs
  have hci : p.challengeInterval * 100 < 2 ^ 32 := by have := hp.vdf; omega
  have hforkProofs : prev.spaceForkProofs + b.proofs < 2 ^ 32 := by
    have h1 := ih.proofsLe
    have h2 := ih.lenLe
    have h3 : p.maxProofCount * prev.spaceForkLen ≤ p.maxProofCount * (p.challengeInterval * 100) :=
      Nat.mul_le_mul_left _ h2
    have h4 := hp.proofSum
    rw [Nat.mul_add] at h4
    omega
  have hsp : b.spaceDiff ≠ 0 := by
    cases hf : b.isSpaceFork with
    | true =>
      have := (spaceDiff_step hp ih.space1 ih.spaceLt ih.lenLe ih.proofsLe (m22 hf).1).1
      omega
    | false => rw [(m23 hf).1]; have := ih.space1; omega
  have hps : ProofStep p e prev b := by
    refine ⟨by rw [m8]; exact hvdf, by rw [m8]; exact m5, by omega, hproofs, by rw [hiters, m9],
      by rw [m7]; exact t1, by rw [m7]; exact t2, ⟨m18, ?_, ?_⟩, m19, m20⟩
    · intro hf
      obtain ⟨a1, a2, a3⟩ := m22 hf
      exact ⟨a1, a2, by rw [a3]; exact u32_of_lt (by omega)⟩
    · intro hf
      obtain ⟨a1, a2, a3⟩ := m23 hf
      exact ⟨a1, a2, by rw [a3]; exact u32_of_lt hforkProofs⟩
  have hvs : ValidStep p prev b := by
    refine ⟨⟨fun _ => ⟨by omega, by omega⟩, .inr (by rw [m11]; exact hrew)⟩, m4, ?_, ?_, ?_, ?_, hsp,
      by omega, by omega, m17, by rw [m12]; exact hvote, ?_, m24, m16, fun _ => m21, ?_⟩
    · rw [u32_of_lt hci]
      cases hf : b.isSpaceFork with
      | true => rw [(m22 hf).2.1, m8]; exact hlen1
      | false =>
        rw [(m23 hf).2.1, m8]
        rcases hlen with hl | hl
        · rw [m18, hl] at hf; cases hf
        · rw [u32_of_lt (by omega)]; exact hl
    · rw [m6]; have := ih.stamp; omega
    · rw [m6, m8]; exact hts.2
    · rw [m6, m8]; exact hts.1
    · intro hh
      by_cases hm : b.height % p.vdfRewardInterval = 0
      · exact hm
      · rw [m13, ← m4, if_neg hm] at hh; cases hh
    · intro hh; rw [m11, hrew] at hh; cases hh
  unfold accept
  rw [verifyProof_of hps]
  refine validate_of hvs hps.timeDiff m3 (by have := hp.interval; omega) hother ?_
  rw [m13, ← m4]
  split <;> rfl

/-- C48, totality. With sane parameters block creation on top of an accepted chain never runs into
    undefined behaviour or an exception. -/
theorem C48_block_creation_defined {p : Params} (hp : p.Sane) {e : Env} {prev : Header}
    {rest : List Header} {x : BlockInput} (h : Chain p (prev :: rest))
    (htc : p.timeDiffConstant ≠ 0) (hvi : p.vdfRewardInterval ≠ 0) :
    ∃ r, makeBlock p e prev x = .ok r := by
  have ih := chain_head hp h
  unfold makeBlock
  by_cases hc : x.vdfPoints = 0 ∨ x.proofsFound = 0
  · rw [if_pos hc]; exact ⟨_, rfl⟩
  · rw [if_neg hc, defd_true hvi]
    have hv : x.vdfPoints ≠ 0 := fun hh => hc (.inl hh)
    refine bind_def ⟨(), rfl⟩ fun _ => ?_
    refine bind_def (calcBlockWeight_def (by exact hv) htc) fun w => ?_
    refine bind_def (calcBlockReward_def hp.inv) fun r => ?_
    refine bind_def (setSpaceDiff_def ?_) fun b1 => ?_
    · intro _
      refine calcNewSpaceDiff_def hp.avg ?_
      exact Nat.lt_of_le_of_lt (Nat.mul_le_mul_right _ ih.lenLe) hp.expected
    refine bind_def (setBaseReward_def hp.interval ?_) fun b2 => ⟨_, rfl⟩
    exact calcNewBaseReward_def hp.div hp.tick ih.base

/-! ### Concrete cases -/

theorem mainnet_sane : mainnet.Sane := by
  constructor <;> decide

/-! ### Concrete cases -/


/-- A block on top of `prev` as the node would make it (genesis if it would not make one). -/
def mk (p : Params) (e : Env) (prev : Header) (x : BlockInput) : Header :=
  match makeBlock p e prev x with
  | .ok (some b) => b
  | _ => genesis p

def demoEnv (prev : Header) (x : BlockInput) (fork : Bool) : Env :=
  { hashFork := fork, expectedIters := u64 (prev.vdfIters + x.iters), vdfWinner := true, other := true }

def demoInput (vdf proofs : Nat) (vote : Int) : BlockInput where
  vdfPoints := vdf
  iters := 600 * 1000000 * vdf
  proofsFound := proofs
  difficulty := 100
  timeCandidate := some (some 70000)
  now := 1737119445000
  vote := vote
  txCount := 0
  txFees := 0
  staticCost := 0
  totalCost := 0
  hasReward := true

def demo1 : Header := mk mainnet (demoEnv (genesis mainnet) (demoInput 1 30 1) false)
  (genesis mainnet) (demoInput 1 30 1)
def demo2 : Header := mk mainnet (demoEnv demo1 (demoInput 2 3 (-1)) true) demo1 (demoInput 2 3 (-1))
def demo3 : Header := mk mainnet (demoEnv demo2 (demoInput 1 1 0) false) demo2 (demoInput 1 1 0)

/-- The hypotheses of the chain theorems are met by a chain of three blocks on mainnet parameters,
    with a space fork that raises the difficulty (20 proofs found where 4 were expected), votes both
    ways and a growing time difficulty. -/
theorem demo_chain : Chain mainnet [demo3, demo2, demo1, genesis mainnet] := by
  refine .step (e := demoEnv demo2 (demoInput 1 1 0) false)
    (.step (e := demoEnv demo1 (demoInput 2 3 (-1)) true)
      (.step (e := demoEnv (genesis mainnet) (demoInput 1 30 1) false) .genesis ?_ ?_) ?_ ?_) ?_ ?_
  · constructor <;> decide +kernel
  · decide +kernel
  · constructor <;> decide +kernel
  · decide +kernel
  · constructor <;> decide +kernel
  · decide +kernel

example : demo1.spaceDiff = 100 ∧ demo2.spaceDiff = 101 ∧ demo2.isSpaceFork = true ∧
    demo1.timeDiff = 60058 ∧ demo3.spaceForkLen = 3 ∧ demo3.spaceForkProofs = 4 ∧
    demo3.rewardVoteSum = 0 ∧ demo3.rewardVoteCount = 2 := by decide +kernel

/-- Non-vacuity of the base reward statement: a full voting period with a majority of up-votes raises
    the reward by one step, a majority of down-votes lowers it, a missing quorum leaves it. -/
example : calcNewBaseReward mainnet 500000000 5000 1 = .ok 505000000 ∧
    calcNewBaseReward mainnet 500000000 5000 (-1) = .ok 495000000 ∧
    calcNewBaseReward mainnet 500000000 4319 77 = .ok 500000000 ∧
    calcNewBaseReward mainnet 5000 5000 (-1) = .ok 0 ∧
    calcNewBaseReward mainnet 4199999999999 5000 1 = .ok 4200000000000 := by decide +kernel

example : calcFinalBlockReward mainnet 1000000 300001 = .ok 1150001 ∧
    calcProjectReward mainnet 300001 = .ok 53000 := by decide +kernel

example : feeToCost 4294967295 1024 = .ok 4294967295 ∧ costToFee 4294967295 1025 = .ok 4299161598 ∧
    costToFee (2 ^ 64 - 1) 2048 = .throw ∧ feeToCost (2 ^ 63) 1 = .throw := by decide +kernel

end Verif.Chain
