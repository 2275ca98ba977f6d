import Verif.Chain.Lemmas2
/-
  Converse lemmas: headers meeting the step conditions are accepted; the fields chosen by block creation
  meet them.
-/
namespace Verif.Chain
open Res

theorem chk_true {c : Prop} [Decidable c] (h : c) : chk c = .ok () := chk_ok.2 h
theorem defd_true {c : Prop} [Decidable c] (h : c) : defd c = .ok () := by
  unfold defd; rw [if_pos h]

theorem verifyProof_of {p : Params} {e : Env} {prev b : Header}
    (h : ProofStep p e prev b) : verifyProof p e prev b = .ok () := by
  obtain ⟨hs1, hs2, hs3⟩ := h.space
  unfold verifyProof
  simp only [chk_true h.vdfCount, chk_true h.vdfHeight, chk_true h.proofs0, chk_true h.proofs,
    chk_true h.iters, chk_true (Nat.not_lt.2 h.timeDiff), h.adjust, chk_true hs1, bind_ok]
  rw [← hs1]
  cases hf : b.isSpaceFork with
  | true =>
    obtain ⟨a1, a2, a3⟩ := hs2 hf
    simp only [if_true, a1, bind_ok, chk_true a2, chk_true a3, chk_true h.total, h.weight]
    simp [chk]
  | false =>
    obtain ⟨a1, a2, a3⟩ := hs3 hf
    simp only [Bool.false_eq_true, if_false, chk_true a1, bind_ok, chk_true a2, chk_true a3,
      chk_true h.total, h.weight]
    simp [chk]

theorem validate_of {p : Params} {e : Env} {prev b : Header} (h : ValidStep p prev b)
    (ht : p.timeDiffDivider ≤ b.timeDiff) (hvi : p.vdfRewardInterval ≠ 0)
    (hai : p.rewardAdjustInterval ≠ 0) (ho : e.other = true)
    (hpay : if b.height % p.vdfRewardInterval = 0 then b.hasVdfPayout = e.vdfWinner
      else b.hasVdfPayout = false) :
    validate p e prev b = .ok () := by
  obtain ⟨hb1, hb2⟩ := h.base
  have htx : ¬ (b.height < p.transactionActivation ∧ b.txCount ≠ 0) := fun hh => hh.2 (h.tx hh.1)
  have hsd : ¬ (b.timeDiff < p.timeDiffDivider ∨ b.spaceDiff = 0) := by
    intro hh
    rcases hh with hh | hh
    · omega
    · exact h.space hh
  have htail : (if b.hasReward then (do
        let amount ← calcBlockReward p b prev b.txFees
        Res.chk (b.rewardAmount = amount)) else Res.chk (b.rewardAmount = 0)) = .ok () := by
    cases hr : b.hasReward with
    | true => rw [if_pos rfl, h.reward hr]; simp [chk]
    | false => rw [if_neg (by simp)]; exact chk_true (h.noReward hr)
  unfold validate
  simp only [chk_true h.valid, chk_true h.height, chk_true h.forkLen, chk_true h.stamp,
    chk_true h.stampHi, chk_true (Int.not_lt.2 h.stampLo), chk_true hsd, chk_true h.size,
    chk_true h.cost, chk_true h.buffer, chk_true h.vote, defd_true hvi, chk_true hpay,
    defd_true hai, bind_ok]
  by_cases hm : b.height % p.rewardAdjustInterval = 0
  · obtain ⟨a1, a2, a3⟩ := hb1 hm
    rw [if_pos hm, a1]
    simp only [bind_ok, chk_true a2, chk_true a3, chk_true htx, chk_true ho, htail]
    simp [chk]
  · obtain ⟨a1, a2, a3⟩ := hb2 hm
    rw [if_neg hm]
    simp only [bind_ok, chk_true a1, chk_true a2, chk_true a3, chk_true htx, chk_true ho, htail]

theorem newTimeDiff_ok {p : Params} {prev : Nat} {cand : Option (Option Int)}
    (ha : p.maxDiffAdjust < 64) (hlo : p.timeDiffDivider ≤ prev) (hhi : prev < 2 ^ 63) :
    p.timeDiffDivider ≤ newTimeDiff p prev cand ∧
    validateDiffAdjust p (newTimeDiff p prev cand) prev = .ok () := by
  have hq : prev / 2 ^ p.maxDiffAdjust ≤ prev := Nat.div_le_self _ _
  rw [validateDiffAdjust_ok]
  unfold newTimeDiff
  simp only [Nat.shiftRight_eq_div_pow]
  generalize prev / 2 ^ p.maxDiffAdjust = q at *
  cases cand with
  | none => dsimp only; omega
  | some c =>
    cases c with
    | none =>
      dsimp only
      rw [u64_of_lt (by omega)]
      split <;> omega
    | some x =>
      dsimp only
      rw [u64_of_lt (by omega)]
      split <;> omega

theorem newTimeStamp_ok {p : Params} {prev now : Int} {v : Nat} :
    (v * p.blockIntervalMs / 2 : Nat) ≤ newTimeStamp p prev now v - prev ∧
    newTimeStamp p prev now v - prev ≤ (v * p.blockIntervalMs * 2 : Nat) := by
  unfold newTimeStamp
  dsimp only
  generalize v * p.blockIntervalMs = t
  omega

theorem setSpaceDiff_ok {p : Params} {prev b b' : Header} (h : setSpaceDiff p prev b = .ok b') :
    b' = { b with spaceDiff := b'.spaceDiff, spaceForkLen := b'.spaceForkLen,
                  spaceForkProofs := b'.spaceForkProofs } ∧
    (b.isSpaceFork = true →
      calcNewSpaceDiff p prev.spaceDiff prev.spaceForkLen prev.spaceForkProofs = .ok b'.spaceDiff ∧
      b'.spaceForkLen = b.vdfCount ∧ b'.spaceForkProofs = u32 b.proofs) ∧
    (b.isSpaceFork = false → b'.spaceDiff = prev.spaceDiff ∧
      b'.spaceForkLen = u32 (prev.spaceForkLen + b.vdfCount) ∧
      b'.spaceForkProofs = u32 (prev.spaceForkProofs + b.proofs)) := by
  unfold setSpaceDiff at h
  split at h
  · rename_i hf
    obtain ⟨d, hd, h⟩ := bind_eq_ok.1 h
    have h := Res.ok.inj h
    subst h
    exact ⟨rfl, fun _ => ⟨hd, rfl, rfl⟩, fun hh => by rw [hf] at hh; cases hh⟩
  · rename_i hf
    have h := Res.ok.inj h
    subst h
    exact ⟨rfl, fun hh => absurd hh hf, fun _ => ⟨rfl, rfl, rfl⟩⟩

theorem setBaseReward_ok {p : Params} {prev b b' : Header} (h : setBaseReward p prev b = .ok b') :
    b' = { b with baseReward := b'.baseReward, rewardVoteSum := b'.rewardVoteSum,
                  rewardVoteCount := b'.rewardVoteCount } ∧ RewardStep p prev b' := by
  unfold setBaseReward at h
  simp only [defd_bind] at h
  obtain ⟨_, h⟩ := h
  split at h
  · rename_i hm
    obtain ⟨d, hd, h⟩ := bind_eq_ok.1 h
    have h := Res.ok.inj h
    subst h
    exact ⟨rfl, fun _ => ⟨hd, rfl, rfl⟩, fun hh => absurd hm hh⟩
  · rename_i hm
    have h := Res.ok.inj h
    subst h
    exact ⟨rfl, fun hh => absurd hh hm, fun _ => ⟨rfl, rfl, rfl⟩⟩

/-- The fields of a block made by `make_block`. -/
theorem makeBlock_ok {p : Params} {e : Env} {prev b : Header} {x : BlockInput}
    (h : makeBlock p e prev x = .ok (some b)) :
    x.vdfPoints ≠ 0 ∧ x.proofsFound ≠ 0 ∧ p.vdfRewardInterval ≠ 0 ∧
    b.height = u32 (prev.height + 1) ∧ b.vdfHeight = u32 (prev.vdfHeight + x.vdfPoints) ∧
    b.timeStamp = newTimeStamp p prev.timeStamp x.now x.vdfPoints ∧
    b.timeDiff = newTimeDiff p prev.timeDiff x.timeCandidate ∧
    b.vdfCount = x.vdfPoints ∧ b.vdfIters = u64 (prev.vdfIters + x.iters) ∧
    b.proofs = min x.proofsFound p.maxProofCount ∧
    b.hasReward = x.hasReward ∧ b.rewardVote = x.vote ∧
    b.hasVdfPayout = (if u32 (prev.height + 1) % p.vdfRewardInterval = 0 then e.vdfWinner else false) ∧
    (b.staticCost ≤ x.staticCost) ∧ (b.totalCost ≤ x.totalCost) ∧
    (b.height < p.transactionActivation → b.txCount = 0) ∧
    b.txfeeBuffer = calcNewTxfeeBuffer prev.txfeeBuffer prev.txFees ∧
    b.isSpaceFork = nextIsFork p e prev b ∧
    calcBlockWeight p b prev = .ok b.weight ∧ b.totalWeight = u128 (prev.totalWeight + b.weight) ∧
    calcBlockReward p b prev b.txFees = .ok b.rewardAmount ∧
    (b.isSpaceFork = true →
      calcNewSpaceDiff p prev.spaceDiff prev.spaceForkLen prev.spaceForkProofs = .ok b.spaceDiff ∧
      b.spaceForkLen = b.vdfCount ∧ b.spaceForkProofs = u32 b.proofs) ∧
    (b.isSpaceFork = false → b.spaceDiff = prev.spaceDiff ∧
      b.spaceForkLen = u32 (prev.spaceForkLen + b.vdfCount) ∧
      b.spaceForkProofs = u32 (prev.spaceForkProofs + b.proofs)) ∧
    RewardStep p prev b := by
  unfold makeBlock at h
  split at h
  · cases h
  · rename_i hne
    simp only [defd_bind] at h
    obtain ⟨hvi, h⟩ := h
    obtain ⟨w, hw, h⟩ := bind_eq_ok.1 h
    obtain ⟨r, hr, h⟩ := bind_eq_ok.1 h
    obtain ⟨b1, h1, h⟩ := bind_eq_ok.1 h
    obtain ⟨b2, h2, h⟩ := bind_eq_ok.1 h
    have h := Option.some.inj (Res.ok.inj h)
    subst h
    obtain ⟨e1, f1, f2⟩ := setSpaceDiff_ok h1
    obtain ⟨e2, g⟩ := setBaseReward_ok h2
    rw [e1] at e2
    generalize b2.baseReward = v1 at *
    generalize b2.rewardVoteSum = v2 at *
    generalize b2.rewardVoteCount = v3 at *
    generalize b1.spaceDiff = v4 at *
    generalize b1.spaceForkLen = v5 at *
    generalize b1.spaceForkProofs = v6 at *
    subst e2
    refine ⟨fun hh => hne (.inl hh), fun hh => hne (.inr hh), hvi, rfl, rfl, rfl, rfl, rfl, rfl, rfl, rfl,
      rfl, rfl, ?_, ?_, ?_, rfl, rfl, hw, rfl, hr, f1, f2, g⟩
    · dsimp only; split <;> omega
    · dsimp only; split <;> omega
    · intro hh
      dsimp only at hh ⊢
      rw [if_neg (by simpa using hh)]

theorem bind_def {α β : Type} {x : Res α} {f : α → Res β} (hx : ∃ a, x = .ok a)
    (hf : ∀ a, ∃ r, f a = .ok r) : ∃ r, (x >>= f) = .ok r := by
  obtain ⟨a, rfl⟩ := hx
  exact hf a

theorem calcBlockWeight_def {p : Params} {b prev : Header} (hv : b.vdfCount ≠ 0)
    (ht : p.timeDiffConstant ≠ 0) : ∃ w, calcBlockWeight p b prev = .ok w := by
  unfold calcBlockWeight
  split
  · exact ⟨_, rfl⟩
  · rw [defd_true hv, defd_true ht]; exact ⟨_, rfl⟩

theorem calcBlockReward_def {p : Params} {b prev : Header} {f : Nat} (hi : 1 ≤ p.projectInverse) :
    ∃ r, calcBlockReward p b prev f = .ok r := by
  have : ∀ r, ∃ v, calcFinalBlockReward p r f = .ok v := by
    intro r
    unfold calcFinalBlockReward calcProjectReward
    rw [defd_true (by omega)]
    exact ⟨_, rfl⟩
  unfold calcBlockReward
  split
  · exact ⟨_, rfl⟩
  · split
    · exact ⟨_, rfl⟩
    · exact this _

theorem calcNewSpaceDiff_def {p : Params} {diff len proofs : Nat} (ha : 1 ≤ p.avgProofCount)
    (hlt : len * p.avgProofCount < 2 ^ 32) : ∃ r, calcNewSpaceDiff p diff len proofs = .ok r := by
  unfold calcNewSpaceDiff
  split
  · exact ⟨_, rfl⟩
  · split
    · exact ⟨_, rfl⟩
    · rename_i hl
      have : u32 (len * p.avgProofCount) ≠ 0 := by
        rw [u32_of_lt hlt]
        exact Nat.ne_of_gt (Nat.mul_pos (by omega) ha)
      dsimp only
      rw [defd_true this]
      simp only [bind_ok]
      split <;> exact ⟨_, rfl⟩

theorem setSpaceDiff_def {p : Params} {prev b : Header}
    (h : b.isSpaceFork = true → ∃ d,
      calcNewSpaceDiff p prev.spaceDiff prev.spaceForkLen prev.spaceForkProofs = .ok d) :
    ∃ r, setSpaceDiff p prev b = .ok r := by
  unfold setSpaceDiff
  split
  · rename_i hf
    exact bind_def (h hf) fun d => ⟨_, rfl⟩
  · exact ⟨_, rfl⟩

theorem calcNewBaseReward_def {p : Params} {base cnt : Nat} {sum : Int}
    (hd : 1 ≤ p.rewardAdjustDiv) (ht : p.rewardAdjustTick < 2 ^ 32)
    (hb : (base : Int) ≤ rewardCap) : ∃ r, calcNewBaseReward p base cnt sum = .ok r := by
  unfold calcNewBaseReward
  split
  · exact ⟨_, rfl⟩
  · rw [defd_true (by omega)]
    simp only [bind_ok]
    have hq : base / p.rewardAdjustDiv ≤ base := Nat.div_le_self _ _
    generalize base / p.rewardAdjustDiv = q at *
    have e1 : i64 (q : Int) = q := i64_of (by unfold isI64; unfold rewardCap at hb; omega)
    have e2 : i64 (p.rewardAdjustTick : Int) = p.rewardAdjustTick :=
      i64_of (by unfold isI64; omega)
    have e3 : i64 (base : Int) = base := i64_of (by unfold isI64; unfold rewardCap at hb; omega)
    rw [e1, e2, e3]
    unfold rewardCap at hb
    refine bind_def ?_ fun _ => ⟨_, rfl⟩
    refine ⟨(), defd_true ?_⟩
    unfold isI64
    split
    · omega
    · split <;> omega

theorem setBaseReward_def {p : Params} {prev b : Header} (hi : 1 ≤ p.rewardAdjustInterval)
    (h : ∃ r, calcNewBaseReward p prev.baseReward prev.rewardVoteCount prev.rewardVoteSum = .ok r) :
    ∃ r, setBaseReward p prev b = .ok r := by
  unfold setBaseReward
  rw [defd_true (by omega)]
  simp only [bind_ok]
  split
  · exact bind_def h fun d => ⟨_, rfl⟩
  · exact ⟨_, rfl⟩

end Verif.Chain
