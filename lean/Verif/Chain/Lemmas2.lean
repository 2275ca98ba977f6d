import Verif.Chain.Lemmas
/-
  Invariants of accepted header chains.
-/
namespace Verif.Chain
open Res

theorem sumNat_cons (f : Header → Nat) (b : Header) (l : List Header) :
    sumNat f (b :: l) = f b + sumNat f l := by simp [sumNat]

theorem sumInt_cons (f : Header → Int) (b : Header) (l : List Header) :
    sumInt f (b :: l) = f b + sumInt f l := by simp [sumInt]

theorem since_hit {q : Header → Bool} {b : Header} {l : List Header} (h : q b = true) :
    since q (b :: l) = [b] := by simp [since, h]

theorem since_miss {q : Header → Bool} {b : Header} {l : List Header} (h : q b = false) :
    since q (b :: l) = b :: since q l := by simp [since, h]

theorem vote_cases {v : Int} (h : -1 ≤ v ∧ v ≤ 1) : v = -1 ∨ v = 0 ∨ v = 1 := by omega

theorem upVotes_cons (b : Header) (l : List Header) :
    upVotes (b :: l) = (if b.rewardVote = 1 then 1 else 0) + upVotes l := by
  unfold upVotes; rw [List.countP_cons]; simp only [beq_iff_eq]; omega

theorem downVotes_cons (b : Header) (l : List Header) :
    downVotes (b :: l) = (if b.rewardVote = -1 then 1 else 0) + downVotes l := by
  unfold downVotes; rw [List.countP_cons]; simp only [beq_iff_eq]; omega

/-- Invariant of the newest header `b` of an accepted chain `b :: rest`. -/
structure HInv (p : Params) (b : Header) (rest : List Header) : Prop where
  height : b.height = rest.length % 2 ^ 32
  space1 : 1 ≤ b.spaceDiff
  spaceLt : b.spaceDiff < 2 ^ 63
  time : p.timeDiffDivider ≤ b.timeDiff
  len : b.spaceForkLen = sumNat (·.vdfCount) (sinceFork (b :: rest))
  lenLe : b.spaceForkLen ≤ p.challengeInterval * 100
  proofs : b.spaceForkProofs = sumNat (·.proofs) (sinceFork (b :: rest))
  proofsLe : b.spaceForkProofs ≤ p.maxProofCount * b.spaceForkLen
  lenPos : rest ≠ [] → b.spaceForkLen ≠ 0
  base : (b.baseReward : Int) ≤ rewardCap
  period : (sinceAdjust p (b :: rest)).length = b.height % p.rewardAdjustInterval + 1
  votes : b.rewardVoteCount = upVotes (sinceAdjust p (b :: rest)) + downVotes (sinceAdjust p (b :: rest))
  voteSum : b.rewardVoteSum =
    (upVotes (sinceAdjust p (b :: rest)) : Int) - downVotes (sinceAdjust p (b :: rest))
  buffer : b.txfeeBuffer < 2 ^ 64
  fees : b.txFees < 2 ^ 64
  feeSum : sumNat (·.txFees) rest < 2 ^ 64 →
    b.txfeeBuffer + sumNat (fun x => calcMinRewardDeduction x.txfeeBuffer) rest =
      sumNat (·.txFees) rest
  total : b.totalWeight = sumNat (·.weight) (b :: rest) % 2 ^ 128
  stamp : 0 ≤ b.timeStamp

theorem votes_le (l : List Header) : upVotes l + downVotes l ≤ l.length := by
  induction l with
  | nil => simp [upVotes, downVotes]
  | cons b l ih =>
    rw [upVotes_cons, downVotes_cons, List.length_cons]
    split <;> split <;> omega

theorem hinv_genesis {p : Params} (hp : p.Sane) : HInv p (genesis p) [] := by
  have hs := hp.space
  have ht := hp.time
  have htl := hp.timeLt
  have hsl := hp.spaceLt
  refine ⟨?_, ?_, ?_, ?_, ?_, ?_, ?_, ?_, ?_, ?_, ?_, ?_, ?_, ?_, ?_, ?_, ?_, ?_⟩
  · rfl
  · exact hs
  · show p.initialSpaceDiff < _; omega
  · show _ ≤ u64 (p.initialTimeDiff * p.timeDiffDivider)
    rw [u64_of_lt htl]
    exact Nat.le_mul_of_pos_left _ ht
  · rfl
  · exact Nat.zero_le _
  · rfl
  · exact Nat.zero_le _
  · intro h; exact absurd rfl h
  · show ((0 : Nat) : Int) ≤ rewardCap; unfold rewardCap; omega
  · simp [sinceAdjust, since, genesis]
  · simp [sinceAdjust, since, genesis, upVotes, downVotes]
  · simp [sinceAdjust, since, genesis, upVotes, downVotes]
  · show (0 : Nat) < _; decide
  · show (0 : Nat) < _; decide
  · intro _; simp [sumNat, genesis]
  · simp [sumNat, genesis]
  · show (0 : Int) ≤ (p.initialTimeStamp : Int); omega

theorem height_mod_succ {h i : Nat} (hi : 1 ≤ i) (hne : u32 (h + 1) % i ≠ 0) :
    u32 (h + 1) % i = h % i + 1 ∨ 2 ^ 32 ≤ h := by
  by_cases hl : h + 1 < 2 ^ 32
  · left
    rw [u32_of_lt hl] at *
    rw [Nat.add_mod] at hne ⊢
    have hm : h % i < i := Nat.mod_lt _ hi
    by_cases h1 : i = 1
    · subst h1; simp [Nat.mod_one] at hne
    · rw [Nat.mod_eq_of_lt (show 1 < i by omega)] at hne ⊢
      by_cases hlt : h % i + 1 < i
      · exact Nat.mod_eq_of_lt hlt
      · have : h % i + 1 = i := by omega
        rw [this, Nat.mod_self] at hne
        exact absurd rfl hne
  · by_cases he : h + 1 = 2 ^ 32
    · exfalso; apply hne; unfold u32; rw [he]; simp
    · right; omega

theorem spaceDiff_step {p : Params} (hp : p.Sane) {diff len proofs r : Nat}
    (h1 : 1 ≤ diff) (h63 : diff < 2 ^ 63) (hlen : len ≤ p.challengeInterval * 100)
    (hpr : proofs ≤ p.maxProofCount * len)
    (h : calcNewSpaceDiff p diff len proofs = .ok r) : 1 ≤ r ∧ r < 2 ^ 63 := by
  by_cases hd : diff < 2 ^ 48
  · by_cases hl : len = 0
    · unfold calcNewSpaceDiff at h
      have h48 : diff >>> 48 = 0 := by
        rw [Nat.shiftRight_eq_div_pow]; exact Nat.div_eq_of_lt hd
      rw [if_neg (by simp [h48]), if_pos hl] at h
      cases h; exact ⟨h1, h63⟩
    · have hexp : len * p.avgProofCount < 2 ^ 32 :=
        Nat.lt_of_le_of_lt (Nat.mul_le_mul_right _ hlen) hp.expected
      rcases calcNewSpaceDiff_ok hd hl hexp hpr hp.proofs hp.avg h with ⟨_, hr, hle, hlt⟩ | ⟨_, hr, _⟩
      · generalize diff * proofs / (len * p.avgProofCount) = T at *
        have hdv : (T - diff) / max (u32 (16 * p.challengeInterval) / len) 1 ≤ T - diff :=
          Nat.div_le_self _ _
        omega
      · omega
  · unfold calcNewSpaceDiff at h
    have h48 : diff >>> 48 ≠ 0 := by
      rw [Nat.shiftRight_eq_div_pow]
      have := Nat.div_le_div_right (c := 2 ^ 48) (Nat.not_lt.1 hd)
      rw [Nat.div_self (by decide)] at this
      omega
    rw [if_pos h48] at h
    rw [sub64_of_le (by omega) (Nat.div_le_self _ _)] at h
    cases h
    omega

theorem hinv_step {p : Params} (hp : p.Sane) {e : Env} {b prev : Header} {rest : List Header}
    (ih : HInv p prev rest) (ht : b.Typed) (h : accept p e prev b = .ok ()) :
    HInv p b (prev :: rest) := by
  obtain ⟨hv, hw⟩ := accept_ok h
  obtain ⟨hs1, hs2, hs3⟩ := hv.space
  obtain ⟨hb1, hb2⟩ := hw.base
  have hci : u32 (p.challengeInterval * 100) = p.challengeInterval * 100 := by
    apply u32_of_lt
    exact Nat.lt_of_le_of_lt (Nat.le_mul_of_pos_right _ hp.avg) hp.expected
  have hci2 : p.challengeInterval * 100 < 2 ^ 32 := by rw [← hci]; exact u32_lt _
  have hv1 : b.vdfCount ≠ 0 := by
    rcases Nat.eq_zero_or_pos b.height with h0 | h0
    · -- height wrapped to zero: the check still demands a positive weight divisor
      intro hc
      have := hv.weight
      unfold calcBlockWeight at this
      rw [if_neg hv.proofs0] at this
      simp only [defd_bind] at this
      exact this.1 hc
    · have := (hw.valid.1 (by omega)).2; omega
  have hpv : b.proofs ≤ p.maxProofCount * b.vdfCount :=
    Nat.le_trans hv.proofs (Nat.le_mul_of_pos_right _ (by omega))
  have hforkLen : b.isSpaceFork = false →
      b.spaceForkLen = prev.spaceForkLen + b.vdfCount := by
    intro hf
    rw [(hs3 hf).2.1]
    apply u32_of_lt
    have := ih.lenLe; have := hv.vdfCount; have := hp.vdf
    omega
  have hht : b.height = (prev :: rest).length % 2 ^ 32 := by
    rw [hw.height, ih.height, List.length_cons]; unfold u32; omega
  have hvc := vote_cases hw.vote
  refine ⟨hht, ?_, ?_, hv.timeDiff, ?_, ?_, ?_, ?_, ?_, ?_, ?_, ?_, ?_, ?_, ht.txFees, ?_, ?_, hw.stamp⟩
  · have := hw.space; omega
  · cases hf : b.isSpaceFork with
    | true => exact (spaceDiff_step hp ih.space1 ih.spaceLt ih.lenLe ih.proofsLe (hs2 hf).1).2
    | false => rw [(hs3 hf).1]; exact ih.spaceLt
  · cases hf : b.isSpaceFork with
    | true =>
      rw [(hs2 hf).2.1]
      unfold sinceFork; rw [since_hit hf, sumNat_cons]; simp [sumNat]
    | false =>
      rw [hforkLen hf, ih.len]
      unfold sinceFork; rw [since_miss (b := b) hf, sumNat_cons]; exact Nat.add_comm _ _
  · rw [← hci]; exact hw.forkLen
  · cases hf : b.isSpaceFork with
    | true =>
      rw [(hs2 hf).2.2]
      unfold sinceFork; rw [since_hit hf, sumNat_cons]; simp [sumNat]
    | false =>
      rw [(hs3 hf).2.2, ih.proofs]
      unfold sinceFork; rw [since_miss (b := b) hf, sumNat_cons]; exact Nat.add_comm _ _
  · cases hf : b.isSpaceFork with
    | true => rw [(hs2 hf).2.2, (hs2 hf).2.1]; exact hpv
    | false =>
      rw [(hs3 hf).2.2, hforkLen hf, Nat.mul_add]
      exact Nat.add_le_add ih.proofsLe hpv
  · intro _
    cases hf : b.isSpaceFork with
    | true => rw [(hs2 hf).2.1]; exact hv1
    | false => rw [hforkLen hf]; omega
  · by_cases hm : b.height % p.rewardAdjustInterval = 0
    · exact calcNewBaseReward_cap ih.base hp.tick (hb1 hm).1
    · rw [(hb2 hm).1]; exact ih.base
  · by_cases hm : b.height % p.rewardAdjustInterval = 0
    · unfold sinceAdjust; rw [since_hit (by simpa using hm), hm]; rfl
    · have hper := ih.period
      unfold sinceAdjust at hper ⊢
      rw [since_miss (b := b) (by simpa using hm), List.length_cons, hper]
      rw [hw.height] at hm ⊢
      rcases height_mod_succ hp.interval hm with h1 | h1
      · omega
      · have := ih.height; omega
  · by_cases hm : b.height % p.rewardAdjustInterval = 0
    · rw [(hb1 hm).2.2]
      unfold sinceAdjust; rw [since_hit (by simpa using hm), upVotes_cons, downVotes_cons]
      rcases hvc with h1 | h1 | h1 <;> simp [h1, upVotes, downVotes]
    · rw [(hb2 hm).2.2]
      have hle := votes_le (sinceAdjust p (prev :: rest))
      have hper := ih.period
      have hmod : prev.height % p.rewardAdjustInterval < p.rewardAdjustInterval :=
        Nat.mod_lt _ hp.interval
      have hvv := ih.votes
      have hil := hp.intervalLt
      have hsm : (if b.rewardVote ≠ 0 then 1 else 0 : Nat) ≤ 1 := by split <;> omega
      have hprev : prev.rewardVoteCount + (if b.rewardVote ≠ 0 then 1 else 0) < 2 ^ 32 := by
        rw [hw.height] at hm
        rcases height_mod_succ hp.interval hm with h1 | h1
        · have : u32 (prev.height + 1) % p.rewardAdjustInterval < p.rewardAdjustInterval :=
            Nat.mod_lt _ hp.interval
          omega
        · have := ih.height; omega
      rw [u32_of_lt hprev, hvv]
      unfold sinceAdjust
      rw [since_miss (b := b) (by simpa using hm), upVotes_cons, downVotes_cons]
      rcases hvc with h1 | h1 | h1 <;> simp [h1] <;> omega
  · by_cases hm : b.height % p.rewardAdjustInterval = 0
    · rw [(hb1 hm).2.1]
      unfold sinceAdjust; rw [since_hit (by simpa using hm), upVotes_cons, downVotes_cons]
      rcases hvc with h1 | h1 | h1 <;> simp [h1, upVotes, downVotes]
    · rw [(hb2 hm).2.1, ih.voteSum]
      unfold sinceAdjust
      rw [since_miss (b := b) (by simpa using hm), upVotes_cons, downVotes_cons]
      rcases hvc with h1 | h1 | h1 <;> simp [h1] <;> omega
  · rw [hw.buffer]; exact u64_lt _
  · intro hsum
    rw [sumNat_cons] at hsum ⊢
    rw [sumNat_cons, hw.buffer, calcNewTxfeeBuffer_eq ih.buffer]
    have := ih.feeSum (by omega)
    have hd := deduction_le prev.txfeeBuffer
    rw [Nat.mod_eq_of_lt (by omega)]
    omega
  · rw [hv.total, ih.total, sumNat_cons, sumNat_cons, sumNat_cons]; unfold u128; omega

theorem chain_inv {p : Params} (hp : p.Sane) {l : List Header} (h : Chain p l) :
    ∃ b rest, l = b :: rest ∧ HInv p b rest := by
  induction h with
  | genesis => exact ⟨_, _, rfl, hinv_genesis hp⟩
  | step hc ht ha ih =>
    obtain ⟨b', rest', he, hi⟩ := ih
    cases he
    exact ⟨_, _, rfl, hinv_step hp hi ht ha⟩

theorem chain_head {p : Params} (hp : p.Sane) {b : Header} {rest : List Header}
    (h : Chain p (b :: rest)) : HInv p b rest := by
  obtain ⟨b', rest', he, hi⟩ := chain_inv hp h
  cases he; exact hi

end Verif.Chain
