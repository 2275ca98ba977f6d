import Verif.Pos.PropsTables
/-
  C105: what proof of space a node accepts.
-/
namespace Verif.Pos

/-! ### the threshold -/

/-- Qualities below this are good enough. It grows with `ksize` and falls with the difficulty: a
    fraction `(2 k + 1) 2^(k - 1) / (2 d c)` of all qualities, after the filter, is good enough. -/
def limit (p : Params) (ksize spaceDiff : Nat) (hardFork : Bool) : Nat :=
  2 ^ 255 / (spaceDiff * p.spaceDiffConstant) * (2 * ksize + 1) * 2 ^ (ksize - 1) *
    2 ^ (if hardFork then p.postFilter else 0)

theorem shift_lt {q n t : Nat} : q >>> n < t ↔ q < t * 2 ^ n := by
  rw [Nat.shiftRight_eq_div_pow]
  exact Nat.div_lt_iff_lt_mul (Nat.two_pow_pos n)

/-- **C105.** For difficulties and a constant of 64 bits, none zero, the comparison does not overflow and
    says that the quality is below the limit. -/
theorem C105_threshold {p : Params} {ksize quality spaceDiff : Nat} {hardFork : Bool} (hk : 0 < ksize)
    (hk' : ksize ≤ 32) (hd : 0 < spaceDiff) (hd' : spaceDiff < 2 ^ 64) (hc : 33 ≤ p.spaceDiffConstant)
    (hc' : p.spaceDiffConstant < 2 ^ 64) :
    thresholdOk p ksize quality spaceDiff hardFork
      = .ok (decide (quality < limit p ksize spaceDiff hardFork)) := by
  have hm : spaceDiff * p.spaceDiffConstant < 2 ^ 128 :=
    Nat.lt_of_lt_of_le (Nat.mul_lt_mul'' hd' hc') (by decide)
  have hge : 33 ≤ spaceDiff * p.spaceDiffConstant :=
    Nat.le_trans hc (Nat.le_mul_of_pos_left _ hd)
  have hq : 2 ^ 255 / (spaceDiff * p.spaceDiffConstant) ≤ 2 ^ 255 / 33 :=
    Nat.div_le_div_left hge (by decide)
  have ht : 2 ^ 255 / (spaceDiff * p.spaceDiffConstant) * (2 * ksize + 1) < 2 ^ 256 :=
    Nat.lt_of_le_of_lt (Nat.mul_le_mul hq (by omega : 2 * ksize + 1 ≤ 65)) (by decide +kernel)
  have h1 : (Res.defd (spaceDiff * p.spaceDiffConstant ≠ 0) : Res Unit) = .ok () := by
    unfold Res.defd; rw [if_pos (by omega)]
  have h2 : (Res.defd (0 < ksize) : Res Unit) = .ok () := by
    unfold Res.defd; rw [if_pos hk]
  unfold thresholdOk
  rw [if_neg (by omega), u128_of_lt hm, u256_of_lt ht, h1, Res.bind_ok]
  dsimp only
  rw [h2, Res.bind_ok]
  congr 1
  rw [decide_eq_decide]
  unfold limit
  cases hardFork with
  | true =>
    rw [if_pos rfl, if_pos rfl, shift_lt, shift_lt]
  | false =>
    rw [if_neg (by decide), if_neg (by decide), shift_lt, Nat.pow_zero, Nat.mul_one]

/-- **C105.** What is good enough at a difficulty is good enough at every lower one. -/
theorem C105_easier {p : Params} {ksize quality d d' : Nat} {hardFork : Bool} (hk : 0 < ksize)
    (hk' : ksize ≤ 32) (hd' : 0 < d') (hle : d' ≤ d) (hd : d < 2 ^ 64) (hc : 33 ≤ p.spaceDiffConstant)
    (hc' : p.spaceDiffConstant < 2 ^ 64) (h : thresholdOk p ksize quality d hardFork = .ok true) :
    thresholdOk p ksize quality d' hardFork = .ok true := by
  rw [C105_threshold hk hk' (by omega) hd hc hc'] at h
  rw [C105_threshold hk hk' hd' (by omega) hc hc']
  have h1 : quality < limit p ksize d hardFork := of_decide_eq_true (Res.ok.inj h)
  congr 1
  refine decide_eq_true (Nat.lt_of_lt_of_le h1 ?_)
  unfold limit
  refine Nat.mul_le_mul_right _ (Nat.mul_le_mul_right _ (Nat.mul_le_mul_right _ ?_))
  exact Nat.div_le_div_left (Nat.mul_le_mul_right _ hle) (Nat.mul_pos hd' (by omega))

/-! ### the node -/

variable {η : Type} [DecidableEq η] {sort : List (List Nat) → List Entry → List Entry}

/-- **C105.** An accepted proof answers the challenge and difficulty that the chain demands, with a plot
    whose id commits to its size, the key of the farmer and the contract, that passed the plot filter;
    it is a tree of the functions of that plot, in the range of the challenge; its quality is below the
    limit; its score is the first byte of its hash. -/
theorem C105_sound {hs : Hashes η} {p : Params} {pr : Proof η} {order : List Nat} {challenge : η}
    {spaceDiff vdfHeight : Nat}
    (hsort : IsSort (hashFns (hs.g1 pr.plotId) hs.h pr.ksize).lt sort) (hd : spaceDiff < 2 ^ 64)
    (hc : 33 ≤ p.spaceDiffConstant) (hc' : p.spaceDiffConstant < 2 ^ 64)
    (h : verifyProof sort hs p pr order challenge spaceDiff vdfHeight = .ok ()) :
    0 < spaceDiff ∧ pr.challenge = challenge ∧ pr.difficulty = spaceDiff ∧
    p.minK ≤ pr.ksize ∧ pr.ksize ≤ p.maxK ∧ 8 ≤ pr.ksize ∧ pr.ksize ≤ 32 ∧
    pr.plotId = hs.plotId pr.ksize pr.seed pr.farmerKey pr.contract ∧
    hs.plotFilter pr.plotId challenge < 2 ^ (256 - p.plotFilter) ∧
    pr.score = hs.proofHash challenge pr.xs % 256 ∧
    ∃ y m, Tree (hashFns (hs.g1 pr.plotId) hs.h pr.ksize) 8 pr.xs y m ∧
      hs.word0 (hs.plotChallenge challenge pr.plotId) % 2 ^ pr.ksize ≤ y ∧
      y < hs.word0 (hs.plotChallenge challenge pr.plotId) % 2 ^ pr.ksize + 2 ^ p.plotFilter ∧
      (p.hardfork1 ≤ vdfHeight →
        hs.postHash (hs.plotChallenge challenge pr.plotId) (m.take 12) < 2 ^ (256 - p.postFilter) ∧
        hs.proofHash (hs.plotChallenge challenge pr.plotId) pr.xs < limit p pr.ksize spaceDiff true) ∧
      (vdfHeight < p.hardfork1 →
        hs.quality (hs.plotChallenge challenge pr.plotId) (m.take 12) < limit p pr.ksize spaceDiff false) := by
  unfold verifyProof at h
  obtain ⟨a1, h⟩ := Res.chk_bind.1 h
  obtain ⟨a2, h⟩ := Res.chk_bind.1 h
  obtain ⟨a3, h⟩ := Res.chk_bind.1 h
  obtain ⟨a4, h⟩ := Res.chk_bind.1 h
  obtain ⟨a5, h⟩ := Res.chk_bind.1 h
  obtain ⟨a6, h⟩ := Res.chk_bind.1 h
  obtain ⟨_, hi, h⟩ := Res.bind_eq_ok.1 h
  have a7 : scoreOf (hs.proofHash challenge pr.xs) = pr.score := by
    unfold Res.chk at h
    by_cases hsc : scoreOf (hs.proofHash challenge pr.xs) = pr.score
    · exact hsc
    · rw [if_neg hsc] at h; cases h
  unfold verifyImpl at hi
  obtain ⟨b1, hi⟩ := Res.chk_bind.1 hi
  obtain ⟨b2, hi⟩ := Res.chk_bind.1 hi
  obtain ⟨b3, hi⟩ := Res.chk_bind.1 hi
  obtain ⟨q, hv, hi⟩ := Res.bind_eq_ok.1 hi
  obtain ⟨good, ht, hi⟩ := Res.bind_eq_ok.1 hi
  have hgood : good = true := by
    unfold Res.chk at hi
    by_cases hg : good = true
    · exact hg
    · rw [if_neg hg] at hi; cases hi
  subst hgood
  have hk : kmask pr.ksize = 2 ^ pr.ksize - 1 := by
    have h32 : (2 : Nat) ^ pr.ksize ≤ 2 ^ 32 := Nat.pow_le_pow_right (by decide) (by omega)
    have hpos := Nat.two_pow_pos pr.ksize
    unfold kmask
    rw [u64_of_lt (by omega), u32_of_lt (by omega)]
  have hf : hs.plotFilter pr.plotId challenge < 2 ^ (256 - p.plotFilter) := by
    unfold plotFilterOk at a6
    rw [beq_iff_eq, Nat.shiftRight_eq_div_pow, Nat.div_eq_zero_iff] at a6
    rcases a6 with a6 | a6
    · exact absurd a6 (Nat.ne_of_gt (Nat.two_pow_pos _))
    · exact a6
  obtain ⟨y, m, ht1, ht2, ht3, ht4, ht5⟩ := C103_sound (good_hashFns _ _ _) hsort hv
  rw [C105_threshold (by omega) (by omega) (by omega) hd hc hc'] at ht
  have hlim := of_decide_eq_true (Res.ok.inj ht)
  refine ⟨by omega, a3, a4, by omega, by omega, by omega, by omega, a5.symm, hf, a7.symm,
    y, m, ht1, ?_, ?_, ?_, ?_⟩
  · rw [← Nat.and_two_pow_sub_one_eq_mod, ← hk]; exact ht2
  · rw [← Nat.and_two_pow_sub_one_eq_mod, ← hk]; exact ht3
  · intro hh
    have hh' : (hs.chal p pr challenge vdfHeight).hardFork = true := decide_eq_true hh
    obtain ⟨c1, c2⟩ := ht4 hh'
    refine ⟨c1, ?_⟩
    rw [decide_eq_true hh, c2] at hlim
    exact hlim
  · intro hh
    have hh' : (hs.chal p pr challenge vdfHeight).hardFork = false := decide_eq_false (by omega)
    have c2 := ht5 hh'
    rw [decide_eq_false (by omega), c2] at hlim
    exact hlim

/-! ### a concrete case -/

/-- Toy hashes. -/
def exHashes : Hashes Nat :=
  { plotFilter := fun id c => id + c
    plotChallenge := fun c _ => c
    word0 := fun c => c * 2 ^ 29
    postHash := fun _ m => word m 1
    proofHash := fun c l => c + 7 * l.length
    quality := fun _ m => word m 2
    plotId := fun k s f _ => k + s + f
    g1 := fun _ => toyG1 (2 ^ 29)
    h := toyH }

def exParams : Params :=
  { minK := 29, maxK := 32, plotFilter := 4, postFilter := 10, spaceDiffConstant := 100000000000
    hardfork1 := 100 }

def exProof : Proof Nat :=
  { score := 5, plotId := 42, challenge := 5, difficulty := 1000, farmerKey := 6, ksize := 29, seed := 7
    contract := none, xs := (List.range 256).map (2 ^ 29 + ·) }

/-- The case of C105 is not empty. The values of this proof are not below `2^ksize`. -/
example : verifyProof isort exHashes exParams exProof exProof.xs 5 1000 200 = .ok () := by
  decide +kernel

end Verif.Pos
