/-
  C133, C134: what a harvester publishes is accepted, and nothing good enough is kept back.
-/
import Verif.Farm.HarvestLemmas

namespace Verif.Farm

open Verif.Pos

variable {η : Type} [DecidableEq η] {hs : Hashes η} {sort sort' : List (List Nat) → List Entry → List Entry}
  {p : Params} {pl : Plot η} {y : Nat → Nat}

/-- A node accepts the proof for the challenge, at its own difficulty. -/
def Accepted (sort : List (List Nat) → List Entry → List Entry) (hs : Hashes η) (p : Params) (c : Challenge η)
    (difficulty : Nat) (pr : Proof η) : Prop :=
  ∀ order, IsOrder 0 pr.xs order → verifyProof sort hs p pr order c.challenge difficulty c.vdfHeight = .ok ()

omit [DecidableEq η] in
theorem post_lt {h n : Nat} (e : h >>> n = 0) : h < 2 ^ n := by
  rw [Nat.shiftRight_eq_div_pow, Nat.div_eq_zero_iff] at e
  rcases e with e | e
  · exact absurd e (Nat.ne_of_gt (Nat.two_pow_pos n))
  · exact e

theorem threshold_pos {p : Params} {k q d : Nat} {hf : Bool} (h : thresholdOk p k q d hf = .ok true) : d ≠ 0 := by
  intro z
  unfold thresholdOk at h
  rw [if_pos z] at h
  cases h

theorem accepted_of (hm : pl.Made hs sort p y) (h1 : IsSort (pl.fns hs).lt sort) (h2 : IsSort (pl.fns hs).lt sort')
    {c : Challenge η} (hf : plotFilterOk hs p c.challenge pl.plotId = true) {i : Nat}
    (hw : Wanted pl.table y (hs.word0 (hs.plotChallenge c.challenge pl.plotId) &&& kmask pl.ksize) p.plotFilter i)
    {xs mt : List Nat} (hr : pl.full hs sort i = .ok (xs, mt))
    (hp : p.hardfork1 ≤ c.vdfHeight →
      hs.postHash (hs.plotChallenge c.challenge pl.plotId) mt >>> (256 - p.postFilter) = 0)
    {d : Nat} (ht : thresholdOk p pl.ksize (if decide (p.hardfork1 ≤ c.vdfHeight) = true
            then hs.proofHash (hs.plotChallenge c.challenge pl.plotId) xs
            else hs.quality (hs.plotChallenge c.challenge pl.plotId) mt) d (decide (p.hardfork1 ≤ c.vdfHeight)) = .ok true) :
    Accepted sort' hs p c d (pl.proof c d (scoreOf (hs.proofHash c.challenge xs)) xs) := by
  intro order ho
  obtain ⟨hl, hv⟩ := full_verifies hm h1 h2 hw.1 hr ho
  have hk := hm.size
  have hk' := hm.allowed
  have hv := hv (hs.chal p (pl.proof c d (scoreOf (hs.proofHash c.challenge xs)) xs) c.challenge c.vdfHeight)
    hw.2.1 hw.2.2 (fun z => post_lt (hp (of_decide_eq_true z)))
  unfold verifyProof
  have c1 : (Res.chk (¬ d = 0)) = .ok () := if_pos (threshold_pos ht)
  have c2 : (Res.chk (0 < pl.ksize ∧ xs.length ≤ 256)) = .ok () := if_pos ⟨by omega, Nat.le_of_eq hl⟩
  have c3 : (Res.chk (c.challenge = c.challenge)) = .ok () := if_pos rfl
  have c4 : (Res.chk (d = d)) = .ok () := if_pos rfl
  have c5 : (Res.chk (hs.plotId pl.ksize pl.seed pl.farmerKey pl.contract = pl.plotId)) = .ok () := if_pos hm.id.symm
  have c6 : (Res.chk (plotFilterOk hs p c.challenge pl.plotId = true)) = .ok () := if_pos hf
  have d1 : (Res.chk (¬ pl.ksize < p.minK)) = .ok () := if_pos (by omega)
  have d2 : (Res.chk (¬ pl.ksize > p.maxK)) = .ok () := if_pos (by omega)
  have d3 : (Res.chk (¬ (pl.ksize < 8 ∨ 32 < pl.ksize))) = .ok () := if_pos (by omega)
  have key : verifyImpl sort' hs p (pl.proof c d (scoreOf (hs.proofHash c.challenge xs)) xs) order c.challenge d
      c.vdfHeight = .ok () := by
    unfold verifyImpl
    change (Res.chk (¬ pl.ksize < p.minK) >>= fun _ => Res.chk (¬ pl.ksize > p.maxK) >>= fun _ =>
      Res.chk (¬ (pl.ksize < 8 ∨ 32 < pl.ksize)) >>= fun _ =>
      verify (pl.fns hs) sort' (hs.chal p (pl.proof c d (scoreOf (hs.proofHash c.challenge xs)) xs) c.challenge
        c.vdfHeight) xs order >>= fun quality =>
      thresholdOk p pl.ksize quality d (p.hardfork1 ≤ c.vdfHeight) >>= fun good => Res.chk (good = true)) = _
    rw [d1, Res.bind_ok, d2, Res.bind_ok, d3, Res.bind_ok]
    have hv' : verify (pl.fns hs) sort' (hs.chal p (pl.proof c d (scoreOf (hs.proofHash c.challenge xs)) xs) c.challenge
        c.vdfHeight) xs order = _ := hv
    rw [hv', Res.bind_ok]
    have ht' : thresholdOk p pl.ksize (if (hs.chal p (pl.proof c d (scoreOf (hs.proofHash c.challenge xs)) xs) c.challenge
        c.vdfHeight).hardFork = true then (hs.chal p (pl.proof c d (scoreOf (hs.proofHash c.challenge xs)) xs) c.challenge
        c.vdfHeight).proofHash xs else (hs.chal p (pl.proof c d (scoreOf (hs.proofHash c.challenge xs)) xs) c.challenge
        c.vdfHeight).quality mt) d (decide (p.hardfork1 ≤ c.vdfHeight)) = .ok true := ht
    rw [ht', Res.bind_ok]
    rfl
  change (Res.chk (¬ d = 0) >>= fun _ => Res.chk (0 < pl.ksize ∧ xs.length ≤ 256) >>= fun _ =>
    Res.chk (c.challenge = c.challenge) >>= fun _ => Res.chk (d = d) >>= fun _ =>
    Res.chk (hs.plotId pl.ksize pl.seed pl.farmerKey pl.contract = pl.plotId) >>= fun _ =>
    Res.chk (plotFilterOk hs p c.challenge pl.plotId = true) >>= fun _ =>
    verifyImpl sort' hs p (pl.proof c d (scoreOf (hs.proofHash c.challenge xs)) xs) order c.challenge d c.vdfHeight >>=
    fun _ => Res.chk (scoreOf (hs.proofHash c.challenge xs) = scoreOf (hs.proofHash c.challenge xs))) = _
  rw [c1, Res.bind_ok, c2, Res.bind_ok, c3, Res.bind_ok, c4, Res.bind_ok, c5, Res.bind_ok, c6, Res.bind_ok, key,
    Res.bind_ok]
  exact if_pos rfl

/-- **C133.** Every proof that a harvester publishes for a challenge is accepted by every node that knows the challenge:
    at the difficulty of the challenge if it is for a block, at the difficulty of the pool if it is a partial. -/
theorem C133_accepted (hm : pl.Made hs sort p y) (h1 : IsSort (pl.fns hs).lt sort) (h2 : IsSort (pl.fns hs).lt sort')
    {c : Challenge η} {pool : Option Nat} {out : List (Answer η)} (h : pl.lookup hs sort p c pool = .ok out) :
    (∀ pr, .solo pr ∈ out → Accepted sort' hs p c c.difficulty pr) ∧
    (∀ pr, .part pr ∈ out → ∃ d, pool = some d ∧ Accepted sort' hs p c d pr) := by
  have key : ∀ a ∈ out, ∃ d xs, Accepted sort' hs p c d (pl.proof c d (scoreOf (hs.proofHash c.challenge xs)) xs) ∧
      (d = c.difficulty ∧ a = .solo (pl.proof c d (scoreOf (hs.proofHash c.challenge xs)) xs) ∨
          pool = some d ∧ a = .part (pl.proof c d (scoreOf (hs.proofHash c.challenge xs)) xs)) := by
    intro a ha
    obtain ⟨hf, i, q, o, hw, hq, hj, hao⟩ := lookup_mem hm h ha
    obtain ⟨hv, hp, xs1, xs, e1, e2, d, ht, hd⟩ := judge_mem hj hao
    obtain ⟨hr, hx⟩ := values_ok hm hw.1 hq hv e1 e2
    refine ⟨d, xs, accepted_of hm h1 h2 hf hw hr hp ?_, hd⟩
    by_cases z : decide (p.hardfork1 ≤ c.vdfHeight) = true
    · rw [hx z] at ht; exact ht
    · rw [if_neg z] at ht ⊢; exact ht
  refine ⟨?_, ?_⟩
  · intro pr hpr
    obtain ⟨d, xs, ha, ⟨e, e'⟩ | ⟨_, e'⟩⟩ := key _ hpr
    · cases e'; subst e; exact ha
    · cases e'
  · intro pr hpr
    obtain ⟨d, xs, ha, ⟨_, e'⟩ | ⟨e, e'⟩⟩ := key _ hpr
    · cases e'
    · cases e'; exact ⟨d, e, ha⟩

/-! ### C134: nothing is kept back -/

/-- The quality that counts for a proof with these values and meta data. -/
def qualityOf (hs : Hashes η) (p : Params) (pl : Plot η) (c : Challenge η) (xs mt : List Nat) : Nat :=
  if p.hardfork1 ≤ c.vdfHeight then hs.proofHash (hs.plotChallenge c.challenge pl.plotId) xs
  else hs.quality (hs.plotChallenge c.challenge pl.plotId) mt

/-- The proof passes the filter after the hard fork. -/
def passes (hs : Hashes η) (p : Params) (pl : Plot η) (c : Challenge η) (mt : List Nat) : Prop :=
  p.hardfork1 ≤ c.vdfHeight → hs.postHash (hs.plotChallenge c.challenge pl.plotId) mt < 2 ^ (256 - p.postFilter)

omit [DecidableEq η] in
theorem threshold_ok {k q d : Nat} {hf : Bool} (hk : 0 < k) (hk' : k ≤ 32) (hd : d < 2 ^ 64)
    (hc : 33 ≤ p.spaceDiffConstant) (hc' : p.spaceDiffConstant < 2 ^ 64) : ∃ b, thresholdOk p k q d hf = .ok b := by
  by_cases z : d = 0
  · exact ⟨false, by unfold thresholdOk; rw [if_pos z]⟩
  · exact ⟨_, C105_threshold hk hk' (by omega) hd hc hc'⟩

theorem shift_zero {h n : Nat} (e : h < 2 ^ n) : h >>> n = 0 := by
  rw [Nat.shiftRight_eq_div_pow]
  exact Nat.div_eq_of_lt e

/-- The values for the quality are there when the full proof is. -/
theorem early_of {i : Nat} {q : Quality} {r : List Nat × List Nat} (hr : pl.full hs sort i = .ok r) (hx : q.index = i)
    (hp : q.proof = [] ∨ q.proof = r.1) (hne : r.1 ≠ []) (hf : Bool) :
    ∃ xs1, pl.early hs sort hf q = .ok xs1 ∧ pl.late hs sort q xs1 = .ok r.1 ∧ (hf = true → xs1 = r.1) := by
  unfold Plot.early
  by_cases z : q.proof ≠ []
  · rw [if_pos z]
    have e : q.proof = r.1 := hp.resolve_left z
    refine ⟨_, rfl, ?_, fun _ => e⟩
    unfold Plot.late
    rw [if_neg z, e]
  · rw [if_neg z]
    cases hf with
    | true =>
      rw [if_pos rfl, hx, hr]
      refine ⟨_, rfl, ?_, fun _ => rfl⟩
      unfold Plot.late
      rw [if_neg hne]
    | false =>
      rw [if_neg (by decide)]
      refine ⟨_, rfl, ?_, nofun⟩
      unfold Plot.late
      rw [if_pos rfl, hx, hr]
      rfl

/-- A quality that was read and is good enough is answered. -/
theorem judge_found (hm : pl.Made hs sort p y) {i : Nat} (hi : i < pl.table.num) {q : Quality}
    (hq : pl.quality hs sort i = .ok q) {r : List Nat × List Nat} (hr : pl.full hs sort i = .ok r)
    {c : Challenge η} {pool : Option Nat} (hd : c.difficulty < 2 ^ 64) (hd' : ∀ d, pool = some d → d < 2 ^ 64)
    (hc : 33 ≤ p.spaceDiffConstant) (hc' : p.spaceDiffConstant < 2 ^ 64) (hp : passes hs p pl c r.2) :
    ∃ o, pl.judge hs sort p c pool q = .ok o ∧
      (0 < c.difficulty → qualityOf hs p pl c r.1 r.2 < limit p pl.ksize c.difficulty (p.hardfork1 ≤ c.vdfHeight) →
        .solo (pl.proof c c.difficulty (scoreOf (hs.proofHash c.challenge r.1)) r.1) ∈ o) ∧
      (∀ d, pool = some d → 0 < d → qualityOf hs p pl c r.1 r.2 < limit p pl.ksize d (p.hardfork1 ≤ c.vdfHeight) →
        .part (pl.proof c d (scoreOf (hs.proofHash c.challenge r.1)) r.1) ∈ o) := by
  have hk := hm.size
  obtain ⟨m, t1, _⟩ := hm.full i hi r hr
  have hne : r.1 ≠ [] := fun z => by have := tree_length t1; rw [z] at this; exact absurd this (by decide)
  have hqv : q.valid = true ∧ q.index = i ∧ (q.proof = [] ∨ q.proof = r.1) ∧ q.mt = r.2 := by
    unfold Plot.quality at hq
    cases hh : pl.hasMeta with
    | true =>
      rw [hh, if_pos rfl] at hq
      cases e : pl.metas i with
      | ok b => rw [e] at hq; cases hq; exact ⟨rfl, rfl, .inl rfl, (hm.metas i hi).2 _ _ e hr⟩
      | throw => rw [e] at hq; cases hq
      | ub => rw [e] at hq; cases hq
    | false =>
      rw [hh, if_neg (by decide), hr] at hq
      cases hq
      exact ⟨rfl, rfl, .inr rfl, rfl⟩
  obtain ⟨v1, v2, v3, v4⟩ := hqv
  obtain ⟨xs1, e1, e2, e3⟩ := early_of hr v2 v3 hne (decide (p.hardfork1 ≤ c.vdfHeight))
  have hQ : (if decide (p.hardfork1 ≤ c.vdfHeight) = true
            then hs.proofHash (hs.plotChallenge c.challenge pl.plotId) xs1
            else hs.quality (hs.plotChallenge c.challenge pl.plotId) q.mt) = qualityOf hs p pl c r.1 r.2 := by
    unfold qualityOf
    by_cases z : p.hardfork1 ≤ c.vdfHeight
    · rw [if_pos z, if_pos (decide_eq_true z), e3 (decide_eq_true z)]
    · rw [if_neg z, if_neg (by rw [decide_eq_true_eq]; exact z), v4]
  obtain ⟨solo, s1⟩ := threshold_ok (q := qualityOf hs p pl c r.1 r.2) (hf := decide (p.hardfork1 ≤ c.vdfHeight))
    (by omega : 0 < pl.ksize) hk.2 hd hc hc'
  have hpart : ∃ part, partOk p pl.ksize (qualityOf hs p pl c r.1 r.2) pool (decide (p.hardfork1 ≤ c.vdfHeight))
      = .ok part := by
    unfold partOk
    cases pool with
    | none => exact ⟨_, rfl⟩
    | some d => exact threshold_ok (by omega) hk.2 (hd' d rfl) hc hc'
  obtain ⟨part, p1⟩ := hpart
  have hj : pl.judge hs sort p c pool q = if solo = true ∨ part = true then
      .ok (pl.partials c pool part (scoreOf (hs.proofHash c.challenge r.1)) r.1 ++
        if solo then [.solo (pl.proof c c.difficulty (scoreOf (hs.proofHash c.challenge r.1)) r.1)] else [])
      else .ok [] := by
    unfold Plot.judge
    dsimp only
    rw [if_neg (by rw [v1]; decide), if_neg, e1, Res.bind_ok, hQ, s1, Res.bind_ok, p1, Res.bind_ok, e2, Res.bind_ok]
    rw [v4]
    rintro ⟨z1, z2⟩
    exact z2 (beq_iff_eq.2 (shift_zero (hp (of_decide_eq_true z1))))
  have sT : 0 < c.difficulty → qualityOf hs p pl c r.1 r.2 < limit p pl.ksize c.difficulty (p.hardfork1 ≤ c.vdfHeight) →
      solo = true := by
    intro a b
    rw [C105_threshold (by omega) hk.2 a hd hc hc', decide_eq_true b] at s1
    exact (Res.ok.inj s1).symm
  have pT : ∀ d, pool = some d → 0 < d →
      qualityOf hs p pl c r.1 r.2 < limit p pl.ksize d (p.hardfork1 ≤ c.vdfHeight) → part = true := by
    intro d e a b
    subst e
    unfold partOk at p1
    dsimp only at p1
    rw [C105_threshold (by omega) hk.2 a (hd' d rfl) hc hc', decide_eq_true b] at p1
    exact (Res.ok.inj p1).symm
  rw [hj]
  by_cases z : solo = true ∨ part = true
  · rw [if_pos z]
    refine ⟨_, rfl, ?_, ?_⟩
    · intro a b
      rw [sT a b]
      exact List.mem_append_right _ (by rw [if_pos rfl]; exact List.mem_singleton.2 rfl)
    · intro d e a b
      rw [pT d e a b]
      subst e
      exact List.mem_append_left _ (by unfold Plot.partials; dsimp only; rw [if_pos rfl]; exact List.mem_singleton.2 rfl)
  · rw [if_neg z]
    exact ⟨_, rfl, fun a b => absurd (.inl (sT a b)) z, fun d e a b => absurd (.inr (pT d e a b)) z⟩

omit [DecidableEq η] in
theorem early_ne_ub (hm : pl.Made hs sort p y) (h1 : IsSort (pl.fns hs).lt sort) {q : Quality}
    (hi : q.index < pl.table.num) {hf : Bool} : pl.early hs sort hf q ≠ .ub := by
  unfold Plot.early
  by_cases z : q.proof ≠ []
  · rw [if_pos z]; nofun
  · rw [if_neg z]
    cases hf with
    | false => rw [if_neg (by decide)]; nofun
    | true =>
      rw [if_pos rfl]
      have := full_ne_ub hm h1 hi
      cases e : pl.full hs sort q.index with
      | ub => exact absurd e this
      | throw => nofun
      | ok r => nofun

omit [DecidableEq η] in
theorem judge_ne_ub (hm : pl.Made hs sort p y) (h1 : IsSort (pl.fns hs).lt sort) {i : Nat} (hi : i < pl.table.num)
    {q : Quality} (hq : pl.quality hs sort i = .ok q) {c : Challenge η} {pool : Option Nat}
    (hd : c.difficulty < 2 ^ 64) (hd' : ∀ d, pool = some d → d < 2 ^ 64)
    (hc : 33 ≤ p.spaceDiffConstant) (hc' : p.spaceDiffConstant < 2 ^ 64) : pl.judge hs sort p c pool q ≠ .ub := by
  have hk := hm.size
  unfold Plot.judge
  dsimp only
  by_cases hv : q.valid = false
  · rw [if_pos hv]; nofun
  rw [if_neg hv]
  have hix : q.index < pl.table.num := by
    have := (quality_ok hq (by cases e : q.valid; exact absurd e hv; rfl)).1
    omega
  by_cases hp : decide (p.hardfork1 ≤ c.vdfHeight) = true ∧
      ¬ (hs.postHash (hs.plotChallenge c.challenge pl.plotId) q.mt >>> (256 - p.postFilter) == 0) = true
  · rw [if_pos hp]; nofun
  rw [if_neg hp]
  cases e1 : pl.early hs sort (decide (p.hardfork1 ≤ c.vdfHeight)) q with
  | ub => exact absurd e1 (early_ne_ub hm h1 hix)
  | throw => nofun
  | ok xs1 =>
    rw [Res.bind_ok]
    generalize (if decide (p.hardfork1 ≤ c.vdfHeight) = true
            then hs.proofHash (hs.plotChallenge c.challenge pl.plotId) xs1
            else hs.quality (hs.plotChallenge c.challenge pl.plotId) q.mt) = Q
    obtain ⟨solo, s1⟩ := threshold_ok (q := Q) (hf := decide (p.hardfork1 ≤ c.vdfHeight))
      (by omega : 0 < pl.ksize) hk.2 hd hc hc'
    have hpart : ∃ part, partOk p pl.ksize Q pool (decide (p.hardfork1 ≤ c.vdfHeight)) = .ok part := by
      unfold partOk
      cases pool with
      | none => exact ⟨_, rfl⟩
      | some d => exact threshold_ok (by omega) hk.2 (hd' d rfl) hc hc'
    obtain ⟨part, p1⟩ := hpart
    rw [s1, Res.bind_ok, p1, Res.bind_ok]
    by_cases z : solo = true ∨ part = true
    · rw [if_pos z]
      unfold Plot.late
      by_cases w : xs1 = []
      · rw [if_pos w]
        cases e : pl.full hs sort q.index with
        | ub => exact absurd e (full_ne_ub hm h1 hix)
        | throw => nofun
        | ok r => nofun
      · rw [if_neg w]; nofun
    · rw [if_neg z]; nofun

omit [DecidableEq η] in
theorem judgeAll_ok {c : Challenge η} {pool : Option Nat} : ∀ {qs : List Quality},
    (∀ q ∈ qs, pl.judge hs sort p c pool q ≠ .ub) → ∃ out, pl.judgeAll hs sort p c pool qs = .ok out
  | [], _ => ⟨_, rfl⟩
  | q :: l, h => by
    obtain ⟨r, hr⟩ := judgeAll_ok (qs := l) fun x hx => h x (List.mem_cons_of_mem _ hx)
    unfold Plot.judgeAll
    have := h q List.mem_cons_self
    unfold caught
    cases e : pl.judge hs sort p c pool q with
    | ub => exact absurd e this
    | throw => dsimp only; rw [Res.bind_ok, hr]; exact ⟨_, rfl⟩
    | ok a => dsimp only; rw [Res.bind_ok, hr]; exact ⟨_, rfl⟩

omit [DecidableEq η] in
/-- The qualities of entries can be read, unless the file cannot. -/
theorem qualityAll_ok (hm : pl.Made hs sort p y) (h1 : IsSort (pl.fns hs).lt sort) : ∀ {l : List Nat},
    (∀ i ∈ l, i < pl.table.num ∧ (pl.hasMeta = true → pl.metas i ≠ .throw)) → ∃ qs, pl.qualityAll hs sort l = .ok qs
  | [], _ => ⟨_, rfl⟩
  | i :: l, h => by
    obtain ⟨r, hr⟩ := qualityAll_ok hm h1 (l := l) fun x hx => h x (List.mem_cons_of_mem _ hx)
    obtain ⟨hi, hmt⟩ := h i List.mem_cons_self
    have : ∃ q, pl.quality hs sort i = .ok q := by
      unfold Plot.quality
      cases hh : pl.hasMeta with
      | true =>
        rw [if_pos rfl]
        cases e : pl.metas i with
        | ok b => exact ⟨_, rfl⟩
        | throw => exact absurd e (hmt hh)
        | ub => exact absurd e (hm.metas i hi).1
      | false =>
        rw [if_neg (by decide)]
        cases e : pl.full hs sort i with
        | ok b => exact ⟨_, rfl⟩
        | throw => exact ⟨_, rfl⟩
        | ub => exact absurd e (full_ne_ub hm h1 hi)
    obtain ⟨q, hq⟩ := this
    unfold Plot.qualityAll
    rw [hq, Res.bind_ok, hr]
    exact ⟨_, rfl⟩

/-- **C134.** If the search finds an entry (C132 says when), the meta data in the file can be read and the full proof of
    the entry can be made, then a proof that passes the filter and is below the limit for the difficulty of the challenge
    is published; the same for the difficulty of the pool.  What fails for other entries does not matter. -/
theorem C134_found_partial (hm : pl.Made hs sort p y) (h1 : IsSort (pl.fns hs).lt sort) {c : Challenge η}
    {pool : Option Nat} (hd : c.difficulty < 2 ^ 64) (hd' : ∀ d, pool = some d → d < 2 ^ 64)
    (hc : 33 ≤ p.spaceDiffConstant) (hc' : p.spaceDiffConstant < 2 ^ 64)
    (hf : hs.plotFilter pl.plotId c.challenge < 2 ^ (256 - p.plotFilter)) {l : List Nat}
    (hl : pl.table.entries (hs.word0 (hs.plotChallenge c.challenge pl.plotId) &&& kmask pl.ksize) p.plotFilter = .ok l)
    (hrd : ∀ i ∈ l, pl.hasMeta = true → pl.metas i ≠ .throw) :
    ∃ out, pl.lookup hs sort p c pool = .ok out ∧ ∀ i ∈ l, ∀ xs mt, pl.full hs sort i = .ok (xs, mt) →
      passes hs p pl c mt →
      (0 < c.difficulty → qualityOf hs p pl c xs mt < limit p pl.ksize c.difficulty (p.hardfork1 ≤ c.vdfHeight) →
        .solo (pl.proof c c.difficulty (hs.proofHash c.challenge xs % 256) xs) ∈ out) ∧
      (∀ d, pool = some d → 0 < d → qualityOf hs p pl c xs mt < limit p pl.ksize d (p.hardfork1 ≤ c.vdfHeight) →
        .part (pl.proof c d (hs.proofHash c.challenge xs % 256) xs) ∈ out) := by
  obtain ⟨_, _, w, _⟩ := search_spec hm.table _ _ _ hl
  have hnum : ∀ i ∈ l, i < pl.table.num := fun i hi => ((w i).1 hi).2.1
  obtain ⟨qs, hqs⟩ := qualityAll_ok hm h1 (l := l) fun i hi => ⟨hnum i hi, hrd i hi⟩
  obtain ⟨m1, m2⟩ := qualityAll_mem hqs
  obtain ⟨out, ho⟩ := judgeAll_ok (hs := hs) (sort := sort) (p := p) (pl := pl) (c := c) (pool := pool) (qs := qs) (by
    intro q hq
    obtain ⟨i, i1, i2⟩ := m1 q hq
    exact judge_ne_ub hm h1 (hnum i i1) i2 hd hd' hc hc')
  have hlk : pl.lookup hs sort p c pool = .ok out := by
    unfold Plot.lookup
    have : plotFilterOk hs p c.challenge pl.plotId = true := beq_iff_eq.2 (shift_zero hf)
    rw [if_pos this]
    unfold Plot.qualities
    rw [hl, Res.bind_ok, hqs]
    exact ho
  refine ⟨out, hlk, ?_⟩
  intro i hi xs mt hr hp
  obtain ⟨q, q1, q2⟩ := m2 i hi
  obtain ⟨o, o1, o2, o3⟩ := judge_found hm (hnum i hi) q2 hr (pool := pool) hd hd' hc hc' hp
  exact ⟨fun a b => (judgeAll_mem ho _).2 ⟨q, q1, o, o1, o2 a b⟩,
    fun d e a b => (judgeAll_mem ho _).2 ⟨q, q1, o, o1, o3 d e a b⟩⟩

end Verif.Farm
