import Verif.Chain.Bands

/-!
# C49: assembled blocks respect the minimum fee bands
-/

namespace Verif.Chain

/-! ### C49 -/

/-- C49. Every transaction list assembled for a block passes the block's minimum fee check, for every
    set of candidate transactions (in any order), when the minimum fee ratios ascend, every candidate
    pays the lowest one and no transaction is larger than one band. -/
theorem C49_fee_bands {maxSize : Nat} {ratios : List Nat} {txs : List BandTx}
    (hs : ratios.Pairwise (· ≤ ·)) (h32 : ∀ r ∈ ratios, r * 1024 < 2 ^ 32)
    (hfit : (ratios.length + 1) * maxSize < 2 ^ 64)
    (hsize : ∀ t ∈ txs, t.size ≤ maxSize / ratios.length)
    (hfee : ∀ t ∈ txs, ∀ r, ratios[0]? = some r → r * 1024 ≤ t.feeRatio) :
    checkBands maxSize ratios (selectBands maxSize ratios txs) = .ok () := by
  unfold checkBands selectBands
  by_cases h0 : ratios.length = 0
  · rw [if_pos h0]
  · rw [if_neg h0, if_neg h0]
    have hn : 0 < ratios.length := by omega
    have hm : ∀ t ∈ txs, minRatio ratios 0 ≤ t.feeRatio := by
      intro t ht
      unfold minRatio
      rw [List.getElem?_eq_getElem hn]
      dsimp only
      rw [u32_of_lt (h32 _ (List.getElem_mem _))]
      exact hfee t ht _ (List.getElem?_eq_getElem hn)
    have hfresh : Fresh (bandInit maxSize ratios.length) (bandInit maxSize ratios.length)
        (ratios.length - 1) := ⟨fun j => Nat.le_refl _, .inl fun j _ => rfl⟩
    obtain ⟨_, hfits⟩ := select_fits (ratios := ratios)
      (fun j hj => (bandInit_ge hn hj hfit).2) txs
      (fun t ht j hj => Nat.le_trans (hsize t ht) (bandInit_ge hn hj hfit).1) hm
      (bandInit maxSize ratios.length) (ratios.length - 1) (by omega) hfresh
    have := check_fits hs h32 hfit
      (selectLoop ratios txs (bandInit maxSize ratios.length) (ratios.length - 1)).reverse []
      (by simpa using hfits) 0 (fun t _ _ => Nat.zero_le t)
    exact this

/-- C49. The selection only drops transactions: what it returns is a subsequence of the candidates, so
    a descending fee order is kept. -/
theorem C49_subsequence {maxSize : Nat} {ratios : List Nat} {txs : List BandTx} :
    (selectBands maxSize ratios txs).Sublist txs := by
  unfold selectBands
  split
  · exact List.Sublist.refl _
  · generalize bandInit maxSize ratios.length = avail
    generalize ratios.length - 1 = i
    induction txs generalizing avail i with
    | nil => exact List.Sublist.refl _
    | cons t rest ih =>
      unfold selectLoop
      dsimp only
      split
      · split
        · exact (ih _ _).cons_cons _
        · exact (ih _ _).cons _
      · exact (ih _ _).cons_cons _

/-- Why the size condition is needed: a transaction larger than a band makes the selection produce a
    list the check rejects (bands of size 10, transactions of size 25, 10 and 10). -/
theorem C49_oversized_breaks :
    checkBands 30 [1, 2, 3] (selectBands 30 [1, 2, 3]
      [⟨3072, 25⟩, ⟨2048, 10⟩, ⟨1024, 10⟩]) ≠ .ok () := by decide +kernel

/-- Concrete case: mainnet bands, three transactions spilling over a band boundary. -/
example : selectBands 250000000 [1, 2, 3, 5, 10]
      [⟨10240, 25000000⟩, ⟨5120, 20000000⟩, ⟨2048, 25000000⟩, ⟨2048, 25000000⟩, ⟨2047, 25000000⟩] =
      [⟨10240, 25000000⟩, ⟨5120, 20000000⟩, ⟨2048, 25000000⟩, ⟨2048, 25000000⟩, ⟨2047, 25000000⟩] ∧
    checkBands 250000000 [1, 2, 3, 5, 10]
      [⟨10240, 25000000⟩, ⟨5120, 20000000⟩, ⟨2048, 25000000⟩, ⟨2048, 25000000⟩, ⟨2047, 25000000⟩] =
      .ok () ∧
    checkBands 250000000 [1, 2, 3, 5, 10]
      [⟨1024, 25000000⟩, ⟨1024, 25000000⟩, ⟨1024, 25000000⟩] = .throw := by decide +kernel

end Verif.Chain
