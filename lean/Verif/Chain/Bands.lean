import Verif.Base
/-
  Fee bands of a block: assembly (Node::validate_for_block) and the check (Node::validate).
-/
namespace Verif.Chain

/-- A transaction as the fee band code sees it. -/
structure BandTx where
  feeRatio : Nat      -- uint
  size : Nat          -- static_cost, ulong
  deriving Repr, DecidableEq

/-- Upper end of band `i` of `n`: `((i + 1) * max_block_size) / N`, src/Node_validate.cpp:312
    (64-bit product). -/
def bandEnd (maxSize n i : Nat) : Nat := u64 ((i + 1) * maxSize) / n

/-- `band_avail[i]` initially, src/Node_update.cpp:896-899. -/
def bandInit (maxSize n i : Nat) : Nat :=
  sub64 (u64 ((i + 1) * maxSize) / n) (u64 (i * maxSize) / n)

/-- The loop `while(total_size > ((i + 1) * max) / N) i++`, src/Node_validate.cpp:312-314, stopped when
    `i` reaches `N` (from there on the code throws whatever `i` becomes). -/
def advance (maxSize n total : Nat) : Nat → Nat → Nat
  | 0, i => i
  | fuel + 1, i => if i < n ∧ total > bandEnd maxSize n i then advance maxSize n total fuel (i + 1) else i

/-- `params->min_fee_ratio[i] * 1024` (32-bit product). -/
def minRatio (ratios : List Nat) (i : Nat) : Nat :=
  match ratios[i]? with
  | some r => u32 (r * 1024)
  | none => 0

/-- The loop over the reversed transaction list, src/Node_validate.cpp:301-324. -/
def checkLoop (maxSize : Nat) (ratios : List Nat) : List BandTx → Nat → Nat → Res Unit
  | [], _, _ => .ok ()
  | tx :: rest, i, total =>
    let total := u64 (total + tx.size)
    let i := advance maxSize ratios.length total ratios.length i
    if i ≥ ratios.length then .throw
    else if tx.feeRatio < minRatio ratios i then .throw
    else checkLoop maxSize ratios rest i total

/-- The minimum fee check of a block, src/Node_validate.cpp:301-324. -/
def checkBands (maxSize : Nat) (ratios : List Nat) (txs : List BandTx) : Res Unit :=
  if ratios.length = 0 then .ok () else checkLoop maxSize ratios txs.reverse 0 0

/-- `while(i && (!band_avail[i] || fee_ratio < min_fee_ratio[i] * 1024)) i--`,
    src/Node_update.cpp:904-906. -/
def lowerBand (ratios : List Nat) (avail : Nat → Nat) (fee : Nat) : Nat → Nat
  | 0 => 0
  | i + 1 => if avail (i + 1) = 0 ∨ fee < minRatio ratios (i + 1) then lowerBand ratios avail fee i
    else i + 1

/-- The selection loop, src/Node_update.cpp:900-919. -/
def selectLoop (ratios : List Nat) : List BandTx → (Nat → Nat) → Nat → List BandTx
  | [], _, _ => []
  | tx :: rest, avail, i =>
    let i := lowerBand ratios avail tx.feeRatio i
    if tx.size > avail i then
      if i ≠ 0 then
        let avail' := fun j =>
          if j = i - 1 then sub64 (avail (i - 1)) (tx.size - avail i)
          else if j = i then 0 else avail j
        tx :: selectLoop ratios rest avail' i
      else
        selectLoop ratios rest avail i
    else
      tx :: selectLoop ratios rest (fun j => if j = i then avail i - tx.size else avail j) i

/-- The last part of `Node::validate_for_block`, src/Node_update.cpp:892-920; `txs` is sorted by
    descending fee ratio (line 769-772). -/
def selectBands (maxSize : Nat) (ratios : List Nat) (txs : List BandTx) : List BandTx :=
  if ratios.length = 0 then txs
  else selectLoop ratios txs (bandInit maxSize ratios.length) (ratios.length - 1)

/-! ### Lemmas -/

/-- Space left in bands `0..i`. -/
def room (avail : Nat → Nat) : Nat → Nat
  | 0 => avail 0
  | i + 1 => room avail i + avail (i + 1)

def sizes (l : List BandTx) : Nat := (l.map (·.size)).sum

theorem sizes_cons (t : BandTx) (l : List BandTx) : sizes (t :: l) = t.size + sizes l := by
  simp [sizes]

theorem sizes_append (a b : List BandTx) : sizes (a ++ b) = sizes a + sizes b := by
  simp [sizes]

theorem room_mono {a b : Nat → Nat} {i : Nat} (h : ∀ j ≤ i, a j ≤ b j) : room a i ≤ room b i := by
  induction i with
  | zero => exact h 0 (Nat.le_refl _)
  | succ i ih =>
    have h1 := ih fun j hj => h j (by omega)
    have h2 := h (i + 1) (Nat.le_refl _)
    unfold room; omega

theorem room_le {a : Nat → Nat} {i j : Nat} (h : i ≤ j) : room a i ≤ room a j := by
  induction j with
  | zero => have : i = 0 := by omega
            subst this; exact Nat.le_refl _
  | succ j ih =>
    by_cases he : i = j + 1
    · subst he; exact Nat.le_refl _
    · have := ih (by omega)
      show room a i ≤ room a j + a (j + 1)
      omega

theorem room_congr {a b : Nat → Nat} {i : Nat} (h : ∀ j ≤ i, a j = b j) : room a i = room b i :=
  Nat.le_antisymm (room_mono fun j hj => Nat.le_of_eq (h j hj))
    (room_mono fun j hj => Nat.le_of_eq (h j hj).symm)

theorem lowerBand_le (ratios : List Nat) (avail : Nat → Nat) (fee i : Nat) :
    lowerBand ratios avail fee i ≤ i := by
  induction i with
  | zero => exact Nat.le_refl _
  | succ i ih => unfold lowerBand; split <;> omega

theorem lowerBand_fee {ratios : List Nat} {avail : Nat → Nat} {fee i : Nat}
    (h : lowerBand ratios avail fee i ≠ 0) :
    minRatio ratios (lowerBand ratios avail fee i) ≤ fee ∧
      avail (lowerBand ratios avail fee i) ≠ 0 := by
  induction i with
  | zero => exact absurd rfl h
  | succ i ih =>
    unfold lowerBand at h ⊢
    split
    · rename_i hc
      rw [if_pos hc] at h
      exact ih h
    · rename_i hc
      refine ⟨?_, fun hh => hc (.inl hh)⟩
      exact Nat.not_lt.1 fun hh => hc (.inr hh)

/-- The state of the selection loop: nothing below the current band has been used, except that the
    current band may be exhausted and the one below partly used. -/
def Fresh (cap avail : Nat → Nat) (i : Nat) : Prop :=
  (∀ j, avail j ≤ cap j) ∧
  ((∀ j < i, avail j = cap j) ∨ (avail i = 0 ∧ ∀ j, j + 1 < i → avail j = cap j))

theorem Fresh.lower {ratios : List Nat} {cap avail : Nat → Nat} {fee i : Nat}
    (h : Fresh cap avail i) :
    ∀ j < lowerBand ratios avail fee i, avail j = cap j := by
  intro j hj
  rcases h.2 with h1 | ⟨h0, h1⟩
  · exact h1 j (Nat.lt_of_lt_of_le hj (lowerBand_le _ _ _ _))
  · cases i with
    | zero => simp [lowerBand] at hj
    | succ i =>
      have hj' : j < lowerBand ratios avail fee i := by
        unfold lowerBand at hj
        rw [if_pos (.inl h0)] at hj
        exact hj
      exact h1 j (by have := lowerBand_le ratios avail fee i; omega)

theorem room_step1 {avail : Nat → Nat} {i s : Nat} (h : s ≤ avail i) :
    room (fun j => if j = i then avail i - s else avail j) i + s = room avail i := by
  cases i with
  | zero => simp only [room, if_true]; omega
  | succ i =>
    unfold room
    have : room (fun j => if j = i + 1 then avail (i + 1) - s else avail j) i = room avail i :=
      room_congr fun j hj => by rw [if_neg (by omega)]
    rw [this]; simp only [if_true]; omega

theorem room_step2 {avail : Nat → Nat} {i s : Nat} (h : s - avail (i + 1) ≤ avail i)
    (hs : avail (i + 1) < s) (hlt : avail i < 2 ^ 64) :
    room (fun j => if j = i then sub64 (avail i) (s - avail (i + 1))
      else if j = i + 1 then 0 else avail j) (i + 1) + s = room avail (i + 1) := by
  have hsub := sub64_of_le hlt h
  unfold room
  simp only [if_neg (show ¬ i + 1 = i by omega), if_true, hsub]
  have e := room_step1 (avail := avail) (i := i) (s := s - avail (i + 1)) h
  have : room (fun j => if j = i then avail i - (s - avail (i + 1))
      else if j = i + 1 then 0 else avail j) i =
      room (fun j => if j = i then avail i - (s - avail (i + 1)) else avail j) i :=
    room_congr fun j hj => by
      by_cases hji : j = i
      · simp [hji]
      · rw [if_neg hji, if_neg (by omega), if_neg hji]
  rw [this]
  omega

/-- Every accepted transaction, together with all later ones, fits below the end of some band whose
    minimum fee it pays. -/
def Fits (ratios : List Nat) (cap : Nat → Nat) (n : Nat) : List BandTx → Prop
  | [] => True
  | tx :: rest =>
    (∃ i < n, minRatio ratios i ≤ tx.feeRatio ∧ sizes (tx :: rest) ≤ room cap i) ∧
      Fits ratios cap n rest

theorem select_fits {ratios : List Nat} {cap : Nat → Nat} {n : Nat}
    (hcap : ∀ j < n, cap j < 2 ^ 64) (txs : List BandTx)
    (hsize : ∀ t ∈ txs, ∀ j < n, t.size ≤ cap j)
    (hfee : ∀ t ∈ txs, minRatio ratios 0 ≤ t.feeRatio) (avail : Nat → Nat) (i : Nat) (hi : i < n)
    (hf : Fresh cap avail i) :
    sizes (selectLoop ratios txs avail i) ≤ room avail i ∧
      Fits ratios cap n (selectLoop ratios txs avail i) := by
  induction txs generalizing avail i with
  | nil => exact ⟨Nat.zero_le _, trivial⟩
  | cons tx rest ih =>
    have ih' := ih (fun t ht => hsize t (List.mem_cons_of_mem _ ht))
      (fun t ht => hfee t (List.mem_cons_of_mem _ ht))
    have hts := hsize tx List.mem_cons_self
    have htf := hfee tx List.mem_cons_self
    have hle := lowerBand_le ratios avail tx.feeRatio i
    have hlow := hf.lower (ratios := ratios) (fee := tx.feeRatio)
    have hpay : minRatio ratios (lowerBand ratios avail tx.feeRatio i) ≤ tx.feeRatio := by
      by_cases h0 : lowerBand ratios avail tx.feeRatio i = 0
      · rw [h0]; exact htf
      · exact (lowerBand_fee h0).1
    have hroom : room avail (lowerBand ratios avail tx.feeRatio i) ≤ room avail i := room_le hle
    have hrc : room avail (lowerBand ratios avail tx.feeRatio i) ≤
        room cap (lowerBand ratios avail tx.feeRatio i) := room_mono fun j _ => hf.1 j
    unfold selectLoop
    dsimp only
    generalize lowerBand ratios avail tx.feeRatio i = k at *
    by_cases hgt : tx.size > avail k
    · rw [if_pos hgt]
      by_cases hk : k ≠ 0
      · rw [if_pos hk]
        obtain ⟨m, rfl⟩ : ∃ m, k = m + 1 := ⟨k - 1, by omega⟩
        have hm : avail m = cap m := hlow m (by omega)
        have hcm := hcap m (by omega)
        have htm := hts m (by omega)
        have hst := room_step2 (avail := avail) (i := m) (s := tx.size) (by omega) hgt (by omega)
        have hsub : sub64 (avail m) (tx.size - avail (m + 1)) = avail m - (tx.size - avail (m + 1)) :=
          sub64_of_le (by omega) (by omega)
        rw [Nat.add_sub_cancel]
        have hfr : Fresh cap (fun j => if j = m then sub64 (avail m) (tx.size - avail (m + 1))
            else if j = m + 1 then 0 else avail j) (m + 1) := by
          refine ⟨fun j => ?_, .inr ⟨?_, fun j hj => ?_⟩⟩
          · dsimp only
            have := hf.1 j
            split
            · rename_i hjm; subst hjm; rw [hsub]; omega
            · split <;> omega
          · simp
          · dsimp only
            rw [if_neg (by omega), if_neg (by omega)]
            exact hlow j (by omega)
        obtain ⟨g1, g2⟩ := ih' _ (m + 1) (by omega) hfr
        rw [sizes_cons]
        refine ⟨by omega, ⟨m + 1, by omega, hpay, ?_⟩, g2⟩
        rw [sizes_cons]; omega
      · rw [if_neg hk]
        have hk0 : k = 0 := by omega
        subst hk0
        have hfr : Fresh cap avail 0 := ⟨hf.1, .inl fun j hj => by omega⟩
        obtain ⟨g1, g2⟩ := ih' avail 0 (by omega) hfr
        exact ⟨by omega, g2⟩
    · rw [if_neg hgt]
      have hst := room_step1 (avail := avail) (i := k) (s := tx.size) (by omega)
      have hfr : Fresh cap (fun j => if j = k then avail k - tx.size else avail j) k := by
        refine ⟨fun j => ?_, .inl fun j hj => ?_⟩
        · dsimp only
          have := hf.1 j
          split
          · rename_i hjk; subst hjk; omega
          · exact this
        · dsimp only
          rw [if_neg (by omega)]
          exact hlow j hj
      obtain ⟨g1, g2⟩ := ih' _ k (by omega) hfr
      rw [sizes_cons]
      refine ⟨by omega, ⟨k, by omega, hpay, ?_⟩, g2⟩
      rw [sizes_cons]; omega

theorem advance_le {maxSize n total fuel i t : Nat} (ht : total ≤ bandEnd maxSize n t) (hi : i ≤ t) :
    advance maxSize n total fuel i ≤ t := by
  induction fuel generalizing i with
  | zero => exact hi
  | succ fuel ih =>
    unfold advance
    split
    · rename_i hc
      apply ih
      by_cases he : i = t
      · subst he; omega
      · omega
    · exact hi

theorem advance_done {maxSize n total fuel i : Nat} (hf : n ≤ i + fuel) :
    n ≤ advance maxSize n total fuel i ∨
      total ≤ bandEnd maxSize n (advance maxSize n total fuel i) := by
  induction fuel generalizing i with
  | zero => left; unfold advance; omega
  | succ fuel ih =>
    unfold advance
    split
    · exact ih (by omega)
    · rename_i hc
      by_cases hi : i < n
      · right; exact Nat.not_lt.1 fun hh => hc ⟨hi, hh⟩
      · left; omega

/-- Band ends are the partial sums of the band sizes. -/
theorem room_telescope {f e : Nat → Nat} {n : Nat} (h0 : f 0 = e 0)
    (hs : ∀ i, i + 1 ≤ n → e i ≤ e (i + 1) ∧ f (i + 1) = e (i + 1) - e i) :
    ∀ i ≤ n, room f i = e i := by
  intro i
  induction i with
  | zero => intro _; exact h0
  | succ i ih =>
    intro hi
    have h1 := ih (by omega)
    have h2 := hs i hi
    simp only [room, h1, h2.2]
    omega

theorem bandEnd_eq {maxSize n : Nat} (hfit : (n + 1) * maxSize < 2 ^ 64) {j : Nat} (hj : j ≤ n) :
    u64 ((j + 1) * maxSize) / n = (j + 1) * maxSize / n ∧ (j + 1) * maxSize / n < 2 ^ 64 := by
  have h : (j + 1) * maxSize < 2 ^ 64 :=
    Nat.lt_of_le_of_lt (Nat.mul_le_mul_right _ (Nat.succ_le_succ hj)) hfit
  exact ⟨congrArg (· / n) (u64_of_lt h), Nat.lt_of_le_of_lt (Nat.div_le_self _ _) h⟩

theorem room_bandInit {maxSize n : Nat} (hfit : (n + 1) * maxSize < 2 ^ 64) :
    ∀ i ≤ n, room (bandInit maxSize n) i = bandEnd maxSize n i := by
  apply room_telescope
  · unfold bandInit bandEnd
    have h0 : u64 (0 * maxSize) / n = 0 := by rw [Nat.zero_mul]; exact Nat.zero_div n
    rw [h0, (bandEnd_eq hfit (Nat.zero_le n)).1]
    rw [sub64_of_le (bandEnd_eq hfit (Nat.zero_le n)).2 (Nat.zero_le _)]
    rfl
  · intro i hi
    unfold bandInit bandEnd
    have hle : (i + 1) * maxSize / n ≤ (i + 1 + 1) * maxSize / n :=
      Nat.div_le_div_right (Nat.mul_le_mul_right _ (Nat.le_succ _))
    rw [(bandEnd_eq hfit hi).1, (bandEnd_eq hfit (Nat.le_of_succ_le hi)).1]
    exact ⟨hle, sub64_of_le (bandEnd_eq hfit hi).2 hle⟩

theorem bandInit_ge {maxSize n i : Nat} (hn : 0 < n) (hi : i < n)
    (hfit : (n + 1) * maxSize < 2 ^ 64) :
    maxSize / n ≤ bandInit maxSize n i ∧ bandInit maxSize n i < 2 ^ 64 := by
  have hlow : i * maxSize < 2 ^ 64 :=
    Nat.lt_of_le_of_lt (Nat.mul_le_mul_right _ (Nat.le_succ_of_le (Nat.le_of_lt hi))) hfit
  have hle : i * maxSize / n ≤ (i + 1) * maxSize / n :=
    Nat.div_le_div_right (Nat.mul_le_mul_right _ (Nat.le_succ _))
  have hend := bandEnd_eq hfit (Nat.le_of_lt hi)
  have hsum : i * maxSize / n + maxSize / n ≤ (i + 1) * maxSize / n := by
    rw [Nat.le_div_iff_mul_le hn, Nat.add_mul, Nat.add_mul, Nat.one_mul]
    exact Nat.add_le_add (Nat.div_mul_le_self _ _) (Nat.div_mul_le_self _ _)
  have e : bandInit maxSize n i = (i + 1) * maxSize / n - i * maxSize / n := by
    unfold bandInit
    rw [hend.1, u64_of_lt hlow]
    exact sub64_of_le hend.2 hle
  rw [e]
  exact ⟨Nat.le_sub_of_add_le' hsum, Nat.lt_of_le_of_lt (Nat.sub_le _ _) hend.2⟩

theorem minRatio_mono {ratios : List Nat} (hs : ratios.Pairwise (· ≤ ·))
    (h32 : ∀ r ∈ ratios, r * 1024 < 2 ^ 32) {i j : Nat} (hij : i ≤ j) (hj : j < ratios.length) :
    minRatio ratios i ≤ minRatio ratios j := by
  unfold minRatio
  rw [List.getElem?_eq_getElem hj, List.getElem?_eq_getElem (by omega)]
  dsimp only
  rw [u32_of_lt (h32 _ (List.getElem_mem _)), u32_of_lt (h32 _ (List.getElem_mem _))]
  by_cases he : i = j
  · subst he; exact Nat.le_refl _
  · have := List.pairwise_iff_getElem.1 hs i j (by omega) hj (by omega)
    omega

/-- The check passes on every list that fits. The list is processed from its end; `done` is the part
    already processed. -/
theorem check_fits {maxSize : Nat} {ratios : List Nat} (hs : ratios.Pairwise (· ≤ ·))
    (h32 : ∀ r ∈ ratios, r * 1024 < 2 ^ 32) (hfit : (ratios.length + 1) * maxSize < 2 ^ 64)
    (todo : List BandTx) (done : List BandTx)
    (hf : Fits ratios (bandInit maxSize ratios.length) ratios.length (todo.reverse ++ done))
    (i : Nat) (hi : ∀ t < ratios.length, sizes done ≤ bandEnd maxSize ratios.length t → i ≤ t) :
    checkLoop maxSize ratios todo i (sizes done) = .ok () := by
  induction todo generalizing done i with
  | nil => rfl
  | cons tx rest ih =>
    rw [List.reverse_cons, List.append_assoc, List.singleton_append] at hf
    have hfd : Fits ratios (bandInit maxSize ratios.length) ratios.length (tx :: done) := by
      generalize rest.reverse = pre at hf
      clear ih
      induction pre with
      | nil => exact hf
      | cons a pre ihp => exact ihp hf.2
    obtain ⟨⟨t, ht, hfee, hsz⟩, _⟩ := hfd
    rw [room_bandInit hfit t (by omega), sizes_cons] at hsz
    have hlt : bandEnd maxSize ratios.length t < 2 ^ 64 := by
      unfold bandEnd
      exact Nat.lt_of_le_of_lt (Nat.div_le_self _ _) (u64_lt _)
    unfold checkLoop
    dsimp only
    have e1 : u64 (sizes done + tx.size) = sizes (tx :: done) := by
      rw [sizes_cons, u64_of_lt (by omega)]; omega
    rw [e1]
    have e2 : sizes (tx :: done) ≤ bandEnd maxSize ratios.length t := by rw [sizes_cons]; exact hsz
    have hit : i ≤ t := hi t ht (by rw [sizes_cons] at e2; omega)
    have hat := advance_le (fuel := ratios.length) e2 hit
    rw [if_neg (by omega)]
    have hr := minRatio_mono hs h32 hat ht
    rw [if_neg (by omega)]
    apply ih
    · exact hf
    · intro t' ht' hle
      refine advance_le hle (hi t' ht' ?_)
      rw [sizes_cons] at hle; omega

end Verif.Chain
