/-
  C132: what the search in a plot finds.
-/
import Verif.Farm.ProverLemmas

namespace Verif.Farm

/-- **C132.** Whatever the distribution of the entries: the search gives only entries of the plot that are in the range
    of the challenge, each once and in ascending order. -/
theorem C132_sound {t : YTable} {y : Nat → Nat} (h : t.Holds y) {yb f : Nat} {out : List Nat}
    (e : t.entries yb f = .ok out) : (∀ i ∈ out, Wanted t y yb f i) ∧ out.Pairwise (· < ·) := by
  obtain ⟨_, q, l1, l2⟩ := search_spec h _ _ _ e
  exact ⟨fun i k => ((l1 i).1 k).2, l2⟩

/-- **C132.** If an entry is missing then so are all entries in the range before it: what is found is the end of what
    is wanted. -/
theorem C132_tail {t : YTable} {y : Nat → Nat} (h : t.Holds y) {yb f : Nat} {out : List Nat}
    (e : t.entries yb f = .ok out) {i j : Nat} (hi : i ∈ out) (hij : i ≤ j) (hj : Wanted t y yb f j) : j ∈ out := by
  obtain ⟨_, q, l1, l2⟩ := search_spec h _ _ _ e
  exact (l1 j).2 ⟨Nat.le_trans ((l1 i).1 hi).1 hij, hj⟩

/-- The entries are spread evenly: none is further than `D` from where it would be if all were at the same
    distance. -/
structure Even (t : YTable) (y : Nat → Nat) (D : Nat) : Prop where
  up : ∀ i, i < t.num → y i * t.num ≤ i * 2 ^ t.ksize + D * t.num
  down : ∀ i, i < t.num → i * 2 ^ t.ksize ≤ (y i + D) * t.num

theorem guess_even {t : YTable} {y : Nat → Nat} (h : t.Holds y) {D yb : Nat} (hd : Even t y D) (hD : D < yShift)
    (hk : 0 < t.ksize) (hp : t.guess yb * t.size < t.num) : t.guess yb = 0 ∨ y (t.guess yb * t.size) < yb := by
  by_cases z : t.guess yb = 0
  · exact .inl z
  · right
    have h1 : t.guess yb * t.size * 2 ^ (t.ksize - 1) ≤ (yb - yShift) / 2 * t.num := by
      have : t.guess yb ≤ u64 ((yb - yShift) / 2 * t.num) / 2 ^ (t.ksize - 1) / t.size := Nat.min_le_left _ _
      have h2 := Nat.le_trans (Nat.mul_le_mul_right t.size this) (Nat.div_mul_le_self _ _)
      have h3 := Nat.le_trans (Nat.mul_le_mul_right (2 ^ (t.ksize - 1)) h2) (Nat.div_mul_le_self _ _)
      exact Nat.le_trans h3 (u64_le _)
    have h2 : t.guess yb * t.size * 2 ^ t.ksize ≤ (yb - yShift) * t.num := by
      have e : 2 ^ t.ksize = 2 ^ (t.ksize - 1) * 2 := by
        rw [← Nat.pow_succ]
        congr 1
        omega
      rw [e, ← Nat.mul_assoc]
      have : (yb - yShift) / 2 * t.num * 2 = (yb - yShift) / 2 * 2 * t.num := by
        rw [Nat.mul_assoc, Nat.mul_comm t.num 2, ← Nat.mul_assoc]
      exact Nat.le_trans (Nat.mul_le_mul_right 2 h1) (this ▸ Nat.mul_le_mul_right _ (Nat.div_mul_le_self _ _))
    have h3 := hd.up _ hp
    have hy : yShift < yb := by
      by_cases q : yb ≤ yShift
      · rw [show yb - yShift = 0 from by omega, Nat.zero_mul] at h2
        have h4 := Nat.eq_zero_of_le_zero h2
        have := h.size
        have : 0 < 2 ^ t.ksize := Nat.two_pow_pos _
        rcases Nat.mul_eq_zero.1 h4 with c | c
        · rcases Nat.mul_eq_zero.1 c with c | c <;> omega
        · omega
      · omega
    have h4 : y (t.guess yb * t.size) * t.num ≤ (yb - yShift + D) * t.num := by
      rw [Nat.add_mul]
      exact Nat.le_trans h3 (Nat.add_le_add_right h2 _)
    have h5 : 0 < t.num := by omega
    have := Nat.le_of_mul_le_mul_right h4 h5
    omega

/-- **C132.** In a plot whose entries are spread evenly, to less than the shift of 24576 with which the search
    begins, the search succeeds and gives exactly the entries in the range.  Partial: in other plots entries may be
    missing (`C132_missed`). -/
theorem C132_even_partial {t : YTable} {y : Nat → Nat} (h : t.Holds y) {D yb f : Nat} (hd : Even t y D) (hD : D < 24576)
    (hk : 0 < t.ksize) (hk' : t.ksize ≤ 32) (hn : t.num ≤ 2 ^ t.ksize) (hy : yb < 2 ^ t.ksize)
    (hs : 24577 + 2 ^ f + D ≤ 99 * t.size) :
    ∃ out, t.entries yb f = .ok out ∧ (∀ i, i ∈ out ↔ Wanted t y yb f i) ∧ out.Pairwise (· < ·) := by
  have hD' : D < yShift := by unfold yShift; exact hD
  have hends : ∃ out, t.entries yb f = .ok out := by
    refine search_ends h 101 100 false _ (by decide) ?_ ?_
    · by_cases hp : t.guess yb * t.size < t.num
      · rcases guess_even h hd hD' hk hp with z | z
        · exact .inr (.inl z)
        · exact .inr (.inr fun _ => by have := Nat.two_pow_pos f; omega)
      · exact .inr (.inr fun q => absurd q hp)
    · intro hp
      by_cases g : t.parks - 1 ≤ t.guess yb
      · have := (parks_spec h.size (t.guess yb + 100)).1 (by omega)
        omega
      · have eg : t.guess yb = u64 ((yb - yShift) / 2 * t.num) / 2 ^ (t.ksize - 1) / t.size := by
          unfold YTable.guess at g ⊢
          generalize u64 ((yb - yShift) / 2 * t.num) / 2 ^ (t.ksize - 1) / t.size = a at g ⊢
          rcases Nat.le_total a (t.parks - 1) with q | q
          · exact Nat.min_eq_left q
          · rw [Nat.min_eq_right q] at g
            exact absurd (Nat.le_refl _) g
        have hK : 2 ^ t.ksize ≤ 2 ^ 32 := Nat.pow_le_pow_right (by decide) hk'
        have hu : (yb - yShift) / 2 * t.num < 2 ^ 64 := by
          have h1 : (yb - yShift) / 2 < 2 ^ 32 := by omega
          have h2 : t.num ≤ 2 ^ 32 := by omega
          exact Nat.lt_of_lt_of_le (Nat.mul_lt_mul_of_lt_of_le h1 h2 (Nat.two_pow_pos 32))
            (Nat.le_of_eq (Nat.pow_add 2 32 32).symm)
        rw [u64_of_lt hu, Nat.div_div_eq_div_mul] at eg
        have e2 : 2 ^ t.ksize = 2 ^ (t.ksize - 1) * 2 := by
          rw [← Nat.pow_succ]
          congr 1
          omega
        have hpos : 0 < 2 ^ (t.ksize - 1) * t.size := Nat.mul_pos (Nat.two_pow_pos _) h.size
        have h1 : (yb - yShift) / 2 * t.num < (t.guess yb + 1) * (2 ^ (t.ksize - 1) * t.size) := by
          rw [← Nat.div_lt_iff_lt_mul hpos]
          omega
        have h2 : (yb - yShift - 1) * t.num ≤ (t.guess yb + 1) * t.size * 2 ^ t.ksize := by
          have a : (yb - yShift - 1) * t.num ≤ (yb - yShift) / 2 * t.num * 2 := by
            have : (yb - yShift) / 2 * t.num * 2 = (yb - yShift) / 2 * 2 * t.num := by
              rw [Nat.mul_assoc, Nat.mul_comm t.num 2, ← Nat.mul_assoc]
            rw [this]
            exact Nat.mul_le_mul_right _ (by omega)
          have b : (t.guess yb + 1) * t.size * 2 ^ t.ksize = (t.guess yb + 1) * (2 ^ (t.ksize - 1) * t.size) * 2 := by
            rw [e2, Nat.mul_assoc, Nat.mul_assoc, Nat.mul_left_comm t.size, ← Nat.mul_assoc (2 ^ (t.ksize - 1))]
          rw [b]
          exact Nat.le_trans a (Nat.mul_le_mul_right 2 (Nat.le_of_lt h1))
        have h3 : (yb - yShift - 1 + 99 * t.size) * t.num ≤ (t.guess yb + 100) * t.size * 2 ^ t.ksize := by
          have a : (t.guess yb + 100) * t.size * 2 ^ t.ksize =
              (t.guess yb + 1) * t.size * 2 ^ t.ksize + 99 * t.size * 2 ^ t.ksize := by
            rw [← Nat.add_mul, ← Nat.add_mul]
          rw [a, Nat.add_mul]
          exact Nat.add_le_add h2 (Nat.mul_le_mul_left _ hn)
        have h4 : (yb + 2 ^ f + D) * t.num ≤ (y ((t.guess yb + 100) * t.size) + D) * t.num := by
          refine Nat.le_trans (Nat.mul_le_mul_right _ ?_) (Nat.le_trans h3 (hd.down _ hp))
          unfold yShift
          omega
        have := Nat.le_of_mul_le_mul_right h4 (by omega)
        omega
  obtain ⟨out, ho⟩ := hends
  refine ⟨out, ho, ?_⟩
  have := search_complete h (yb := yb) (ye := yb + 2 ^ f) (G := fun p => p = t.guess yb ∨ p = 0)
    (fun p hp gp c d => by
      rcases gp with rfl | z
      · rcases guess_even h hd hD' hk hp with z | z
        · exact absurd z d
        · exfalso; have := Nat.two_pow_pos f; omega
      · exact absurd z d)
    (fun p hp gp c x q => by
      have : p = 0 ∨ y (p * t.size) < yb := by
        rcases gp with rfl | z
        · exact guess_even h hd hD' hk hp
        · exact .inl z
      rcases this with z | z
      · rw [z, Nat.zero_mul] at q; omega
      · exact Nat.lt_of_le_of_lt (h.sorted _ _ (Nat.le_of_lt q) hp) z)
    (fun p gp => by
      rcases gp with rfl | z
      · exact guess_lt h.size yb
      · exact .inl z) 101 _ (.inl rfl) ho
  exact ⟨fun i => (this.1 i).trans ⟨fun q => q.2, fun q => ⟨Nat.zero_le _, q⟩⟩, this.2⟩

/-- **C132.** More generally, when the search gives a result it is complete if the first park it looks at does not
    begin inside of the range, nor more than `W` above it, and no stretch of up to `W` values holds a park more entries
    than values.  Partial: as before. -/
theorem C132_complete_partial {t : YTable} {y : Nat → Nat} (h : t.Holds y) {W yb f : Nat} {out : List Nat}
    (hg : y (t.guess yb * t.size) ≤ yb ∧ (∀ i, i < t.guess yb * t.size → y i < yb) ∨
      yb + 2 ^ f ≤ y (t.guess yb * t.size) ∧ y (t.guess yb * t.size) ≤ yb + W)
    (hw : ∀ i j, i ≤ j → j < t.num → y j ≤ y i + W → j ≤ i + (y j - y i) + t.size) (hW : W + t.size ≤ 2 ^ 32)
    (e : t.entries yb f = .ok out) : ∀ i, i ∈ out ↔ Wanted t y yb f i := by
  have hs := h.size
  have := search_complete h (yb := yb) (ye := yb + 2 ^ f)
    (G := fun p => (p = 0 ∨ p * t.size < t.num) ∧ ((∀ i, i < p * t.size → y i < yb) ∨
      yb + 2 ^ f ≤ y (p * t.size) ∧ y (p * t.size) ≤ yb + W))
    (fun p hp gp c d => by
      have hf := Nat.two_pow_pos f
      rcases gp.2 with z | z
      · have hb : t.back yb (y (p * t.size)) p * t.size ≤ p * t.size := by
          exact Nat.mul_le_mul_right _ (Nat.le_trans (Nat.sub_le _ _) (Nat.sub_le _ _))
        exact ⟨.inr (by omega), .inl fun i q => z i (by omega)⟩
      · have hb : t.back yb (y (p * t.size)) p ≤ p := Nat.le_trans (Nat.sub_le _ _) (Nat.sub_le _ _)
        have hb' := Nat.mul_le_mul_right t.size hb
        refine ⟨.inr (by omega), .inl fun i q => ?_⟩
        by_cases c2 : y i < yb
        · exact c2
        · exfalso
          have hi : i ≤ p * t.size := by omega
          have k := hw i (p * t.size) hi hp (by omega)
          have e1 : t.back yb (y (p * t.size)) p = p - (y (p * t.size) - yb + t.size - 1) / t.size - 1 := by
            unfold YTable.back
            rw [u32_of_lt (by omega)]
          generalize hc : (y (p * t.size) - yb + t.size - 1) / t.size = c at e1
          have hlt : y (p * t.size) - yb + t.size - 1 < (c + 1) * t.size := by
            rw [← Nat.div_lt_iff_lt_mul hs, hc]
            omega
          have hne : t.back yb (y (p * t.size)) p ≠ 0 := by
            intro z
            rw [z, Nat.zero_mul] at q
            omega
          have e2 : p = t.back yb (y (p * t.size)) p + (c + 1) := by omega
          have e3 : p * t.size = t.back yb (y (p * t.size)) p * t.size + (c + 1) * t.size := by
            rw [← Nat.add_mul, ← e2]
          have e4 : (c + 1) * t.size = c * t.size + t.size := Nat.succ_mul _ _
          omega)
    (fun p hp gp c x q => by
      rcases gp.2 with z | z
      · exact z x q
      · omega)
    (fun p gp => gp.1) 101 _ ⟨guess_lt hs yb, hg.imp (fun z => z.2) id⟩ e
  exact fun i => (this.1 i).trans ⟨fun q => q.2, fun q => ⟨Nat.zero_le _, q⟩⟩

/-! ### A plot of which an entry is missed, and one of which none is -/

/-- Four entries in parks of one. -/
def fewT (y : Nat → Nat) : YTable :=
  { ksize := 17, size := 1, num := 4, head := fun p => some (y p), deltas := fun _ => some [] }

theorem few_holds {y : Nat → Nat} (h1 : y 0 ≤ y 1) (h2 : y 1 ≤ y 2) (h3 : y 2 ≤ y 3) : (fewT y).Holds y where
  size := Nat.one_pos
  head := fun p _ => by show some (y p) = some (y (p * 1)); rw [Nat.mul_one]
  deltas := fun p _ => ⟨[], rfl, rfl, fun i hi _ => by
    have hi : i < 1 := hi
    have : i = 0 := by omega
    subst this
    rfl⟩
  sorted := fun i j h1 h2 => by
    have h2 : j < 4 := h2
    have hj : j = 0 ∨ j = 1 ∨ j = 2 ∨ j = 3 := by omega
    have hi : i = 0 ∨ i = 1 ∨ i = 2 ∨ i = 3 := by omega
    rcases hj with rfl | rfl | rfl | rfl <;> rcases hi with rfl | rfl | rfl | rfl <;> omega

/-- **C132** does not hold for all plots: the first park the search looks at begins inside of the range, and an entry
    in the park before is missed. -/
theorem C132_missed : ∃ (t : YTable) (y : Nat → Nat) (yb f : Nat) (out : List Nat),
    t.Holds y ∧ t.entries yb f = .ok out ∧ Wanted t y yb f 0 ∧ out = [1, 2, 3] :=
  ⟨fewT (60001 + ·), (60001 + ·), 60001, 4, [1, 2, 3], few_holds (by decide) (by decide) (by decide), by decide +kernel,
    ⟨by decide, by decide, by decide⟩, rfl⟩

/-- A plot of 2^17 entries, one for each value, in parks of 512. -/
def denseT : YTable :=
  { ksize := 17, size := 512, num := 2 ^ 17, head := fun p => some (p * 512), deltas := fun _ => some (List.replicate 511 1) }

theorem yList_ones : ∀ (n y i : Nat), i ≤ n → y + n < 2 ^ 32 → (yList y (List.replicate n 1))[i]? = some (y + i)
  | 0, y, i, h, _ => by
    have : i = 0 := by omega
    subst this
    rfl
  | n + 1, y, 0, _, _ => rfl
  | n + 1, y, i + 1, h1, h2 => by
    rw [List.replicate_succ]
    unfold yList
    rw [List.getElem?_cons_succ, u32_of_lt (by omega), yList_ones n (y + 1) i (by omega) (by omega)]
    congr 1
    omega

theorem dense_holds : denseT.Holds id where
  size := by decide
  head := fun p _ => rfl
  deltas := fun p hp => ⟨_, rfl, by rw [List.length_replicate]; rfl, fun i h1 h2 => by
    have hp : p * 512 < 2 ^ 17 := hp
    have h1 : i < 512 := h1
    have h3 : p * 512 + 511 < 2 ^ 32 := Nat.lt_of_lt_of_le (Nat.add_lt_add_right hp 511) (by decide)
    exact yList_ones 511 (p * 512) i (Nat.le_of_lt_succ h1) h3⟩
  sorted := fun i j h _ => h

theorem dense_even : Even denseT id 0 where
  up := fun _ _ => Nat.le_add_right _ _
  down := fun _ _ => Nat.le_refl _

example : ∃ out, denseT.entries 100000 4 = .ok out ∧ (∀ i, i ∈ out ↔ Wanted denseT id 100000 4 i) ∧ out.Pairwise (· < ·) :=
  C132_even_partial dense_holds dense_even (by decide) (by decide) (by decide) (by decide) (by decide) (by decide)

example : denseT.entries 100000 2 = .ok [100000, 100001, 100002, 100003] := by decide +kernel

/-- The search goes back when it began too high: here from the last park to the second. -/
example : (fewT fun i => [0, 60001, 60002, 60100].getD i 0).entries 120000 2 = .ok [] ∧
    (fewT fun i => [0, 50000, 50002, 60100].getD i 0).entries 50000 2 = .ok [1, 2] := by decide +kernel

end Verif.Farm
