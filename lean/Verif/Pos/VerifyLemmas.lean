import Verif.Pos.TablesLemmas
/-
  Helper lemmas about `verify` and the orders of table 1.
-/
namespace Verif.Pos

variable {α β ρ : Type}

theorem mem_expand_zero {v x : Nat} (hv : v < 2 ^ 32) : x ∈ expand 0 v ↔ x = v := by
  unfold expand
  rw [Nat.pow_zero, Nat.mul_one, u32_of_lt hv]
  show x ∈ [v ||| 0] ↔ _
  rw [Nat.or_zero, List.mem_singleton]

theorem mem_order {xs order : List Nat} (hx : ∀ x ∈ xs, x < 2 ^ 32) (ho : IsOrder 0 xs order) (x : Nat) :
    x ∈ order ↔ x ∈ xs := by
  rw [ho.2]
  constructor
  · rintro ⟨v, hv, h⟩
    rw [mem_expand_zero (hx v hv)] at h
    exact h ▸ hv
  · intro h
    exact ⟨x, h, (mem_expand_zero (hx x h)).2 rfl⟩

theorem expand_lt {xbits v x : Nat} (hb : xbits ≤ 32) (h : x ∈ expand xbits v) : x < 2 ^ 32 := by
  unfold expand at h
  obtain ⟨i, hi, rfl⟩ := List.mem_map.1 h
  rw [List.mem_range] at hi
  exact Nat.or_lt_two_pow (u32_lt _) (Nat.lt_of_lt_of_le hi (Nat.pow_le_pow_right (by decide) hb))

theorem over_mono {fn : Fns α β} {d : Nat} {X X' xs : List Nat} {y : Nat} {m : α}
    (h : Over fn d X xs y m) (hs : ∀ x ∈ X, x ∈ X') : Over fn d X' xs y m :=
  ⟨h.1, fun x hx => hs x (h.2 x hx)⟩

theorem noCollision_mono {fn : Fns α β} {X X' : List Nat} (h : NoCollision fn X')
    (hs : ∀ x ∈ X, x ∈ X') : NoCollision fn X :=
  fun xs xs' y y' m h1 h2 => h xs xs' y y' m (over_mono h1 hs) (over_mono h2 hs)

theorem post_iff {c : Chal β ρ} {b : β} :
    postFilterOk c b = true ↔ c.postHash b < 2 ^ (256 - c.postFilter) := by
  unfold postFilterOk
  rw [beq_iff_eq, Nat.shiftRight_eq_div_pow, Nat.div_eq_zero_iff]
  constructor
  · rintro (h | h)
    · exact absurd h (Nat.ne_of_gt (Nat.two_pow_pos _))
    · exact h
  · exact .inr

theorem all_same {outs : List (Out α)} (hn : (outs.map (·.mt)).Nodup) (hne : outs ≠ [])
    (h : ∀ o ∈ outs, ∀ o' ∈ outs, o.mt = o'.mt) : ∃ o, outs = [o] := by
  cases outs with
  | nil => exact absurd rfl hne
  | cons o rest =>
    cases rest with
    | nil => exact ⟨o, rfl⟩
    | cons o' rest =>
      have := h o (by simp) o' (by simp)
      simp [this] at hn

/-- What a single result means. -/
theorem single [DecidableEq α] {fn : Fns α β} (hg : Good fn)
    {sort : List α → List Entry → List Entry} (hs : IsSort fn.lt sort) {X : List Nat} {o : Out α}
    (h : computeFull fn sort X = .ok [o]) :
    Over fn 8 X o.xs o.y o.mt ∧
      ∀ (xs : List Nat) (y : Nat) (m : α), Over fn 8 X xs y m → m = o.mt ∧ y = o.y := by
  rcases computeFull_spec hg hs X with ⟨h1, _⟩ | ⟨outs, h1, h2, h3, _⟩
  · rw [h] at h1; cases h1
  · rw [h] at h1; cases h1
    refine ⟨h2 o (by simp), ?_⟩
    intro xs y m ht
    obtain ⟨o', ho', ha, hb⟩ := h3 xs y m ht
    rw [List.mem_singleton] at ho'
    subst ho'
    exact ⟨ha.symm, hb.symm⟩

/-- There is a single result if all trees have the same root. -/
theorem single_of [DecidableEq α] {fn : Fns α β} (hg : Good fn)
    {sort : List α → List Entry → List Entry} (hs : IsSort fn.lt sort) {X xs : List Nat} {y : Nat}
    {m : α} (ht : Over fn 8 X xs y m)
    (hu : ∀ (xs' : List Nat) (y' : Nat) (m' : α), Over fn 8 X xs' y' m' → m' = m) :
    ∃ o, computeFull fn sort X = .ok [o] ∧ Over fn 8 X o.xs o.y o.mt ∧ o.mt = m ∧ o.y = y := by
  rcases computeFull_spec hg hs X with ⟨_, h2⟩ | ⟨outs, h1, h2, h3, h4, h5⟩
  · exact absurd ht (h2 xs y m)
  · obtain ⟨o, rfl⟩ := all_same h4 h5 (fun o ho o' ho' => by
      rw [hu _ _ _ (h2 o ho), hu _ _ _ (h2 o' ho')])
    obtain ⟨o', ho', ha, hb⟩ := h3 xs y m ht
    rw [List.mem_singleton] at ho'
    subst ho'
    exact ⟨o', h1, h2 o' (by simp), ha, hb⟩

/-- The part of `verify` after the tables. -/
def finish (fn : Fns α β) (c : Chal β ρ) (xValues : List Nat) (o : Out α) : Res ρ := do
  Res.chk (¬ (o.y < c.y0 ∨ c.y0 + 2 ^ c.plotFilter ≤ o.y))
  Res.chk (o.xs = xValues)
  if c.hardFork then do
    Res.chk (postFilterOk c (fn.cut o.mt) = true)
    .ok (c.proofHash o.xs)
  else .ok (c.quality (fn.cut o.mt))

theorem verify_single [DecidableEq α] {fn : Fns α β} {sort : List α → List Entry → List Entry}
    {c : Chal β ρ} {xs order : List Nat} {o : Out α} (hl : xs.length = 256)
    (h : computeFull fn sort order = .ok [o]) : verify fn sort c xs order = finish fn c xs o := by
  unfold verify
  have : (Res.chk (xs.length = 256) : Res Unit) = .ok () := by
    unfold Res.chk; rw [if_pos hl]
  rw [this, Res.bind_ok, h, Res.bind_ok]
  rfl

theorem verify_ok [DecidableEq α] {fn : Fns α β} {sort : List α → List Entry → List Entry}
    {c : Chal β ρ} {xs order : List Nat} {r : ρ} (h : verify fn sort c xs order = .ok r) :
    xs.length = 256 ∧ ∃ o, computeFull fn sort order = .ok [o] ∧ finish fn c xs o = .ok r := by
  unfold verify at h
  obtain ⟨hl, h⟩ := Res.chk_bind.1 h
  obtain ⟨outs, ho, h⟩ := Res.bind_eq_ok.1 h
  refine ⟨hl, ?_⟩
  cases outs with
  | nil => cases h
  | cons o rest =>
    cases rest with
    | nil => exact ⟨o, ho, h⟩
    | cons _ _ => cases h

theorem finish_ok {fn : Fns α β} {c : Chal β ρ} {xs : List Nat} {o : Out α} {r : ρ}
    (h : finish fn c xs o = .ok r) :
    c.y0 ≤ o.y ∧ o.y < c.y0 + 2 ^ c.plotFilter ∧ o.xs = xs ∧
      (c.hardFork = true → c.postHash (fn.cut o.mt) < 2 ^ (256 - c.postFilter) ∧ r = c.proofHash xs) ∧
      (c.hardFork = false → r = c.quality (fn.cut o.mt)) := by
  unfold finish at h
  obtain ⟨hy, h⟩ := Res.chk_bind.1 h
  obtain ⟨hx, h⟩ := Res.chk_bind.1 h
  refine ⟨by omega, by omega, hx, ?_, ?_⟩
  · intro hf
    rw [if_pos hf] at h
    obtain ⟨hp, h⟩ := Res.chk_bind.1 h
    cases h
    exact ⟨post_iff.1 hp, by rw [hx]⟩
  · intro hf
    rw [if_neg (by rw [hf]; decide)] at h
    cases h
    rfl

theorem finish_of {fn : Fns α β} {c : Chal β ρ} {xs : List Nat} {o : Out α}
    (hy : c.y0 ≤ o.y ∧ o.y < c.y0 + 2 ^ c.plotFilter) (hx : o.xs = xs)
    (hp : c.hardFork = true → c.postHash (fn.cut o.mt) < 2 ^ (256 - c.postFilter)) :
    finish fn c xs o = .ok (if c.hardFork then c.proofHash xs else c.quality (fn.cut o.mt)) := by
  unfold finish
  have h1 : (Res.chk (¬ (o.y < c.y0 ∨ c.y0 + 2 ^ c.plotFilter ≤ o.y)) : Res Unit) = .ok () := by
    unfold Res.chk; rw [if_pos (by omega)]
  have h2 : (Res.chk (o.xs = xs) : Res Unit) = .ok () := by
    unfold Res.chk; rw [if_pos hx]
  rw [h1, Res.bind_ok, h2, Res.bind_ok]
  by_cases hf : c.hardFork = true
  · have h3 : (Res.chk (postFilterOk c (fn.cut o.mt) = true) : Res Unit) = .ok () := by
      unfold Res.chk; rw [if_pos (post_iff.2 (hp hf))]
    rw [if_pos hf, if_pos hf, h3, Res.bind_ok, hx]
  · rw [if_neg hf, if_neg hf]

theorem finish_ne_ub {fn : Fns α β} {c : Chal β ρ} {xs : List Nat} {o : Out α} :
    finish fn c xs o ≠ .ub := by
  unfold finish Res.chk
  by_cases h1 : ¬ (o.y < c.y0 ∨ c.y0 + 2 ^ c.plotFilter ≤ o.y)
  · rw [if_pos h1, Res.bind_ok]
    by_cases h2 : o.xs = xs
    · rw [if_pos h2, Res.bind_ok]
      by_cases h3 : c.hardFork = true
      · rw [if_pos h3]
        by_cases h4 : postFilterOk c (fn.cut o.mt) = true
        · rw [if_pos h4, Res.bind_ok]; intro h; cases h
        · rw [if_neg h4]; intro h; cases h
      · rw [if_neg h3]; intro h; cases h
    · rw [if_neg h2]; intro h; cases h
  · rw [if_neg h1]; intro h; cases h

/-- `finish` looks at nothing else of the result. -/
theorem finish_congr {fn : Fns α β} {c : Chal β ρ} {xs : List Nat} {o o' : Out α} (h1 : o.y = o'.y)
    (h2 : o.mt = o'.mt) (h3 : o.xs = o'.xs) : finish fn c xs o = finish fn c xs o' := by
  cases o; cases o'
  cases h1; cases h2; cases h3
  rfl

end Verif.Pos
