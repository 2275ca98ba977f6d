import Verif.Hash.Ocl
import Verif.Hash.NiLemmas
import Verif.Codec.PropsVdf
/-
  The OpenCL version of SHA-256 against the standard.
-/
namespace Verif.Hash.Ocl
open Ni

theorem k_eq : k = sha256Alg.K := by decide
theorem hInit_eq : hInit = sha256Alg.init := by decide

theorem zr25_eq (x : BitVec 32) : zr25 x = sha256Alg.s0 x := by
  show x.rotateLeft 25 ^^^ x.rotateLeft 14 ^^^ x >>> 3
    = x.rotateRight 7 ^^^ x.rotateRight 18 ^^^ x >>> 3
  rw [show x.rotateLeft 25 = x.rotateRight 7 from BitVec.or_comm _ _,
    show x.rotateLeft 14 = x.rotateRight 18 from BitVec.or_comm _ _]

theorem zr15_eq (x : BitVec 32) : zr15 x = sha256Alg.s1 x := by
  show x.rotateLeft 15 ^^^ x.rotateLeft 13 ^^^ x >>> 10
    = x.rotateRight 17 ^^^ x.rotateRight 19 ^^^ x >>> 10
  rw [show x.rotateLeft 15 = x.rotateRight 17 from BitVec.or_comm _ _,
    show x.rotateLeft 13 = x.rotateRight 19 from BitVec.or_comm _ _]

theorem zr26_eq (x : BitVec 32) : zr26 x = sha256Alg.S1 x := by
  show x.rotateLeft 26 ^^^ x.rotateLeft 21 ^^^ x.rotateLeft 7
    = x.rotateRight 6 ^^^ x.rotateRight 11 ^^^ x.rotateRight 25
  rw [show x.rotateLeft 26 = x.rotateRight 6 from BitVec.or_comm _ _,
    show x.rotateLeft 21 = x.rotateRight 11 from BitVec.or_comm _ _,
    show x.rotateLeft 7 = x.rotateRight 25 from BitVec.or_comm _ _]

theorem zr30_eq (x : BitVec 32) : zr30 x = sha256Alg.S0 x := by
  show x.rotateLeft 30 ^^^ x.rotateLeft 19 ^^^ x.rotateLeft 10
    = x.rotateRight 2 ^^^ x.rotateRight 13 ^^^ x.rotateRight 22
  rw [show x.rotateLeft 30 = x.rotateRight 2 from BitVec.or_comm _ _,
    show x.rotateLeft 19 = x.rotateRight 13 from BitVec.or_comm _ _,
    show x.rotateLeft 10 = x.rotateRight 22 from BitVec.or_comm _ _]

theorem ma_eq (x y z : BitVec 32) : ma x y z = specMaj x y z := by
  rw [← maj_eq]
  unfold ma
  refine BitVec.eq_of_getLsbD_eq fun i _ => ?_
  simp only [BitVec.getLsbD_or, BitVec.getLsbD_and]
  cases x.getLsbD i <;> cases y.getLsbD i <;> cases z.getLsbD i <;> rfl

theorem add_turn (a b c d : BitVec 32) : a + b + c + d = d + c + b + a := by
  rw [BitVec.add_comm (a + b + c), BitVec.add_comm (a + b), BitVec.add_comm a b,
    BitVec.add_assoc d c b, BitVec.add_assoc d (c + b) a, BitVec.add_assoc c b a]

theorem fillN (junk msg : Nat → BitVec 32) (b : List Byte) (h : ∀ t, t < 16 → msg t = words b t)
    (n : Nat) (hn : n ≤ 48) : ∀ t, t < 16 + n →
      (((List.range n).map (· + 16)).foldl fillStep (fillLow junk msg)) t = words b t := by
  induction n with
  | zero =>
    intro t ht
    show (if t < 16 then msg t else junk t) = _
    rw [if_pos (by omega)]
    exact h t (by omega)
  | succ n ih =>
    intro t ht
    have ih := ih (by omega)
    rw [List.range_succ, List.map_append, List.foldl_append]
    generalize ((List.range n).map (· + 16)).foldl fillStep (fillLow junk msg) = w at ih
    show fillStep w (n + 16) t = _
    unfold fillStep upd
    by_cases htn : t = n + 16
    · rw [if_pos htn, htn, words_sched b n (by omega), show n + 16 - 16 = n by omega,
        show n + 16 - 15 = n + 1 by omega, show n + 16 - 7 = n + 9 by omega,
        show n + 16 - 2 = n + 14 by omega, ih n (by omega), ih (n + 1) (by omega),
        ih (n + 9) (by omega), ih (n + 14) (by omega), zr25_eq, zr15_eq]
      exact add_turn _ _ _ _
    · rw [if_neg htn]
      exact ih t (by omega)

theorem rounds_eq (w : Nat → BitVec 32) (b : List Byte) (s : Regs 32)
    (hw : ∀ t, t < 64 → w t = words b t) (n : Nat) (hn : n ≤ 64) :
    (List.range n).foldl (round w) s = specRounds sha256Alg s b n := by
  induction n with
  | zero => rfl
  | succ n ih =>
    rw [List.range_succ, List.foldl_append, ih (by omega), words_rounds b s n (by omega)]
    generalize specRounds sha256Alg s b n = r
    show round w r n = _
    unfold round specRound
    dsimp only
    rw [zr26_eq, zr30_eq, ma_eq, hw n (by omega), k_eq,
      show ch r.e r.f r.g = specCh r.e r.f r.g from ch_eq _ _ _]

theorem sha_eq (junk msg : Nat → BitVec 32) (b : List Byte) (s : Regs 32)
    (h : ∀ t, t < 16 → msg t = words b t) : sha junk msg s = compress sha256Alg s b := by
  have hw : ∀ t, t < 64 → fill junk msg t = words b t := fun t ht =>
    fillN junk msg b h 48 (Nat.le_refl _) t (by omega)
  unfold sha
  rw [rounds_eq _ b s hw 64 (Nat.le_refl _), compress_eq]
  rfl

theorem block32_drop (m : List Byte) (h : m.length = 32) (j : Nat) : (block32 m).drop (32 + j)
    = (0x80#8 :: (List.replicate 23 0#8 ++ toBE 8 (256#64))).drop j := by
  unfold block32
  rw [List.drop_append, List.drop_of_length_le (l := m) (by omega), List.nil_append,
    show 32 + j - m.length = j by omega]

theorem message_words (m : List Byte) (h : m.length = 32) (t : Nat) (ht : t < 16) :
    message m t = words (block32 m) t := by
  rw [words_low _ _ ht]
  unfold message
  by_cases h8 : t < 8
  · rw [if_pos h8, bswap32_le _ (by rw [List.length_take, List.length_drop]; omega)]
    unfold block32
    rw [List.drop_append_of_le_length (by omega),
      List.take_append_of_le_length (by rw [List.length_drop]; omega)]
  · rw [if_neg h8, show 4 * t = 32 + 4 * (t - 8) by omega, block32_drop m h]
    have hc : t = 8 ∨ t = 9 ∨ t = 10 ∨ t = 11 ∨ t = 12 ∨ t = 13 ∨ t = 14 ∨ t = 15 := by omega
    rcases hc with rfl | rfl | rfl | rfl | rfl | rfl | rfl | rfl <;> decide +kernel

theorem digest_at (s : Regs 32) (i : Nat) (hi : i < 8) :
    ((s.digest 4).drop (4 * i)).take 4 = toBE 4 (s.file i) := by
  have h : i = 0 ∨ i = 1 ∨ i = 2 ∨ i = 3 ∨ i = 4 ∨ i = 5 ∨ i = 6 ∨ i = 7 := by omega
  rcases h with rfl | rfl | rfl | rfl | rfl | rfl | rfl | rfl <;> rfl

/-- The words kept for the next iteration are those of the digest. -/
theorem feed_eq (x : Nat → BitVec 32) (m : List Byte) (s : Regs 32)
    (h : ∀ t, t < 16 → x t = message m t) (t : Nat) (ht : t < 16) :
    feed x s t = message (s.digest 4) t := by
  unfold feed
  by_cases h8 : t < 8
  · rw [if_pos h8]
    unfold message
    rw [if_pos h8, digest_at s t h8, bswap32_le _ (toBE_length _ _), be_of_toBE]
  · rw [if_neg h8, h t ht]
    unfold message
    rw [if_neg h8, if_neg h8]

theorem loop_eq (junk : Nat → BitVec 32) (n : Nat) (x : (Nat → BitVec 32) × Regs 32) (m : List Byte)
    (hm : m.length = 32) (h : ∀ t, t < 16 → x.1 t = message m t) :
    ((loop junk (n + 1) x).2).digest 4 = Codec.iter sha256 (n + 1) m := by
  have hs : ∀ (x : (Nat → BitVec 32) × Regs 32) (m : List Byte), m.length = 32 →
      (∀ t, t < 16 → x.1 t = message m t) → (sha junk x.1 hInit).digest 4 = sha256 m := by
    intro x m hm h
    rw [sha_eq junk x.1 (block32 m) hInit
      (fun t ht => (h t ht).trans (message_words m hm t ht)), hInit_eq, sha256_32 m hm]
  induction n generalizing x m with
  | zero => exact hs x m hm h
  | succ n ih =>
    show ((loop junk (n + 1) (feed x.1 (sha junk x.1 hInit), sha junk x.1 hInit)).2).digest 4
      = Codec.iter sha256 (n + 1) (sha256 m)
    refine ih _ _ (sha256_length m) fun t ht => ?_
    rw [← hs x m hm h]
    exact feed_eq x.1 m _ h t ht

theorem store_digest (s : Regs 32) :
    ((List.range 8).flatMap fun i => toLE 4 (bswap32 (s.file i))) = s.digest 4 := by
  rw [show List.range 8 = [0, 1, 2, 3, 4, 5, 6, 7] from rfl]
  simp only [List.flatMap_cons, List.flatMap_nil, List.append_nil, toLE_bswap32]
  unfold Regs.digest
  simp only [List.append_assoc]
  rfl

theorem item_eq (junk : Nat → BitVec 32) (junkS : Regs 32) (mx : Nat) (m : List Byte)
    (hm : m.length = 32) (n : Nat) :
    item junk junkS mx (m, n) = (Codec.iter sha256 (min n mx) m, n - min n mx) := by
  unfold item
  dsimp only
  by_cases h : min n mx = 0
  · rw [if_pos h, h]
    rfl
  · rw [if_neg h, store_digest]
    obtain ⟨j, hj⟩ : ∃ j, min n mx = j + 1 := ⟨min n mx - 1, by omega⟩
    rw [hj, loop_eq junk j _ m hm fun t _ => rfl]

theorem iter_length (n : Nat) (m : List Byte) (h : m.length = 32) :
    (Codec.iter sha256 n m).length = 32 := by
  induction n generalizing m with
  | zero => exact h
  | succ n ih => exact ih _ (sha256_length m)

theorem iter_split {β : Type} (H : β → β) (a b : Nat) (x : β) :
    Codec.iter H (a + b) x = Codec.iter H b (Codec.iter H a x) := by
  induction a generalizing x with
  | zero => rw [Nat.zero_add]; rfl
  | succ a ih =>
    rw [show a + 1 + b = a + b + 1 by omega]
    exact ih (H x)

/-- After `l` launches. -/
theorem launches_eq (junk : Nat → BitVec 32) (junkS : Regs 32) (mx l : Nat) (m : List Byte)
    (hm : m.length = 32) (n : Nat) :
    launches junk junkS mx l (m, n) = (Codec.iter sha256 (min n (l * mx)) m, n - min n (l * mx)) := by
  induction l generalizing m n with
  | zero =>
    rw [Nat.zero_mul, Nat.min_zero]
    rfl
  | succ l ih =>
    show launches junk junkS mx l (item junk junkS mx (m, n)) = _
    rw [item_eq junk junkS mx m hm, ih _ (iter_length _ m hm), ← iter_split]
    have h : min n mx + min (n - min n mx) (l * mx) = min n ((l + 1) * mx) := by
      rw [Nat.add_mul, Nat.one_mul]; omega
    rw [h]
    congr 1
    omega

/-! ### The number of launches -/

theorem count_eq (s : Nat) (hs : s ≤ 2 ^ 32 - maxIters) (fuel k : Nat) (hk : k < s + maxIters)
    (hf : s + maxIters ≤ k + fuel * maxIters) :
    ∃ n, countLaunches s fuel k = some n ∧ s ≤ k + n * maxIters
      ∧ (n ≠ 0 → k + n * maxIters < s + maxIters) := by
  unfold maxIters at *
  induction fuel generalizing k with
  | zero => unfold countLaunches; exact absurd hk (by omega)
  | succ fuel ih =>
    unfold countLaunches
    by_cases h : k < s
    · rw [if_pos h]
      have hu : u32 (k + maxIters) = k + 2500 := u32_of_lt (by unfold maxIters; omega)
      obtain ⟨n, h1, h2, h3⟩ := ih (k + 2500) (by omega) (by omega)
      rw [hu, h1]
      refine ⟨n + 1, rfl, by omega, fun _ => ?_⟩
      by_cases hn : n = 0
      · subst hn; omega
      · have := h3 hn; omega
    · rw [if_neg h]
      exact ⟨0, rfl, by omega, fun h => absurd rfl h⟩

theorem count_never (s : Nat) (hs : 2 ^ 32 - 4 < s) (fuel k : Nat) (hk : k % 4 = 0) (hk2 : k < 2 ^ 32) :
    countLaunches s fuel k = none := by
  induction fuel generalizing k with
  | zero => rfl
  | succ fuel ih =>
    unfold countLaunches
    rw [if_pos (by omega), ih]
    · rfl
    · unfold u32 maxIters; omega
    · unfold u32; omega

/-- The comparison. -/
theorem firstWrong_none (i : Nat) (h s : List (List Byte)) (hl : h.length = s.length) :
    firstWrong i h s = none ↔ h = s := by
  induction h generalizing i s with
  | nil =>
    cases s with
    | nil => exact ⟨fun _ => rfl, fun _ => rfl⟩
    | cons a s => cases hl
  | cons a h ih =>
    cases s with
    | nil => cases hl
    | cons b s =>
      unfold firstWrong
      by_cases hab : a = b
      · rw [if_neg (by simpa using hab), ih (i + 1) s (by simpa using hl), hab]
        simp
      · rw [if_pos hab]
        simp [hab]

end Verif.Hash.Ocl
