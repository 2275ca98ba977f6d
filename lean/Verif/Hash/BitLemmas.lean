import Verif.Hash.Sha512
import Mathlib.Tactic.IntervalCases
/-
  Bytes and bits of machine words, for the hash functions.
-/
namespace Verif.Hash

/-! ### Bytes of a word -/

theorem ofLE_bit (w : Nat) (l : List Byte) (i : Nat) (hi : i < w) :
    (ofLE w l).getLsbD i = (l.getD (i / 8) 0).getLsbD (i % 8) := by
  induction l generalizing i with
  | nil => simp [ofLE]
  | cons b l ih =>
    have h : ofLE w (b :: l) = ofLE w l <<< 8 ||| b.setWidth w := rfl
    rw [h, BitVec.getLsbD_or, BitVec.getLsbD_shiftLeft, BitVec.getLsbD_setWidth]
    by_cases h8 : i < 8
    · rw [Nat.div_eq_of_lt h8, Nat.mod_eq_of_lt h8, List.getD_cons_zero]
      simp [h8, hi]
    · have h1 : i / 8 = (i - 8) / 8 + 1 := by omega
      have h2 : i % 8 = (i - 8) % 8 := by omega
      rw [h1, h2, List.getD_cons_succ, ← ih (i - 8) (by omega)]
      simp [h8, hi, BitVec.getLsbD_of_ge b i (by omega)]

theorem ofBE_eq_ofLE (w : Nat) (l : List Byte) : ofBE w l = ofLE w l.reverse := by
  unfold ofBE ofLE
  rw [List.foldr_reverse]

theorem bswap32_bit (x : BitVec 32) (i : Nat) (hi : i < 32) :
    (bswap32 x).getLsbD i = x.getLsbD (i % 8 + (24 - 8 * (i / 8))) := by
  unfold bswap32
  rw [BitVec.getLsbD_or, BitVec.getLsbD_or, BitVec.getLsbD_or, BitVec.getLsbD_shiftLeft,
    BitVec.getLsbD_shiftLeft, BitVec.getLsbD_ushiftRight, BitVec.getLsbD_ushiftRight]
  simp only [BitVec.getLsbD_and]
  interval_cases i <;> simp

theorem bswap64_bit (x : BitVec 64) (i : Nat) (hi : i < 64) :
    (bswap64 x).getLsbD i = x.getLsbD (i % 8 + (56 - 8 * (i / 8))) := by
  unfold bswap64
  rw [BitVec.getLsbD_or, BitVec.getLsbD_shiftLeft, BitVec.getLsbD_setWidth,
    BitVec.getLsbD_setWidth]
  by_cases h : i < 32
  · rw [bswap32_bit _ i h, BitVec.getLsbD_setWidth, BitVec.getLsbD_ushiftRight]
    have h1 : i % 8 + (24 - 8 * (i / 8)) < 32 := by omega
    have h2 : 32 + (i % 8 + (24 - 8 * (i / 8))) = i % 8 + (56 - 8 * (i / 8)) := by omega
    simp [h, hi, h1, h2]
  · have h0 : (bswap32 ((x >>> 32).setWidth 32)).getLsbD i = false :=
      BitVec.getLsbD_of_ge _ i (by omega)
    rw [h0, bswap32_bit _ (i - 32) (by omega), BitVec.getLsbD_setWidth]
    have h1 : (i - 32) % 8 + (24 - 8 * ((i - 32) / 8)) < 32 := by omega
    have h2 : (i - 32) % 8 + (24 - 8 * ((i - 32) / 8)) = i % 8 + (56 - 8 * (i / 8)) := by omega
    have h3 : i - 32 < 64 := by omega
    rw [h2] at h1 ⊢
    simp [h, hi, h1, h3]

theorem bswap32_le (l : List Byte) (h : l.length = 4) : bswap32 (ofLE 32 l) = ofBE 32 l := by
  refine BitVec.eq_of_getLsbD_eq fun i hi => ?_
  rw [bswap32_bit _ i hi, ofBE_eq_ofLE, ofLE_bit _ _ _ (by omega), ofLE_bit _ _ _ hi]
  have h1 : (i % 8 + (24 - 8 * (i / 8))) / 8 = 3 - i / 8 := by omega
  have h2 : (i % 8 + (24 - 8 * (i / 8))) % 8 = i % 8 := by omega
  have h3 : i / 8 < 4 := by omega
  rw [h1, h2]
  congr 1
  rw [List.getD_eq_getElem?_getD, List.getD_eq_getElem?_getD, List.getElem?_reverse (by omega), h]

theorem bswap64_le (l : List Byte) (h : l.length = 8) : bswap64 (ofLE 64 l) = ofBE 64 l := by
  refine BitVec.eq_of_getLsbD_eq fun i hi => ?_
  rw [bswap64_bit _ i hi, ofBE_eq_ofLE, ofLE_bit _ _ _ (by omega), ofLE_bit _ _ _ hi]
  have h1 : (i % 8 + (56 - 8 * (i / 8))) / 8 = 7 - i / 8 := by omega
  have h2 : (i % 8 + (56 - 8 * (i / 8))) % 8 = i % 8 := by omega
  have h3 : i / 8 < 8 := by omega
  rw [h1, h2]
  congr 1
  rw [List.getD_eq_getElem?_getD, List.getD_eq_getElem?_getD, List.getElem?_reverse (by omega), h]

theorem toLE_bswap64 (x : BitVec 64) : toLE 8 (bswap64 x) = toBE 8 x := by
  unfold toLE toBE
  refine List.map_congr_left fun i hi => ?_
  have hi : i < 8 := List.mem_range.1 hi
  refine BitVec.eq_of_getLsbD_eq fun j hj => ?_
  rw [BitVec.getLsbD_setWidth, BitVec.getLsbD_setWidth, BitVec.getLsbD_ushiftRight,
    BitVec.getLsbD_ushiftRight, bswap64_bit _ _ (by omega)]
  congr 2
  omega

theorem toLE_bswap32 (x : BitVec 32) : toLE 4 (bswap32 x) = toBE 4 x := by
  unfold toLE toBE
  refine List.map_congr_left fun i hi => ?_
  have hi : i < 4 := List.mem_range.1 hi
  refine BitVec.eq_of_getLsbD_eq fun j hj => ?_
  rw [BitVec.getLsbD_setWidth, BitVec.getLsbD_setWidth, BitVec.getLsbD_ushiftRight,
    BitVec.getLsbD_ushiftRight, bswap32_bit _ _ (by omega)]
  congr 2
  omega

theorem toBE_length {w : Nat} (n : Nat) (x : BitVec w) : (toBE n x).length = n := by
  simp [toBE]

theorem toLE_length {w : Nat} (n : Nat) (x : BitVec w) : (toLE n x).length = n := by
  simp [toLE]

theorem digest_length {w : Nat} (n : Nat) (s : Regs w) : (s.digest n).length = 8 * n := by
  simp only [Regs.digest, List.length_append, toBE_length]; omega

/-! ### Functions of the standard -/

theorem ch_eq {w : Nat} (x y z : BitVec w) : z ^^^ (x &&& (y ^^^ z)) = specCh x y z := by
  unfold specCh
  ext i hi
  simp only [BitVec.getElem_xor, BitVec.getElem_and, BitVec.getElem_not]
  cases x[i] <;> cases y[i] <;> cases z[i] <;> rfl

theorem maj_eq {w : Nat} (x y z : BitVec w) : (x &&& y) ||| (z &&& (x ||| y)) = specMaj x y z := by
  unfold specMaj
  ext i hi
  simp only [BitVec.getElem_xor, BitVec.getElem_and, BitVec.getElem_or]
  cases x[i] <;> cases y[i] <;> cases z[i] <;> rfl

/-! ### The schedule -/

theorem getD_append_left {β : Type} (l r : List β) (d : β) {n : Nat} (h : n < l.length) :
    (l ++ r).getD n d = l.getD n d := by
  rw [List.getD_eq_getElem?_getD, List.getD_eq_getElem?_getD, List.getElem?_append_left h]

theorem getD_concat {β : Type} (l : List β) (x d : β) : (l ++ [x]).getD l.length d = x := by
  rw [List.getD_eq_getElem?_getD, List.getElem?_concat_length, Option.getD_some]

section schedule
variable {w : Nat} (A : Alg w) (M : List (BitVec w))

theorem schedule_length (hM : M.length = 16) (n : Nat) : (schedule A M n).length = 16 + n := by
  induction n with
  | zero => exact hM
  | succ n ih => simp only [schedule, List.length_append, List.length_singleton, ih]; omega

theorem schedule_prefix (hM : M.length = 16) {n m t : Nat} (h : n ≤ m) (ht : t < 16 + n) :
    (schedule A M m).getD t 0 = (schedule A M n).getD t 0 := by
  induction m with
  | zero => rw [Nat.le_zero.1 h]
  | succ m ih =>
    by_cases h1 : n = m + 1
    · rw [h1]
    · rw [← ih (by omega)]
      simp only [schedule]
      rw [getD_append_left _ _ _ (by rw [schedule_length A M hM]; omega)]

theorem schedule_low (hM : M.length = 16) {m t : Nat} (ht : t < 16) :
    (schedule A M m).getD t 0 = M.getD t 0 :=
  schedule_prefix A M hM (Nat.zero_le m) ht

theorem schedule_step (hM : M.length = 16) {m t : Nat} (h1 : 16 ≤ t) (h2 : t < 16 + m) :
    (schedule A M m).getD t 0
      = A.s1 ((schedule A M m).getD (t - 2) 0) + (schedule A M m).getD (t - 7) 0
        + A.s0 ((schedule A M m).getD (t - 15) 0) + (schedule A M m).getD (t - 16) 0 := by
  obtain ⟨n, rfl⟩ : ∃ n, t = 16 + n := ⟨t - 16, by omega⟩
  rw [schedule_prefix A M hM (n := n + 1) (by omega) (by omega),
    schedule_prefix A M hM (n := n) (m := m) (t := 16 + n - 2) (by omega) (by omega),
    schedule_prefix A M hM (n := n) (m := m) (t := 16 + n - 7) (by omega) (by omega),
    schedule_prefix A M hM (n := n) (m := m) (t := 16 + n - 15) (by omega) (by omega),
    schedule_prefix A M hM (n := n) (m := m) (t := 16 + n - 16) (by omega) (by omega)]
  have h3 : 16 + n - 2 = n + 14 := by omega
  have h4 : 16 + n - 7 = n + 9 := by omega
  have h5 : 16 + n - 15 = n + 1 := by omega
  have h6 : 16 + n - 16 = n := by omega
  rw [h3, h4, h5, h6]
  show (schedule A M n ++ [_]).getD (16 + n) 0 = _
  rw [← schedule_length A M hM n, getD_concat]

end schedule

theorem blockWords_length {w : Nat} (A : Alg w) (l : List Byte) : (blockWords A l).length = 16 := by
  simp [blockWords]

/-- The rounds of a block, numbered. -/
def specRounds {w : Nat} (A : Alg w) (s : Regs w) (block : List Byte) (n : Nat) : Regs w :=
  ((List.range n).map fun i => (A.K.getD i 0,
    (schedule A (blockWords A block) (A.K.length - 16)).getD i 0)).foldl (specRound A) s

theorem specRounds_succ {w : Nat} (A : Alg w) (s : Regs w) (block : List Byte) (n : Nat) :
    specRounds A s block (n + 1) = specRound A (specRounds A s block n) (A.K.getD n 0,
      (schedule A (blockWords A block) (A.K.length - 16)).getD n 0) := by
  unfold specRounds
  rw [List.range_succ, List.map_append, List.foldl_append]
  rfl

theorem compress_rounds {w : Nat} (A : Alg w) (h16 : 16 ≤ A.K.length) (s : Regs w)
    (block : List Byte) : compress A s block = s.add (specRounds A s block A.K.length) := by
  unfold compress specRounds
  congr 2
  have hl := schedule_length A (blockWords A block) (blockWords_length A block) (A.K.length - 16)
  refine List.ext_getElem (by simp [hl]; omega) fun i h1 h2 => ?_
  have h3 : i < A.K.length := by simp at h2; omega
  rw [List.getElem_zip, List.getElem_map, List.getElem_range]
  rw [List.getD_eq_getElem?_getD, List.getD_eq_getElem?_getD, List.getElem?_eq_getElem h3,
    List.getElem?_eq_getElem (by omega), Option.getD_some, Option.getD_some]

/-! ### Rotating registers -/

/-- The register file holds the working variables after `i` rounds: it is not moved, its names
    rotate. -/
def Rotated {w : Nat} (i : Nat) (r : Nat → BitVec w) (s : Regs w) : Prop :=
  ∀ j, j < 8 → r ((j + 8 - i % 8) % 8) = s.file j

/-- The parameters of round `i`. -/
def rotation (i : Nat) : List Nat := (List.range 8).map fun j => (j + 8 - i % 8) % 8

theorem Rotated.congr {w : Nat} {i j : Nat} (h : i % 8 = j % 8) {r : Nat → BitVec w} {s : Regs w}
    (hr : Rotated i r s) : Rotated j r s := by
  intro k hk; rw [← h]; exact hr k hk

theorem Rotated.ofFile {w : Nat} {i : Nat} (h : i % 8 = 0) {r : Nat → BitVec w} {s : Regs w}
    (hr : Rotated i r s) : Regs.ofFile r = s := by
  unfold Rotated at hr
  rw [h] at hr
  have h0 := hr 0 (by omega)
  have h1 := hr 1 (by omega)
  have h2 := hr 2 (by omega)
  have h3 := hr 3 (by omega)
  have h4 := hr 4 (by omega)
  have h5 := hr 5 (by omega)
  have h6 := hr 6 (by omega)
  have h7 := hr 7 (by omega)
  simp only [Nat.zero_add, Nat.sub_zero, Nat.mod_self, Nat.reduceAdd, Nat.reduceMod] at h0 h1 h2 h3 h4 h5 h6 h7
  cases s
  simp only [Regs.ofFile, Regs.file] at *
  simp only [h0, h1, h2, h3, h4, h5, h6, h7]

theorem Rotated.init {w : Nat} (s : Regs w) : Rotated 0 s.file s := by
  intro j hj
  have : (j + 8 - 0 % 8) % 8 = j := by omega
  rw [this]

/-- Writing two of them is a round. -/
theorem Rotated.round {w : Nat} {A : Alg w} {i : Nat} {r : Nat → BitVec w} {s : Regs w}
    (h : Rotated i r s) (k x : BitVec w) :
    Rotated (i + 1) (upd (upd r ((rotation i).getD 3 0)
        (s.d + (s.h + A.S1 s.e + specCh s.e s.f s.g + k + x)))
      ((rotation i).getD 7 0) ((s.h + A.S1 s.e + specCh s.e s.f s.g + k + x)
        + (A.S0 s.a + specMaj s.a s.b s.c))) (specRound A s (k, x)) := by
  intro j hj
  have h3 : (rotation i).getD 3 0 = (3 + 8 - i % 8) % 8 := by simp [rotation]
  have h7 : (rotation i).getD 7 0 = (7 + 8 - i % 8) % 8 := by simp [rotation]
  rw [h3, h7]
  unfold upd
  by_cases j0 : j = 0
  · subst j0
    rw [if_pos (by omega)]
    rfl
  · rw [if_neg (by omega)]
    by_cases j4 : j = 4
    · subst j4
      rw [if_pos (by omega)]
      rfl
    · rw [if_neg (by omega)]
      have hidx : (j + 8 - (i + 1) % 8) % 8 = (j - 1 + 8 - i % 8) % 8 := by omega
      rw [hidx, h (j - 1) (by omega)]
      have : j = 1 ∨ j = 2 ∨ j = 3 ∨ j = 5 ∨ j = 6 ∨ j = 7 := by omega
      rcases this with rfl | rfl | rfl | rfl | rfl | rfl <;> rfl

theorem rotation_getD (i j : Nat) (hj : j < 8) : (rotation i).getD j 0 = (j + 8 - i % 8) % 8 := by
  unfold rotation
  rw [List.getD_eq_getElem?_getD, List.getElem?_map, List.getElem?_range hj]
  rfl

/-! ### Blocks -/

section blocks
variable {w : Nat} (A : Alg w)

theorem overBlocks_append_left (n : Nat) (s : Regs w) (l r : List Byte) (h : A.block * n ≤ l.length) :
    overBlocks A n s (l ++ r) = overBlocks A n s l := by
  induction n generalizing s l with
  | zero => rfl
  | succ n ih =>
    have h1 : A.block ≤ l.length := by rw [Nat.mul_add] at h; omega
    unfold overBlocks
    rw [List.take_append_of_le_length h1, List.drop_append_of_le_length h1,
      ih _ _ (by rw [List.length_drop]; rw [Nat.mul_add] at h; omega)]

theorem overBlocks_add (n k : Nat) (s : Regs w) (l : List Byte) :
    overBlocks A (n + k) s l = overBlocks A k (overBlocks A n s l) (l.drop (A.block * n)) := by
  induction n generalizing s l with
  | zero => simp [overBlocks]
  | succ n ih =>
    rw [show n + 1 + k = (n + k) + 1 by omega]
    show overBlocks A (n + k) (compress A s (l.take A.block)) (l.drop A.block) = _
    rw [ih, List.drop_drop, Nat.mul_add, Nat.mul_one, Nat.add_comm A.block]
    rfl

end blocks

/-- Reading back what was stored. -/
theorem ofLE_toLE {w : Nat} (n : Nat) (h : w = 8 * n) (x : BitVec w) : ofLE w (toLE n x) = x := by
  refine BitVec.eq_of_getLsbD_eq fun i hi => ?_
  rw [ofLE_bit _ _ _ hi]
  unfold toLE
  rw [List.getD_eq_getElem?_getD, List.getElem?_map, List.getElem?_range (by omega),
    Option.map_some, Option.getD_some, BitVec.getLsbD_setWidth, BitVec.getLsbD_ushiftRight]
  rw [show 8 * (i / 8) + i % 8 = i by omega]
  simp [show i % 8 < 8 by omega]

theorem bswap32_bswap32 (x : BitVec 32) : bswap32 (bswap32 x) = x := by
  refine BitVec.eq_of_getLsbD_eq fun i hi => ?_
  rw [bswap32_bit _ _ hi, bswap32_bit _ _ (by omega)]
  congr 1
  omega

end Verif.Hash
