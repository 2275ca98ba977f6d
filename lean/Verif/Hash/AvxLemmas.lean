import Verif.Hash.Sha256AvxFuns
import Verif.Hash.NiLemmas
/-
  src/sha256_avx2.cpp: every lane does the rounds of SHA-256 on its own block.
-/
namespace Verif.Hash.Avx
open Ni

theorem transpose_eq (s : Nat → V8) (i j : Nat) (hi : i < 8) (hj : j < 8) :
    transpose s i j = s j i := by
  have h : i = 0 ∨ i = 1 ∨ i = 2 ∨ i = 3 ∨ i = 4 ∨ i = 5 ∨ i = 6 ∨ i = 7 := by omega
  have h' : j = 0 ∨ j = 1 ∨ j = 2 ∨ j = 3 ∨ j = 4 ∨ j = 5 ∨ j = 6 ∨ j = 7 := by omega
  rcases h with rfl | rfl | rfl | rfl | rfl | rfl | rfl | rfl <;>
    (rcases h' with rfl | rfl | rfl | rfl | rfl | rfl | rfl | rfl <;> rfl)

/-! ### The rounds -/

/-- What row `i` has to be. -/
def rowOf (i : Nat) : Row where
  sched := if i < 16 then none else some (i, i - 2, i - 16, i - 7, i - 15)
  regs := rotation i
  rc := i
  w := i

theorem rows_table : rows = (List.range 64).map rowOf := by decide +kernel

theorem rc_eq : RC = sha256Alg.K := by decide

/-- The words that exist before round `n`. -/
def Ready (b : List Byte) (p n : Nat) (w : Nat → V8) : Prop :=
  ∀ t, t < 16 ∨ t < n → t < 64 → w t p = words b t

theorem add4 (a b c d : BitVec 32) : a + b + c + d = a + c + d + b := by
  rw [BitVec.add_assoc a b c, BitVec.add_comm b c, ← BitVec.add_assoc, BitVec.add_assoc (a + c),
    BitVec.add_comm b d, ← BitVec.add_assoc]

theorem assign_ready (b : List Byte) (p n : Nat) (hn : n < 64) (w : Nat → V8)
    (h : Ready b p n w) : Ready b p (n + 1) ((rowOf n).assign w) := by
  intro t ht h64
  unfold Row.assign rowOf
  dsimp only
  by_cases h16 : n < 16
  · rw [if_pos h16]
    exact h t (by omega) h64
  · rw [if_neg h16]
    dsimp only
    unfold upd
    by_cases htn : t = n
    · subst htn
      rw [if_pos rfl]
      have hs := words_sched b (t - 16) (by omega)
      rw [show t - 16 + 16 = t by omega, show t - 16 + 14 = t - 2 by omega,
        show t - 16 + 9 = t - 7 by omega, show t - 16 + 1 = t - 15 by omega] at hs
      rw [hs, ← h (t - 2) (by omega) (by omega), ← h (t - 7) (by omega) (by omega),
        ← h (t - 15) (by omega) (by omega), ← h (t - 16) (by omega) (by omega)]
      exact add4 _ _ _ _
    · rw [if_neg htn]
      exact h t (by omega) h64

theorem round_eq (p i : Nat) (s w : Nat → V8) (r : Regs 32)
    (h : Rotated i (fun j => s j p) r) :
    Rotated (i + 1) (fun j => (rowOf i).round sha256Alg.K s w j p)
      (specRound sha256Alg r (sha256Alg.K.getD i 0, w i p)) := by
  have hv : ∀ j, j < 8 → s ((rotation i).getD j 0) p = r.file j := by
    intro j hj
    rw [rotation_getD i j hj]; exact h j hj
  have := h.round (A := sha256Alg) (sha256Alg.K.getD i 0) (w i p)
  have h0 : s ((rotation i).getD 0 0) p = r.a := hv 0 (by omega)
  have h1 : s ((rotation i).getD 1 0) p = r.b := hv 1 (by omega)
  have h2 : s ((rotation i).getD 2 0) p = r.c := hv 2 (by omega)
  have h3 : s ((rotation i).getD 3 0) p = r.d := hv 3 (by omega)
  have h4 : s ((rotation i).getD 4 0) p = r.e := hv 4 (by omega)
  have h5 : s ((rotation i).getD 5 0) p = r.f := hv 5 (by omega)
  have h6 : s ((rotation i).getD 6 0) p = r.g := hv 6 (by omega)
  have h7 : s ((rotation i).getD 7 0) p = r.h := hv 7 (by omega)
  have hc : ch (s ((rotation i).getD 4 0)) (s ((rotation i).getD 5 0)) (s ((rotation i).getD 6 0)) p
      = specCh r.e r.f r.g := by
    rw [← h4, ← h5, ← h6]
    show _ ^^^ ((s ((rotation i).getD 4 0) p ^^^ (-1)) &&& _) = _
    rw [show (-1 : BitVec 32) = BitVec.allOnes 32 from rfl, BitVec.xor_allOnes]
    rfl
  have hm : maj (s ((rotation i).getD 0 0)) (s ((rotation i).getD 1 0)) (s ((rotation i).getD 2 0)) p
      = specMaj r.a r.b r.c := by
    rw [← h0, ← h1, ← h2]
    rfl
  have hS1 : sigma1 (s ((rotation i).getD 4 0)) p = sha256Alg.S1 r.e := by
    rw [← h4]; rfl
  have hS0 : sigma0 (s ((rotation i).getD 0 0)) p = sha256Alg.S0 r.a := by
    rw [← h0]; rfl
  refine (?_ : (fun j => (rowOf i).round sha256Alg.K s w j p) = _) ▸ this
  funext j
  unfold Row.round rowOf upd
  dsimp only
  by_cases j7 : j = (rotation i).getD 7 0
  · rw [if_pos j7, if_pos j7]
    show (s ((rotation i).getD 7 0) p + sigma1 (s ((rotation i).getD 4 0)) p
      + ch (s ((rotation i).getD 4 0)) (s ((rotation i).getD 5 0)) (s ((rotation i).getD 6 0)) p
      + sha256Alg.K.getD i 0 + w i p)
      + (sigma0 (s ((rotation i).getD 0 0)) p
      + maj (s ((rotation i).getD 0 0)) (s ((rotation i).getD 1 0)) (s ((rotation i).getD 2 0)) p) = _
    rw [h7, hS1, hc, hS0, hm]
  · rw [if_neg j7, if_neg j7]
    by_cases j3 : j = (rotation i).getD 3 0
    · rw [if_pos j3, if_pos j3]
      show s ((rotation i).getD 3 0) p + (s ((rotation i).getD 7 0) p
        + sigma1 (s ((rotation i).getD 4 0)) p
        + ch (s ((rotation i).getD 4 0)) (s ((rotation i).getD 5 0)) (s ((rotation i).getD 6 0)) p
        + sha256Alg.K.getD i 0 + w i p) = _
      rw [h3, h7, hS1, hc]
    · rw [if_neg j3, if_neg j3]

theorem rounds_eq (b : List Byte) (p : Nat) (r : Regs 32) (s w : Nat → V8)
    (hs : Rotated 0 (fun j => s j p) r) (hw : Ready b p 0 w) (n : Nat) (hn : n ≤ 64) :
    Rotated n (fun j => (((List.range n).map rowOf).foldl (Row.exec sha256Alg.K) (s, w)).1 j p)
        (specRounds sha256Alg r b n)
      ∧ Ready b p n (((List.range n).map rowOf).foldl (Row.exec sha256Alg.K) (s, w)).2 := by
  induction n with
  | zero => exact ⟨hs, hw⟩
  | succ n ih =>
    obtain ⟨h1, h2⟩ := ih (by omega)
    rw [List.range_succ, List.map_append, List.foldl_append]
    generalize ((List.range n).map rowOf).foldl (Row.exec sha256Alg.K) (s, w) = st at h1 h2
    have hr := assign_ready b p n (by omega) st.2 h2
    refine ⟨?_, hr⟩
    rw [words_rounds b r n (by omega), ← hr n (by omega) (by omega)]
    exact round_eq p n st.1 _ _ h1

theorem H0_rot (p : Nat) : Rotated 0 (fun j => H0 j p) sha256Alg.init := by
  intro j hj
  have h : j = 0 ∨ j = 1 ∨ j = 2 ∨ j = 3 ∨ j = 4 ∨ j = 5 ∨ j = 6 ∨ j = 7 := by omega
  rcases h with rfl | rfl | rfl | rfl | rfl | rfl | rfl | rfl <;> rfl

/-- One lane of the state at the end. -/
theorem compress8_eq (b : List Byte) (p : Nat) (w : Nat → V8) (hw : Ready b p 0 w) (j : Nat)
    (hj : j < 8) :
    compress8 w j p = (compress sha256Alg sha256Alg.init b).file j := by
  have h := (rounds_eq b p _ H0 w (H0_rot p) hw 64 (Nat.le_refl _)).1
  rw [← rows_table, ← rc_eq] at h
  have h0 := H0_rot p j hj
  have hj8 := h j hj
  rw [show (j + 8 - 64 % 8) % 8 = j by omega] at hj8
  rw [show (j + 8 - 0 % 8) % 8 = j by omega] at h0
  dsimp only at h0 hj8
  show (rows.foldl (Row.exec RC) (H0, w)).1 j p + H0 j p = _
  rw [hj8, h0, compress_eq]
  have h : j = 0 ∨ j = 1 ∨ j = 2 ∨ j = 3 ∨ j = 4 ∨ j = 5 ∨ j = 6 ∨ j = 7 := by omega
  rcases h with rfl | rfl | rfl | rfl | rfl | rfl | rfl | rfl <;> exact BitVec.add_comm _ _

/-! ### Bytes -/

theorem word_at (ws : List (BitVec 32)) (t : Nat) (ht : t < ws.length) :
    ((ws.flatMap (toLE 4)).drop (4 * t)).take 4 = toLE 4 ws[t] := by
  induction ws generalizing t with
  | nil => exact absurd ht (by simp)
  | cons x ws ih =>
    rw [List.flatMap_cons]
    cases t with
    | zero =>
      rw [Nat.mul_zero, List.drop_zero]
      exact List.take_left' (toLE_length _ _)
    | succ t =>
      rw [Nat.mul_add, Nat.add_comm, ← List.drop_drop, List.drop_left' (toLE_length _ _)]
      exact ih t (by simpa using ht)

theorem bytes_mk (a b c d : BitVec 32) :
    V4.bytes ⟨a, b, c, d⟩ = toLE 4 a ++ toLE 4 b ++ toLE 4 c ++ toLE 4 d := rfl

theorem swap_words (b : List Byte) (hb : 64 ≤ b.length) :
    swapLane b = ((List.range 16).map (words b)).flatMap (toLE 4) := by
  have h : ∀ k, k < 4 → (shuf8 (V4.load (b.drop (16 * k))) mask).bytes
      = toLE 4 (words b (4 * k)) ++ toLE 4 (words b (4 * k + 1)) ++ toLE 4 (words b (4 * k + 2))
        ++ toLE 4 (words b (4 * k + 3)) := by
    intro k hk
    rw [load_full b hb k hk]
    unfold full
    exact bytes_mk _ _ _ _
  unfold swapLane
  rw [show List.range 4 = [0, 1, 2, 3] from rfl,
    show List.range 16 = [0, 1, 2, 3, 4, 5, 6, 7, 8, 9, 10, 11, 12, 13, 14, 15] from rfl]
  simp only [List.flatMap_cons, List.flatMap_nil, List.map_cons, List.map_nil, List.append_nil]
  rw [h 0 (by omega), h 1 (by omega), h 2 (by omega), h 3 (by omega)]
  simp only [List.append_assoc, Nat.reduceMul, Nat.reduceAdd, Nat.mul_zero, Nat.zero_add]

theorem swap_at (b : List Byte) (hb : 64 ≤ b.length) (t : Nat) (ht : t < 16) :
    ofLE 32 (((swapLane b).drop (4 * t)).take 4) = words b t := by
  rw [swap_words b hb, word_at _ t (by simpa using ht), List.getElem_map, List.getElem_range,
    ofLE_toLE 4 rfl]

theorem load_ready (junk : Nat → V8) (lane : Nat → List Byte) (p : Nat) (hp : p < 8)
    (hb : 64 ≤ (lane p).length) :
    Ready (lane p) p 0 (loadLanes junk fun i => swapLane (lane i)) := by
  intro t ht h64
  have h16 : t < 16 := by omega
  rw [← swap_at (lane p) hb t h16]
  unfold loadLanes
  by_cases h8 : t < 8
  · rw [if_pos h8, transpose_eq _ _ _ h8 hp]
    rfl
  · rw [if_neg h8, if_pos h16, transpose_eq _ _ _ (by omega) hp]
    unfold load
    rw [List.drop_drop, show 32 + 4 * (t - 8) = 4 * t by omega]

theorem out_digest (s : Nat → V8) (p : Nat) (hp : p < 8) (r : Regs 32)
    (h : ∀ j, j < 8 → s j p = r.file j) : outLane s p = r.digest 4 := by
  have ht : ∀ j, j < 8 → toLE 4 (bswap32 (transpose s p j)) = toBE 4 (r.file j) := by
    intro j hj
    rw [transpose_eq s p j hp hj, h j hj, toLE_bswap32]
  unfold outLane store Regs.digest
  rw [show List.range 8 = [0, 1, 2, 3, 4, 5, 6, 7] from rfl]
  simp only [List.flatMap_cons, List.flatMap_nil, List.append_nil]
  rw [ht 0 (by omega), ht 1 (by omega), ht 2 (by omega), ht 3 (by omega), ht 4 (by omega),
    ht 5 (by omega), ht 6 (by omega), ht 7 (by omega)]
  simp only [List.append_assoc]
  rfl

/-- A short message with padding. -/
theorem padLane_eq (l : List Byte) (n : Nat) (hl : l.length = 64) (hn : n < 56) :
    padLane l n = padded sha256Alg (l.take n) := by
  have hm : (l.take n).length = n := by rw [List.length_take]; omega
  have hz : padZeros 64 8 n = 55 - n := by unfold padZeros; omega
  have hbits : toLE 8 (bswap64 (BitVec.ofNat 64 n * 8)) = toBE 8 (BitVec.ofNat 64 (8 * n)) := by
    rw [toLE_bswap64, Nat.mul_comm 8, BitVec.ofNat_mul]
    rfl
  unfold padLane
  rw [hbits, padded256, hm, hz]
  rw [fillBuf_at (β := l) (l.take n) (List.replicate (64 - n) 0#8) (l.drop n) []
    (List.take_append_drop n l).symm n hm (by
      rw [List.length_replicate]; exact List.drop_of_length_le (by rw [List.length_drop]; omega))]
  generalize l.take n = t at *
  rw [fillBuf_at t [0x80#8] (List.replicate (64 - n) 0#8) (List.replicate (63 - n) 0#8) (by simp) n hm
    (by rw [List.drop_replicate, List.length_singleton]; congr 1; omega)]
  rw [fillBuf_at (t ++ 0x80#8 :: List.replicate (55 - n) 0#8) _ (List.replicate 8 0#8) [] ?_ 56
    (by rw [List.length_append, List.length_cons, List.length_replicate]; omega)
    (by rw [List.drop_replicate, toBE_length]; rfl)]
  · simp only [List.append_assoc, List.cons_append, List.append_nil]
  · rw [List.append_assoc, List.append_assoc, List.cons_append, List.nil_append,
      List.cons_append, List.replicate_append_replicate, show 55 - n + 8 = 63 - n by omega]

theorem sha256_short (m : List Byte) (h : m.length < 56) :
    sha256 m = (compress sha256Alg sha256Alg.init (padded sha256Alg m)).digest 4 := by
  have hl : (padded sha256Alg m).length = 64 := by
    rw [padded_len]
    unfold finalBlocks
    omega
  unfold sha256 hash
  rw [hl, block256, show 64 / 64 = 0 + 1 from rfl, overBlocks, overBlocks, block256,
    List.take_of_length_le (l := padded sha256Alg m) (by omega)]
  rfl

theorem sha256Avx_eq (junk : Nat → V8) (input : Nat → List Byte) (n : Nat) (hn : n < 56)
    (hl : ∀ i, i < 8 → (input i).length = 64) :
    ∃ out, sha256Avx junk input n = some out
      ∧ ∀ i, i < 8 → out i = sha256 ((input i).take n) := by
  refine ⟨_, by unfold sha256Avx; rw [if_neg (by omega)], fun p hp => ?_⟩
  have hm : ((input p).take n).length = n := by rw [List.length_take, hl p hp]; omega
  have hpad := padLane_eq (input p) n (hl p hp) hn
  have h64 : (padLane (input p) n).length = 64 := by
    rw [hpad, padded_len, hm]
    unfold finalBlocks
    omega
  rw [sha256_short _ (by omega), ← hpad]
  exact out_digest _ p hp _ fun j hj => compress8_eq (padLane (input p) n) p _
    (load_ready junk (fun i => padLane (input i) n) p hp (by omega)) j hj

end Verif.Hash.Avx
