import Verif.Codec.Bits
/-
  Helper lemmas for the bit level codecs.
-/
namespace Verif.Codec
open Res

theorem testBit_u64 (n k : Nat) : (u64 n).testBit k = (decide (k < 64) && n.testBit k) :=
  Nat.testBit_mod_two_pow n 64 k

theorem testBit_u32 (n k : Nat) : (u32 n).testBit k = (decide (k < 32) && n.testBit k) :=
  Nat.testBit_mod_two_pow n 32 k

theorem testBit_ge {n m k : Nat} (h : n < 2 ^ m) (hk : m ≤ k) : n.testBit k = false :=
  Nat.testBit_lt_two_pow (Nat.lt_of_lt_of_le h (Nat.pow_le_pow_right (by decide) hk))

theorem lt_of_testBit {n m : Nat} (h : ∀ k, m ≤ k → n.testBit k = false) : n < 2 ^ m := by
  apply Nat.lt_of_not_le
  intro hle
  obtain ⟨i, hi, hb⟩ := Nat.exists_ge_and_testBit_of_ge_two_pow hle
  rw [h i hi] at hb
  cases hb

theorem bitAt_set {ws : List Nat} {i v : Nat} (h : i < ws.length) (k : Nat) :
    bitAt (ws.set i v) k = if k / 64 = i then v.testBit (k % 64) else bitAt ws k := by
  unfold bitAt
  rw [List.getElem?_set]
  by_cases hk : k / 64 = i
  · rw [if_pos hk, if_pos hk.symm, if_pos h]
  · rw [if_neg hk, if_neg (fun e => hk e.symm)]

theorem orWord_ok {ws : List Nat} {i : Nat} (v : Nat) (h : i < ws.length) :
    ∃ ws', orWord ws i v = .ok ws' ∧ ws'.length = ws.length ∧
      ∀ k, bitAt ws' k = (bitAt ws k || (decide (k / 64 = i) && v.testBit (k % 64))) := by
  unfold orWord
  rw [List.getElem?_eq_getElem h]
  refine ⟨_, rfl, List.length_set .., fun k => ?_⟩
  rw [bitAt_set h]
  by_cases hk : k / 64 = i
  · rw [if_pos hk, Nat.testBit_or]
    simp only [hk, decide_true, Bool.true_and]
    congr 1
    unfold bitAt
    rw [hk, List.getElem?_eq_getElem h]
  · rw [if_neg hk]; simp [hk]

theorem mask_testBit (value numBits i : Nat) (hv : value < 2 ^ 64) (hn : numBits ≤ 64) :
    (if numBits < 64 then value &&& (2 ^ numBits - 1) else value).testBit i =
      (decide (i < numBits) && value.testBit i) := by
  split
  · rw [Nat.and_two_pow_sub_one_eq_mod, Nat.testBit_mod_two_pow]
  · by_cases hi : i < numBits
    · simp [hi]
    · rw [testBit_ge hv (by omega)]; simp

theorem writeBits_ok {ws : List Nat} {value offset numBits : Nat} (hv : value < 2 ^ 64)
    (hn : numBits ≤ 64) (h0 : offset / 64 < ws.length) (hb : offset + numBits ≤ 64 * ws.length) :
    ∃ ws', writeBits ws value offset numBits = .ok (ws', u64 (offset + numBits)) ∧
      ws'.length = ws.length ∧
      ∀ k, bitAt ws' k = (bitAt ws k ||
        (decide (offset ≤ k ∧ k < offset + numBits) && value.testBit (k - offset))) := by
  unfold writeBits
  dsimp only
  have hm := fun i => mask_testBit value numBits i hv hn
  generalize (if numBits < 64 then value &&& (2 ^ numBits - 1) else value) = v at hm ⊢
  obtain ⟨w1, e1, l1, b1⟩ := orWord_ok (u64 (v <<< (offset % 64))) h0
  rw [e1, bind_ok]
  by_cases hf : 64 - offset % 64 < numBits
  · rw [if_pos hf]
    have hlt : 64 - offset % 64 < 64 := by omega
    have h1 : offset / 64 + 1 < w1.length := by omega
    obtain ⟨w2, e2, l2, b2⟩ := orWord_ok (v >>> (64 - offset % 64)) h1
    unfold Res.defd
    rw [if_pos hlt, bind_ok, e2]
    refine ⟨w2, rfl, by omega, fun k => ?_⟩
    rw [b2, b1, Bool.or_assoc]
    congr 1
    rw [testBit_u64, Nat.testBit_shiftLeft, Nat.testBit_shiftRight, hm, hm]
    by_cases c1 : k / 64 = offset / 64
    · have c2 : ¬ k / 64 = offset / 64 + 1 := by omega
      by_cases c3 : offset ≤ k
      · have e : k % 64 - offset % 64 = k - offset := by omega
        have c4 : k < offset + numBits := by omega
        have c5 : k % 64 ≥ offset % 64 := by omega
        have c6 : k - offset < numBits := by omega
        have c7 : k % 64 < 64 := by omega
        simp [c1, c3, c4, c5, c6, c7, e]
      · have c5 : ¬ k % 64 ≥ offset % 64 := by omega
        simp [c1, c3, c5]
    · by_cases c2 : k / 64 = offset / 64 + 1
      · have e : 64 - offset % 64 + k % 64 = k - offset := by omega
        have c3 : offset ≤ k := by omega
        by_cases c4 : k < offset + numBits
        · have c6 : k - offset < numBits := by omega
          simp [c2, c3, c4, c6, e]
        · have c6 : ¬ k - offset < numBits := by omega
          simp [c2, c4, c6, e]
      · have c4 : ¬ (offset ≤ k ∧ k < offset + numBits) := by omega
        simp [c1, c2, c4]
  · rw [if_neg hf]
    refine ⟨w1, rfl, l1, fun k => ?_⟩
    rw [b1]
    congr 1
    rw [testBit_u64, Nat.testBit_shiftLeft, hm]
    by_cases c1 : k / 64 = offset / 64
    · by_cases c3 : offset ≤ k
      · have e : k % 64 - offset % 64 = k - offset := by omega
        have c5 : k % 64 ≥ offset % 64 := by omega
        have c7 : k % 64 < 64 := by omega
        by_cases c4 : k < offset + numBits
        · have c6 : k - offset < numBits := by omega
          simp [c1, c3, c4, c5, c6, c7, e]
        · have c6 : ¬ k - offset < numBits := by omega
          simp [c4, c6, e]
      · have c5 : ¬ k % 64 ≥ offset % 64 := by omega
        simp [c1, c3, c5]
    · have c4 : ¬ (offset ≤ k ∧ k < offset + numBits) := by omega
      simp [c1, c4]

theorem readLoop_ok {ws : List Nat} {off numBits : Nat} (hw : ∀ w ∈ ws, w < 2 ^ 64)
    (hn : numBits ≤ 64) (hb : off + numBits ≤ 64 * ws.length) :
    ∀ fuel count result, count ≤ numBits → numBits ≤ count + fuel →
      (∀ i, i < count → result.testBit i = bitAt ws (off + i)) →
      (count < numBits → ∀ i, count ≤ i → result.testBit i = false) → result < 2 ^ 64 →
      ∃ r, readLoop ws numBits fuel count (off + count) result = .ok r ∧ r < 2 ^ 64 ∧
        ∀ i, i < numBits → r.testBit i = bitAt ws (off + i) := by
  intro fuel
  induction fuel with
  | zero =>
    intro count result hc hf hr _ hlt
    exact ⟨result, rfl, hlt, fun i hi => hr i (by omega)⟩
  | succ fuel ih =>
    intro count result hc hf hr hz hlt
    unfold readLoop
    by_cases hcn : count < numBits
    · rw [if_pos hcn]
      dsimp only
      have hin : (off + count) / 64 < ws.length := by omega
      rw [List.getElem?_eq_getElem hin]
      dsimp only
      unfold Res.defd
      rw [if_pos (show count < 64 by omega), bind_ok]
      have hwlt := hw _ (List.getElem_mem hin)
      have hbit : ∀ j, bitAt ws (off + count + j) = (ws[(off + count) / 64]).testBit ((off + count) % 64 + j) ∨ 64 ≤ (off + count) % 64 + j := by
        intro j
        by_cases hj : (off + count) % 64 + j < 64
        · left
          unfold bitAt
          have e1 : (off + count + j) / 64 = (off + count) / 64 := by omega
          have e2 : (off + count + j) % 64 = (off + count) % 64 + j := by omega
          rw [e1, e2, List.getElem?_eq_getElem hin]
        · right; omega
      generalize ws[(off + count) / 64] = w at hwlt hbit ⊢
      have key : ∀ i, (result ||| u64 ((w >>> ((off + count) % 64)) <<< count)).testBit i =
          (result.testBit i || (decide (i < 64) && (decide (count ≤ i) && w.testBit ((off + count) % 64 + (i - count))))) := by
        intro i
        rw [Nat.testBit_or, testBit_u64, Nat.testBit_shiftLeft, Nat.testBit_shiftRight]
      rw [Nat.add_assoc]
      apply ih
      · omega
      · omega
      · intro i hi
        rw [key]
        by_cases hi2 : i < count
        · have : ¬ count ≤ i := by omega
          rw [hr i hi2]; simp [this]
        · have c2 : count ≤ i := by omega
          have c3 : i < 64 := by omega
          rw [hz hcn i c2]
          simp only [c2, c3, decide_true, Bool.true_and, Bool.false_or]
          rcases hbit (i - count) with h | h
          · rw [← h]; congr 1; omega
          · omega
      · intro hcn2 i hi
        rw [key, hz hcn i (by omega)]
        rw [testBit_ge hwlt (by omega)]
        simp
      · apply Nat.or_lt_two_pow hlt (u64_lt _)
    · rw [if_neg hcn]
      exact ⟨result, rfl, hlt, fun i hi => hr i (by omega)⟩

theorem readBits_ok {ws : List Nat} {off numBits : Nat} (hw : ∀ w ∈ ws, w < 2 ^ 64)
    (hn : numBits ≤ 64) (hb : off + numBits ≤ 64 * ws.length) :
    ∃ r, readBits ws off numBits = .ok r ∧ r < 2 ^ numBits ∧
      ∀ i, i < numBits → r.testBit i = bitAt ws (off + i) := by
  obtain ⟨r, e, hlt, hr⟩ := readLoop_ok hw hn hb numBits 0 0 (by omega) (by omega)
    (fun i hi => absurd hi (by omega)) (fun _ i _ => Nat.zero_testBit i) (by decide)
  unfold readBits
  rw [Nat.add_zero] at e
  rw [e, bind_ok]
  refine ⟨_, rfl, ?_, fun i hi => ?_⟩
  · split
    · rw [Nat.and_two_pow_sub_one_eq_mod]; exact Nat.mod_lt _ (Nat.two_pow_pos _)
    · have : numBits = 64 := by omega
      rw [this]; exact hlt
  · rw [mask_testBit _ _ _ hlt hn, hr i hi]; simp [hi]

theorem writeBits_words {ws ws' : List Nat} {value offset numBits o : Nat}
    (hw : ∀ w ∈ ws, w < 2 ^ 64) (hv : value < 2 ^ 64) (hn : numBits ≤ 64)
    (h : writeBits ws value offset numBits = .ok (ws', o)) : ∀ w ∈ ws', w < 2 ^ 64 := by
  have hor : ∀ {ws ws' : List Nat} {i v : Nat}, (∀ w ∈ ws, w < 2 ^ 64) → v < 2 ^ 64 →
      orWord ws i v = .ok ws' → ∀ w ∈ ws', w < 2 ^ 64 := by
    intro ws ws' i v hw hv h
    unfold orWord at h
    split at h
    · rename_i w0 hw0
      cases h
      intro w hm
      rcases List.mem_or_eq_of_mem_set hm with h | h
      · exact hw w h
      · subst h
        exact Nat.or_lt_two_pow (hw _ (List.mem_of_getElem? hw0)) hv
    · cases h
  unfold writeBits at h
  dsimp only at h
  have hm := fun i => mask_testBit value numBits i hv hn
  generalize (if numBits < 64 then value &&& (2 ^ numBits - 1) else value) = v at hm h
  have hvlt : v < 2 ^ 64 := lt_of_testBit fun k hk => by rw [hm, testBit_ge hv hk]; simp
  obtain ⟨w1, e1, h⟩ := bind_eq_ok.1 h
  have p1 := hor hw (u64_lt _) e1
  split at h
  · obtain ⟨_, _, h⟩ := bind_eq_ok.1 h
    obtain ⟨w2, e2, h⟩ := bind_eq_ok.1 h
    cases h
    refine hor p1 (Nat.lt_of_le_of_lt ?_ hvlt) e2
    rw [Nat.shiftRight_eq_div_pow]; exact Nat.div_le_self _ _
  · cases h; exact p1

end Verif.Codec
