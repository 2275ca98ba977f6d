import Verif.Pos.KernelLemmas
import Verif.Pos.VerifyLemmas
import Verif.Pos.ToySort
/-
  Helper lemmas: what the GPU hands to `compute_full`.
-/
namespace Verif.Pos

open Verif.Hash (Byte upd ofLE toLE wordBytes)

/-- The input of table 1 at position `j`. -/
def inputAt (xbits : Nat) (v : List W) (j : Nat) : W := v.getD (j % 256) 0 <<< xbits ||| BitVec.ofNat 32 (j / 256)

theorem idin_eq {reqs : List (List Byte × List W)} {i : Nat} {r : List Byte × List W} (hi : reqs[i]? = some r) :
    (List.range 8).map (fun k => (fun a => (wordsLE 8 (reqs.getD (a / 8) ([], [])).1).getD (a % 8) 0) (i * 8 + k))
      = wordsLE 8 r.1 := by
  rw [← map_getD_range (wordsLE 8 r.1) (wordsLE_length _ _)]
  refine List.map_congr_left fun k hk => ?_
  have hk := List.mem_range.1 hk
  dsimp only
  rw [show (i * 8 + k) / 8 = i by omega, show (i * 8 + k) % 8 = k by omega, List.getD_eq_getElem?_getD (l := reqs), hi]
  rfl

theorem GpuGives.entries {buffer xbits ksize : Nat} {reqs : List (List Byte × List W)}
    {res : Nat → List (W × W × List W)} (h : GpuGives buffer xbits ksize reqs res) (hb : 256 ≤ buffer)
    (hreq : ∀ r ∈ reqs, r.1.length = 32 ∧ r.2.length = 256) {i : Nat} {r : List Byte × List W}
    (hi : reqs[i]? = some r) {shr : W → W} (hs : ShrOk shr) (junk : Nat → BitVec 64) (buf buf' : List Byte)
    (hl : buf.length = 128) (hl' : buf'.length = 128) (mem : Nat → W) :
    ∃ v, bump [] r.2 = some v ∧ res i = (List.range (256 * 2 ^ xbits)).map fun j =>
      (inputAt xbits v j,
        entryC (rotC shr) junk buf buf' mem (BitVec.ofNat 32 (kmask ksize)) r.1 (inputAt xbits v j)) := by
  obtain ⟨passes, values, X, Y, Mt, X0, Y0, M0, h1, h2, h3, h4, h5⟩ := h
  obtain ⟨p1, p2, p3⟩ := passes_spec hb h1
  have hil : i < reqs.length := by
    rcases Nat.lt_or_ge i reqs.length with h | h
    · exact h
    · rw [List.getElem?_eq_none h] at hi; cases hi
  have hv : ∃ v, values[i]? = some v := ⟨values[i], List.getElem?_eq_getElem (by omega)⟩
  obtain ⟨v, hv⟩ := hv
  refine ⟨v, h3 i r v hi hv, ?_⟩
  rw [h5 i hil]
  refine List.map_congr_left fun j hj => ?_
  have hj := List.mem_range.1 hj
  generalize hN : 2 ^ xbits / passes = N at *
  have hj' : j < passes * (256 * N) := by
    rw [show passes * (256 * N) = 256 * (passes * N) by rw [← Nat.mul_assoc, ← Nat.mul_assoc, Nat.mul_comm 256],
      p1]
    exact hj
  rw [collect_val _ _ hj', collect_val _ _ hj', collect_val _ _ hj']
  have hc : 0 < 256 * N := by omega
  have hit : j / (256 * N) < passes := by
    rw [Nat.div_lt_iff_lt_mul hc]; exact hj'
  have hr : j % (256 * N) < 256 * N := Nat.mod_lt _ hc
  have hdm := Nat.div_add_mod j (256 * N)
  generalize j / (256 * N) = it at *
  generalize j % (256 * N) = rr at *
  have ht : (⟨i, rr / 256, rr % 256⟩ : Thread) ∈ threads reqs.length N :=
    mem_threads.2 ⟨hil, by dsimp only; omega, Nat.mod_lt _ (by decide)⟩
  have hout : (⟨i, rr / 256, rr % 256⟩ : Thread).out N = i * (256 * N) + rr := by
    unfold Thread.out
    dsimp only
    rw [Nat.add_mul, Nat.mul_assoc, Nat.mul_comm N 256]
    omega
  obtain ⟨a, b⟩ := (h4 it hit).entry ht (hreq r (List.mem_of_getElem? hi)).1 (idin_eq hi) hs junk buf buf' hl hl' mem
  rw [hout] at a b
  have hX : (⟨i, rr / 256, rr % 256⟩ : Thread).X (xDev values) xbits (it * N) = inputAt xbits v j := by
    unfold Thread.X inputAt xDev
    dsimp only
    have e1 : (i * 256 + rr % 256) / 256 = i := by omega
    have e2 : (i * 256 + rr % 256) % 256 = rr % 256 := by omega
    have e3 : j / 256 = it * N + rr / 256 := by
      rw [← hdm, Nat.mul_assoc, Nat.mul_comm N it, Nat.mul_add_div (by decide)]
    have e4 : j % 256 = rr % 256 := by
      rw [← hdm, Nat.mul_assoc, Nat.mul_add_mod]
    rw [e1, e2, e3, e4, List.getD_eq_getElem?_getD (l := values), hv]
    rfl
  rw [hX] at a b
  rw [a]
  refine Prod.ext rfl ?_
  exact b

/-! ### numbers -/

theorem foldl_xor_toNat (l : List W) (a : W) :
    (l.foldl (· ^^^ ·) a).toNat = (l.map BitVec.toNat).foldl (· ^^^ ·) a.toNat := by
  induction l generalizing a with
  | nil => rfl
  | cons x l ih => rw [List.foldl_cons, ih, List.map_cons, List.foldl_cons, BitVec.toNat_xor]

theorem splitW_toNat (ksize : Nat) (hash : List W) :
    ((splitW (BitVec.ofNat 32 (kmask ksize)) hash).1.toNat,
      (splitW (BitVec.ofNat 32 (kmask ksize)) hash).2.map BitVec.toNat) = split ksize (hash.map BitVec.toNat) := by
  have hk : kmask ksize < 2 ^ 32 := u32_lt _
  unfold splitW split
  refine Prod.ext ?_ ?_
  · dsimp only
    rw [BitVec.toNat_and, foldl_xor_toNat, BitVec.toNat_ofNat, Nat.mod_eq_of_lt hk, List.map_take]
    rfl
  · dsimp only
    rw [List.map_map, ← List.map_take, List.map_map]
    refine List.map_congr_left fun x _ => ?_
    simp only [Function.comp_apply]
    rw [BitVec.toNat_and, BitVec.toNat_ofNat, Nat.mod_eq_of_lt hk]

theorem inputAt_toNat {xbits : Nat} (hx : xbits ≤ 20) (v : List W) {j : Nat} (hj : j < 256 * 2 ^ xbits) :
    (inputAt xbits v j).toNat = u32 ((v.getD (j % 256) 0).toNat * 2 ^ xbits) ||| j / 256 := by
  unfold inputAt
  have h1 : (2 : Nat) ^ xbits ≤ 2 ^ 20 := Nat.pow_le_pow_right (by decide) hx
  have h2 : j / 256 < 2 ^ 32 := by omega
  rw [BitVec.toNat_or, BitVec.toNat_shiftLeft, BitVec.toNat_ofNat, Nat.mod_eq_of_lt h2, Nat.shiftLeft_eq]
  rfl

theorem or_eq_add {a i xbits : Nat} (hi : i < 2 ^ xbits) : a * 2 ^ xbits ||| i = a * 2 ^ xbits + i := by
  rw [Nat.mul_comm, Nat.two_pow_add_eq_or_of_lt hi]

/-- The order of table 1 on the GPU. -/
theorem order_gpu {xbits : Nat} (hx : xbits ≤ 20) {v : List W} (hv : v.length = 256) (hn : v.Nodup)
    (hlt : ∀ x ∈ v, x.toNat < 2 ^ (32 - xbits)) :
    IsOrder xbits (v.map BitVec.toNat)
      ((List.range (256 * 2 ^ xbits)).map fun j => (inputAt xbits v j).toNat) := by
  have hg : ∀ j, ∃ (h : j % 256 < v.length), v.getD (j % 256) 0 = v[j % 256] := by
    intro j
    refine ⟨by rw [hv]; exact Nat.mod_lt _ (by decide), ?_⟩
    rw [List.getD_eq_getElem?_getD, List.getElem?_eq_getElem (by rw [hv]; exact Nat.mod_lt _ (by decide))]
    rfl
  have hval : ∀ j < 256 * 2 ^ xbits, (inputAt xbits v j).toNat
      = (v.getD (j % 256) 0).toNat * 2 ^ xbits + j / 256 := by
    intro j hj
    obtain ⟨h, he⟩ := hg j
    have h1 : (v.getD (j % 256) 0).toNat < 2 ^ (32 - xbits) := by
      rw [he]; exact hlt _ (List.getElem_mem h)
    have h2 : (v.getD (j % 256) 0).toNat * 2 ^ xbits < 2 ^ 32 := by
      calc _ < 2 ^ (32 - xbits) * 2 ^ xbits := Nat.mul_lt_mul_of_pos_right h1 (Nat.two_pow_pos _)
        _ = 2 ^ 32 := by rw [← Nat.pow_add]; congr 1; omega
    rw [inputAt_toNat hx v hj, u32_of_lt h2, or_eq_add (by omega)]
  constructor
  · rw [List.nodup_iff_pairwise_ne, List.pairwise_map]
    refine List.Pairwise.imp_of_mem ?_ (List.nodup_iff_pairwise_ne.1 List.nodup_range)
    intro a b ha hb hab he
    have ha := List.mem_range.1 ha
    have hb := List.mem_range.1 hb
    rw [hval a ha, hval b hb] at he
    obtain ⟨h1, h2⟩ := mul_add_inj (by omega) (by omega) he
    obtain ⟨p, hp⟩ := hg a
    obtain ⟨q, hq⟩ := hg b
    rw [hp, hq] at h1
    have h3 : v[a % 256] = v[b % 256] := BitVec.eq_of_toNat_eq h1
    have : a % 256 = b % 256 := (List.getElem?_inj p hn).1 (by
      rw [List.getElem?_eq_getElem p, List.getElem?_eq_getElem q, h3])
    omega
  · intro x
    unfold expand
    simp only [List.mem_map, List.mem_range]
    constructor
    · rintro ⟨j, hj, rfl⟩
      obtain ⟨p, hp⟩ := hg j
      refine ⟨_, ⟨v.getD (j % 256) 0, by rw [hp]; exact List.getElem_mem p, rfl⟩, j / 256, by omega, ?_⟩
      rw [inputAt_toNat hx v hj]
    · rintro ⟨_, ⟨w, hw, rfl⟩, k, hk, rfl⟩
      obtain ⟨n, hn, rfl⟩ := List.getElem_of_mem hw
      refine ⟨k * 256 + n, by omega, ?_⟩
      have hk' : k * 256 + n < 256 * 2 ^ xbits := by omega
      rw [inputAt_toNat hx v hk', show (k * 256 + n) % 256 = n by omega, show (k * 256 + n) / 256 = k by omega,
        List.getD_eq_getElem?_getD, List.getElem?_eq_getElem hn]
      rfl

/-! ### there is a run -/

theorem wrote_exists (ws : List (Nat × W)) (m : Nat → W) : ∃ m', Wrote ws m m' := ⟨_, ws, .refl _, rfl⟩

theorem words_bytes {n : Nat} (l : List W) (h : l.length = n) : wordsLE n (wordBytes 4 l) = l := by
  conv => rhs; rw [← map_getD_range l h]
  unfold wordsLE
  refine List.map_congr_left fun i hi => ?_
  rw [Verif.Hash.wordBytes_word 4 l i (by rw [h]; exact List.mem_range.1 hi)]
  exact Verif.Hash.ofLE_toLE 4 (by decide) _

theorem keyG_some (junk : Nat → BitVec 64) (X : W) (f : Nat → W) : ∃ k, keyG junk X f = some k := by
  have hl : (wordBytes 4 ((List.range 8).map f)).length = 32 := by simp [Verif.Hash.wordBytes_length]
  exact ⟨_, keyG_eq junk X (wordBytes 4 ((List.range 8).map f)) hl f (words_bytes _ (by simp)).symm⟩

theorem hashG_some (junk : Nat → BitVec 64) (key memHash : Nat → W) (x : Nat) :
    ∃ k, hashG junk key memHash x = some k := by
  have hl : (wordBytes 4 ((List.range 16).map fun i => key (x * 16 + i))).length = 64 := by
    simp [Verif.Hash.wordBytes_length]
  exact ⟨_, hashG_eq junk _ hl _ (by simp) key memHash x (words_bytes _ (by simp)).symm rfl⟩

theorem pass_exists (M N xbits y0 : Nat) (km : W) (xin idin : Nat → W) :
    ∃ X Y Mt, Pass M N xbits y0 km xin idin X Y Mt := by
  let z : Nat → W := fun _ => 0
  let key : Thread → List W := fun t =>
    (keyG (fun _ => 0) (t.X xin xbits y0) (fun i => idin (t.z * 8 + i))).getD []
  obtain ⟨X, hX⟩ := wrote_exists (writesX M N xin xbits y0) z
  obtain ⟨K, hK⟩ := wrote_exists (writesKey M N key) z
  obtain ⟨Me, hMe⟩ := wrote_exists (writesMem M N key) z
  obtain ⟨H, hH⟩ := wrote_exists (writesHash (256 * N * M / 4 / 64) (fun _ _ => List.range 32) Me) z
  let hash : Nat → List W := fun x => (hashG (fun _ => 0) K H x).getD []
  obtain ⟨Mt, hMt⟩ := wrote_exists (writesM (N * M) km hash) z
  obtain ⟨Y, hY⟩ := wrote_exists (writesY (N * M) km hash) z
  refine ⟨X, Y, Mt, fun _ _ => 0, fun _ _ => 0, fun _ _ => List.range 32, key, hash, z, z, z, z, z, z, K, Me, H,
    fun _ _ => .refl _, ?_, hX, hK, hMe, hH, ?_, hMt, hY⟩
  · intro t _
    obtain ⟨k, hk⟩ := keyG_some (fun _ => 0) (t.X xin xbits y0) (fun i => idin (t.z * 8 + i))
    show _ = some ((keyG (fun _ => 0) (t.X xin xbits y0) (fun i => idin (t.z * 8 + i))).getD [])
    rw [hk]
    rfl
  · intro x _
    obtain ⟨k, hk⟩ := hashG_some (fun _ => 0) K H x
    show _ = some ((hashG (fun _ => 0) K H x).getD [])
    rw [hk]
    rfl

end Verif.Pos
