import Verif.Pos.MemHashLemmas
/-
  Helper lemmas about the kernels and the host.
-/
namespace Verif.Pos

open Verif.Hash (Byte upd ofLE toLE wordBytes)

/-! ### indexes -/

theorem mul_add_inj {a b c d n : Nat} (hb : b < n) (hd : d < n) (h : a * n + b = c * n + d) :
    a = c ∧ b = d := by
  have h1 : (a * n + b) / n = a := by
    rw [Nat.add_comm, Nat.add_mul_div_right _ _ (by omega), Nat.div_eq_of_lt hb, Nat.zero_add]
  have h2 : (c * n + d) / n = c := by
    rw [Nat.add_comm, Nat.add_mul_div_right _ _ (by omega), Nat.div_eq_of_lt hd, Nat.zero_add]
  have : a = c := by rw [← h1, ← h2, h]
  subst this
  exact ⟨rfl, by omega⟩

theorem mem_threads {M N : Nat} {t : Thread} : t ∈ threads M N ↔ t.z < M ∧ t.y < N ∧ t.x < 256 := by
  unfold threads
  simp only [List.mem_flatMap, List.mem_map, List.mem_range]
  constructor
  · rintro ⟨z, hz, y, hy, x, hx, rfl⟩
    exact ⟨hz, hy, hx⟩
  · rintro ⟨hz, hy, hx⟩
    exact ⟨t.z, hz, t.y, hy, t.x, hx, rfl⟩

theorem out_inj {M N : Nat} {t u : Thread} (ht : t ∈ threads M N) (hu : u ∈ threads M N)
    (h : t.out N = u.out N) : t = u := by
  obtain ⟨_, hy, hx⟩ := mem_threads.1 ht
  obtain ⟨_, hy', hx'⟩ := mem_threads.1 hu
  obtain ⟨h1, h2⟩ := mul_add_inj hx hx' h
  obtain ⟨h3, h4⟩ := mul_add_inj hy hy' h1
  cases t; cases u
  simp only at h2 h3 h4
  subst h2 h3 h4
  rfl

theorem out_lt {M N : Nat} {t : Thread} (ht : t ∈ threads M N) : t.out N < M * N * 256 := by
  obtain ⟨hz, hy, hx⟩ := mem_threads.1 ht
  unfold Thread.out
  have h1 : t.z * N + t.y < M * N := by
    calc t.z * N + t.y < t.z * N + N := by omega
      _ = (t.z + 1) * N := by rw [Nat.add_mul, Nat.one_mul]
      _ ≤ M * N := Nat.mul_le_mul_right _ hz
  omega

theorem mem_warps {gy e : Nat} : e ∈ warps gy ↔ e < 64 * gy * 4 := by
  unfold warps
  simp only [List.mem_flatMap, List.mem_map, List.mem_range]
  constructor
  · rintro ⟨z, hz, y, hy, x, hx, rfl⟩
    have : z * gy + y < 64 * gy := by
      calc z * gy + y < z * gy + gy := by omega
        _ = (z + 1) * gy := by rw [Nat.add_mul, Nat.one_mul]
        _ ≤ 64 * gy := Nat.mul_le_mul_right _ hz
    omega
  · intro h
    have hg : 0 < gy := by
      rcases Nat.eq_zero_or_pos gy with h0 | h0
      · subst h0; omega
      · exact h0
    refine ⟨e / 4 / gy, ?_, e / 4 % gy, Nat.mod_lt _ hg, e % 4, Nat.mod_lt _ (by decide), ?_⟩
    · rw [Nat.div_lt_iff_lt_mul hg]; omega
    · have := Nat.div_add_mod (e / 4) gy
      rw [Nat.mul_comm] at this
      rw [this]
      omega

theorem mem_finals {n e : Nat} : e ∈ finals n ↔ e < n * 256 := by
  unfold finals
  simp only [List.mem_flatMap, List.mem_map, List.mem_range]
  constructor
  · rintro ⟨z, hz, y, hy, rfl⟩
    omega
  · intro h
    exact ⟨e / 256, by omega, e % 256, Nat.mod_lt _ (by decide), by omega⟩

/-! ### one pass -/

theorem keyG_eq (junk : Nat → BitVec 64) (X : W) (id : List Byte) (hid : id.length = 32) (f : Nat → W)
    (hf : (List.range 8).map f = wordsLE 8 id) :
    keyG junk X f = some (wordsLE 16 (Verif.Hash.sha512 (toLE 4 X ++ id))) := by
  unfold keyG keyMsg
  rw [hf]
  have hl : (toLE 4 X ++ id).length = 36 := by simp [Verif.Hash.toLE_length, hid]
  have := gpuHash junk (toLE 4 X ++ id) (X :: wordsLE 8 id ++ List.replicate 23 0) (k := 16) (z := 4 * 23)
    (by simp [wordsLE_length]) (by
      rw [List.cons_append, wordBytes_cons, Verif.Hash.wordBytes_append, wordBytes_zero,
        bytes_wordsLE (by rw [hid]), List.append_assoc]) (by rw [hl]; decide) (by rw [hl])
  rw [hl] at this
  exact this

theorem hashG_eq (junk : Nat → BitVec 64) (kb : List Byte) (hk : kb.length = 64) (mh : List W)
    (hm : mh.length = 32) (key memHash : Nat → W) (x : Nat)
    (h1 : (List.range 16).map (fun i => key (x * 16 + i)) = wordsLE 16 kb)
    (h2 : (List.range 32).map (fun i => memHash (x * 32 + i)) = mh) :
    hashG junk key memHash x = some (wordsLE 16 (Verif.Hash.sha512 (kb ++ wordBytes 4 mh))) := by
  unfold hashG
  rw [h1, h2]
  have hl : (kb ++ wordBytes 4 mh).length = 192 := by
    simp [Verif.Hash.wordBytes_length, hk, hm]
  have := gpuHash junk (kb ++ wordBytes 4 mh) (wordsLE 16 kb ++ mh ++ List.replicate 16 0) (k := 32)
    (z := 4 * 16) (by simp [wordsLE_length, hm]) (by
      rw [Verif.Hash.wordBytes_append, Verif.Hash.wordBytes_append, wordBytes_zero,
        bytes_wordsLE (by rw [hk])]) (by rw [hl]; decide) (by rw [hl])
  rw [hl] at this
  exact this

/-- What one thread of each kernel leaves is the entry of the CPU. -/
theorem Pass.entry {M N xbits y0 : Nat} {km : W} {xin idin X Y Mt : Nat → W}
    (h : Pass M N xbits y0 km xin idin X Y Mt) {t : Thread} (ht : t ∈ threads M N) {id : List Byte}
    (hid : id.length = 32) (hidin : (List.range 8).map (fun i => idin (t.z * 8 + i)) = wordsLE 8 id)
    {shr : W → W} (hs : ShrOk shr) (junkc : Nat → BitVec 64) (buf buf' : List Byte) (hb : buf.length = 128)
    (hb' : buf'.length = 128) (cmem : Nat → W) :
    X (t.out N) = t.X xin xbits y0 ∧
    (Y (t.out N), metaAt Mt (t.out N))
      = entryC (rotC shr) junkc buf buf' cmem km id (t.X xin xbits y0) := by
  obtain ⟨junk, junk', orders, key, hash, X0, key0, mem0, hash0, M0, Y0, keyDev, memDev, hashDev,
    hord, hkey, wX, wK, wMem, wH, hhash, wM, wY⟩ := h
  have hk := hkey t ht
  rw [keyG_eq _ _ id hid _ hidin] at hk
  have hk : key t = _ := (Option.some.inj hk).symm
  generalize hXt : t.X xin xbits y0 = Xt at hk
  have hX : X (t.out N) = Xt := by
    rw [← hXt]
    refine wX.val (List.mem_map.2 ⟨t, ht, rfl⟩) ?_
    rintro w hw hwa
    obtain ⟨u, hu, rfl⟩ := List.mem_map.1 hw
    rw [out_inj hu ht hwa]
  refine ⟨hX, ?_⟩
  have hKd : ∀ i < 16, keyDev (t.out N * 16 + i) = (key t).getD i 0 := by
    intro i hi
    refine wK.val (List.mem_flatMap.2 ⟨t, ht, List.mem_map.2 ⟨i, List.mem_range.2 hi, rfl⟩⟩) ?_
    intro w hw hwa
    obtain ⟨u, hu, hw⟩ := List.mem_flatMap.1 hw
    obtain ⟨j, hj, rfl⟩ := List.mem_map.1 hw
    obtain ⟨h1, h2⟩ := mul_add_inj (List.mem_range.1 hj) hi hwa
    rw [out_inj hu ht h1, h2]
  have hMd : ∀ i < 32, ∀ k < 32, memDev ((i * (M * N * 256) + t.out N) * 32 + k) = rowG (key t) i k := by
    intro i hi k hk'
    refine wMem.val (List.mem_flatMap.2 ⟨t, ht, List.mem_flatMap.2 ⟨i, List.mem_range.2 hi,
      List.mem_map.2 ⟨k, List.mem_range.2 hk', rfl⟩⟩⟩) ?_
    intro w hw hwa
    obtain ⟨u, hu, hw⟩ := List.mem_flatMap.1 hw
    obtain ⟨j, hj, hw⟩ := List.mem_flatMap.1 hw
    obtain ⟨l, hl, rfl⟩ := List.mem_map.1 hw
    obtain ⟨h1, h2⟩ := mul_add_inj (List.mem_range.1 hl) hk' hwa
    obtain ⟨h3, h4⟩ := mul_add_inj (out_lt hu) (out_lt ht) h1
    rw [out_inj hu ht h4, h2, h3]
  have hgy : 256 * N * M / 4 / 64 = N * M := by
    rw [Nat.mul_assoc]; omega
  have hnm : 64 * (N * M * 4) = M * N * 256 := by
    rw [Nat.mul_comm N M]; omega
  rw [hgy] at wH
  have he := out_lt ht
  have hHd : ∀ l < 32, hashDev (t.out N * 32 + l) = warp (orders (t.out N)) (M * N * 256) memDev (t.out N) l := by
    intro l hl
    rw [← hnm]
    refine wH.val (List.mem_flatMap.2 ⟨t.out N, mem_warps.2 (by omega),
      List.mem_map.2 ⟨l, List.mem_range.2 hl, rfl⟩⟩) ?_
    intro w hw hwa
    obtain ⟨y, hy, hw⟩ := List.mem_flatMap.1 hw
    obtain ⟨j, hj, rfl⟩ := List.mem_map.1 hw
    obtain ⟨h1, h2⟩ := mul_add_inj (List.mem_range.1 hj) hl hwa
    rw [h1, h2]
  have hfin : t.out N ∈ finals (N * M) := mem_finals.2 (by rw [Nat.mul_comm N M]; exact he)
  have hYd : Y (t.out N) = yG km (hash (t.out N)) := by
    refine wY.val (List.mem_map.2 ⟨_, hfin, rfl⟩) ?_
    intro w hw hwa
    obtain ⟨y, hy, rfl⟩ := List.mem_map.1 hw
    dsimp only at hwa
    rw [hwa]
  have hMt : ∀ i < 16, Mt (t.out N * 16 + i) = (cutG km (hash (t.out N))).getD i 0 := by
    intro i hi
    refine wM.val (List.mem_flatMap.2 ⟨_, hfin, List.mem_map.2 ⟨i, List.mem_range.2 hi, rfl⟩⟩) ?_
    intro w hw hwa
    obtain ⟨y, hy, hw⟩ := List.mem_flatMap.1 hw
    obtain ⟨j, hj, rfl⟩ := List.mem_map.1 hw
    obtain ⟨h1, h2⟩ := mul_add_inj (List.mem_range.1 hj) hi hwa
    rw [h1, h2]
  -- the hash
  have hlen : (toLE 4 Xt ++ id).length = 36 := by simp [Verif.Hash.toLE_length, hid]
  have hkb : (Verif.Hash.sha512 (toLE 4 Xt ++ id)).length = 64 := Verif.Hash.sha512_length _
  generalize hkbe : Verif.Hash.sha512 (toLE 4 Xt ++ id) = kb at hk hkb
  have hmh : (List.range 32).map (fun i => hashDev (t.out N * 32 + i))
      = calcMemHash (rotC shr) (genMemArray (rotC shr) cmem (wordsLE 16 kb)) := by
    rw [← warp_eq hs (hord (t.out N)) (num := M * N * 256) (y := t.out N) (mem := memDev) (fun i hi k hk' => by
      rw [hMd i hi k hk', genMem_val hs _ _ hi hk', hk])]
    exact List.map_congr_left fun l hl => hHd l (List.mem_range.1 hl)
  have hks : (List.range 16).map (fun i => keyDev (t.out N * 16 + i)) = wordsLE 16 kb := by
    rw [← map_getD_range (wordsLE 16 kb) (wordsLE_length _ _)]
    refine List.map_congr_left fun i hi => ?_
    rw [hKd i (List.mem_range.1 hi), hk]
  have hh := hhash _ hfin
  rw [hashG_eq _ kb hkb _ (by unfold calcMemHash; simp) _ _ _ hks hmh] at hh
  have hh := (Option.some.inj hh).symm
  have htab : tableHash (rotC shr) junkc buf buf' cmem id Xt = hash (t.out N) := by
    unfold tableHash
    dsimp only
    rw [hash512_eq _ _ _ hb (by rw [hlen]; decide), hkbe, hash512_eq _ _ _ hb' (by
      rw [List.length_append, hkb, Verif.Hash.wordBytes_length]
      unfold calcMemHash
      simp), hh]
  unfold entryC
  rw [htab]
  unfold splitW
  rw [hYd]
  have hl16 : (hash (t.out N)).length = 16 := by rw [hh, wordsLE_length]
  generalize hash (t.out N) = H at hMt hl16
  refine Prod.ext rfl ?_
  unfold metaAt
  dsimp only
  refine List.ext_getElem (by simp [hl16]) fun i h1 h2 => ?_
  rw [List.getElem_map, List.getElem_range]
  have hi : i < 14 := by simpa using h1
  rw [hMt i (by omega)]
  unfold cutG
  rw [List.getD_eq_getElem?_getD, List.getElem?_append_left (by simp [hl16]; omega),
    List.getElem?_eq_getElem h2]
  rfl

/-! ### the host -/

theorem collect_aux {γ : Type} (c i : Nat) (init : Nat → γ) (src : Nat → Nat → γ) (n : Nat) {j : Nat}
    (hj : j < n * c) :
    (List.range n).foldl (fun dst iter => copyTo dst (iter * c) (src iter) (i * c) c) init j
      = src (j / c) (i * c + j % c) := by
  induction n with
  | zero => omega
  | succ n ih =>
    rw [List.range_succ, List.foldl_append, List.foldl_cons, List.foldl_nil]
    have hc : 0 < c := by
      rcases Nat.eq_zero_or_pos c with h0 | h0
      · subst h0; omega
      · exact h0
    unfold copyTo
    rw [Nat.succ_mul] at hj
    by_cases h : n * c ≤ j ∧ j < n * c + c
    · rw [if_pos h]
      have h1 : j / c = n := by
        rw [Nat.div_eq_iff hc]
        constructor
        · exact h.1
        · omega
      have h2 : j % c = j - n * c := by
        have := Nat.div_add_mod j c
        rw [h1, Nat.mul_comm] at this
        omega
      rw [h1, h2]
    · rw [if_neg h]
      exact ih (by omega)

theorem collect_val {γ : Type} {N passes i : Nat} (init : Nat → γ) (src : Nat → Nat → γ) {j : Nat}
    (hj : j < passes * (256 * N)) :
    collect N passes i init src j = src (j / (256 * N)) (i * (256 * N) + j % (256 * N)) :=
  collect_aux (256 * N) i init src passes hj

theorem numIter_pow {buffer req : Nat} (fuel n : Nat) {k : Nat} (h : numIter buffer req fuel n = some k) :
    ∃ p, k = n * 2 ^ p ∧ req / k ≤ buffer ∧ ∀ q < p, buffer < req / (n * 2 ^ q) := by
  induction fuel generalizing n with
  | zero => cases h
  | succ fuel ih =>
    unfold numIter at h
    by_cases hc : req / n > buffer
    · rw [if_pos hc] at h
      obtain ⟨p, h1, h2, h3⟩ := ih _ h
      refine ⟨p + 1, by rw [h1, Nat.pow_succ, Nat.mul_comm 2 n, Nat.mul_assoc, Nat.mul_comm 2], h2, ?_⟩
      intro q hq
      cases q with
      | zero => simpa using hc
      | succ q =>
        have := h3 q (by omega)
        rw [Nat.pow_succ, Nat.mul_comm (2 ^ q) 2, ← Nat.mul_assoc, Nat.mul_comm n 2]
        exact this
    · rw [if_neg hc] at h
      cases h
      exact ⟨0, by simp, by omega, fun q hq => by omega⟩

theorem numIter_some {buffer req : Nat} (fuel n p : Nat) (hp : p < fuel) (h : req / (n * 2 ^ p) ≤ buffer) :
    ∃ k, numIter buffer req fuel n = some k := by
  induction fuel generalizing n p with
  | zero => omega
  | succ fuel ih =>
    unfold numIter
    by_cases hc : req / n > buffer
    · rw [if_pos hc]
      cases p with
      | zero => simp at h; omega
      | succ p =>
        refine ih (2 * n) p (by omega) ?_
        rw [Nat.pow_succ, Nat.mul_comm (2 ^ p) 2, ← Nat.mul_assoc, Nat.mul_comm n 2] at h
        exact h
    · rw [if_neg hc]
      exact ⟨n, rfl⟩

/-- The passes share the low bits evenly. -/
theorem passes_spec {buffer xbits passes : Nat} (hb : 256 ≤ buffer)
    (h : numIter buffer (256 * 2 ^ xbits) (xbits + 10) 1 = some passes) :
    passes * (2 ^ xbits / passes) = 2 ^ xbits ∧ 256 * (2 ^ xbits / passes) ≤ buffer ∧ 0 < 2 ^ xbits / passes := by
  obtain ⟨p, h1, h2, h3⟩ := numIter_pow _ _ h
  have hp : p ≤ xbits := by
    rcases Nat.lt_or_ge xbits p with hlt | hge
    · have := h3 xbits hlt
      rw [Nat.one_mul, Nat.mul_div_cancel _ (Nat.two_pow_pos _)] at this
      omega
    · exact hge
  rw [Nat.one_mul] at h1
  subst h1
  have he : 2 ^ xbits = 2 ^ p * 2 ^ (xbits - p) := by rw [← Nat.pow_add]; congr 1; omega
  have hd : 2 ^ xbits / 2 ^ p = 2 ^ (xbits - p) := by
    rw [he, Nat.mul_div_cancel_left _ (Nat.two_pow_pos _)]
  rw [hd]
  refine ⟨he.symm, ?_, Nat.two_pow_pos _⟩
  rw [he, show 256 * (2 ^ p * 2 ^ (xbits - p)) = 2 ^ p * (256 * 2 ^ (xbits - p)) by
    rw [← Nat.mul_assoc, ← Nat.mul_assoc, Nat.mul_comm 256], Nat.mul_div_cancel_left _ (Nat.two_pow_pos _)] at h2
  exact h2

theorem takeReqs_le {buffer req : Nat} (waiting n : Nat) (h : n ≤ 1 ∨ n * req ≤ buffer) :
    let m := takeReqs buffer req waiting n (n * req)
    m ≤ 1 ∨ m * req ≤ buffer := by
  induction waiting generalizing n with
  | zero => exact h
  | succ w ih =>
    unfold takeReqs
    by_cases hc : n * req = 0 ∨ n * req + req ≤ buffer
    · rw [if_pos hc]
      have := ih (n + 1) (by
        rcases hc with hc | hc
        · rcases Nat.mul_eq_zero.1 hc with h0 | h0
          · left; omega
          · right; rw [h0]; simp
        · right; rw [Nat.succ_mul]; exact hc)
      rw [Nat.succ_mul] at this
      exact this
    · rw [if_neg hc]
      exact h

/-! ### the values -/

theorem nextFree_spec (seen : List W) (fuel : Nat) (x : W) {y : W} (h : nextFree fuel seen x = some y) :
    y ∉ seen ∧ (x ∉ seen → y = x) := by
  induction fuel generalizing x with
  | zero => cases h
  | succ fuel ih =>
    unfold nextFree at h
    by_cases hx : x ∈ seen
    · rw [if_pos hx] at h
      exact ⟨(ih _ h).1, fun h' => absurd hx h'⟩
    · rw [if_neg hx] at h
      cases h
      exact ⟨hx, fun _ => rfl⟩

theorem nextFree_none (seen : List W) (fuel : Nat) (x : W) (h : nextFree fuel seen x = none) :
    ∀ i < fuel, x + BitVec.ofNat 32 i ∈ seen := by
  induction fuel generalizing x with
  | zero => intro i hi; omega
  | succ fuel ih =>
    unfold nextFree at h
    by_cases hx : x ∈ seen
    · rw [if_pos hx] at h
      intro i hi
      cases i with
      | zero => simpa using hx
      | succ i =>
        have := ih _ h i (by omega)
        rw [BitVec.add_assoc] at this
        rw [show i + 1 = 1 + i by omega, BitVec.ofNat_add]
        exact this
    · rw [if_neg hx] at h
      cases h

theorem length_le_of_nodup {γ : Type} [DecidableEq γ] : ∀ (l m : List γ), l.Nodup → (∀ x ∈ l, x ∈ m) →
    l.length ≤ m.length := by
  intro l
  induction l with
  | nil => intro m _ _; simp
  | cons a l ih =>
    intro m hn hs
    obtain ⟨h1, h2⟩ := List.nodup_cons.1 hn
    have ha := hs a List.mem_cons_self
    have := ih (m.erase a) h2 (fun x hx => by
      have hxa : x ≠ a := fun h => h1 (h ▸ hx)
      exact (List.mem_erase_of_ne hxa).2 (hs x (List.mem_cons_of_mem _ hx)))
    rw [List.length_erase_of_mem ha] at this
    have hpos : 0 < m.length := List.length_pos_of_mem ha
    simp; omega

/-- The search for a free value ends. -/
theorem nextFree_some (seen : List W) (x : W) (hl : seen.length < 2 ^ 32) :
    ∃ y, nextFree (seen.length + 1) seen x = some y := by
  cases h : nextFree (seen.length + 1) seen x with
  | some y => exact ⟨y, rfl⟩
  | none =>
    exfalso
    have hm := nextFree_none seen _ x h
    have hn : ((List.range (seen.length + 1)).map fun i => x + BitVec.ofNat 32 i).Nodup := by
      rw [List.nodup_iff_pairwise_ne, List.pairwise_map]
      refine List.Pairwise.imp_of_mem ?_ (List.nodup_iff_pairwise_ne.1 List.nodup_range)
      intro i j hi hj hij he
      have hi := List.mem_range.1 hi
      have hj := List.mem_range.1 hj
      have := congrArg BitVec.toNat he
      rw [BitVec.toNat_add, BitVec.toNat_add, BitVec.toNat_ofNat, BitVec.toNat_ofNat] at this
      have := x.isLt
      exact hij (by omega)
    have := length_le_of_nodup _ seen hn (by
      intro y hy
      obtain ⟨i, hi, rfl⟩ := List.mem_map.1 hy
      exact hm i (List.mem_range.1 hi))
    simp at this

theorem bump_spec (seen l : List W) {v : List W} (h : bump seen l = some v) :
    v.length = l.length ∧ v.Nodup ∧ (∀ y ∈ v, y ∉ seen) ∧ (∀ x ∈ l, x ∈ v ∨ x ∈ seen) ∧
      ((l.Nodup ∧ ∀ x ∈ l, x ∉ seen) → v = l) := by
  induction l generalizing seen v with
  | nil => cases h; simp
  | cons x l ih =>
    unfold bump at h
    cases h1 : nextFree (seen.length + 1) seen x with
    | none => rw [h1] at h; cases h
    | some y =>
      rw [h1] at h
      dsimp only at h
      cases h2 : bump (y :: seen) l with
      | none => rw [h2] at h; cases h
      | some w =>
        rw [h2] at h
        cases h
        obtain ⟨hy, hyx⟩ := nextFree_spec _ _ _ h1
        obtain ⟨a, b, c, d, e⟩ := ih _ h2
        refine ⟨by simp [a], List.nodup_cons.2 ⟨fun hw => c y hw (by simp), b⟩, ?_, ?_, ?_⟩
        · intro z hz
          rcases List.mem_cons.1 hz with rfl | hz
          · exact hy
          · exact fun hs => c z hz (by simp [hs])
        · intro z hz
          rcases List.mem_cons.1 hz with rfl | hz
          · by_cases hs : z ∈ seen
            · exact .inr hs
            · rw [hyx hs]
              exact .inl (by simp)
          · rcases d z hz with hd | hd
            · exact .inl (by simp [hd])
            · rcases List.mem_cons.1 hd with rfl | hd
              · exact .inl (by simp)
              · exact .inr hd
        · rintro ⟨hn, hs⟩
          obtain ⟨hn1, hn2⟩ := List.nodup_cons.1 hn
          have hyx := hyx (hs x (by simp))
          subst hyx
          rw [e ⟨hn2, fun z hz hz' => ?_⟩]
          rcases List.mem_cons.1 hz' with rfl | hz'
          · exact hn1 hz
          · exact hs z (by simp [hz]) hz'

theorem bump_some (seen l : List W) (h : seen.length + l.length ≤ 2 ^ 32) : ∃ v, bump seen l = some v := by
  induction l generalizing seen with
  | nil => exact ⟨[], rfl⟩
  | cons x l ih =>
    rw [List.length_cons] at h
    obtain ⟨y, hy⟩ := nextFree_some seen x (by omega)
    obtain ⟨v, hv⟩ := ih (y :: seen) (by simp; omega)
    refine ⟨y :: v, ?_⟩
    unfold bump
    rw [hy]
    dsimp only
    rw [hv]

end Verif.Pos
