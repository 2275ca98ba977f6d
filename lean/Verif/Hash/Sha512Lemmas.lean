import Verif.Hash.BitLemmas
/-
  The streaming SHA-512 against the standard.
-/
namespace Verif.Hash

/-! ### One block -/

/-- What line `i` of `Transform` has to be. -/
def rowOf (i : Nat) : Row where
  regs := rotation i
  k := sha512Alg.K.getD i 0
  w := i % 16
  src := if i < 16 then .load (8 * i)
    else if i < 78 then .add ((i + 14) % 16) ((i + 9) % 16) ((i + 1) % 16)
    else .peek ((i + 14) % 16) ((i + 9) % 16) ((i + 1) % 16)

theorem transformRows_eq : transformRows = (List.range 80).map rowOf := by decide +kernel

/-- The sixteen variables hold the last words of the schedule (the last two are never stored). -/
def Window (W : List (BitVec 64)) (i : Nat) (w : Nat → BitVec 64) : Prop :=
  ∀ t, t < i → t < 78 → i ≤ t + 16 → w (t % 16) = W.getD t 0

theorem round64_eq (r : Nat → BitVec 64) (i : Nat) (s : Regs 64) (h : Rotated i r s)
    (k x : BitVec 64) : Rotated (i + 1) (round64 r (rotation i) k x) (specRound sha512Alg s (k, x)) := by
  have hv : ∀ j, j < 8 → r ((rotation i).getD j 0) = s.file j := by
    intro j hj
    rw [rotation_getD i j hj]; exact h j hj
  have := h.round (A := sha512Alg) k x
  unfold round64
  dsimp only
  rw [hv 0 (by omega), hv 1 (by omega), hv 2 (by omega), hv 3 (by omega), hv 4 (by omega),
    hv 5 (by omega), hv 6 (by omega), hv 7 (by omega)]
  have hc : ch64 (s.file 4) (s.file 5) (s.file 6) = specCh s.e s.f s.g := ch_eq _ _ _
  have hm : maj64 (s.file 0) (s.file 1) (s.file 2) = specMaj s.a s.b s.c := maj_eq _ _ _
  rw [hc, hm]
  exact this

theorem readBE64_eq (chunk : List Byte) (hc : chunk.length = 128) (i : Nat) (hi : i < 16) :
    readBE64 chunk (8 * i) = (blockWords sha512Alg chunk).getD i 0 := by
  unfold readBE64 blockWords
  rw [List.getD_eq_getElem?_getD, List.getElem?_map, List.getElem?_range hi, Option.map_some,
    Option.getD_some]
  exact bswap64_le _ (by rw [List.length_take, List.length_drop]; omega)

theorem value_eq (chunk : List Byte) (hc : chunk.length = 128) (i : Nat) (hi : i < 80)
    (w : Nat → BitVec 64) (hw : Window (schedule sha512Alg (blockWords sha512Alg chunk) 64) i w) :
    (rowOf i).value chunk w = (schedule sha512Alg (blockWords sha512Alg chunk) 64).getD i 0 := by
  have hM := blockWords_length sha512Alg chunk
  unfold Row.value rowOf
  dsimp only
  by_cases h16 : i < 16
  · rw [if_pos h16]
    dsimp only
    rw [readBE64_eq chunk hc i h16, schedule_low _ _ hM h16]
  · rw [if_neg h16]
    have h1 := hw (i - 16) (by omega) (by omega) (by omega)
    have h2 := hw (i - 2) (by omega) (by omega) (by omega)
    have h3 := hw (i - 7) (by omega) (by omega) (by omega)
    have h4 := hw (i - 15) (by omega) (by omega) (by omega)
    rw [show (i - 16) % 16 = i % 16 by omega] at h1
    rw [show (i - 2) % 16 = (i + 14) % 16 by omega] at h2
    rw [show (i - 7) % 16 = (i + 9) % 16 by omega] at h3
    rw [show (i - 15) % 16 = (i + 1) % 16 by omega] at h4
    have hs := schedule_step sha512Alg (blockWords sha512Alg chunk) hM (m := 64) (t := i) (by omega)
      (by omega)
    by_cases h78 : i < 78
    · rw [if_pos h78]
      dsimp only
      rw [h1, h2, h3, h4, hs, BitVec.add_comm]
      rfl
    · rw [if_neg h78]
      dsimp only
      rw [h1, h2, h3, h4, hs, BitVec.add_assoc, BitVec.add_assoc, BitVec.add_comm,
        ← BitVec.add_assoc]
      rfl

theorem store_window (chunk : List Byte) (hc : chunk.length = 128) (i : Nat) (hi : i < 80)
    (w : Nat → BitVec 64) (hw : Window (schedule sha512Alg (blockWords sha512Alg chunk) 64) i w) :
    Window (schedule sha512Alg (blockWords sha512Alg chunk) 64) (i + 1)
      ((rowOf i).store chunk w) := by
  have hv := value_eq chunk hc i hi w hw
  by_cases h78 : i < 78
  · have hst : (rowOf i).store chunk w = upd w (i % 16) ((rowOf i).value chunk w) := by
      unfold Row.store
      by_cases h16 : i < 16
      · have : (rowOf i).src = .load (8 * i) := by simp [rowOf, h16]
        rw [this]; rfl
      · have : (rowOf i).src = .add ((i + 14) % 16) ((i + 9) % 16) ((i + 1) % 16) := by
          simp [rowOf, h16, h78]
        rw [this]; rfl
    rw [hst, hv]
    intro t h1 h2 h3
    unfold upd
    by_cases ht : t = i
    · rw [ht, if_pos rfl]
    · rw [if_neg (by omega)]
      exact hw t (by omega) h2 (by omega)
  · have hst : (rowOf i).store chunk w = w := by
      unfold Row.store
      have : (rowOf i).src = .peek ((i + 14) % 16) ((i + 9) % 16) ((i + 1) % 16) := by
        have h16 : ¬ i < 16 := by omega
        simp [rowOf, h16, h78]
      rw [this]
    rw [hst]
    intro t h1 h2 h3
    exact hw t (by omega) h2 (by omega)

theorem rows_eq (chunk : List Byte) (hc : chunk.length = 128) (s : Regs 64) (junk : Nat → BitVec 64)
    (n : Nat) (hn : n ≤ 80) :
    Rotated n (((List.range n).map rowOf).foldl (Row.exec chunk) (s.file, junk)).1
        (specRounds sha512Alg s chunk n)
      ∧ Window (schedule sha512Alg (blockWords sha512Alg chunk) 64) n
        (((List.range n).map rowOf).foldl (Row.exec chunk) (s.file, junk)).2 := by
  induction n with
  | zero => exact ⟨Rotated.init s, fun t ht => absurd ht (by omega)⟩
  | succ n ih =>
    obtain ⟨h1, h2⟩ := ih (by omega)
    rw [List.range_succ, List.map_append, List.foldl_append]
    generalize ((List.range n).map rowOf).foldl (Row.exec chunk) (s.file, junk) = st at h1 h2
    have hv := value_eq chunk hc n (by omega) st.2 h2
    refine ⟨?_, store_window chunk hc n (by omega) st.2 h2⟩
    rw [specRounds_succ]
    show Rotated (n + 1) (round64 st.1 (rotation n) (sha512Alg.K.getD n 0)
      ((rowOf n).value chunk st.2)) _
    rw [hv]
    exact round64_eq _ _ _ h1 _ _

theorem transform_eq (junk : Nat → BitVec 64) (s : Regs 64) (chunk : List Byte)
    (hc : chunk.length = 128) : transform junk s chunk = compress sha512Alg s chunk := by
  rw [compress_rounds sha512Alg (by decide)]
  unfold transform
  have h := (rows_eq chunk hc s junk 80 (Nat.le_refl _)).1
  rw [← transformRows_eq] at h
  rw [h.ofFile rfl, show sha512Alg.K.length = 80 from rfl]

/-! ### Streaming -/

theorem block512 : sha512Alg.block = 128 := rfl

/-- The object after the bytes `m`. -/
structure Holds (h : Hasher) (m : List Byte) : Prop where
  state : h.s = overBlocks sha512Alg (m.length / 128) sha512Alg.init m
  bytes : h.bytes = BitVec.ofNat 64 m.length
  len : h.buf.length = 128
  buf : h.buf.take (m.length % 128) = m.drop (128 * (m.length / 128))

theorem Holds.new (buf : List Byte) (hb : buf.length = 128) : Holds (Hasher.new buf) [] where
  state := rfl
  bytes := rfl
  len := hb
  buf := by simp

theorem Holds.bufsize {h : Hasher} {m : List Byte} (hh : Holds h m) : h.bufsize = m.length % 128 := by
  unfold Hasher.bufsize
  rw [hh.bytes, BitVec.toNat_ofNat]
  omega

theorem fillBuf_length {buf data : List Byte} {off : Nat} (h : off + data.length ≤ buf.length) :
    (fillBuf buf off data).length = buf.length := by
  unfold fillBuf
  simp only [List.length_append, List.length_take, List.length_drop]
  omega

theorem fillBuf_take {buf data : List Byte} {off : Nat} (h : off + data.length ≤ buf.length) :
    (fillBuf buf off data).take (off + data.length) = buf.take off ++ data := by
  unfold fillBuf
  have h1 : (buf.take off ++ data).length = off + data.length := by
    simp only [List.length_append, List.length_take]; omega
  rw [← h1, List.take_left']
  rw [h1]

/-- One more block. -/
theorem overBlocks_snoc (n : Nat) (s : Regs 64) (l : List Byte) (h : l.length = 128 * (n + 1)) :
    overBlocks sha512Alg (n + 1) s l
      = compress sha512Alg (overBlocks sha512Alg n s l) (l.drop (128 * n)) := by
  rw [overBlocks_add]
  show compress sha512Alg _ ((l.drop (sha512Alg.block * n)).take sha512Alg.block) = _
  rw [block512, List.take_of_length_le (by rw [List.length_drop]; omega)]

theorem ofNat_add64 (a b : Nat) : BitVec.ofNat 64 a + BitVec.ofNat 64 b = BitVec.ofNat 64 (a + b) := by
  rw [BitVec.ofNat_add]

/-- Filling the buffer. -/
theorem Holds.flush {junk : Nat → BitVec 64} {h : Hasher} {m : List Byte} (hh : Holds h m)
    {data : List Byte} (hf : h.fills data = true) :
    Holds (h.flush junk data).1 (m ++ data.take (128 - m.length % 128))
      ∧ (h.flush junk data).2 = data.drop (128 - m.length % 128)
      ∧ (m ++ data.take (128 - m.length % 128)).length % 128 = 0 := by
  have hb := hh.bufsize
  unfold Hasher.fills at hf
  rw [hb] at hf
  simp only [ne_eq, decide_not, Bool.and_eq_true, Bool.not_eq_true', decide_eq_false_iff_not,
    decide_eq_true_eq] at hf
  obtain ⟨hf1, hf2⟩ := hf
  have hfl : h.flush junk data =
      ({ s := transform junk h.s (fillBuf h.buf (m.length % 128) (data.take (128 - m.length % 128)))
         buf := fillBuf h.buf (m.length % 128) (data.take (128 - m.length % 128))
         bytes := h.bytes + BitVec.ofNat 64 (128 - m.length % 128) },
       data.drop (128 - m.length % 128)) := by
    unfold Hasher.flush Hasher.fills
    rw [hb, if_pos (by simp; omega)]
  rw [hfl]
  generalize hr : m.length % 128 = r at *
  have htl : (data.take (128 - r)).length = 128 - r := by rw [List.length_take]; omega
  have hlen : (m ++ data.take (128 - r)).length = 128 * (m.length / 128 + 1) := by
    rw [List.length_append, htl]; omega
  have hfb : (fillBuf h.buf r (data.take (128 - r))) = h.buf.take r ++ data.take (128 - r) := by
    have h1 := fillBuf_take (buf := h.buf) (data := data.take (128 - r)) (off := r)
      (by rw [htl, hh.len]; omega)
    have h2 := fillBuf_length (buf := h.buf) (data := data.take (128 - r)) (off := r)
      (by rw [htl, hh.len]; omega)
    rw [htl] at h1
    rw [← h1]
    exact (List.take_of_length_le (by rw [h2, hh.len]; omega)).symm
  have hbl : (h.buf.take r ++ data.take (128 - r)).length = 128 := by
    rw [List.length_append, List.length_take, htl, hh.len]; omega
  refine ⟨⟨?_, ?_, ?_, ?_⟩, rfl, by omega⟩
  · dsimp only
    have hbuf := hh.buf
    rw [hr] at hbuf
    rw [hfb, transform_eq _ _ _ hbl, hh.state, hbuf, hlen,
      Nat.mul_div_cancel_left _ (by omega : 0 < 128), overBlocks_snoc _ _ _ hlen,
      overBlocks_append_left _ _ _ _ _ (by rw [block512]; omega),
      List.drop_append_of_le_length (by omega)]
  · dsimp only
    rw [hh.bytes, ofNat_add64, List.length_append, htl]
  · dsimp only
    rw [hfb, hbl]
  · have h0 : (m ++ data.take (128 - r)).length % 128 = 0 := by omega
    rw [h0, List.take_zero, List.drop_of_length_le (by omega)]

/-- Full chunks. -/
theorem Holds.bulk {junk : Nat → BitVec 64} (n : Nat) {h : Hasher} {m : List Byte} (hh : Holds h m)
    (hm : m.length % 128 = 0) (data : List Byte) (hn : data.length ≤ n) :
    ∃ d1 d2, data = d1 ++ d2 ∧ Holds (Hasher.bulk junk n (h, data)).1 (m ++ d1)
      ∧ (Hasher.bulk junk n (h, data)).2 = d2 ∧ (m ++ d1).length % 128 = 0 ∧ d2.length < 128 := by
  induction n generalizing h m data with
  | zero =>
    have : data = [] := List.length_eq_zero_iff.1 (by omega)
    subst this
    exact ⟨[], [], rfl, by rw [List.append_nil]; exact hh, rfl, by rw [List.append_nil]; exact hm,
      by decide⟩
  | succ n ih =>
    by_cases hd : 128 ≤ data.length
    · have hl : (data.take 128).length = 128 := by rw [List.length_take]; omega
      have hlen : (m ++ data.take 128).length = 128 * (m.length / 128 + 1) := by
        rw [List.length_append, hl]; omega
      have hh' : Holds ⟨transform junk h.s (data.take 128), h.buf, h.bytes + 128⟩
          (m ++ data.take 128) := by
        refine ⟨?_, ?_, hh.len, ?_⟩
        · dsimp only
          rw [transform_eq _ _ _ hl, hh.state, hlen,
            Nat.mul_div_cancel_left _ (by omega : 0 < 128), overBlocks_snoc _ _ _ hlen,
            overBlocks_append_left _ _ _ _ _ (by rw [block512]; omega),
            List.drop_append_of_le_length (by omega), List.drop_of_length_le (by omega),
            List.nil_append]
        · dsimp only
          rw [hh.bytes, List.length_append, hl, ← ofNat_add64]
          rfl
        · have h0 : (m ++ data.take 128).length % 128 = 0 := by omega
          rw [h0, List.take_zero, List.drop_of_length_le (by omega)]
      obtain ⟨d1, d2, e1, e2, e3, e4, e5⟩ := ih hh' (by omega) (data.drop 128)
        (by rw [List.length_drop]; omega)
      have hb : Hasher.bulk junk (n + 1) (h, data) = Hasher.bulk junk n
          (⟨transform junk h.s (data.take 128), h.buf, h.bytes + 128⟩, data.drop 128) := by
        rw [Hasher.bulk]; exact if_pos hd
      rw [hb]
      refine ⟨data.take 128 ++ d1, d2, ?_, ?_, e3, ?_, e5⟩
      · rw [List.append_assoc, ← e1, List.take_append_drop]
      · rw [← List.append_assoc]; exact e2
      · rw [← List.append_assoc]; exact e4
    · have hb : Hasher.bulk junk (n + 1) (h, data) = (h, data) := by
        rw [Hasher.bulk]; exact if_neg hd
      rw [hb]
      exact ⟨[], data, rfl, by rw [List.append_nil]; exact hh, rfl,
        by rw [List.append_nil]; exact hm, by omega⟩

/-- The rest. -/
theorem Holds.keep {h : Hasher} {m : List Byte} (hh : Holds h m) (data : List Byte)
    (hd : m.length % 128 + data.length < 128) :
    Holds (Hasher.keep (m.length % 128) (h, data)) (m ++ data) := by
  unfold Hasher.keep
  dsimp only
  by_cases h0 : data = []
  · rw [if_neg (by simpa using h0), h0, List.append_nil]; exact hh
  · rw [if_pos h0]
    have hq : (m ++ data).length / 128 = m.length / 128 := by rw [List.length_append]; omega
    have hr : (m ++ data).length % 128 = m.length % 128 + data.length := by
      rw [List.length_append]; omega
    refine ⟨?_, ?_, ?_, ?_⟩
    · dsimp only
      rw [hq, overBlocks_append_left _ _ _ _ _ (by rw [block512]; omega)]
      exact hh.state
    · dsimp only
      rw [hh.bytes, ofNat_add64, List.length_append]
    · dsimp only
      rw [fillBuf_length (by rw [hh.len]; omega)]; exact hh.len
    · dsimp only
      rw [hq, hr, fillBuf_take (by rw [hh.len]; omega), hh.buf,
        List.drop_append_of_le_length (by omega)]

/-- `Write` appends. -/
theorem Holds.write {junk : Nat → BitVec 64} {h : Hasher} {m : List Byte} (hh : Holds h m)
    (data : List Byte) : Holds (h.write junk data) (m ++ data) := by
  have hb := hh.bufsize
  unfold Hasher.write
  by_cases hf : h.fills data = true
  · rw [if_pos hf]
    obtain ⟨h1, h2, h3⟩ := hh.flush (junk := junk) hf
    obtain ⟨d1, d2, e1, e2, e3, e4, e5⟩ := h1.bulk (junk := junk) data.length h3
      (data.drop (128 - m.length % 128)) (by rw [List.length_drop]; omega)
    rw [← h2] at e2 e3
    generalize Hasher.bulk junk data.length (h.flush junk data) = x at e2 e3
    have h4 := e2.keep d2 (by omega)
    rw [e4] at h4
    have hx : x = (x.1, d2) := by rw [← e3]
    rw [hx]
    have hm : m ++ data.take (128 - m.length % 128) ++ d1 ++ d2 = m ++ data := by
      rw [List.append_assoc, List.append_assoc, ← e1, List.take_append_drop]
    rw [hm] at h4
    exact h4
  · rw [if_neg hf]
    have hfl : h.flush junk data = (h, data) := by unfold Hasher.flush; rw [if_neg hf]
    rw [hfl, hb]
    unfold Hasher.fills at hf
    rw [hb] at hf
    by_cases h0 : m.length % 128 = 0
    · obtain ⟨d1, d2, e1, e2, e3, e4, e5⟩ := hh.bulk (junk := junk) data.length h0 data (Nat.le_refl _)
      generalize Hasher.bulk junk data.length (h, data) = x at e2 e3
      have h4 := e2.keep d2 (by omega)
      rw [e4, List.append_assoc, ← e1] at h4
      have hx : x = (x.1, d2) := by rw [← e3]
      rw [hx, h0]
      exact h4
    · have hl : m.length % 128 + data.length < 128 := by
        simp [h0] at hf; omega
      have hbk : ∀ n, Hasher.bulk junk n (h, data) = (h, data) := by
        intro n
        cases n with
        | zero => rfl
        | succ n => rw [Hasher.bulk]; exact if_neg (by dsimp only; omega)
      rw [hbk]
      exact hh.keep data hl

theorem Holds.writes {junk : Nat → BitVec 64} {h : Hasher} {m : List Byte} (hh : Holds h m)
    (l : List (List Byte)) : Holds (h.writes junk l) (m ++ l.flatten) := by
  unfold Hasher.writes
  induction l generalizing h m with
  | nil => rw [List.flatten_nil, List.append_nil]; exact hh
  | cons d l ih =>
    rw [List.foldl_cons, List.flatten_cons, ← List.append_assoc]
    exact ih (hh.write d)

/-! ### Padding -/

theorem padArray_take (z : Nat) (hz : z < 128) :
    padArray.take (1 + z) = 0x80#8 :: List.replicate z 0#8 := by
  unfold padArray
  rw [Nat.add_comm, List.take_succ_cons, List.take_replicate, Nat.min_eq_left (by omega)]

theorem padZeros512 (n : Nat) : padZeros 128 16 n = (239 - n % 128) % 128 := by
  unfold padZeros; omega

theorem sizedesc_eq {h : Hasher} {m : List Byte} (hh : Holds h m) (hm : m.length < 2 ^ 61) :
    h.sizedesc = toBE 16 (BitVec.ofNat 128 (8 * m.length)) := by
  unfold Hasher.sizedesc writeBE64
  rw [toLE_bswap64, hh.bytes]
  have h61 : m.length < 2305843009213693952 := hm
  have e1 : (BitVec.ofNat 64 m.length <<< 3).toNat = 8 * m.length := by
    rw [BitVec.toNat_shiftLeft, BitVec.toNat_ofNat, Nat.shiftLeft_eq]
    omega
  have e2 : (BitVec.ofNat 128 (8 * m.length)).toNat = 8 * m.length := by
    rw [BitVec.toNat_ofNat]
    omega
  generalize BitVec.ofNat 64 m.length <<< 3 = x at e1
  generalize BitVec.ofNat 128 (8 * m.length) = y at e2
  refine List.ext_getElem (by simp [toBE]) fun i h1 h2 => ?_
  have hi : i < 16 := by rw [toBE_length] at h2; exact h2
  unfold toBE at *
  rw [List.getElem_map, List.getElem_range]
  apply BitVec.eq_of_toNat_eq
  rw [BitVec.toNat_setWidth, BitVec.toNat_ushiftRight, e2, Nat.shiftRight_eq_div_pow]
  by_cases h8 : i < 8
  · rw [List.getElem_append_left (by simpa using h8), List.getElem_replicate]
    have : 8 * m.length < 2 ^ (8 * (16 - 1 - i)) := by
      have h3 : 2 ^ 64 ≤ 2 ^ (8 * (16 - 1 - i)) := Nat.pow_le_pow_right (by omega) (by omega)
      have h4 : 8 * m.length < 2 ^ 64 := by omega
      exact Nat.lt_of_lt_of_le h4 h3
    rw [Nat.div_eq_of_lt this]
    rfl
  · rw [List.getElem_append_right (by simpa using h8), List.getElem_map, List.getElem_range,
      BitVec.toNat_setWidth, BitVec.toNat_ushiftRight, e1, Nat.shiftRight_eq_div_pow,
      List.length_replicate]
    congr 3
    omega

theorem finalize_eq {junk : Nat → BitVec 64} {h : Hasher} {m : List Byte} (hh : Holds h m)
    (hm : m.length < 2 ^ 61) : h.finalize junk = sha512 m := by
  have h61 : m.length < 2305843009213693952 := hm
  have hmod : h.bytes.toNat % 128 = m.length % 128 := hh.bufsize
  have h1 := hh.write (junk := junk)
    (padArray.take (1 + ((239 - h.bytes.toNat % 128) % 128)))
  have h2 := h1.write (junk := junk) h.sizedesc
  have hp : m ++ padArray.take (1 + ((239 - h.bytes.toNat % 128) % 128)) ++ h.sizedesc
      = padded sha512Alg m := by
    unfold padded
    rw [sizedesc_eq hh hm, hmod, padArray_take _ (Nat.mod_lt _ (by decide)), block512,
      show sha512Alg.lenBytes = 16 from rfl, padZeros512, List.append_assoc, List.cons_append]
  rw [hp] at h2
  unfold Hasher.finalize
  dsimp only
  rw [h2.state]
  unfold sha512 hash
  rw [block512]
  unfold Regs.digest writeBE64
  simp only [toLE_bswap64]
  rfl

theorem sha512_length (m : List Byte) : (sha512 m).length = 64 := by
  unfold sha512 hash
  rw [digest_length]; rfl

end Verif.Hash
