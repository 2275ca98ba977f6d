import Verif.Codec.SymLemmas
import Verif.Codec.LinePoint
/-
  Property theorems about plot file encodings: C36, C37, C38.
-/
namespace Verif.Codec
open Res

/-! ### C36: symbol compression -/

/-- C36 (encoder). For every list of symbols below 48 the encoder returns the concatenated codes,
    zero padded to whole words, and their total length; there is no other output. -/
theorem C36_encoder_exact {syms : List Nat} (hs : ∀ x ∈ syms, x < 48) :
    ∃ ws, encode syms = .ok (ws, (streamBits syms).length % 2 ^ 64) ∧
      ws.length = ((streamBits syms).length + 63) / 64 ∧
      ∀ k, bitAt ws k = (streamBits syms)[k]?.getD false := by
  obtain ⟨ws, h1, _, h3, h4⟩ := encode_ok hs
  exact ⟨ws, h1, h3, h4⟩

/-- C36 (encoder). A symbol of 48 or more is refused. -/
theorem C36_encoder_refuses {a b : List Nat} {x : Nat} (ha : ∀ y ∈ a, y < 48) (hx : 48 ≤ x) :
    encode (a ++ x :: b) = .throw := by
  have h0 : ∀ (l : List Nat) s, (∀ y ∈ l, y < 48) → (∃ bs, EncInv bs s) →
      encLoop (l ++ x :: b) s = .throw := by
    intro l
    induction l with
    | nil =>
      intro s _ _
      simp only [List.nil_append]
      unfold encLoop encStep
      rw [encodeSymbol_throw hx]
      rfl
    | cons y l ih =>
      intro s hl ⟨bs, hi⟩
      obtain ⟨s1, e1, hi1⟩ := encStep_ok hi (hl y (by simp))
      rw [List.cons_append]
      unfold encLoop
      rw [e1, bind_ok]
      exact ih s1 (fun z hz => hl z (by simp [hz])) ⟨_, hi1⟩
  unfold encode
  rw [h0 a _ ha ⟨[], by decide, rfl, rfl, by simp, by decide, by intro k hk; simp at hk, by
    intro i; simp [lbit]⟩]
  rfl

/-- C36 (decoder, any symbols). Reading symbols at any position of any word array that holds their
    codes there either returns exactly these symbols or throws; it never returns wrong symbols and
    is never undefined. It does not throw when every symbol is below 24 and the start position
    leaves at least 16 bits in its word. -/
theorem C36_decoder {ws syms : List Nat} {pos : Nat} (hw : ∀ w ∈ ws, w < 2 ^ 64)
    (hlen : 64 * ws.length < 2 ^ 64) (hs : ∀ x ∈ syms, x < 48)
    (hh : Holds ws pos (streamBits syms)) :
    (decode ws syms.length pos = .ok syms ∨ decode ws syms.length pos = .throw) ∧
    ((∀ x ∈ syms, x < 24) → pos % 64 ≤ 48 → decode ws syms.length pos = .ok syms) := by
  have hi : DecInv ws pos ⟨[], 0, pos, 0⟩ :=
    ⟨rfl, Nat.zero_le _, fun i => by simp⟩
  unfold decode
  rcases decLoop_ok hw hlen syms pos _ hi hs hh with ⟨e, hn⟩ | ⟨s', e, ho⟩
  · rw [e]
    exact ⟨.inr rfl, fun h1 h2 => absurd ⟨.inr h2, h1⟩ hn⟩
  · rw [e, bind_ok, pure_eq, ho]
    exact ⟨.inl (by simp), fun _ _ => by simp⟩

theorem holds_of_encode {ws syms : List Nat}
    (hl : ws.length = ((streamBits syms).length + 63) / 64)
    (hb : ∀ k, bitAt ws k = lbit (streamBits syms) k) : Holds ws 0 (streamBits syms) := by
  refine ⟨by omega, fun i hi => ?_⟩
  rw [hb, Nat.zero_add]
  unfold lbit
  rw [List.getElem?_eq_getElem hi]; rfl

/-- C36 (round trip, partial: symbols below 24). Decoding the encoded symbols returns them, for every
    list. -/
theorem C36_round_trip_partial {syms ws : List Nat} {t : Nat} (hs : ∀ x ∈ syms, x < 24)
    (hfit : (streamBits syms).length + 64 < 2 ^ 64) (h : encode syms = .ok (ws, t)) :
    decode ws syms.length 0 = .ok syms := by
  obtain ⟨ws', h1, h2, h3, h4⟩ := encode_ok (syms := syms) (fun x hx => by have := hs x hx; omega)
  have e : ws = ws' := congrArg Prod.fst (Res.ok.inj (h.symm.trans h1))
  subst e
  exact (C36_decoder h2 (by omega) (fun x hx => by have := hs x hx; omega)
    (holds_of_encode h3 h4)).2 hs (by decide)

/-- C36 (round trip, all admissible symbols, partial: the decoder may refuse). Decoding the encoded
    symbols returns them or throws. -/
theorem C36_never_wrong_partial {syms ws : List Nat} {t : Nat} (hs : ∀ x ∈ syms, x < 48)
    (hfit : (streamBits syms).length + 64 < 2 ^ 64) (h : encode syms = .ok (ws, t)) :
    decode ws syms.length 0 = .ok syms ∨ decode ws syms.length 0 = .throw := by
  obtain ⟨ws', h1, h2, h3, h4⟩ := encode_ok hs
  have e : ws = ws' := congrArg Prod.fst (Res.ok.inj (h.symm.trans h1))
  subst e
  exact (C36_decoder h2 (by omega) hs (holds_of_encode h3 h4)).1

/-- The full claim is false: the decoder refills its buffer at most once per symbol, so an admissible
    list can be encoded but not decoded. -/
theorem C36_round_trip_fails :
    encode [45, 39, 42, 45, 9] = .ok ([17582052942033190911, 18230571291545436159, 0], 130) ∧
    decode [17582052942033190911, 18230571291545436159, 0] 5 0 = .throw := by decide +kernel

/-- The bound 24 is sharp: a list of symbols at most 24 that cannot be decoded. -/
theorem C36_bound_sharp :
    (do let (ws, _) ← encode [18, 24, 24, 18, 24, 24, 24, 18, 24, 24, 24, 18, 24, 24, 24, 18, 24, 24, 24]
        return ws.length) = Res.ok 6 ∧
    (do let (ws, _) ← encode [18, 24, 24, 18, 24, 24, 24, 18, 24, 24, 24, 18, 24, 24, 24, 18, 24, 24, 24]
        decode ws 19 0) = .throw := by decide +kernel

/-- Reading from the end of a word fails even for the smallest two-step symbol. -/
theorem C36_unaligned_start_fails : decode [3 <<< 62, 0] 1 62 = .throw ∧
    Holds [3 <<< 62, 0] 62 (streamBits [3]) := by
  refine ⟨by decide +kernel, by decide, ?_⟩
  intro i hi
  have : i < 4 := hi
  revert i
  decide +kernel

/-- Concrete case of the hypotheses: symbols of several widths crossing a word boundary. -/
example : (do let (ws, _) ← encode [23, 0, 7, 22, 19, 3, 23, 21, 23, 5]; decode ws 10 0) =
    .ok [23, 0, 7, 22, 19, 3, 23, 21, 23, 5] := by decide +kernel

/-! ### C37: line points -/

/-- C37. Encoding an ordered pair `y < x` of 32-bit values and decoding gives the pair back. -/
theorem C37_pair_round_trip {x y : Nat} (hx : x < 2 ^ 32) (hy : y < x) :
    linePointToSquare (getXEnc x + y) = (x, y) := by
  rw [getXEnc_eq hx]
  have hs := tri_succ x
  have hm := tri_mono (show x + 1 ≤ 2 ^ 32 by omega)
  obtain ⟨_, h2, h3⟩ := linePoint_spec (index := tri x + y) (by omega)
  obtain ⟨e1, e2⟩ := linePoint_unique h2 hy h3
  exact Prod.ext e1 e2

/-- C37. Every line point below `2^32 (2^32 - 1) / 2` decodes to an ordered pair that encodes to it, so
    encoding and decoding are inverse bijections and distinct pairs have distinct line points. -/
theorem C37_point_round_trip {index : Nat} (h : index < 2 ^ 31 * (2 ^ 32 - 1)) :
    (linePointToSquare index).2 < (linePointToSquare index).1 ∧
    (linePointToSquare index).1 < 2 ^ 32 ∧
    getXEnc (linePointToSquare index).1 + (linePointToSquare index).2 = index := by
  have ht : tri (2 ^ 32) = 2 ^ 31 * (2 ^ 32 - 1) := by
    have h2 : ∀ n, n = 2 ^ 32 → 2 * tri n + n = n * n → tri n = 2 ^ 31 * (2 ^ 32 - 1) := by
      intro n hn h
      have h3 : n * n = 18446744073709551616 := by rw [hn]
      omega
    exact h2 _ rfl (two_tri _)
  obtain ⟨h1, h2, h3⟩ := linePoint_spec (index := index) (by omega)
  rw [getXEnc_eq h1]
  exact ⟨h2, h1, h3⟩

/-- C37. Distinct ordered pairs have distinct line points. -/
theorem C37_injective {x y x' y' : Nat} (hx : x < 2 ^ 32) (hy : y < x) (hx' : x' < 2 ^ 32)
    (hy' : y' < x') (h : getXEnc x + y = getXEnc x' + y') : x = x' ∧ y = y' := by
  have h1 := C37_pair_round_trip hx hy
  have h2 := C37_pair_round_trip hx' hy'
  rw [h, h2] at h1
  exact ⟨(congrArg Prod.fst h1).symm, (congrArg Prod.snd h1).symm⟩

/-- C37 (compressed plots). The variant that allows equal values decodes `(x, y)` with `y ≤ x` from
    the line point of `(x + 1, y + 1)`, where an equal pair is stored as `(x + 2, 0)`. -/
theorem C37_square2 {x y : Nat} (hx : x + 2 < 2 ^ 32) (hy : y ≤ x) :
    linePointToSquare2 (getXEnc (x + 1) + (y + 1)) = (x, y) := by
  have hd : ∀ z, z + 1 < 2 ^ 32 → dec32 (z + 1) = z := by
    intro z hz
    unfold dec32
    rw [Nat.add_right_comm, Nat.add_sub_cancel, Nat.add_mod_right, Nat.mod_eq_of_lt (by omega)]
  have h3 : linePointToSquare3 (getXEnc (x + 1) + (y + 1)) = (x + 1, y + 1) := by
    by_cases h : y = x
    · have e : getXEnc (x + 1) + (x + 1) = getXEnc (x + 1 + 1) + 0 := by
        rw [getXEnc_eq (x := x + 1) (Nat.lt_of_succ_lt hx), getXEnc_eq (x := x + 1 + 1) hx,
          tri_succ (x + 1)]
        exact (Nat.add_zero _).symm
      have hp := C37_pair_round_trip (x := x + 1 + 1) (y := 0) hx (Nat.succ_pos _)
      rw [h, e]
      unfold linePointToSquare3
      rw [hp]
      show (dec32 (x + 1 + 1), dec32 (x + 1 + 1)) = _
      rw [hd (x + 1) hx]
    · have hp := C37_pair_round_trip (x := x + 1) (y := y + 1) (Nat.lt_of_succ_lt hx) (by omega)
      unfold linePointToSquare3
      rw [hp]
      exact if_neg (Nat.succ_ne_zero y)
  unfold linePointToSquare2
  rw [h3]
  show (dec32 (x + 1), dec32 (y + 1)) = _
  rw [hd x (Nat.lt_of_succ_lt hx), hd y (by omega)]

example : linePointToSquare (getXEnc 4294967295 + 4294967294) = (4294967295, 4294967294) ∧
    linePointToSquare2 (getXEnc 8 + 8) = (7, 7) ∧ linePointToSquare2 (getXEnc 8 + 3) = (7, 2) := by
  decide +kernel

/-! ### C38: bit packing -/

/-- C38 (write). Inside the array, writing sets exactly the one bits of the value at the target
    position: every other bit keeps its value. -/
theorem C38_write_exact {ws : List Nat} {value offset numBits : Nat} (hv : value < 2 ^ 64)
    (hn : numBits ≤ 64) (h0 : offset < 64 * ws.length) (hb : offset + numBits ≤ 64 * ws.length)
    (hfit : offset + numBits < 2 ^ 64) :
    ∃ ws', writeBits ws value offset numBits = .ok (ws', offset + numBits) ∧
      ws'.length = ws.length ∧
      (∀ k, ¬ (offset ≤ k ∧ k < offset + numBits) → bitAt ws' k = bitAt ws k) ∧
      (∀ i, i < numBits → bitAt ws' (offset + i) = (bitAt ws (offset + i) || value.testBit i)) := by
  obtain ⟨ws', e, hl, hbit⟩ := writeBits_ok (ws := ws) hv hn (by omega) hb
  rw [u64_of_lt hfit] at e
  refine ⟨ws', e, hl, fun k hk => ?_, fun i hi => ?_⟩
  · rw [hbit]; simp only [hk, decide_false, Bool.false_and, Bool.or_false]
  · rw [hbit, Nat.add_sub_cancel_left]
    have : offset ≤ offset + i ∧ offset + i < offset + numBits := by omega
    simp [this]

/-- C38 (read). Inside the array, reading returns the number whose bits are the stored bits. -/
theorem C38_read_exact {ws : List Nat} {offset numBits : Nat} (hw : ∀ w ∈ ws, w < 2 ^ 64)
    (hn : numBits ≤ 64) (hb : offset + numBits ≤ 64 * ws.length) :
    ∃ r, readBits ws offset numBits = .ok r ∧ r < 2 ^ numBits ∧
      ∀ i, i < numBits → r.testBit i = bitAt ws (offset + i) :=
  readBits_ok hw hn hb

theorem eq_of_low_bits {a b n : Nat} (ha : a < 2 ^ n) (h : ∀ i, i < n → a.testBit i = b.testBit i) :
    a = b % 2 ^ n := by
  apply Nat.eq_of_testBit_eq
  intro i
  rw [Nat.testBit_mod_two_pow]
  by_cases hi : i < n
  · simp [hi, h i hi]
  · simp [hi, testBit_ge ha (by omega : n ≤ i)]

/-- C38 (round trip). A value written over zero bits at any offset and with any width up to 64 is
    read back (reduced to the width), and a value read from any range outside is unchanged. -/
theorem C38_round_trip {ws : List Nat} {value offset numBits : Nat} (hw : ∀ w ∈ ws, w < 2 ^ 64)
    (hv : value < 2 ^ 64) (hn : numBits ≤ 64) (h0 : offset < 64 * ws.length)
    (hb : offset + numBits ≤ 64 * ws.length) (hfit : offset + numBits < 2 ^ 64)
    (hz : ∀ i, i < numBits → bitAt ws (offset + i) = false) :
    ∃ ws', writeBits ws value offset numBits = .ok (ws', offset + numBits) ∧
      readBits ws' offset numBits = .ok (value % 2 ^ numBits) ∧
      ∀ off n, n ≤ 64 → off + n ≤ 64 * ws.length → (off + n ≤ offset ∨ offset + numBits ≤ off) →
        readBits ws' off n = readBits ws off n := by
  obtain ⟨ws', e, hl, hout, hin⟩ := C38_write_exact hv hn h0 hb hfit
  have hw' := writeBits_words hw hv hn e
  refine ⟨ws', e, ?_, ?_⟩
  · obtain ⟨r, e2, hlt, hr⟩ := C38_read_exact hw' hn (by rw [hl]; exact hb)
    rw [e2]
    congr 1
    apply eq_of_low_bits hlt
    intro i hi
    rw [hr i hi, hin i hi, hz i hi, Bool.false_or]
  · intro off n hn' hb' hsep
    obtain ⟨r, e2, hlt, hr⟩ := C38_read_exact hw' hn' (by rw [hl]; exact hb')
    obtain ⟨q, e3, hlt3, hq⟩ := C38_read_exact hw hn' hb'
    rw [e2, e3]
    congr 1
    rw [eq_of_low_bits (b := q) hlt, Nat.mod_eq_of_lt hlt3]
    intro i hi
    rw [hr i hi, hq i hi, hout _ (by omega)]

/-- Writing fixed width values one after the other, as a park is written. -/
def packAll (width : Nat) : List Nat → List Nat → Nat → Res (List Nat)
  | [], ws, _ => .ok ws
  | v :: rest, ws, offset => do
    let (ws, offset) ← writeBits ws v offset width
    packAll width rest ws offset

theorem packAll_ok {width : Nat} (hn : width ≤ 64) (h1 : 1 ≤ width) (vals : List Nat) :
    ∀ ws offset, (∀ w ∈ ws, w < 2 ^ 64) → (∀ v ∈ vals, v < 2 ^ 64) → 64 * ws.length < 2 ^ 64 →
      offset + width * vals.length ≤ 64 * ws.length →
      (∀ k, offset ≤ k → bitAt ws k = false) →
      ∃ ws', packAll width vals ws offset = .ok ws' ∧
        (∀ off n, n ≤ 64 → off + n ≤ offset → readBits ws' off n = readBits ws off n) ∧
        ∀ j v, vals[j]? = some v → readBits ws' (offset + j * width) width = .ok (v % 2 ^ width) := by
  induction vals with
  | nil =>
    intro ws offset _ _ _ _ _
    exact ⟨ws, rfl, fun _ _ _ _ => rfl, fun j v h => by simp at h⟩
  | cons v rest ih =>
    intro ws offset hw hv hlen hb hz
    rw [List.length_cons, Nat.mul_succ] at hb
    have hvl := hv v (by simp)
    obtain ⟨w1, e1, hl1, hout, hin⟩ := C38_write_exact (ws := ws) (offset := offset) hvl hn (by omega)
      (by omega) (by omega)
    obtain ⟨w1', e1', hr, hsame⟩ := C38_round_trip (ws := ws) (offset := offset) hw hvl hn (by omega)
      (by omega) (by omega) (fun i _ => hz _ (by omega))
    have ew : w1' = w1 := congrArg Prod.fst (Res.ok.inj (e1'.symm.trans e1))
    subst ew
    obtain ⟨w2, e2, hkeep, hall⟩ := ih w1' (offset + width) (writeBits_words hw hvl hn e1)
      (fun x hx => hv x (by simp [hx])) (by rw [hl1]; exact hlen) (by rw [hl1]; omega)
      (fun k hk => by rw [hout k (by omega)]; exact hz k (by omega))
    unfold packAll
    rw [e1, bind_ok]
    refine ⟨w2, e2, fun off n hn' ho => ?_, fun j x hj => ?_⟩
    · rw [hkeep off n hn' (by omega), hsame off n hn' (by omega) (by omega)]
    · cases j with
      | zero =>
        simp only [List.getElem?_cons_zero, Option.some.injEq] at hj
        subst hj
        rw [Nat.zero_mul, Nat.add_zero, hkeep offset width hn (by omega)]
        exact hr
      | succ j =>
        simp only [List.getElem?_cons_succ] at hj
        have := hall j x hj
        rw [Nat.succ_mul]
        rw [show offset + (j * width + width) = offset + width + j * width by omega]
        exact this

/-- C38 (packing). Any number of values of any fixed width written back to back into a zeroed array
    that is large enough are all read back. -/
theorem C38_pack_round_trip {width n : Nat} {vals : List Nat} (hn : width ≤ 64) (h1 : 1 ≤ width)
    (hv : ∀ v ∈ vals, v < 2 ^ width) (hb : width * vals.length ≤ 64 * n) (hlen : 64 * n < 2 ^ 64) :
    ∃ ws, packAll width vals (List.replicate n 0) 0 = .ok ws ∧
      ∀ j v, vals[j]? = some v → readBits ws (j * width) width = .ok v := by
  obtain ⟨ws, e, _, h⟩ := packAll_ok hn h1 vals (List.replicate n 0) 0
    (fun w hw => by rw [(List.mem_replicate.1 hw).2]; decide)
    (fun v hvm => lt_pow_of_le (hv v hvm) hn)
    (by rw [List.length_replicate]; exact hlen) (by rw [List.length_replicate]; omega)
    (fun k _ => by
      unfold bitAt
      rw [List.getElem?_replicate]
      split
      · rename_i heq
        split at heq
        · cases heq; exact Nat.zero_testBit _
        · cases heq
      · rfl)
  refine ⟨ws, e, fun j v hj => ?_⟩
  have := h j v hj
  rw [Nat.zero_add, Nat.mod_eq_of_lt (hv v (List.mem_of_getElem? hj))] at this
  exact this

example : (do let ws ← packAll 33 [1, 2, 8589934591, 5] (List.replicate 3 0) 0
              readBits ws 66 33) = .ok 8589934591 := by decide +kernel

end Verif.Codec
