import Verif.Codec.BitsLemmas
import Verif.Codec.Spec
/-
  Helper lemmas for the plot symbol codec.
-/
namespace Verif.Codec
open Res

theorem symBits_length (sym : Nat) : (symBits sym).length = symWidth sym := by
  simp [symBits, symWidth]

theorem symWidth_le {sym : Nat} (h : sym < 48) : symWidth sym ≤ 32 := by unfold symWidth; omega
theorem symWidth_le16 {sym : Nat} (h : sym < 24) : symWidth sym ≤ 16 := by unfold symWidth; omega
theorem symWidth_ge (sym : Nat) : 2 ≤ symWidth sym := by unfold symWidth; omega

theorem lt_pow_of_le {a m n : Nat} (h : a < 2 ^ m) (hm : m ≤ n) : a < 2 ^ n :=
  Nat.lt_of_lt_of_le h (Nat.pow_le_pow_right (by decide) hm)

def symOk (sym : Nat) : Bool :=
  match encodeSymbol sym with
  | .ok (code, w) => decide (w = symWidth sym ∧ code < 2 ^ symWidth sym ∧
      ∀ i < symWidth sym, (symBits sym)[i]? = some (code.testBit i))
  | _ => false

/-- The whole code table. -/
theorem encodeSymbol_table : ∀ sym < 48, ∃ code, encodeSymbol sym = .ok (code, symWidth sym) ∧
    code < 2 ^ symWidth sym ∧ ∀ i < symWidth sym, (symBits sym)[i]? = some (code.testBit i) := by
  have h : ∀ sym < 48, symOk sym = true := by decide +kernel
  intro sym hs
  have := h sym hs
  unfold symOk at this
  split at this
  · rename_i code w e
    obtain ⟨h1, h2, h3⟩ := of_decide_eq_true this
    subst h1
    exact ⟨code, e, h2, h3⟩
  · cases this

theorem encodeSymbol_throw {sym : Nat} (h : 48 ≤ sym) : encodeSymbol sym = .throw := by
  unfold encodeSymbol
  rw [if_neg (by omega), if_neg (by omega), if_neg (by omega)]
  dsimp only
  rw [if_pos (by omega)]

theorem and3 (x : Nat) : x &&& 3 = (x.testBit 0).toNat + 2 * (x.testBit 1).toNat := by
  have h : x &&& 3 = x % 4 := Nat.and_two_pow_sub_one_eq_mod x 2
  rw [h, Nat.testBit_eq_decide_div_mod_eq, Nat.testBit_eq_decide_div_mod_eq]
  have h2 : x % 4 = x % 2 + 2 * (x / 2 % 2) := by omega
  rw [h2]
  have a : x % 2 = 0 ∨ x % 2 = 1 := by omega
  have b : x / 2 % 2 = 0 ∨ x / 2 % 2 = 1 := by omega
  rcases a with a | a <;> rcases b with b | b <;> simp [a, b]

theorem decodeLoop_spec (m : Nat) : ∀ fuel index shift, m < fuel →
    (∀ j < m, shift.testBit (2 * j) = true ∧ shift.testBit (2 * j + 1) = true) →
    ¬ (shift.testBit (2 * m) = true ∧ shift.testBit (2 * m + 1) = true) →
    decodeLoop fuel index shift =
      (3 * (index + m) + ((shift.testBit (2 * m)).toNat + 2 * (shift.testBit (2 * m + 1)).toNat),
        2 * (index + m) + 2) := by
  induction m with
  | zero =>
    intro fuel index shift hf _ hn
    obtain ⟨fuel, rfl⟩ : ∃ f, fuel = f + 1 := ⟨fuel - 1, by omega⟩
    unfold decodeLoop
    dsimp only
    rw [and3]
    simp only [Nat.mul_zero, Nat.zero_add, Nat.add_zero] at hn ⊢
    rw [if_neg]
    intro h
    apply hn
    cases h0 : shift.testBit 0 <;> cases h1 : shift.testBit 1 <;> simp_all
  | succ m ih =>
    intro fuel index shift hf ha hn
    obtain ⟨fuel, rfl⟩ : ∃ f, fuel = f + 1 := ⟨fuel - 1, by omega⟩
    unfold decodeLoop
    dsimp only
    obtain ⟨h0, h1⟩ := ha 0 (by omega)
    simp only [Nat.mul_zero, Nat.zero_add] at h0 h1
    rw [and3, if_pos (by rw [h0, h1]; rfl)]
    have sh : ∀ i, (shift >>> 2).testBit i = shift.testBit (i + 2) := fun i => by
      rw [Nat.testBit_shiftRight, Nat.add_comm]
    rw [ih fuel (index + 1) (shift >>> 2) (by omega) ?_ ?_]
    · simp only [sh]
      have e1 : 2 * m + 2 = 2 * (m + 1) := by omega
      have e2 : 2 * m + 1 + 2 = 2 * (m + 1) + 1 := by omega
      have e3 : index + 1 + m = index + (m + 1) := by omega
      rw [e1, e2, e3]
    · intro j hj
      simp only [sh]
      have := ha (j + 1) (by omega)
      have e2 : 2 * j + 1 + 2 = 2 * (j + 1) + 1 := by omega
      exact ⟨this.1, by rw [e2]; exact this.2⟩
    · simp only [sh]
      have e1 : 2 * m + 2 = 2 * (m + 1) := by omega
      have e2 : 2 * m + 1 + 2 = 2 * (m + 1) + 1 := by omega
      rw [e1, e2]; exact hn

theorem decodeSymbol_eq (x : Nat) : decodeSymbol x = decodeLoop 16 0 x := by
  unfold decodeSymbol
  split
  · rename_i h; unfold decodeLoop; simp [h]
  · split
    · rename_i h; unfold decodeLoop; simp [h]
    · split
      · rename_i h; unfold decodeLoop; simp [h]
      · rfl

/-- `decode_symbol` on a buffer holding the first `b` bits of a code (zeros above): with the whole
    code present it returns symbol and width, otherwise a width larger than `b`. -/
theorem decodeSymbol_prefix {sym b x : Nat} (hs : sym < 48)
    (hx : ∀ i < min b (symWidth sym), (symBits sym)[i]? = some (x.testBit i))
    (hz : b < symWidth sym → ∀ i, b ≤ i → x.testBit i = false) :
    (symWidth sym ≤ b → decodeSymbol x = (sym, symWidth sym)) ∧
    (b < symWidth sym → b < (decodeSymbol x).2) := by
  rw [decodeSymbol_eq]
  have ones : ∀ i, i < 2 * (sym / 3) → i < b → x.testBit i = true := by
    intro i hi hb
    have := hx i (by unfold symWidth; omega)
    unfold symBits at this
    rw [List.getElem?_append_left (by simpa using hi), List.getElem?_replicate, if_pos hi] at this
    exact (Option.some.inj this).symm
  constructor
  · intro hw
    have hw' := hw
    unfold symWidth at hw
    have t0 : x.testBit (2 * (sym / 3)) = decide (sym % 3 = 1) := by
      have := hx (2 * (sym / 3)) (by unfold symWidth; omega)
      unfold symBits at this
      rw [List.getElem?_append_right (by simp)] at this
      simp at this
      exact this.symm
    have t1 : x.testBit (2 * (sym / 3) + 1) = decide (sym % 3 = 2) := by
      have := hx (2 * (sym / 3) + 1) (by unfold symWidth; omega)
      unfold symBits at this
      rw [List.getElem?_append_right (by simp)] at this
      simp at this
      exact this.symm
    rw [decodeLoop_spec (sym / 3) 16 0 x (by omega)
      (fun j hj => ⟨ones _ (by omega) (by omega), ones _ (by omega) (by omega)⟩)
      (by rw [t0, t1]; simp; omega)]
    rw [t0, t1]
    have hr : sym % 3 = 0 ∨ sym % 3 = 1 ∨ sym % 3 = 2 := by omega
    unfold symWidth
    rcases hr with h | h | h <;> simp [h] <;> omega
  · intro hb
    have hwl := symWidth_le hs
    rw [decodeLoop_spec (b / 2) 16 0 x (by omega)
      (fun j hj => ⟨ones _ (by unfold symWidth at hb; omega) (by omega),
        ones _ (by unfold symWidth at hb; omega) (by omega)⟩)
      (by rw [hz hb (2 * (b / 2) + 1) (by omega)]; simp)]
    show b < 2 * (0 + b / 2) + 2
    omega

/-! ### Decoder -/

/-- The decoder's buffer holds the `bits` bits from stream position `pos` on. -/
structure DecInv (ws : List Nat) (pos : Nat) (s : Dec) : Prop where
  off : s.offset = pos + s.bits
  le : s.bits ≤ 64
  buf : ∀ i, s.buffer.testBit i = (decide (i < s.bits) && bitAt ws (pos + i))

/-- Enough bits for a 16-bit code are or will be available. -/
def Ready (s : Dec) : Prop := 16 ≤ s.bits ∨ s.offset % 64 ≤ 48

theorem refill_ok {ws : List Nat} {pos : Nat} {s : Dec} (hw : ∀ w ∈ ws, w < 2 ^ 64)
    (hlen : 64 * ws.length < 2 ^ 64) (hi : DecInv ws pos s) (hpos : pos < 64 * ws.length) :
    ∃ s', refill ws s = .ok s' ∧ DecInv ws pos s' ∧ s'.out = s.out ∧
      (Ready s → (16 ≤ s'.bits ∨ 64 * ws.length ≤ s'.offset) ∧
        (s'.bits < 32 → s'.offset % 64 = 0 ∨ 64 * ws.length ≤ s'.offset)) := by
  have hoff := hi.off
  have hle := hi.le
  unfold refill
  by_cases hb : s.bits < 32
  · rw [if_pos hb]
    by_cases hin : s.offset / 64 < ws.length
    · rw [List.getElem?_eq_getElem hin]
      dsimp only
      have hwlt := hw _ (List.getElem_mem hin)
      have hbit : ∀ j, s.offset % 64 + j < 64 →
          bitAt ws (s.offset + j) = (ws[s.offset / 64]).testBit (s.offset % 64 + j) := by
        intro j hj
        unfold bitAt
        have e1 : (s.offset + j) / 64 = s.offset / 64 := by omega
        have e2 : (s.offset + j) % 64 = s.offset % 64 + j := by omega
        rw [e1, e2, List.getElem?_eq_getElem hin]
      generalize ws[s.offset / 64] = w at hwlt hbit ⊢
      have hu : u64 (s.offset + min (64 - s.offset % 64) (64 - s.bits)) =
          s.offset + min (64 - s.offset % 64) (64 - s.bits) := u64_of_lt (by omega)
      rw [hu]
      refine ⟨_, rfl, ⟨?_, ?_, ?_⟩, rfl, ?_⟩
      · show s.offset + _ = pos + (s.bits + _); omega
      · show s.bits + _ ≤ 64; omega
      · intro i
        dsimp only
        rw [Nat.testBit_or, testBit_u64, Nat.testBit_shiftLeft, Nat.testBit_shiftRight, hi.buf]
        by_cases c1 : i < s.bits
        · have c2 : ¬ i ≥ s.bits := by omega
          have c3 : i < s.bits + min (64 - s.offset % 64) (64 - s.bits) := by omega
          simp [c1, c2, c3]
        · have c2 : i ≥ s.bits := by omega
          by_cases c3 : i < s.bits + min (64 - s.offset % 64) (64 - s.bits)
          · have c4 : i < 64 := by omega
            have hx := hbit (i - s.bits) (by omega)
            have e : s.offset + (i - s.bits) = pos + i := by omega
            rw [e] at hx
            simp [c1, c2, c3, c4, hx]
          · by_cases c4 : i < 64
            · have : w.testBit (s.offset % 64 + (i - s.bits)) = false := testBit_ge hwlt (by omega)
              simp [c1, c3, this]
            · simp [c1, c3, c4]
      · intro hr
        unfold Ready at hr
        dsimp only
        constructor
        · left; omega
        · intro; left; omega
    · have hge : ws.length ≤ s.offset / 64 := by omega
      rw [List.getElem?_eq_none hge]
      dsimp only
      rw [if_neg (by omega)]
      exact ⟨s, rfl, hi, rfl, fun _ => ⟨.inr (by omega), fun _ => .inr (by omega)⟩⟩
  · rw [if_neg hb]
    exact ⟨s, rfl, hi, rfl, fun _ => ⟨.inl (by omega), fun h => absurd h hb⟩⟩

theorem Holds.cons {ws : List Nat} {pos sym : Nat} {rest : List Nat}
    (h : Holds ws pos (streamBits (sym :: rest))) :
    pos + symWidth sym ≤ 64 * ws.length ∧
    (∀ i < symWidth sym, (symBits sym)[i]? = some (bitAt ws (pos + i))) ∧
    Holds ws (pos + symWidth sym) (streamBits rest) := by
  obtain ⟨h1, h2⟩ := h
  unfold streamBits at h1 h2
  simp only [List.length_append, symBits_length] at h1 h2
  refine ⟨by omega, fun i hi => ?_, by omega, fun i hi => ?_⟩
  · have := h2 i (by omega)
    rwa [List.getElem?_append_left (by rw [symBits_length]; exact hi)] at this
  · have := h2 (symWidth sym + i) (by omega)
    rw [List.getElem?_append_right (by rw [symBits_length]; omega), symBits_length,
      Nat.add_sub_cancel_left] at this
    rw [this, Nat.add_assoc]

/-- One decoder iteration at a position holding a code: the right symbol or an exception. -/
theorem decStep_ok {ws : List Nat} {pos sym : Nat} {rest : List Nat} {s : Dec}
    (hw : ∀ w ∈ ws, w < 2 ^ 64) (hlen : 64 * ws.length < 2 ^ 64) (hi : DecInv ws pos s)
    (hs : sym < 48) (hh : Holds ws pos (streamBits (sym :: rest))) :
    (decStep ws s = .throw ∧ ¬ (Ready s ∧ sym < 24)) ∨
    ∃ s', decStep ws s = .ok s' ∧ DecInv ws (pos + symWidth sym) s' ∧ s'.out = s.out ++ [sym] ∧
      (Ready s → sym < 24 → Ready s') := by
  obtain ⟨hin, hcode, _⟩ := hh.cons
  have hge := symWidth_ge sym
  obtain ⟨s1, e1, hi1, ho1, hr1⟩ := refill_ok hw hlen hi (by omega)
  unfold decStep
  rw [e1, bind_ok]
  have hoff := hi1.off
  have hle := hi1.le
  have hpre := decodeSymbol_prefix (b := s1.bits) (x := u32 s1.buffer) hs
    (by
      intro i hlt
      have := symWidth_le hs
      rw [hcode i (by omega), testBit_u32, hi1.buf]
      have c1 : i < 32 := by omega
      have c2 : i < s1.bits := by omega
      simp [c1, c2])
    (by
      intro hb i hbi
      rw [testBit_u32, hi1.buf]
      have c2 : ¬ i < s1.bits := by omega
      simp [c2])
  by_cases hwb : symWidth sym ≤ s1.bits
  · right
    rw [hpre.1 hwb]
    dsimp only
    unfold Res.chk
    rw [if_pos hwb, bind_ok]
    refine ⟨_, rfl, ⟨?_, ?_, ?_⟩, ?_, ?_⟩
    · show s1.offset = _ + (s1.bits - _); omega
    · show s1.bits - _ ≤ 64; omega
    · intro i
      dsimp only
      rw [Nat.testBit_shiftRight, hi1.buf]
      have e : pos + (symWidth sym + i) = pos + symWidth sym + i := by omega
      rw [e]
      by_cases c : symWidth sym + i < s1.bits
      · have c2 : i < s1.bits - symWidth sym := by omega
        simp [c, c2]
      · have c2 : ¬ i < s1.bits - symWidth sym := by omega
        simp [c, c2]
    · show s1.out ++ [sym % 256] = _
      rw [ho1, Nat.mod_eq_of_lt (by omega)]
    · intro hr h24
      have h16 := symWidth_le16 h24
      obtain ⟨r1, r2⟩ := hr1 hr
      unfold Ready
      dsimp only
      by_cases h32 : s1.bits < 32
      · rcases r2 h32 with h | h
        · right; omega
        · right; omega
      · left; omega
  · left
    have hlt := hpre.2 (by omega)
    generalize decodeSymbol (u32 s1.buffer) = d at hlt ⊢
    obtain ⟨dsym, dw⟩ := d
    dsimp only at hlt ⊢
    unfold Res.chk
    rw [if_neg (by omega)]
    refine ⟨rfl, fun ⟨hr, h24⟩ => ?_⟩
    have h16 := symWidth_le16 h24
    rcases (hr1 hr).1 with h | h <;> omega

theorem decLoop_ok {ws : List Nat} (hw : ∀ w ∈ ws, w < 2 ^ 64) (hlen : 64 * ws.length < 2 ^ 64)
    (syms : List Nat) : ∀ pos s, DecInv ws pos s → (∀ x ∈ syms, x < 48) →
    Holds ws pos (streamBits syms) →
    (decLoop ws syms.length s = .throw ∧ ¬ (Ready s ∧ ∀ x ∈ syms, x < 24)) ∨
    ∃ s', decLoop ws syms.length s = .ok s' ∧ s'.out = s.out ++ syms := by
  induction syms with
  | nil => intro pos s _ _ _; right; exact ⟨s, rfl, by simp⟩
  | cons sym rest ih =>
    intro pos s hi hsy hh
    rw [List.length_cons]
    unfold decLoop
    rcases decStep_ok hw hlen hi (hsy sym (by simp)) hh with ⟨e, hn⟩ | ⟨s1, e, hi1, ho1, hr1⟩
    · left
      rw [e]
      exact ⟨rfl, fun ⟨hr, ha⟩ => hn ⟨hr, ha sym (by simp)⟩⟩
    · rw [e, bind_ok]
      rcases ih _ s1 hi1 (fun x hx => hsy x (by simp [hx])) hh.cons.2.2 with ⟨e2, hn⟩ | ⟨s2, e2, ho2⟩
      · left
        exact ⟨e2, fun ⟨hr, ha⟩ => hn ⟨hr1 hr (ha sym (by simp)), fun x hx => ha x (by simp [hx])⟩⟩
      · right
        exact ⟨s2, e2, by rw [ho2, ho1]; simp⟩

/-! ### Encoder -/

/-- Bit `k` of a list of bits, false outside. -/
def lbit (l : List Bool) (k : Nat) : Bool := l[k]?.getD false

theorem lbit_append (l m : List Bool) (k : Nat) :
    lbit (l ++ m) k = if k < l.length then lbit l k else lbit m (k - l.length) := by
  unfold lbit
  rw [List.getElem?_append]
  split <;> rfl

theorem lbit_ge {l : List Bool} {k : Nat} (h : l.length ≤ k) : lbit l k = false := by
  unfold lbit; rw [List.getElem?_eq_none h]; rfl

theorem bitAt_append (ws : List Nat) (w k : Nat) :
    bitAt (ws ++ [w]) k = if k < 64 * ws.length then bitAt ws k
      else if k / 64 = ws.length then w.testBit (k % 64) else false := by
  unfold bitAt
  by_cases h : k < 64 * ws.length
  · rw [if_pos h, List.getElem?_append_left (by omega)]
  · rw [if_neg h]
    by_cases h2 : k / 64 = ws.length
    · rw [if_pos h2, h2, List.getElem?_append_right (Nat.le_refl _)]; simp
    · rw [if_neg h2, List.getElem?_eq_none (by simp; omega)]

theorem bitAt_ge {ws : List Nat} {k : Nat} (h : 64 * ws.length ≤ k) : bitAt ws k = false := by
  unfold bitAt; rw [List.getElem?_eq_none (by omega)]

structure EncInv (l : List Bool) (s : Enc) : Prop where
  off : s.offset < 64
  len : 64 * s.out.length + s.offset = l.length
  total : s.total = u64 l.length
  words : ∀ w ∈ s.out, w < 2 ^ 64
  blt : s.buffer < 2 ^ 64
  bits : ∀ k < 64 * s.out.length, bitAt s.out k = lbit l k
  buf : ∀ i, s.buffer.testBit i = lbit l (64 * s.out.length + i)

theorem encStep_ok {l : List Bool} {s : Enc} {sym : Nat} (hi : EncInv l s) (hs : sym < 48) :
    ∃ s', encStep s sym = .ok s' ∧ EncInv (l ++ symBits sym) s' := by
  obtain ⟨code, e, hlt, hcode⟩ := encodeSymbol_table sym hs
  have hw32 := symWidth_le hs
  have hw2 := symWidth_ge sym
  have hoff := hi.off
  have hlen := hi.len
  unfold encStep
  rw [e, bind_ok]
  dsimp only
  have hcb : ∀ i, lbit (symBits sym) i = code.testBit i := by
    intro i
    by_cases h : i < symWidth sym
    · unfold lbit; rw [hcode i h]; rfl
    · rw [lbit_ge (by rw [symBits_length]; omega), testBit_ge hlt (by omega)]
  have hb : ∀ i, i < 64 → (s.buffer ||| u64 (code <<< s.offset)).testBit i =
      lbit (l ++ symBits sym) (64 * s.out.length + i) := by
    intro i h64
    rw [Nat.testBit_or, testBit_u64, Nat.testBit_shiftLeft, hi.buf, lbit_append, hcb]
    by_cases c : i < s.offset
    · have c1 : ¬ i ≥ s.offset := by omega
      have c2 : 64 * s.out.length + i < l.length := by omega
      simp [c1, c2]
    · have c1 : i ≥ s.offset := by omega
      have c2 : ¬ 64 * s.out.length + i < l.length := by omega
      rw [if_neg c2, lbit_ge (by omega : l.length ≤ 64 * s.out.length + i)]
      have e : 64 * s.out.length + i - l.length = i - s.offset := by omega
      simp [c1, h64, e]
  have hblt : s.buffer ||| u64 (code <<< s.offset) < 2 ^ 64 := Nat.or_lt_two_pow hi.blt (u64_lt _)
  have htot : u64 (s.total + symWidth sym) = u64 (l ++ symBits sym).length := by
    rw [hi.total, List.length_append, symBits_length]; unfold u64; omega
  have hold : ∀ k < 64 * s.out.length, bitAt s.out k = lbit (l ++ symBits sym) k := by
    intro k hk
    rw [hi.bits k hk, lbit_append, if_pos (by omega)]
  generalize s.buffer ||| u64 (code <<< s.offset) = B at hb hblt ⊢
  by_cases h1 : s.offset + symWidth sym ≥ 64
  · rw [if_pos h1]
    dsimp only
    have hpush : ∀ k < 64 * (s.out ++ [B]).length, bitAt (s.out ++ [B]) k = lbit (l ++ symBits sym) k := by
      intro k hk
      rw [List.length_append, List.length_singleton] at hk
      rw [bitAt_append]
      by_cases c : k < 64 * s.out.length
      · rw [if_pos c]; exact hold k c
      · rw [if_neg c, if_pos (by omega), hb _ (by omega)]; congr 1; omega
    have hwd : ∀ w ∈ s.out ++ [B], w < 2 ^ 64 := by
      intro w hm
      rcases List.mem_append.1 hm with h | h
      · exact hi.words w h
      · rw [List.mem_singleton.1 h]; exact hblt
    by_cases h2 : s.offset + symWidth sym > 64
    · rw [if_pos h2]
      unfold Res.defd
      rw [if_pos (by omega), bind_ok, bind_ok]
      refine ⟨_, rfl, ⟨Nat.mod_lt _ (by decide), ?_, htot, hwd, ?_, hpush, ?_⟩⟩
      · simp only [List.length_append, List.length_singleton, symBits_length]; omega
      · exact Nat.lt_of_le_of_lt (by rw [Nat.shiftRight_eq_div_pow]; exact Nat.div_le_self _ _)
          (lt_pow_of_le hlt (by omega))
      · intro i
        dsimp only
        rw [Nat.testBit_shiftRight, List.length_append, List.length_singleton, lbit_append, hcb,
          if_neg (by omega)]
        congr 1; omega
    · rw [if_neg h2, bind_ok]
      have h64 : s.offset + symWidth sym = 64 := by omega
      refine ⟨_, rfl, ⟨Nat.mod_lt _ (by decide), ?_, htot, hwd, Nat.two_pow_pos 64, hpush, ?_⟩⟩
      · simp only [List.length_append, List.length_singleton, symBits_length, h64]; omega
      · intro i
        simp only [List.length_append, List.length_singleton]
        rw [Nat.zero_testBit, lbit_ge]
        rw [List.length_append, symBits_length]; omega
  · rw [if_neg h1]
    dsimp only
    rw [if_neg (by omega), bind_ok]
    refine ⟨_, rfl, ⟨Nat.mod_lt _ (by decide), ?_, htot, hi.words, hblt, hold, ?_⟩⟩
    · simp only [List.length_append, symBits_length]; omega
    · intro i
      dsimp only
      by_cases c : i < 64
      · exact hb i c
      · rw [testBit_ge hblt (by omega), lbit_ge]
        rw [List.length_append, symBits_length]; omega

theorem encLoop_ok (syms : List Nat) : ∀ l s, EncInv l s → (∀ x ∈ syms, x < 48) →
    ∃ s', encLoop syms s = .ok s' ∧ EncInv (l ++ streamBits syms) s' := by
  induction syms with
  | nil => intro l s hi _; exact ⟨s, rfl, by simpa [streamBits] using hi⟩
  | cons sym rest ih =>
    intro l s hi hs
    obtain ⟨s1, e1, hi1⟩ := encStep_ok hi (hs sym (by simp))
    obtain ⟨s2, e2, hi2⟩ := ih _ s1 hi1 (fun x hx => hs x (by simp [hx]))
    unfold encLoop
    rw [e1, bind_ok]
    refine ⟨s2, e2, ?_⟩
    unfold streamBits
    rw [← List.append_assoc]; exact hi2

/-- The encoder produces the specified bit stream, zero padded to whole words. -/
theorem encode_ok {syms : List Nat} (hs : ∀ x ∈ syms, x < 48) :
    ∃ ws, encode syms = .ok (ws, u64 (streamBits syms).length) ∧ (∀ w ∈ ws, w < 2 ^ 64) ∧
      ws.length = ((streamBits syms).length + 63) / 64 ∧
      ∀ k, bitAt ws k = lbit (streamBits syms) k := by
  have h0 : EncInv [] ⟨[], 0, 0, 0⟩ := by
    refine ⟨by decide, rfl, rfl, by simp, by decide, ?_, ?_⟩
    · intro k hk; simp at hk
    · intro i; simp [lbit]
  obtain ⟨s, e, hi⟩ := encLoop_ok syms [] _ h0 hs
  rw [List.nil_append] at hi
  have hoff := hi.off
  have hlen := hi.len
  unfold encode
  rw [e, bind_ok, pure_eq, hi.total]
  by_cases h : s.offset ≠ 0
  · rw [if_pos h]
    refine ⟨_, rfl, ?_, ?_, ?_⟩
    · intro w hm
      rcases List.mem_append.1 hm with h | h
      · exact hi.words w h
      · rw [List.mem_singleton.1 h]; exact hi.blt
    · rw [List.length_append, List.length_singleton]; omega
    · intro k
      rw [bitAt_append]
      by_cases c : k < 64 * s.out.length
      · rw [if_pos c]; exact hi.bits k c
      · rw [if_neg c]
        by_cases c2 : k / 64 = s.out.length
        · rw [if_pos c2, hi.buf]; congr 1; omega
        · rw [if_neg c2, lbit_ge (by omega)]
  · rw [if_neg h]
    refine ⟨_, rfl, hi.words, by omega, fun k => ?_⟩
    by_cases c : k < 64 * s.out.length
    · exact hi.bits k c
    · rw [bitAt_ge (by omega), lbit_ge (by omega)]

end Verif.Codec
