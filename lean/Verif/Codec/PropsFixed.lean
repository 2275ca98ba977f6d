import Verif.Codec.Fixed
/-
  C43 (decimal numbers) and C39 (offer prices).
-/
namespace Verif.Codec

/-! ### Helper lemmas -/

theorem div10_eq : ∀ k x, div10 k x = x / 10 ^ k
  | 0, x => by simp [div10]
  | k + 1, x => by
    rw [div10, div10_eq k, Nat.div_div_eq_div_mul, Nat.pow_succ, Nat.mul_comm 10]

theorem mul10_eq : ∀ k x, x * 10 ^ k < 2 ^ 128 → mul10 k x = x * 10 ^ k
  | 0, x, _ => by simp [mul10]
  | k + 1, x, h => by
    have h1 : x * 10 ^ (k + 1) = x * 10 * 10 ^ k := by rw [Nat.pow_succ, Nat.mul_assoc, Nat.mul_comm 10]
    have h2 : x * 10 ≤ x * 10 * 10 ^ k := Nat.le_mul_of_pos_right _ (Nat.pow_pos (by decide))
    rw [mul10, u128_of_lt (by omega), mul10_eq k _ (by omega), h1]

theorem decVal_append (s t : List Char) : decVal (s ++ t) = decVal s * 10 ^ t.length + decVal t := by
  have key : ∀ (t : List Char) (n : Nat),
      t.foldl (fun n c => 10 * n + digitVal c) n = n * 10 ^ t.length + decVal t := by
    intro t
    induction t with
    | nil => intro n; simp [decVal]
    | cons c t ih =>
      intro n
      have h0 : decVal (c :: t) = digitVal c * 10 ^ t.length + decVal t := by
        unfold decVal
        rw [List.foldl_cons, ih]
        simp [decVal]
      rw [List.foldl_cons, ih, h0, List.length_cons, Nat.pow_succ, Nat.add_mul, Nat.mul_comm 10 n,
        Nat.mul_assoc n, Nat.mul_comm 10]
      omega
  unfold decVal
  rw [List.foldl_append, key]
  rfl

theorem digitChar_ok {d : Nat} (h : d < 10) :
    digitVal (digitChar d) = d ∧ isDigit (digitChar d) = true := by
  have : ∀ d, d < 10 → digitVal (digitChar d) = d ∧ isDigit (digitChar d) = true := by decide
  exact this d h

theorem decStr_ok : ∀ (fuel n : Nat), n < 10 ^ (fuel + 1) →
    decVal (decStr fuel n) = n ∧ (decStr fuel n).all isDigit = true ∧ decStr fuel n ≠ []
      ∧ (decStr fuel n).length ≤ fuel + 1
  | 0, n, h => by
    have h' : n < 10 := by simpa using h
    obtain ⟨h1, h2⟩ := digitChar_ok (d := n % 10) (by omega)
    refine ⟨?_, by simp [decStr, h2], by simp [decStr], by simp [decStr]⟩
    simp [decStr, decVal, h1]; omega
  | fuel + 1, n, h => by
    unfold decStr
    by_cases hn : n < 10
    · obtain ⟨h1, h2⟩ := digitChar_ok hn
      rw [if_pos hn]
      exact ⟨by simp [decVal, h1], by simp [h2], by simp, by simp⟩
    · rw [if_neg hn]
      obtain ⟨i1, i2, i3, i4⟩ := decStr_ok fuel (n / 10) (by
        have : 10 ^ (fuel + 1 + 1) = 10 ^ (fuel + 1) * 10 := Nat.pow_succ ..
        omega)
      obtain ⟨h1, h2⟩ := digitChar_ok (d := n % 10) (by omega)
      refine ⟨?_, by rw [List.all_append, i2]; simp [h2], by simp, by simp; omega⟩
      rw [decVal_append, i1]
      simp [decVal, h1]
      omega

theorem decStr_len : ∀ (fuel n k : Nat), k ≤ fuel → n < 10 ^ (k + 1) →
    (decStr fuel n).length ≤ k + 1
  | 0, n, k, _, _ => by simp [decStr]
  | fuel + 1, n, 0, _, h => by
    unfold decStr
    rw [if_pos (by simpa using h)]
    simp
  | fuel + 1, n, k + 1, hk, h => by
    unfold decStr
    by_cases hn : n < 10
    · rw [if_pos hn]; simp
    · rw [if_neg hn]
      have := decStr_len fuel (n / 10) k (by omega) (by
        have : 10 ^ (k + 1 + 1) = 10 ^ (k + 1) * 10 := Nat.pow_succ ..
        omega)
      simp; omega

theorem decVal_zeros (k : Nat) : decVal (List.replicate k '0') = 0 := by
  induction k with
  | zero => rfl
  | succ k ih =>
    have : List.replicate (k + 1) '0' = ['0'] ++ List.replicate k '0' := rfl
    rw [this, decVal_append, ih]
    simp [decVal, digitVal]

theorem stripZeros_ok (s : List Char) :
    ∃ k, s = stripZeros s ++ List.replicate k '0' := by
  have key : ∀ r : List Char, ∃ k, r = List.replicate k '0' ++ r.dropWhile (· = '0') := by
    intro r
    induction r with
    | nil => exact ⟨0, rfl⟩
    | cons c r ih =>
      obtain ⟨k, hk⟩ := ih
      by_cases hc : c = '0'
      · refine ⟨k + 1, ?_⟩
        rw [List.dropWhile_cons_of_pos (by simp [hc]), List.replicate_succ, List.cons_append, ← hk, hc]
      · refine ⟨0, ?_⟩
        rw [List.dropWhile_cons_of_neg (by simp [hc])]
        rfl
  obtain ⟨k, hk⟩ := key s.reverse
  refine ⟨k, ?_⟩
  unfold stripZeros
  have := congrArg List.reverse hk
  rw [List.reverse_reverse, List.reverse_append, List.reverse_replicate] at this
  exact this

theorem digit_chars {c : Char} (h : isDigit c = true) :
    isDec c = false ∧ isExp c = false ∧ numberChar c = true := by
  have hne : ∀ d : Char, (d.toNat < 48 ∨ 57 < d.toNat) → c ≠ d := by
    intro d hd e
    subst e
    simp [isDigit] at h
    omega
  refine ⟨?_, ?_, by simp [numberChar, h]⟩
  · simp only [isDec, Bool.or_eq_false_iff, decide_eq_false_iff_not]
    exact ⟨hne _ (by decide), hne _ (by decide)⟩
  · simp only [isExp, Bool.or_eq_false_iff, decide_eq_false_iff_not]
    exact ⟨hne _ (by decide), hne _ (by decide)⟩

theorem findIdx_digits {f : Char → Bool} (hf : ∀ c, isDigit c = true → f c = false) :
    ∀ (s : List Char), s.all isDigit = true → s.findIdx? f = none
  | [], _ => rfl
  | c :: s, h => by
    simp only [List.all_cons, Bool.and_eq_true] at h
    rw [List.findIdx?_cons, hf c h.1, findIdx_digits hf s h.2]
    rfl

theorem all_number (s : List Char) (h : s.all isDigit = true) : s.all numberChar = true := by
  rw [List.all_eq_true] at *
  exact fun c hc => (digit_chars (h c hc)).2.2

/-! ### C43 -/

/-- The library turns a non-empty string of digits into its value modulo `2^128`. Nothing is assumed
    about other strings. -/
def DecLib.Good (lib : DecLib) : Prop :=
  ∀ s : List Char, s ≠ [] → s.all isDigit = true → lib.u128 s = .ok (Verif.u128 (decVal s))

theorem fxParse_int (lib : DecLib) (hl : lib.Good) (s : List Char) (h0 : s ≠ [])
    (hd : s.all isDigit = true) :
    fxParse lib s = .ok (u128 (u128 (decVal s) * fxDivider)) := by
  unfold fxParse
  rw [show Res.chk (s ≠ [] ∧ s.all numberChar = true) = .ok () by
    unfold Res.chk; rw [if_pos ⟨h0, all_number s hd⟩], Res.bind_ok,
    findIdx_digits (fun c h => (digit_chars h).1) s hd,
    findIdx_digits (fun c h => (digit_chars h).2.1) s hd]
  dsimp only [minPos]
  rw [hl s h0 hd, Res.bind_ok]

theorem findIdx_at {f : Char → Bool} (hf : ∀ c, isDigit c = true → f c = false) (i t : List Char)
    (c : Char) (hc : f c = true) (hi : i.all isDigit = true) :
    (i ++ c :: t).findIdx? f = some i.length := by
  rw [List.findIdx?_append, findIdx_digits hf i hi, List.findIdx?_cons, hc]
  simp

theorem findIdx_dec (i f : List Char) (hi : i.all isDigit = true) :
    (i ++ '.' :: f).findIdx? isDec = some i.length :=
  findIdx_at (fun c h => (digit_chars h).1) i f '.' (by decide) hi

theorem fxParse_dec (lib : DecLib) (hl : lib.Good) (i f : List Char) (hi0 : i ≠ []) (hf0 : f ≠ [])
    (hi : i.all isDigit = true) (hf : f.all isDigit = true) :
    fxParse lib (i ++ '.' :: f) = .ok
      (if u128 (decVal (f.take 15)) ≠ 0 then
        u128 (u128 (u128 (decVal i) * fxDivider)
          + mul10 (15 - (f.take 15).length) (u128 (decVal (f.take 15))))
       else u128 (u128 (decVal i) * fxDivider)) := by
  have hall : (i ++ '.' :: f).all numberChar = true := by
    rw [List.all_append, List.all_cons, all_number i hi, all_number f hf]; decide
  have hex : (i ++ '.' :: f).findIdx? isExp = none := by
    rw [List.findIdx?_append, findIdx_digits (fun c h => (digit_chars h).2.1) i hi,
      List.findIdx?_cons, findIdx_digits (fun c h => (digit_chars h).2.1) f hf]
    rfl
  have hft : f.take 15 ≠ [] := by
    cases f with
    | nil => exact absurd rfl hf0
    | cons => simp
  have hfa : (f.take 15).all isDigit = true := by
    rw [List.all_eq_true] at *
    exact fun c hc => hf c (List.mem_of_mem_take hc)
  unfold fxParse
  rw [show Res.chk ((i ++ '.' :: f) ≠ [] ∧ (i ++ '.' :: f).all numberChar = true) = .ok () by
    unfold Res.chk; rw [if_pos ⟨by simp, hall⟩], Res.bind_ok, findIdx_dec i f hi, hex]
  dsimp only [minPos]
  rw [List.take_left' rfl, show Res.chk (i ≠ [] ∧ i.all isDigit = true) = .ok () by
    unfold Res.chk; rw [if_pos ⟨hi0, hi⟩], Res.bind_ok, hl i hi0 hi, Res.bind_ok]
  unfold addFract
  dsimp only
  have hdrop : (i ++ '.' :: f).drop (i.length + 1) = f := by
    rw [List.drop_append, List.drop_eq_nil_of_le (by omega)]
    simp
  rw [hdrop]
  show (do
    let (fract, fixed) ← (do
      let lower ← lib.u128 (f.take 15)
      Res.ok (f.take 15, if lower ≠ 0 then _ else _))
    applyExp lib (i ++ '.' :: f) none fract fixed) = _
  rw [hl _ hft hfa, Res.bind_ok]
  rfl

/-- C43, first half. Printing a fixed point number and parsing the text gives the same number, for
    every 128-bit value. -/
theorem C43_print_parse (lib : DecLib) (hl : lib.Good) (x : Nat) (hx : x < 2 ^ 128) :
    fxParse lib (fxToString x) = .ok x := by
  have hdm := Nat.div_add_mod x fxDivider
  have hml : x % fxDivider < fxDivider := Nat.mod_lt _ (by decide)
  have hdiv : fxDivider = 1000000000000000 := by decide
  obtain ⟨i1, i2, i3, -⟩ := decStr_ok 39 (x / fxDivider) (by
    have : x / fxDivider ≤ x := Nat.div_le_self ..
    have : (2 : Nat) ^ 128 ≤ 10 ^ 40 := by decide
    omega)
  have hint : u128 (u128 (x / fxDivider) * fxDivider) = x / fxDivider * fxDivider := by
    have : x / fxDivider * fxDivider ≤ x := Nat.div_mul_le_self ..
    have : x / fxDivider ≤ x := Nat.div_le_self ..
    rw [u128_of_lt (n := x / fxDivider) (by omega), u128_of_lt (by omega)]
  unfold fxToString
  dsimp only
  by_cases h0 : x % fxDivider = 0
  · rw [if_neg (by simpa using h0), fxParse_int lib hl _ i3 i2, i1, hint]
    congr 1
    rw [Nat.mul_comm]; omega
  · rw [if_pos h0]
    generalize hlow : x % fxDivider = low at *
    obtain ⟨j1, j2, j3, -⟩ := decStr_ok 19 low (by rw [hdiv] at hml; omega)
    have j4 : (decStr 19 low).length ≤ 15 :=
      decStr_len 19 low 14 (by decide) (by rw [hdiv] at hml; omega)
    obtain ⟨k, hk⟩ := stripZeros_ok (decStr 19 low)
    generalize hS : stripZeros (decStr 19 low) = S at *
    have hSd : S.all isDigit = true := by
      rw [hk, List.all_append, Bool.and_eq_true] at j2; exact j2.1
    have hSv : decVal S * 10 ^ k = low := by
      rw [hk, decVal_append, decVal_zeros, List.length_replicate] at j1; omega
    have hSl : S.length + k = (decStr 19 low).length := by
      have := congrArg List.length hk
      rw [List.length_append, List.length_replicate] at this; omega
    have hS0 : S ≠ [] := by
      intro e
      rw [e] at hSv
      simp [decVal] at hSv
      omega
    have hpos : 0 < S.length := List.length_pos_iff.2 hS0
    have hfd : (List.replicate (fxDecimals - (decStr 19 low).length) '0' ++ S).all isDigit = true := by
      rw [List.all_append, hSd, Bool.and_true, List.all_eq_true]
      intro c hc
      rw [(List.mem_replicate.1 hc).2]
      decide
    have hfl : (List.replicate (fxDecimals - (decStr 19 low).length) '0' ++ S).length = 15 - k := by
      rw [List.length_append, List.length_replicate]
      unfold fxDecimals
      omega
    rw [List.append_assoc, List.append_assoc, List.singleton_append,
      fxParse_dec lib hl _ _ i3 (by simp [hS0]) i2 hfd, List.take_of_length_le (by omega), hfl,
      decVal_append, decVal_zeros, Nat.zero_mul, Nat.zero_add, i1, hint]
    have hSle : decVal S ≤ low := by
      rw [← hSv]; exact Nat.le_mul_of_pos_right _ (Nat.pow_pos (by decide))
    have hSnz : decVal S ≠ 0 := by
      intro e
      rw [e] at hSv
      omega
    rw [u128_of_lt (n := decVal S) (by omega), if_pos hSnz,
      show 15 - (15 - k) = k by omega, mul10_eq k _ (by omega), hSv,
      show x / fxDivider * fxDivider + low = x by rw [Nat.mul_comm]; omega, u128_of_lt hx]

/-- C43, second half, for plain decimal numbers: if the number that is written, cut after fifteen
    decimals, fits, then exactly that number is parsed. -/
theorem C43_parse_exact_partial (lib : DecLib) (hl : lib.Good) (i f : List Char) (hi0 : i ≠ [])
    (hf0 : f ≠ []) (hi : i.all isDigit = true) (hf : f.all isDigit = true)
    (hfit : decVal i * 10 ^ 15 + decVal (f.take 15) * 10 ^ (15 - (f.take 15).length) < 2 ^ 128) :
    fxParse lib (i ++ '.' :: f) =
      .ok (decVal i * 10 ^ 15 + decVal (f.take 15) * 10 ^ (15 - (f.take 15).length)) := by
  rw [fxParse_dec lib hl i f hi0 hf0 hi hf]
  generalize decVal (f.take 15) = v at *
  generalize 15 - (f.take 15).length = k at *
  have h1 : v ≤ v * 10 ^ k := Nat.le_mul_of_pos_right _ (Nat.pow_pos (by decide))
  generalize hvk : v * 10 ^ k = w at *
  have hdiv : fxDivider = 10 ^ 15 := rfl
  rw [hdiv]
  generalize decVal i = I at *
  have h3 : I * 10 ^ 15 < 2 ^ 128 := Nat.lt_of_le_of_lt (Nat.le_add_right _ w) hfit
  have h4 : I < 2 ^ 128 :=
    Nat.lt_of_le_of_lt (Nat.le_mul_of_pos_right I (Nat.pow_pos (by decide))) h3
  have h2 : u128 (u128 I * 10 ^ 15) = I * 10 ^ 15 := by
    rw [u128_of_lt h4, u128_of_lt h3]
  rw [h2, u128_of_lt (n := v) (by omega)]
  by_cases h0 : v = 0
  · rw [if_neg (by simpa using h0)]
    have : w = 0 := by rw [← hvk, h0, Nat.zero_mul]
    rw [this, Nat.add_zero]
  · rw [if_pos h0, mul10_eq k v (by omega), hvk, u128_of_lt hfit]

/-- The same for integers. -/
theorem C43_parse_int_exact_partial (lib : DecLib) (hl : lib.Good) (s : List Char) (h0 : s ≠ [])
    (hd : s.all isDigit = true) (hfit : decVal s * 10 ^ 15 < 2 ^ 128) :
    fxParse lib s = .ok (decVal s * 10 ^ 15) := by
  rw [fxParse_int lib hl s h0 hd]
  have hdiv : fxDivider = 10 ^ 15 := rfl
  rw [hdiv, u128_of_lt (n := decVal s) (by omega), u128_of_lt (by omega)]

/-- The second half is false in general: a number that does not fit is silently reduced. The text
    "400000000000000000000000" parses to a number below 60000000000000000000000. -/
theorem C43_parse_wraps (lib : DecLib) (hl : lib.Good) :
    fxParse lib "400000000000000000000000".toList = .ok (400000000000000000000000 * 10 ^ 15 - 2 ^ 128)
    ∧ 400000000000000000000000 * 10 ^ 15 - 2 ^ 128 < 60000000000000000000000 * 10 ^ 15 := by
  constructor
  · rw [fxParse_int lib hl _ (by decide) (by decide)]
    congr 1
  · decide

/-- Digits after the fifteenth decimal are dropped: a positive text parses to zero. -/
theorem C43_parse_truncates (lib : DecLib) (hl : lib.Good) :
    fxParse lib "0.0000000000000009".toList = .ok 0 := by
  have := fxParse_dec lib hl ['0'] "0000000000000009".toList (by decide) (by decide) (by decide)
    (by decide)
  exact this

/-- C43, token amounts: an amount with up to fifteen decimals becomes a fixed point number and back
    without loss, or is refused; it is refused exactly when it does not fit. -/
theorem C43_amount_round_trip (value decimals : Nat) (hv : value < 2 ^ 128) (hd : decimals ≤ 15) :
    if value * 10 ^ (15 - decimals) < 2 ^ 128 then
      fxOfAmount value decimals = .ok (value * 10 ^ (15 - decimals))
      ∧ fxToAmount (value * 10 ^ (15 - decimals)) decimals = value
    else fxOfAmount value decimals = .throw := by
  have hsplit : fxDivider = 10 ^ (15 - decimals) * 10 ^ decimals := by
    rw [← Nat.pow_add, show 15 - decimals + decimals = 15 by omega]; rfl
  have hdec : div10 decimals (u256 (value * fxDivider)) = value * 10 ^ (15 - decimals) := by
    have : value * fxDivider < 2 ^ 256 := by
      have : value * fxDivider ≤ 2 ^ 128 * fxDivider := Nat.mul_le_mul_right _ (Nat.le_of_lt hv)
      have : 2 ^ 128 * fxDivider < 2 ^ 256 := by decide
      omega
    rw [u256_of_lt this, div10_eq, hsplit, ← Nat.mul_assoc]
    exact Nat.mul_div_cancel _ (Nat.pow_pos (by decide))
  unfold fxOfAmount
  dsimp only
  rw [hdec]
  generalize hw : value * 10 ^ (15 - decimals) = w at *
  by_cases hfit : w < 2 ^ 128
  · rw [if_pos hfit, if_neg (by omega), u128_of_lt hfit]
    refine ⟨rfl, ?_⟩
    unfold fxToAmount fxDecimals
    by_cases h15 : decimals < 15
    · rw [if_pos h15, div10_eq, ← hw]
      exact Nat.mul_div_cancel _ (Nat.pow_pos (by decide))
    · have : decimals = 15 := by omega
      subst this
      rw [if_neg (by omega)]
      simp [mul10, ← hw]
  · rw [if_neg hfit, if_pos (by omega)]

/-- A library that satisfies the assumption. -/
def exLib : DecLib := ⟨fun s => .ok (u128 (decVal s)), fun _ => .throw⟩

example : exLib.Good := fun _ _ _ => rfl
example : fxToString 1230000000045600000 = "1230.0000000456".toList := by decide +kernel
example : fxParse exLib "1230.0000000456".toList = .ok 1230000000045600000 := by decide +kernel
example : fxToString (2 ^ 128 - 1) = "340282366920938463463374.607431768211455".toList := by
  decide +kernel
example : fxOfAmount 123456 6 = .ok 123456000000000 ∧ fxToAmount 123456000000000 6 = 123456 := by
  decide +kernel

/-! ### C39 -/

theorem getBid_eq {ask inv : Nat} (ha : ask < 2 ^ 128) (hi : inv < 2 ^ 128) :
    getBidAmount ask inv =
      if ask * inv / 2 ^ 64 < 2 ^ 128 then .ok (ask * inv / 2 ^ 64) else .throw := by
  have h : ask * inv < 2 ^ 256 := by
    have h1 : ask * inv ≤ 2 ^ 128 * inv := Nat.mul_le_mul_right _ (Nat.le_of_lt ha)
    have h2 : 2 ^ 128 * inv < 2 ^ 128 * 2 ^ 128 := Nat.mul_lt_mul_of_pos_left hi (by decide)
    have h3 : (2 : Nat) ^ 128 * 2 ^ 128 = 2 ^ 256 := by decide
    omega
  unfold getBidAmount
  dsimp only
  rw [u256_of_lt h, Nat.shiftRight_eq_div_pow]
  generalize ask * inv / 2 ^ 64 = q
  by_cases hq : q < 2 ^ 128
  · rw [if_pos hq, if_neg (by omega), u128_of_lt hq]
  · rw [if_neg hq, if_pos (by omega)]

theorem getAsk_eq {bid inv : Nat} (hb : bid < 2 ^ 128) (hi : inv < 2 ^ 128) (h0 : 0 < inv) :
    getAskAmount bid inv =
      if (bid * 2 ^ 64 + inv - 1) / inv < 2 ^ 128 then .ok ((bid * 2 ^ 64 + inv - 1) / inv)
      else .throw := by
  have h1 : u256 (u256 (u256 (bid <<< 64) + inv) + (2 ^ 256 - 1)) = bid * 2 ^ 64 + inv - 1 := by
    rw [Nat.shiftLeft_eq, u256_of_lt (n := bid * 2 ^ 64) (by omega),
      u256_of_lt (n := bid * 2 ^ 64 + inv) (by omega)]
    unfold u256
    omega
  unfold getAskAmount
  rw [if_neg (by omega)]
  dsimp only
  rw [h1]
  generalize (bid * 2 ^ 64 + inv - 1) / inv = q
  by_cases hq : q < 2 ^ 128
  · rw [if_pos hq, if_neg (by omega), u128_of_lt hq]
  · rw [if_neg hq, if_pos (by omega)]

/-- C39, the amount handed out is rounded down: a payment `ask` buys the largest `bid` whose value at
    the price `2^64 / inv` does not exceed the payment; if that does not fit, it is an error. -/
theorem C39_bid_rounds_down (ask inv : Nat) (ha : ask < 2 ^ 128) (hi : inv < 2 ^ 128) :
    (∃ bid, getBidAmount ask inv = .ok bid ∧ bid * 2 ^ 64 ≤ ask * inv
        ∧ ask * inv < (bid + 1) * 2 ^ 64 ∧ bid < 2 ^ 128)
    ∨ (getBidAmount ask inv = .throw ∧ 2 ^ 128 * 2 ^ 64 ≤ ask * inv) := by
  rw [getBid_eq ha hi]
  generalize ask * inv = p
  by_cases h : p / 2 ^ 64 < 2 ^ 128
  · rw [if_pos h]
    exact Or.inl ⟨_, rfl, by omega, by omega, h⟩
  · rw [if_neg h]
    exact Or.inr ⟨rfl, by omega⟩

/-- C39, the asked price is rounded up: it pays for the wanted amount, and no smaller payment buys
    the wanted amount. If it does not fit it is an error. -/
theorem C39_ask_rounds_up (bid inv : Nat) (hb : bid < 2 ^ 128) (hi : inv < 2 ^ 128) (h0 : 0 < inv) :
    (∃ ask, getAskAmount bid inv = .ok ask ∧ ask < 2 ^ 128
      ∧ (∀ b, getBidAmount ask inv = .ok b → bid ≤ b)
      ∧ (∀ a, a < ask → ∃ b, getBidAmount a inv = .ok b ∧ b < bid))
    ∨ (getAskAmount bid inv = .throw
      ∧ ∀ a, a < 2 ^ 128 → ∃ b, getBidAmount a inv = .ok b ∧ b < bid) := by
  have small : ∀ a, a < 2 ^ 128 → a * inv < bid * 2 ^ 64 → ∃ b, getBidAmount a inv = .ok b ∧ b < bid := by
    intro a ha h
    rw [getBid_eq ha hi]
    generalize a * inv = q at *
    refine ⟨q / 2 ^ 64, ?_, by omega⟩
    rw [if_pos (by omega)]
  rw [getAsk_eq hb hi h0]
  have hq := Nat.div_add_mod (bid * 2 ^ 64 + inv - 1) inv
  have hm := Nat.mod_lt (bid * 2 ^ 64 + inv - 1) h0
  generalize hA : (bid * 2 ^ 64 + inv - 1) / inv = A at *
  generalize (bid * 2 ^ 64 + inv - 1) % inv = r at *
  have lower : ∀ a, a < A → a * inv < bid * 2 ^ 64 := by
    intro a ha
    have h1 : (a + 1) * inv ≤ A * inv := Nat.mul_le_mul_right _ ha
    rw [Nat.add_mul, Nat.one_mul] at h1
    rw [Nat.mul_comm inv A] at hq
    omega
  by_cases h : A < 2 ^ 128
  · rw [if_pos h]
    refine Or.inl ⟨A, rfl, h, fun b hb' => ?_, fun a ha => small a (by omega) (lower a ha)⟩
    rw [getBid_eq h hi] at hb'
    rw [Nat.mul_comm inv A] at hq
    generalize A * inv = q at *
    split at hb'
    · have := Res.ok.inj hb'
      omega
    · cases hb'
  · rw [if_neg h]
    exact Or.inr ⟨rfl, fun a ha => small a ha (lower a (by omega))⟩

/-- A zero price is not defined (division by zero); `init` and `set_price` of the contract refuse
    it (src/contract/offer.js:19, :77). -/
theorem C39_zero_price_undefined (bid : Nat) : getAskAmount bid 0 = .ub := rfl

/-- Price 3 per unit (inverse price a third): 7 units cost 22 when rounded up, 22 buy 7. -/
example : getAskAmount 7 (2 ^ 64 / 3) = .ok 22 ∧ getBidAmount 22 (2 ^ 64 / 3) = .ok 7
    ∧ getBidAmount 21 (2 ^ 64 / 3) = .ok 6 := by decide +kernel
example : getAskAmount (2 ^ 127) 1 = .throw ∧ getBidAmount (2 ^ 127) (2 ^ 127) = .throw := by
  decide +kernel

end Verif.Codec
