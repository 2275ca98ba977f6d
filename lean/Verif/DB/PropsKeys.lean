import Verif.DB.Keys
import Verif.DB.Props

/-!
# Property C11: table keys sort like the values they encode
-/

namespace Verif.DB

theorem beEnc_length (w n : Nat) : (beEnc w n).length = w := by
  induction w with
  | zero => rfl
  | succ w ih => simp [beEnc, ih]

theorem beDec_lt (bs : List Byte) : beDec bs < 256 ^ bs.length := by
  induction bs with
  | nil => simp [beDec]
  | cons b bs ih =>
    simp only [beDec, List.length_cons, Nat.pow_succ]
    have hb : b.val ≤ 255 := by have := b.isLt; omega
    have : b.val * 256 ^ bs.length ≤ 255 * 256 ^ bs.length := Nat.mul_le_mul_right _ hb
    omega

theorem beDec_beEnc (w n : Nat) : beDec (beEnc w n) = n % 256 ^ w := by
  induction w with
  | zero => simp [beEnc, beDec, Nat.mod_one]
  | succ w ih =>
    simp only [beEnc, beDec, beEnc_length, ih, Fin.ofNat]
    rw [Nat.pow_succ, Nat.mod_mul]
    rw [Nat.mul_comm, Nat.add_comm]

theorem beEnc_beDec (bs : List Byte) : beEnc bs.length (beDec bs) = bs := by
  suffices H : ∀ (bs : List Byte) (m : Nat), beEnc bs.length (beDec bs + m * 256 ^ bs.length) = bs by
    simpa using H bs 0
  intro bs
  induction bs with
  | nil => intro m; rfl
  | cons b bs ih =>
    intro m
    have hlt := beDec_lt bs
    have hpos : 0 < 256 ^ bs.length := Nat.pow_pos (by omega)
    simp only [List.length_cons, beEnc, beDec]
    have e : b.val * 256 ^ bs.length + beDec bs + m * 256 ^ (bs.length + 1)
        = beDec bs + (b.val + m * 256) * 256 ^ bs.length := by
      rw [Nat.pow_succ, Nat.add_mul, Nat.mul_assoc, Nat.mul_comm 256]; omega
    rw [e, ih]
    congr 1
    apply Fin.ext
    simp only [Fin.ofNat]
    rw [Nat.add_mul_div_right _ _ hpos, Nat.div_eq_of_lt hlt]
    have := b.isLt
    omega

/-- `memcmp` compares byte strings of the same size like the numbers they spell. -/
theorem memcmp_lt_iff {a b : List Byte} (h : a.length = b.length) :
    memcmp a b < 0 ↔ beDec a < beDec b := by
  induction a generalizing b with
  | nil => cases b with
    | nil => simp [memcmp, beDec]
    | cons y ys => simp at h
  | cons x xs ih =>
    cases b with
    | nil => simp at h
    | cons y ys =>
      have hl : xs.length = ys.length := by simpa using h
      have h1 := beDec_lt xs
      have h2 := beDec_lt ys
      rw [hl] at h1
      simp only [memcmp, beDec, hl]
      rcases lt_trichotomy x y with hxy | hxy | hxy
      · simp only [hxy, if_true]
        have hv : x.val + 1 ≤ y.val := hxy
        have := Nat.mul_le_mul_right (256 ^ ys.length) hv
        rw [Nat.add_mul, Nat.one_mul] at this
        constructor
        · intro _; omega
        · intro _; omega
      · subst hxy
        simp only [lt_irrefl, if_false]
        rw [ih hl]
        omega
      · simp only [hxy.not_gt, hxy, if_true, if_false]
        have hv : y.val + 1 ≤ x.val := hxy
        have := Nat.mul_le_mul_right (256 ^ ys.length) hv
        rw [Nat.add_mul, Nat.one_mul] at this
        constructor
        · intro hh; omega
        · intro hh; omega

theorem memcmp_append {a b c d : List Byte} (h : a.length = b.length) :
    memcmp (a ++ c) (b ++ d) = if memcmp a b = 0 then memcmp c d else memcmp a b := by
  induction a generalizing b with
  | nil => cases b with
    | nil => simp [memcmp]
    | cons y ys => simp at h
  | cons x xs ih =>
    cases b with
    | nil => simp at h
    | cons y ys =>
      simp only [List.cons_append, memcmp]
      rcases lt_trichotomy x y with hxy | hxy | hxy
      · simp [hxy]
      · subst hxy
        simp only [lt_irrefl, if_false]
        exact ih (by simpa using h)
      · simp [hxy, hxy.not_gt]

theorem comparator_same_size {a b : List Byte} (h : a.length = b.length) :
    comparator a b = memcmp a b := by
  unfold comparator; rw [if_pos h]

/-- **C11** for unsigned integers of any width. -/
theorem C11_uint (w : Nat) : (uintKey w).Faithful where
  size a := beEnc_length w a.val
  read_write a := by
    have hd : beDec (beEnc w a.val) = a.val := by
      rw [beDec_beEnc, Nat.mod_eq_of_lt a.isLt]
    simp only [uintKey]
    rw [dif_pos (by rw [hd]; exact a.isLt), if_pos (beEnc_length w a.val)]
    congr 1
    exact Fin.ext hd
  write_read bs a h := by
    simp only [uintKey] at h ⊢
    split at h
    · split at h
      · rename_i hl
        injection h with h
        rw [← h]
        dsimp only
        rw [← hl]
        exact beEnc_beDec bs
      · cases h
    · cases h
  order a b := by
    have hlt : (uintKey w).lt a b = true ↔ Fin.val a < Fin.val b := by
      simp only [decide_eq_true_eq]; exact Iff.rfl
    rw [hlt]
    show comparator (beEnc w (Fin.val a)) (beEnc w (Fin.val b)) < 0 ↔ Fin.val a < Fin.val b
    have hl : (beEnc w (Fin.val a)).length = (beEnc w (Fin.val b)).length := by
      rw [beEnc_length, beEnc_length]
    rw [comparator_same_size hl, memcmp_lt_iff hl, beDec_beEnc, beDec_beEnc,
      Nat.mod_eq_of_lt a.isLt, Nat.mod_eq_of_lt b.isLt]
  beq_iff a b := by simp [uintKey]

/-- **C11** for hashes and addresses of any size. -/
theorem C11_hash (n : Nat) : (hashKey n).Faithful where
  size a := a.2
  read_write a := by
    simp only [hashKey]
    rw [dif_pos a.2]
  write_read bs a h := by
    simp only [hashKey] at h ⊢
    split at h
    · injection h with h; rw [← h]
    · cases h
  order a b := by
    simp only [hashKey, decide_eq_true_eq]
    show comparator a.val b.val < 0 ↔ memcmp a.val b.val < 0
    rw [comparator_same_size (a.2.trans b.2.symm)]
  beq_iff a b := by
    simp only [hashKey, decide_eq_true_eq]
    constructor
    · intro h; exact Subtype.ext (memcmp_eq_zero (a.2.trans b.2.symm) h)
    · rintro rfl; exact memcmp_self _

theorem KeyType.Faithful.inj {T : KeyType} (hT : T.Faithful) {a b : T.Val}
    (h : T.write a = T.write b) : a = b := by
  have h1 := hT.read_write a
  rw [h, hT.read_write] at h1
  injection h1 with h1
  exact h1.symm

theorem KeyType.Faithful.trichotomy {T : KeyType} (hT : T.Faithful) (a b : T.Val) :
    T.lt a b = true ∨ a = b ∨ T.lt b a = true := by
  rw [← hT.order, ← hT.order]
  rcases lt_trichotomy (T.key a) (T.key b) with h | h | h
  · exact Or.inl h
  · exact Or.inr (Or.inl (hT.inj (by injection h)))
  · exact Or.inr (Or.inr h)

theorem KeyType.Faithful.irrefl {T : KeyType} (hT : T.Faithful) (a : T.Val) : ¬ T.lt a a = true := by
  rw [← hT.order]; exact lt_irrefl _

theorem KeyType.Faithful.asymm {T : KeyType} (hT : T.Faithful) {a b : T.Val}
    (h : T.lt a b = true) : ¬ T.lt b a = true := by
  rw [← hT.order] at *; exact not_lt_of_gt h

theorem pair_lt_iff {A B : KeyType} (hA : A.Faithful) (x y : (pairKey A B).Val) :
    (pairKey A B).lt x y = true ↔ A.lt x.1 y.1 = true ∨ (x.1 = y.1 ∧ B.lt x.2 y.2 = true) := by
  simp only [Bool.or_eq_true, Bool.and_eq_true, Bool.not_eq_true']
  constructor
  · rintro (h | ⟨h1, h2⟩)
    · exact Or.inl h
    · rcases hA.trichotomy x.1 y.1 with h | h | h
      · exact Or.inl h
      · exact Or.inr ⟨h, h2⟩
      · rw [h] at h1; cases h1
  · rintro (h | ⟨h1, h2⟩)
    · exact Or.inl h
    · refine Or.inr ⟨?_, h2⟩
      rw [h1]
      have := hA.irrefl y.1
      simpa using this

/-- **C11** for pairs: if both parts are faithful, so is the pair with the lexicographic order. -/
theorem C11_pair {A B : KeyType} (hA : A.Faithful) (hB : B.Faithful) : (pairKey A B).Faithful where
  size a := by simp [hA.size, hB.size]
  read_write a := by
    have hl := hA.size a.1
    simp only [pairKey, List.length_append, hA.size, hB.size, if_true]
    rw [List.take_left' hl, List.drop_left' hl, hA.read_write, hB.read_write]
  write_read bs a h := by
    simp only [pairKey] at h ⊢
    split at h
    · split at h
      · rename_i x y hx hy
        injection h with h
        rw [← h]
        dsimp only
        rw [hA.write_read _ _ hx, hB.write_read _ _ hy, List.take_append_drop]
      · cases h
    · cases h
  order a b := by
    have ha : (A.write a.1).length = (A.write b.1).length := by rw [hA.size, hA.size]
    have hb : (B.write a.2).length = (B.write b.2).length := by rw [hB.size, hB.size]
    have oA := hA.order a.1 b.1
    have oB := hB.order a.2 b.2
    rw [dbkey_lt] at oA oB
    simp only [KeyType.key] at oA oB
    rw [comparator_same_size ha] at oA
    rw [comparator_same_size hb] at oB
    rw [pair_lt_iff hA]
    show comparator (A.write a.1 ++ B.write a.2) (A.write b.1 ++ B.write b.2) < 0 ↔ _
    rw [comparator_same_size (by rw [List.length_append, List.length_append, ha, hb]),
      memcmp_append ha, ← oA, ← oB]
    by_cases h0 : memcmp (A.write a.1) (A.write b.1) = 0
    · have he : a.1 = b.1 := hA.inj (memcmp_eq_zero ha h0)
      rw [if_pos h0, h0]
      simp [he]
    · rw [if_neg h0]
      have hne : ¬ a.1 = b.1 := by
        intro he; rw [he] at h0; exact h0 (memcmp_self _)
      simp [hne]
  beq_iff a b := by
    simp only [pairKey, Bool.and_eq_true, hA.beq_iff, hB.beq_iff]
    exact Prod.ext_iff.symm

/-- **C11**: the order of pairs that `C11_pair` speaks of is the lexicographic order. -/
theorem C11_pair_order {A : KeyType} (B : KeyType) (hA : A.Faithful) (x y : (pairKey A B).Val) :
    (pairKey A B).lt x y = true ↔ A.lt x.1 y.1 = true ∨ (x.1 = y.1 ∧ B.lt x.2 y.2 = true) :=
  pair_lt_iff hA x y

/-- **C11** for the key types of `table.h`. -/
theorem C11_tables (n w w' : Nat) :
    (uintKey w).Faithful ∧ (uintUintKey w w').Faithful ∧ (hashKey n).Faithful ∧
    (hashUintKey n w).Faithful ∧ (hashUintUintKey n w w').Faithful ∧ balanceKey.Faithful :=
  ⟨C11_uint w, C11_pair (C11_uint w) (C11_uint w'), C11_hash n, C11_pair (C11_hash n) (C11_uint w),
    C11_pair (C11_hash n) (C11_pair (C11_uint w) (C11_uint w')), C11_pair (C11_hash 32) (C11_hash 32)⟩

/-- The order of the integers is the usual order, that of hashes the order of their bytes. -/
theorem C11_uint_order (w : Nat) (a b : Fin (256 ^ w)) : (uintKey w).lt a b = true ↔ a.val < b.val := by
  simp only [decide_eq_true_eq]; exact Iff.rfl

theorem C11_hash_order (n : Nat) (a b : (hashKey n).Val) :
    (hashKey n).lt a b = true ↔ beDec a.val < beDec b.val := by
  simp only [decide_eq_true_eq]
  exact memcmp_lt_iff (a.2.trans b.2.symm)

/-- **C11**, injectivity: different values have different keys. -/
theorem C11_injective {T : KeyType} (hT : T.Faithful) (a b : T.Val) (h : T.key a = T.key b) :
    a = b := hT.inj (by injection h)

/-- **C11**: a key of another size is refused. -/
theorem C11_wrong_size {T : KeyType} (hT : T.Faithful) (bs : List Byte) (h : bs.length ≠ T.width) :
    T.read bs = none := by
  cases hr : T.read bs with
  | none => rfl
  | some a =>
    have := hT.write_read bs a hr
    rw [← this, hT.size] at h
    exact absurd rfl h

/-- The comparator distinguishes exactly different byte strings, is antisymmetric and transitive:
the table model applies to byte keys. -/
theorem C11_comparator (a b c : List Byte) :
    (comparator a b = 0 ↔ a = b) ∧ (comparator a b < 0 ↔ 0 < comparator b a) ∧
    (comparator a b < 0 → comparator b c < 0 → comparator a c < 0) := by
  refine ⟨comparator_eq_zero, ?_, comparator_trans⟩
  rw [comparator_neg a b]; omega

/-- C01 for tables over byte keys with the default comparator. -/
theorem C11_table_over_bytes {V : Type} (o : Options DbKey V) (h : List (Op DbKey V))
    (hd : (Spec.empty : Spec DbKey V).Disciplined h) (key : DbKey) (maxV : Nat) :
    (Table.empty.run o h).find key maxV = some ((Spec.empty.run h).find key maxV) :=
  C01_find_returns_latest_write o h hd key maxV

/-! ### concrete cases -/

example : (uintKey 4).write ⟨258, by decide⟩ = [0, 0, 1, 2] := by decide +kernel
example : (uintUintKey 2 1).write (⟨258, by decide⟩, ⟨7, by decide⟩) = [1, 2, 7] := by decide +kernel
example : ((uintKey 2).read [0, 1, 2]).isNone = true := by decide +kernel

/-- Little endian keys would not sort: the property depends on the byte order. -/
example : memcmp ([0, 1] : List Byte) [1, 0] < 0 ∧ ¬ (256 : Nat) < 1 := by decide +kernel

end Verif.DB
