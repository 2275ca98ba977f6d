import Mathlib.Order.Fin.Basic
import Mathlib.Data.Nat.Basic
import Mathlib.Order.Basic

/-!
# Table keys: the default comparator and the key encodings

`src/DataBase.cpp:105-111` (`Table::default_comparator`), `include/mmx/table.h:382-513` and
`include/mmx/multi_table.h:187-253` (the `read`/`write` functions of the typed tables).

`vnx::to_big_endian`, `from_big_endian` and `write_value` are not in the repository (empty
submodule); they are taken to store an unsigned integer most significant byte first.
-/

namespace Verif.DB

abbrev Byte := Fin 256

/-- `::memcmp` of two buffers of the same size; the sign of the first difference. -/
def memcmp : List Byte → List Byte → Int
  | a :: as, b :: bs => if a < b then -1 else if b < a then 1 else memcmp as bs
  | _, _ => 0

/-- `Table::default_comparator` (DataBase.cpp:105-111): shorter keys first, then `memcmp`. -/
def comparator (a b : List Byte) : Int :=
  if a.length = b.length then memcmp a b
  else if a.length < b.length then -1 else 1

/-! ### the comparator is a linear order -/

theorem memcmp_self (a : List Byte) : memcmp a a = 0 := by
  induction a with
  | nil => rfl
  | cons x xs ih => simp [memcmp, ih]

theorem memcmp_eq_zero {a b : List Byte} (h : a.length = b.length) (h0 : memcmp a b = 0) : a = b := by
  induction a generalizing b with
  | nil => cases b with
    | nil => rfl
    | cons y ys => simp at h
  | cons x xs ih =>
    cases b with
    | nil => simp at h
    | cons y ys =>
      simp only [memcmp] at h0
      split at h0
      · simp at h0
      · split at h0
        · simp at h0
        · rename_i h1 h2
          rw [ih (by simpa using h) h0, le_antisymm (not_lt.1 h2) (not_lt.1 h1)]

theorem memcmp_neg (a b : List Byte) : memcmp b a = -memcmp a b := by
  induction a generalizing b with
  | nil => cases b <;> simp [memcmp]
  | cons x xs ih =>
    cases b with
    | nil => simp [memcmp]
    | cons y ys =>
      simp only [memcmp]
      rcases lt_trichotomy x y with h | h | h
      · simp [h, h.not_gt]
      · subst h; simp [ih]
      · simp [h, h.not_gt]

theorem memcmp_trans {a b c : List Byte} (hab : a.length = b.length) (hbc : b.length = c.length)
    (h1 : memcmp a b < 0) (h2 : memcmp b c < 0) : memcmp a c < 0 := by
  induction a generalizing b c with
  | nil => simp [memcmp] at h1
  | cons x xs ih =>
    cases b with
    | nil => simp at hab
    | cons y ys =>
      cases c with
      | nil => simp at hbc
      | cons z zs =>
        simp only [memcmp] at *
        rcases lt_trichotomy x y with h | h | h
        · rcases lt_trichotomy y z with h' | h' | h'
          · simp [lt_trans h h']
          · subst h'; simp [h]
          · simp [h', h'.not_gt] at h2
        · subst h
          simp only [lt_irrefl, if_false] at h1
          rcases lt_trichotomy x z with h' | h' | h'
          · simp [h']
          · subst h'
            simp only [lt_irrefl, if_false] at h2 ⊢
            exact ih (by simpa using hab) (by simpa using hbc) h1 h2
          · simp [h', h'.not_gt] at h2
        · simp [h, h.not_gt] at h1

theorem comparator_eq_zero {a b : List Byte} : comparator a b = 0 ↔ a = b := by
  unfold comparator
  constructor
  · intro h
    split at h
    · rename_i hl; exact memcmp_eq_zero hl h
    · split at h <;> simp at h
  · rintro rfl; simp [memcmp_self]

theorem comparator_neg (a b : List Byte) : comparator b a = -comparator a b := by
  unfold comparator
  rcases Nat.lt_trichotomy a.length b.length with h | h | h
  · rw [if_neg (by omega), if_neg (by omega), if_neg (by omega), if_pos h]; rfl
  · rw [if_pos h.symm, if_pos h]; exact memcmp_neg a b
  · rw [if_neg (by omega), if_pos h, if_neg (by omega), if_neg (by omega)]

theorem comparator_trans {a b c : List Byte} (h1 : comparator a b < 0) (h2 : comparator b c < 0) :
    comparator a c < 0 := by
  unfold comparator at *
  split at h1
  · rename_i e1
    split at h2
    · rename_i e2
      rw [if_pos (e1.trans e2)]
      exact memcmp_trans e1 e2 h1 h2
    · rename_i e2
      split at h2
      · rw [if_neg (by omega), if_pos (by omega)]; simp
      · simp at h2
  · split at h1
    · rename_i e1 e1'
      split at h2
      · rw [if_neg (by omega), if_pos (by omega)]; simp
      · split at h2
        · rw [if_neg (by omega), if_pos (by omega)]; simp
        · simp at h2
    · simp at h1

/-- A table key: `db_val_t` (DataBase.h:22-78) as a byte string. -/
structure DbKey where
  bytes : List Byte
  deriving DecidableEq, Repr

/-- Keys with the default comparator are linearly ordered: what `Verif/DB/Model.lean` assumes of
keys. -/
instance : LinearOrder DbKey where
  le a b := comparator a.bytes b.bytes ≤ 0
  lt a b := comparator a.bytes b.bytes < 0
  le_refl a := by
    show comparator a.bytes a.bytes ≤ 0
    rw [comparator_eq_zero.2 rfl]
  le_trans a b c h1 h2 := by
    show comparator a.bytes c.bytes ≤ 0
    rcases lt_or_eq_of_le h1 with h1 | h1
    · rcases lt_or_eq_of_le h2 with h2 | h2
      · exact le_of_lt (comparator_trans h1 h2)
      · rw [← comparator_eq_zero.1 h2]; exact le_of_lt h1
    · rw [comparator_eq_zero.1 h1]; exact h2
  lt_iff_le_not_ge a b := by
    show comparator a.bytes b.bytes < 0 ↔
      comparator a.bytes b.bytes ≤ 0 ∧ ¬ comparator b.bytes a.bytes ≤ 0
    rw [comparator_neg a.bytes b.bytes]
    omega
  le_antisymm a b h1 h2 := by
    have h1' : comparator a.bytes b.bytes ≤ 0 := h1
    have h2' : comparator b.bytes a.bytes ≤ 0 := h2
    rw [comparator_neg a.bytes b.bytes] at h2'
    have : comparator a.bytes b.bytes = 0 := by omega
    cases a; cases b
    rw [DbKey.mk.injEq]
    exact comparator_eq_zero.1 this
  le_total a b := by
    show comparator a.bytes b.bytes ≤ 0 ∨ comparator b.bytes a.bytes ≤ 0
    rw [comparator_neg a.bytes b.bytes]
    omega
  toDecidableLE := fun _ _ => inferInstanceAs (Decidable (_ ≤ (0 : Int)))
  toDecidableEq := inferInstance

theorem dbkey_lt (a b : DbKey) : a < b ↔ comparator a.bytes b.bytes < 0 := Iff.rfl

/-! ### key encodings -/

/-- An unsigned integer of `w` bytes, most significant byte first. -/
def beEnc : Nat → Nat → List Byte
  | 0, _ => []
  | w + 1, n => Fin.ofNat 256 (n / 256 ^ w) :: beEnc w n

/-- The number of a byte string, most significant byte first. -/
def beDec : List Byte → Nat
  | [] => 0
  | b :: bs => b.val * 256 ^ bs.length + beDec bs

/-- A key type: its values, `operator<` and `operator==` in C++, and the `write` and `read` functions
of the table.  `read` checks the size (`none` is the exception "key size mismatch"). -/
structure KeyType where
  Val : Type
  lt : Val → Val → Bool
  beq : Val → Val → Bool
  width : Nat
  write : Val → List Byte
  read : List Byte → Option Val

/-- `uint_table` (table.h:383-400): an unsigned integer of `w` bytes. -/
@[reducible] def uintKey (w : Nat) : KeyType where
  Val := Fin (256 ^ w)
  lt a b := decide (a < b)
  beq a b := decide (a = b)
  width := w
  write a := beEnc w a.val
  read bs := if h : beDec bs < 256 ^ w then (if bs.length = w then some ⟨beDec bs, h⟩ else none) else none

/-- `hash_table` (table.h:423-440): `n` raw bytes, compared by `memcmp` (bytes_t.hpp:183-186). -/
@[reducible] def hashKey (n : Nat) : KeyType where
  Val := { l : List Byte // l.length = n }
  lt a b := decide (memcmp a.val b.val < 0)
  beq a b := decide (memcmp a.val b.val = 0)
  width := n
  write a := a.val
  read bs := if h : bs.length = n then some ⟨bs, h⟩ else none

/-- A pair with the comparisons of `std::pair` (and of `std::tuple`, as nested pairs), the encodings
one after the other: `uint_uint_table` (table.h:402-421), `hash_uint_table` (442-465),
`hash_uint_uint_table` (467-492), `balance_table_t` (494-513), and the `(key, index)` pairs of
`multi_table.h:187-253`.  The size is checked once, for the whole. -/
@[reducible] def pairKey (A B : KeyType) : KeyType where
  Val := A.Val × B.Val
  lt x y := A.lt x.1 y.1 || (!A.lt y.1 x.1 && B.lt x.2 y.2)
  beq x y := A.beq x.1 y.1 && B.beq x.2 y.2
  width := A.width + B.width
  write x := A.write x.1 ++ B.write x.2
  read bs :=
    if bs.length = A.width + B.width then
      match A.read (bs.take A.width), B.read (bs.drop A.width) with
      | some a, some b => some (a, b)
      | _, _ => none
    else none

/-- Key types of the tables in `table.h` and `multi_table.h`. -/
abbrev uintUintKey (w w' : Nat) := pairKey (uintKey w) (uintKey w')
abbrev hashUintKey (n w : Nat) := pairKey (hashKey n) (uintKey w)
abbrev hashUintUintKey (n w w' : Nat) := pairKey (hashKey n) (pairKey (uintKey w) (uintKey w'))
abbrev balanceKey := pairKey (hashKey 32) (hashKey 32)

/-- The key of a value as the table sees it. -/
def KeyType.key (T : KeyType) (a : T.Val) : DbKey := ⟨T.write a⟩

/-- What C11 asks of a key type. -/
structure KeyType.Faithful (T : KeyType) : Prop where
  /-- every value is written with the same size -/
  size : ∀ a, (T.write a).length = T.width
  /-- reading what was written gives the value back -/
  read_write : ∀ a, T.read (T.write a) = some a
  /-- only byte strings that were written can be read -/
  write_read : ∀ bs a, T.read bs = some a → T.write a = bs
  /-- the table orders keys like the values -/
  order : ∀ a b, T.key a < T.key b ↔ T.lt a b = true
  /-- `==` is equality of values -/
  beq_iff : ∀ a b, T.beq a b = true ↔ a = b

end Verif.DB
