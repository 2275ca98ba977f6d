import Verif.Hash.Sha256Ni
/-
  The instructions and macros of src/sha256_avx2.cpp: SHA-256 of eight messages at once, on vectors of
  eight 32-bit words. The table of the rounds is in Sha256AvxCode.lean.
-/
namespace Verif.Hash.Avx

/-- `__m256i`: word `j`, the lowest is 0; only the words 0 to 7 matter. -/
abbrev V8 := Nat → BitVec 32

/-- `_mm256_loadu_si256`. -/
def load (l : List Byte) : V8 := fun j => ofLE 32 ((l.drop (4 * j)).take 4)

/-- `_mm256_storeu_si256`. -/
def store (v : V8) : List Byte := (List.range 8).flatMap fun j => toLE 4 (v j)

/-- A vector of words chosen from two: 0 to 7 from the first, 8 to 15 from the second. -/
def pick (idx : List Nat) (a b : V8) : V8 :=
  fun j => if idx.getD j 0 < 8 then a (idx.getD j 0) else b (idx.getD j 0 - 8)

/-- `_mm256_unpacklo_epi32` and the others, which work on the two halves separately, and
    `_mm256_permute2x128_si256` with 0x20 and 0x31. -/
def unpacklo32 : V8 → V8 → V8 := pick [0, 8, 1, 9, 4, 12, 5, 13]
def unpackhi32 : V8 → V8 → V8 := pick [2, 10, 3, 11, 6, 14, 7, 15]
def unpacklo64 : V8 → V8 → V8 := pick [0, 1, 8, 9, 4, 5, 12, 13]
def unpackhi64 : V8 → V8 → V8 := pick [2, 3, 10, 11, 6, 7, 14, 15]
def permute20 : V8 → V8 → V8 := pick [0, 1, 2, 3, 8, 9, 10, 11]
def permute31 : V8 → V8 → V8 := pick [4, 5, 6, 7, 12, 13, 14, 15]

/-- `transpose`, sha256_avx2.cpp:108-136: first `tmp0`, then `tmp1`, then `s`. -/
def tmp0 (s : Nat → V8) : Nat → V8
  | 0 => unpacklo32 (s 0) (s 1)
  | 1 => unpackhi32 (s 0) (s 1)
  | 2 => unpacklo32 (s 2) (s 3)
  | 3 => unpackhi32 (s 2) (s 3)
  | 4 => unpacklo32 (s 4) (s 5)
  | 5 => unpackhi32 (s 4) (s 5)
  | 6 => unpacklo32 (s 6) (s 7)
  | _ => unpackhi32 (s 6) (s 7)

def tmp1 (t : Nat → V8) : Nat → V8
  | 0 => unpacklo64 (t 0) (t 2)
  | 1 => unpackhi64 (t 0) (t 2)
  | 2 => unpacklo64 (t 1) (t 3)
  | 3 => unpackhi64 (t 1) (t 3)
  | 4 => unpacklo64 (t 4) (t 6)
  | 5 => unpackhi64 (t 4) (t 6)
  | 6 => unpacklo64 (t 5) (t 7)
  | _ => unpackhi64 (t 5) (t 7)

def tmp2 (t : Nat → V8) : Nat → V8
  | 0 => permute20 (t 0) (t 4)
  | 1 => permute20 (t 1) (t 5)
  | 2 => permute20 (t 2) (t 6)
  | 3 => permute20 (t 3) (t 7)
  | 4 => permute31 (t 0) (t 4)
  | 5 => permute31 (t 1) (t 5)
  | 6 => permute31 (t 2) (t 6)
  | _ => permute31 (t 3) (t 7)

def transpose (s : Nat → V8) : Nat → V8 := tmp2 (tmp1 (tmp0 s))

/-- The operations on each word, sha256_avx2.cpp:62-81. -/
def xor (a b : V8) : V8 := fun j => a j ^^^ b j
def or (a b : V8) : V8 := fun j => a j ||| b j
def and (a b : V8) : V8 := fun j => a j &&& b j
def add (a b : V8) : V8 := fun j => a j + b j
def set1 (x : BitVec 32) : V8 := fun _ => x
def not (a : V8) : V8 := xor a (set1 (-1))
def shr (a : V8) (n : Nat) : V8 := fun j => a j >>> n
def shl (a : V8) (n : Nat) : V8 := fun j => a j <<< n
def rotr (a : V8) (n : Nat) : V8 := or (shr a n) (shl a (32 - n))
def xor3 (a b c : V8) : V8 := xor (xor a b) c

/-- sha256_avx2.cpp:83-90. -/
def maj (a b c : V8) : V8 := xor3 (and a b) (and a c) (and b c)
def ch (a b c : V8) : V8 := xor (and a b) (and (not a) c)
def sigma1 (x : V8) : V8 := xor3 (rotr x 6) (rotr x 11) (rotr x 25)
def sigma0 (x : V8) : V8 := xor3 (rotr x 2) (rotr x 13) (rotr x 22)
def wsigma1 (x : V8) : V8 := xor3 (rotr x 17) (rotr x 19) (shr x 10)
def wsigma0 (x : V8) : V8 := xor3 (rotr x 7) (rotr x 18) (shr x 3)

/-- A round: `w[t] = ADD4_32(WSIGMA1(w[i]), w[j], w[k], WSIGMA0(w[l]))` if there is such a line, then
    `SHA256ROUND_AVX` with registers, `rc` and `w`. -/
structure Row where
  sched : Option (Nat × Nat × Nat × Nat × Nat)
  regs : List Nat
  rc : Nat
  w : Nat
deriving DecidableEq

/-- The assignment before a round. -/
def Row.assign (r : Row) (w : Nat → V8) : Nat → V8 :=
  match r.sched with
  | none => w
  | some (t, i, j, k, l) => upd w t (add (add (add (wsigma1 (w i)) (w j)) (w k)) (wsigma0 (w l)))

/-- `SHA256ROUND_AVX`, sha256_avx2.cpp:92-96. -/
def Row.round (RC : List (BitVec 32)) (r : Row) (s w : Nat → V8) : Nat → V8 :=
  let v := fun j => s (r.regs.getD j 0)
  let t0 := add (add (add (add (v 7) (sigma1 (v 4))) (ch (v 4) (v 5) (v 6))) (set1 (RC.getD r.rc 0)))
    (w r.w)
  let t1 := add (sigma0 (v 0)) (maj (v 0) (v 1) (v 2))
  upd (upd s (r.regs.getD 3 0) (add (v 3) t0)) (r.regs.getD 7 0) (add t0 t1)

/-- A row, on `s` and `w`: the assignment, then the round. -/
def Row.exec (RC : List (BitVec 32)) (x : (Nat → V8) × (Nat → V8)) (r : Row) :
    (Nat → V8) × (Nat → V8) :=
  (r.round RC x.1 (r.assign x.2), r.assign x.2)

end Verif.Hash.Avx
