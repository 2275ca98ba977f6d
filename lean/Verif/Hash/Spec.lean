/-
  The Secure Hash Standard (FIPS 180-4): SHA-256 and SHA-512 of a sequence of bytes. This is the
  specification that the implementations in the code are compared with; nothing here comes from the
  code.
-/
namespace Verif.Hash

abbrev Byte := BitVec 8

/-- Big-endian value of a list of bytes (FIPS 180-4, 3.1). -/
def ofBE (w : Nat) (l : List Byte) : BitVec w := l.foldl (fun x b => x <<< 8 ||| b.setWidth w) 0

/-- The `n` low bytes of a value, the highest first. -/
def toBE {w : Nat} (n : Nat) (x : BitVec w) : List Byte :=
  (List.range n).map fun i => (x >>> (8 * (n - 1 - i))).setWidth 8

/-- What the two hash functions differ in: words of `w = 8 * bytes` bits, the constants (5.3, 4.2),
    the functions of 4.1, and the number of bytes that encode the length (5.1). -/
structure Alg (w : Nat) where
  bytes : Nat
  lenBytes : Nat
  K : List (BitVec w)
  H0 : List (BitVec w)
  S0 : BitVec w → BitVec w
  S1 : BitVec w → BitVec w
  s0 : BitVec w → BitVec w
  s1 : BitVec w → BitVec w

/-- Bytes of a block: sixteen words. -/
def Alg.block {w : Nat} (A : Alg w) : Nat := 16 * A.bytes

/-- The eight working variables. -/
structure Regs (w : Nat) where
  a : BitVec w
  b : BitVec w
  c : BitVec w
  d : BitVec w
  e : BitVec w
  f : BitVec w
  g : BitVec w
  h : BitVec w
deriving DecidableEq

/-- FIPS 180-4, 4.1. -/
def specCh {w : Nat} (x y z : BitVec w) : BitVec w := (x &&& y) ^^^ (~~~x &&& z)
def specMaj {w : Nat} (x y z : BitVec w) : BitVec w := (x &&& y) ^^^ (x &&& z) ^^^ (y &&& z)

/-- The message schedule with `16 + n` words (6.2.2 and 6.4.2, step 1). All the indices exist if `M`
    has sixteen words. -/
def schedule {w : Nat} (A : Alg w) (M : List (BitVec w)) : Nat → List (BitVec w)
  | 0 => M
  | n + 1 =>
    schedule A M n ++
      [A.s1 ((schedule A M n).getD (n + 14) 0) + (schedule A M n).getD (n + 9) 0
        + A.s0 ((schedule A M n).getD (n + 1) 0) + (schedule A M n).getD n 0]

/-- One round (step 3). -/
def specRound {w : Nat} (A : Alg w) (s : Regs w) (kw : BitVec w × BitVec w) : Regs w :=
  let t1 := s.h + A.S1 s.e + specCh s.e s.f s.g + kw.1 + kw.2
  let t2 := A.S0 s.a + specMaj s.a s.b s.c
  { a := t1 + t2, b := s.a, c := s.b, d := s.c, e := s.d + t1, f := s.e, g := s.f, h := s.g }

/-- Step 4. -/
def Regs.add {w : Nat} (s t : Regs w) : Regs w :=
  { a := s.a + t.a, b := s.b + t.b, c := s.c + t.c, d := s.d + t.d,
    e := s.e + t.e, f := s.f + t.f, g := s.g + t.g, h := s.h + t.h }

/-- The sixteen words of a block. -/
def blockWords {w : Nat} (A : Alg w) (l : List Byte) : List (BitVec w) :=
  (List.range 16).map fun i => ofBE w ((l.drop (A.bytes * i)).take A.bytes)

/-- One block (6.2.2, 6.4.2). -/
def compress {w : Nat} (A : Alg w) (s : Regs w) (block : List Byte) : Regs w :=
  s.add ((A.K.zip (schedule A (blockWords A block) (A.K.length - 16))).foldl (specRound A) s)

/-- All full blocks, one after the other. -/
def overBlocks {w : Nat} (A : Alg w) : Nat → Regs w → List Byte → Regs w
  | 0, s, _ => s
  | n + 1, s, l => overBlocks A n (compress A s (l.take A.block)) (l.drop A.block)

/-- Zero bytes in the padding of `n` bytes: the least number that completes a block (5.1). -/
def padZeros (block lenBytes n : Nat) : Nat := (block - (n + 1 + lenBytes) % block) % block

/-- The padded message (5.1): a one bit, zeros, the number of bits. -/
def padded {w : Nat} (A : Alg w) (m : List Byte) : List Byte :=
  m ++ 0x80#8 :: (List.replicate (padZeros A.block A.lenBytes m.length) 0#8
    ++ toBE A.lenBytes (BitVec.ofNat (8 * A.lenBytes) (8 * m.length)))

/-- The initial value (5.3). -/
def Alg.init {w : Nat} (A : Alg w) : Regs w :=
  { a := A.H0.getD 0 0, b := A.H0.getD 1 0, c := A.H0.getD 2 0, d := A.H0.getD 3 0,
    e := A.H0.getD 4 0, f := A.H0.getD 5 0, g := A.H0.getD 6 0, h := A.H0.getD 7 0 }

/-- The digest. -/
def Regs.digest {w : Nat} (n : Nat) (s : Regs w) : List Byte :=
  toBE n s.a ++ toBE n s.b ++ toBE n s.c ++ toBE n s.d
    ++ toBE n s.e ++ toBE n s.f ++ toBE n s.g ++ toBE n s.h

/-- The hash of a message. -/
def hash {w : Nat} (A : Alg w) (m : List Byte) : List Byte :=
  (overBlocks A ((padded A m).length / A.block) A.init (padded A m)).digest A.bytes

/-- SHA-256 (4.1.2, 4.2.2, 5.3.3). -/
def sha256Alg : Alg 32 where
  bytes := 4
  lenBytes := 8
  K := [
    0x428a2f98, 0x71374491, 0xb5c0fbcf, 0xe9b5dba5, 0x3956c25b, 0x59f111f1, 0x923f82a4, 0xab1c5ed5,
    0xd807aa98, 0x12835b01, 0x243185be, 0x550c7dc3, 0x72be5d74, 0x80deb1fe, 0x9bdc06a7, 0xc19bf174,
    0xe49b69c1, 0xefbe4786, 0x0fc19dc6, 0x240ca1cc, 0x2de92c6f, 0x4a7484aa, 0x5cb0a9dc, 0x76f988da,
    0x983e5152, 0xa831c66d, 0xb00327c8, 0xbf597fc7, 0xc6e00bf3, 0xd5a79147, 0x06ca6351, 0x14292967,
    0x27b70a85, 0x2e1b2138, 0x4d2c6dfc, 0x53380d13, 0x650a7354, 0x766a0abb, 0x81c2c92e, 0x92722c85,
    0xa2bfe8a1, 0xa81a664b, 0xc24b8b70, 0xc76c51a3, 0xd192e819, 0xd6990624, 0xf40e3585, 0x106aa070,
    0x19a4c116, 0x1e376c08, 0x2748774c, 0x34b0bcb5, 0x391c0cb3, 0x4ed8aa4a, 0x5b9cca4f, 0x682e6ff3,
    0x748f82ee, 0x78a5636f, 0x84c87814, 0x8cc70208, 0x90befffa, 0xa4506ceb, 0xbef9a3f7, 0xc67178f2]
  H0 := [0x6a09e667, 0xbb67ae85, 0x3c6ef372, 0xa54ff53a, 0x510e527f, 0x9b05688c, 0x1f83d9ab,
    0x5be0cd19]
  S0 x := x.rotateRight 2 ^^^ x.rotateRight 13 ^^^ x.rotateRight 22
  S1 x := x.rotateRight 6 ^^^ x.rotateRight 11 ^^^ x.rotateRight 25
  s0 x := x.rotateRight 7 ^^^ x.rotateRight 18 ^^^ x >>> 3
  s1 x := x.rotateRight 17 ^^^ x.rotateRight 19 ^^^ x >>> 10

/-- SHA-512 (4.1.3, 4.2.3, 5.3.5). -/
def sha512Alg : Alg 64 where
  bytes := 8
  lenBytes := 16
  K := [
    0x428a2f98d728ae22, 0x7137449123ef65cd, 0xb5c0fbcfec4d3b2f, 0xe9b5dba58189dbbc,
    0x3956c25bf348b538, 0x59f111f1b605d019, 0x923f82a4af194f9b, 0xab1c5ed5da6d8118,
    0xd807aa98a3030242, 0x12835b0145706fbe, 0x243185be4ee4b28c, 0x550c7dc3d5ffb4e2,
    0x72be5d74f27b896f, 0x80deb1fe3b1696b1, 0x9bdc06a725c71235, 0xc19bf174cf692694,
    0xe49b69c19ef14ad2, 0xefbe4786384f25e3, 0x0fc19dc68b8cd5b5, 0x240ca1cc77ac9c65,
    0x2de92c6f592b0275, 0x4a7484aa6ea6e483, 0x5cb0a9dcbd41fbd4, 0x76f988da831153b5,
    0x983e5152ee66dfab, 0xa831c66d2db43210, 0xb00327c898fb213f, 0xbf597fc7beef0ee4,
    0xc6e00bf33da88fc2, 0xd5a79147930aa725, 0x06ca6351e003826f, 0x142929670a0e6e70,
    0x27b70a8546d22ffc, 0x2e1b21385c26c926, 0x4d2c6dfc5ac42aed, 0x53380d139d95b3df,
    0x650a73548baf63de, 0x766a0abb3c77b2a8, 0x81c2c92e47edaee6, 0x92722c851482353b,
    0xa2bfe8a14cf10364, 0xa81a664bbc423001, 0xc24b8b70d0f89791, 0xc76c51a30654be30,
    0xd192e819d6ef5218, 0xd69906245565a910, 0xf40e35855771202a, 0x106aa07032bbd1b8,
    0x19a4c116b8d2d0c8, 0x1e376c085141ab53, 0x2748774cdf8eeb99, 0x34b0bcb5e19b48a8,
    0x391c0cb3c5c95a63, 0x4ed8aa4ae3418acb, 0x5b9cca4f7763e373, 0x682e6ff3d6b2b8a3,
    0x748f82ee5defb2fc, 0x78a5636f43172f60, 0x84c87814a1f0ab72, 0x8cc702081a6439ec,
    0x90befffa23631e28, 0xa4506cebde82bde9, 0xbef9a3f7b2c67915, 0xc67178f2e372532b,
    0xca273eceea26619c, 0xd186b8c721c0c207, 0xeada7dd6cde0eb1e, 0xf57d4f7fee6ed178,
    0x06f067aa72176fba, 0x0a637dc5a2c898a6, 0x113f9804bef90dae, 0x1b710b35131c471b,
    0x28db77f523047d84, 0x32caab7b40c72493, 0x3c9ebe0a15c9bebc, 0x431d67c49c100d4c,
    0x4cc5d4becb3e42b6, 0x597f299cfc657e2a, 0x5fcb6fab3ad6faec, 0x6c44198c4a475817]
  H0 := [0x6a09e667f3bcc908, 0xbb67ae8584caa73b, 0x3c6ef372fe94f82b, 0xa54ff53a5f1d36f1,
    0x510e527fade682d1, 0x9b05688c2b3e6c1f, 0x1f83d9abfb41bd6b, 0x5be0cd19137e2179]
  S0 x := x.rotateRight 28 ^^^ x.rotateRight 34 ^^^ x.rotateRight 39
  S1 x := x.rotateRight 14 ^^^ x.rotateRight 18 ^^^ x.rotateRight 41
  s0 x := x.rotateRight 1 ^^^ x.rotateRight 8 ^^^ x >>> 7
  s1 x := x.rotateRight 19 ^^^ x.rotateRight 61 ^^^ x >>> 6

def sha256 (m : List Byte) : List Byte := hash sha256Alg m
def sha512 (m : List Byte) : List Byte := hash sha512Alg m

/-! The examples of the standard, as a check of the definitions above: the message "abc". -/

example : ofBE 256 (sha256 [0x61, 0x62, 0x63])
    = 0xba7816bf8f01cfea414140de5dae2223b00361a396177a9cb410ff61f20015ad := by decide +kernel

example : ofBE 512 (sha512 [0x61, 0x62, 0x63])
    = 0xddaf35a193617abacc417349ae20413112e6fa4e89a97ea20a9eeee64b55d39a2192992a274fc1a836ba3c23a3feebbd454d4423643ce80e2a9ac94fa54ca49f
    := by decide +kernel

/-! The constants as the standard derives them: the fractional parts of cube roots (4.2) and square
roots (5.3) of the first primes. -/

/-- The first eighty primes. -/
def primes : List Nat := [2, 3, 5, 7, 11, 13, 17, 19, 23, 29, 31, 37, 41, 43, 47, 53, 59, 61, 67, 71,
  73, 79, 83, 89, 97, 101, 103, 107, 109, 113, 127, 131, 137, 139, 149, 151, 157, 163, 167, 173, 179,
  181, 191, 193, 197, 199, 211, 223, 227, 229, 233, 239, 241, 251, 257, 263, 269, 271, 277, 281, 283,
  293, 307, 311, 313, 317, 331, 337, 347, 349, 353, 359, 367, 373, 379, 383, 389, 397, 401, 409]

/-- `k` is the fraction of the `n`-th root of `p`, in units of `2 ^ -w`; `r` is the integer part. -/
def isRootFraction (w n p k r : Nat) : Bool :=
  decide ((r * 2 ^ w + k) ^ n ≤ p * 2 ^ (w * n) ∧ p * 2 ^ (w * n) < (r * 2 ^ w + k + 1) ^ n)

def rootTable (w n : Nat) (l : List (BitVec w)) : Bool :=
  (l.zip primes).all fun x => (List.range 21).any fun r => isRootFraction w n x.2 x.1.toNat r

example : sha256Alg.K.length = 64 ∧ rootTable 32 3 sha256Alg.K = true
    ∧ sha256Alg.H0.length = 8 ∧ rootTable 32 2 sha256Alg.H0 = true := by decide +kernel

example : sha512Alg.K.length = 80 ∧ rootTable 64 3 sha512Alg.K = true
    ∧ sha512Alg.H0.length = 8 ∧ rootTable 64 2 sha512Alg.H0 = true := by decide +kernel

end Verif.Hash
