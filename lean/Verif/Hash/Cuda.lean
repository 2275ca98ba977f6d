import Verif.Hash.Sha512
/-
  Model of include/cuda_sha512.h: SHA-512 on the GPU, used to recompute proofs of space.

  Memory is a list of 64-bit words (the device is little endian). An access outside of the list is
  undefined behaviour: `none`.
-/
namespace Verif.Hash.Cuda

open Verif.Hash

/-- `SHA512_K`, cuda_sha512.h:16-33. -/
def K : List (BitVec 64) := [
  0x428a2f98d728ae22, 0x7137449123ef65cd, 0xb5c0fbcfec4d3b2f, 0xe9b5dba58189dbbc, 0x3956c25bf348b538,
  0x59f111f1b605d019, 0x923f82a4af194f9b, 0xab1c5ed5da6d8118, 0xd807aa98a3030242, 0x12835b0145706fbe,
  0x243185be4ee4b28c, 0x550c7dc3d5ffb4e2, 0x72be5d74f27b896f, 0x80deb1fe3b1696b1, 0x9bdc06a725c71235,
  0xc19bf174cf692694, 0xe49b69c19ef14ad2, 0xefbe4786384f25e3, 0x0fc19dc68b8cd5b5, 0x240ca1cc77ac9c65,
  0x2de92c6f592b0275, 0x4a7484aa6ea6e483, 0x5cb0a9dcbd41fbd4, 0x76f988da831153b5, 0x983e5152ee66dfab,
  0xa831c66d2db43210, 0xb00327c898fb213f, 0xbf597fc7beef0ee4, 0xc6e00bf33da88fc2, 0xd5a79147930aa725,
  0x06ca6351e003826f, 0x142929670a0e6e70, 0x27b70a8546d22ffc, 0x2e1b21385c26c926, 0x4d2c6dfc5ac42aed,
  0x53380d139d95b3df, 0x650a73548baf63de, 0x766a0abb3c77b2a8, 0x81c2c92e47edaee6, 0x92722c851482353b,
  0xa2bfe8a14cf10364, 0xa81a664bbc423001, 0xc24b8b70d0f89791, 0xc76c51a30654be30, 0xd192e819d6ef5218,
  0xd69906245565a910, 0xf40e35855771202a, 0x106aa07032bbd1b8, 0x19a4c116b8d2d0c8, 0x1e376c085141ab53,
  0x2748774cdf8eeb99, 0x34b0bcb5e19b48a8, 0x391c0cb3c5c95a63, 0x4ed8aa4ae3418acb, 0x5b9cca4f7763e373,
  0x682e6ff3d6b2b8a3, 0x748f82ee5defb2fc, 0x78a5636f43172f60, 0x84c87814a1f0ab72, 0x8cc702081a6439ec,
  0x90befffa23631e28, 0xa4506cebde82bde9, 0xbef9a3f7b2c67915, 0xc67178f2e372532b, 0xca273eceea26619c,
  0xd186b8c721c0c207, 0xeada7dd6cde0eb1e, 0xf57d4f7fee6ed178, 0x06f067aa72176fba, 0x0a637dc5a2c898a6,
  0x113f9804bef90dae, 0x1b710b35131c471b, 0x28db77f523047d84, 0x32caab7b40c72493, 0x3c9ebe0a15c9bebc,
  0x431d67c49c100d4c, 0x4cc5d4becb3e42b6, 0x597f299cfc657e2a, 0x5fcb6fab3ad6faec, 0x6c44198c4a475817]

/-- `SHA512_INIT`, cuda_sha512.h:36-39. -/
def init : Regs 64 where
  a := 0x6a09e667f3bcc908
  b := 0xbb67ae8584caa73b
  c := 0x3c6ef372fe94f82b
  d := 0xa54ff53a5f1d36f1
  e := 0x510e527fade682d1
  f := 0x9b05688c2b3e6c1f
  g := 0x1f83d9abfb41bd6b
  h := 0x5be0cd19137e2179

/-- `cuda_bswap_32`, cuda_sha512.h:41-44. -/
def swap32 (y : BitVec 32) : BitVec 32 :=
  y <<< 24 ||| (y <<< 8 &&& 0xFF0000) ||| (y >>> 8 &&& 0xFF00) ||| y >>> 24

/-- `cuda_bswap_64`, cuda_sha512.h:46-49. -/
def swap64 (y : BitVec 64) : BitVec 64 :=
  (swap32 (y.setWidth 32)).setWidth 64 <<< 32 ||| (swap32 ((y >>> 32).setWidth 32)).setWidth 64

/-- cuda_sha512.h:52-57. -/
def ch (x y z : BitVec 64) : BitVec 64 := z ^^^ (x &&& (y ^^^ z))
def maj (x y z : BitVec 64) : BitVec 64 := (x &&& y) ||| (z &&& (x ||| y))
def S0 (x : BitVec 64) : BitVec 64 :=
  (x >>> 28 ||| x <<< 36) ^^^ (x >>> 34 ||| x <<< 30) ^^^ (x >>> 39 ||| x <<< 25)
def S1 (x : BitVec 64) : BitVec 64 :=
  (x >>> 14 ||| x <<< 50) ^^^ (x >>> 18 ||| x <<< 46) ^^^ (x >>> 41 ||| x <<< 23)
def s0 (x : BitVec 64) : BitVec 64 :=
  (x >>> 1 ||| x <<< 63) ^^^ (x >>> 8 ||| x <<< 56) ^^^ (x >>> 7)
def s1 (x : BitVec 64) : BitVec 64 :=
  (x >>> 19 ||| x <<< 45) ^^^ (x >>> 61 ||| x <<< 3) ^^^ (x >>> 6)

/-- The word of round `i`, cuda_sha512.h:81-85. -/
def extend (w : Nat → BitVec 64) (i : Nat) : Nat → BitVec 64 :=
  if 16 ≤ i then upd w i (w (i - 16) + s0 (w (i - 15)) + w (i - 7) + s1 (w (i - 2))) else w

/-- The variables of round `i`, cuda_sha512.h:87-101. -/
def round (s : Regs 64) (k x : BitVec 64) : Regs 64 :=
  let temp1 := s.h + S1 s.e + ch s.e s.f s.g + k + x
  let temp2 := S0 s.a + maj s.a s.b s.c
  { h := s.g, g := s.f, f := s.e, e := s.d + temp1, d := s.c, c := s.b, b := s.a,
    a := temp1 + temp2 }

/-- One turn of the loop, cuda_sha512.h:79-102. -/
def turn (x : (Nat → BitVec 64) × Regs 64) (i : Nat) : (Nat → BitVec 64) × Regs 64 :=
  (extend x.1 i, round x.2 (K.getD i 0) (extend x.1 i i))

/-- `w[0 .. 15]`, cuda_sha512.h:63-67; the rest of the array holds anything. -/
def loadW (junk : Nat → BitVec 64) (msg : List (BitVec 64)) : Nat → BitVec 64 :=
  fun i => if i < 16 then swap64 (msg.getD i 0) else junk i

/-- `cuda_sha512_chunk`, cuda_sha512.h:60-112, on the sixteen words of `msg`. -/
def chunk (junk : Nat → BitVec 64) (msg : List (BitVec 64)) (s : Regs 64) : Regs 64 :=
  s.add ((List.range 80).foldl turn (loadW junk msg, s)).2

/-- `total_bytes` and `num_chunks`, cuda_sha512.h:122-123, in 32 bits. -/
def numChunks (length : BitVec 32) : BitVec 32 := (length + 17 + 127) / 128

/-- The end bit, cuda_sha512.h:125. -/
def markEnd (msg : List (BitVec 64)) (length : BitVec 32) : List (BitVec 64) :=
  msg.set (length.toNat / 8)
    (msg.getD (length.toNat / 8) 0 ||| (0x80 : BitVec 64) <<< (length.toNat % 8 * 8))

/-- The number of bits, cuda_sha512.h:121 and 127. -/
def markBits (msg : List (BitVec 64)) (length : BitVec 32) : List (BitVec 64) :=
  msg.set (numChunks length * 16 - 1).toNat (swap64 (length.setWidth 64 * 8))

/-- The chunks, cuda_sha512.h:134-136. -/
def chunks (junk : Nat → BitVec 64) (n : Nat) (msg : List (BitVec 64)) (s : Regs 64) : Regs 64 :=
  (List.range n).foldl (fun s i => chunk junk ((msg.drop (i * 16)).take 16) s) s

/-- The result in memory, cuda_sha512.h:138-140. -/
def output (s : Regs 64) : List (BitVec 64) :=
  [swap64 s.a, swap64 s.b, swap64 s.c, swap64 s.d, swap64 s.e, swap64 s.f, swap64 s.g, swap64 s.h]

/-- All accesses of `cuda_sha512` lie inside of the buffer. -/
def inside (msg : List (BitVec 64)) (length : BitVec 32) : Bool :=
  decide (length.toNat / 8 < msg.length) && decide ((numChunks length * 16 - 1).toNat < msg.length)
    && decide ((numChunks length).toNat * 16 ≤ msg.length)

/-- `cuda_sha512`, cuda_sha512.h:119-141: the words of `hash`. -/
def sha512 (junk : Nat → BitVec 64) (msg : List (BitVec 64)) (length : BitVec 32) :
    Option (List (BitVec 64)) :=
  if inside msg length then
    some (output (chunks junk (numChunks length).toNat (markBits (markEnd msg length) length) init))
  else none

end Verif.Hash.Cuda
