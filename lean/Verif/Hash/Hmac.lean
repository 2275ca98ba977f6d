import Verif.Hash.Sha512
/-
  Model of include/mmx/hmac_sha512.hpp: the key derivation of the wallets.
  `hash_t` is a list of 32 bytes here. `vnx::to_big_endian` (vnx-base, not part of the checkout) gives
  the value whose memory image is big endian.
-/
namespace Verif.Hash

/-- The two halves, hmac_sha512.hpp:28-31, 45-48, 65-68. -/
def halves (t : List Byte) : List Byte × List Byte := (t.take 32, (t.drop 32).take 32)

/-- One use of the class: a new object, some writes, `Finalize`. -/
def hmacOf (junk : Nat → BitVec 64) (buf key : List Byte) (l : List (List Byte)) : List Byte :=
  (l.foldl (HmacHasher.write junk) (HmacHasher.new junk buf key)).finalize junk

/-- `hmac_sha512`, hmac_sha512.hpp:20-32. -/
def hmac512 (junk : Nat → BitVec 64) (buf seed key : List Byte) : List Byte × List Byte :=
  halves (hmacOf junk buf key [seed])

/-- `hmac_sha512_n`, hmac_sha512.hpp:34-49. -/
def hmac512N (junk : Nat → BitVec 64) (buf seed key : List Byte) (index : BitVec 32) :
    List Byte × List Byte :=
  halves (hmacOf junk buf key [seed, toBE 4 index])

/-- The loop of `kdf_hmac_sha512`, hmac_sha512.hpp:60-64: `n` more rounds. -/
def kdfLoop (junk : Nat → BitVec 64) (buf seed : List Byte) : Nat → List Byte → List Byte
  | 0, t => t
  | n + 1, t => kdfLoop junk buf seed n (hmacOf junk buf t [seed])

/-- `kdf_hmac_sha512`, hmac_sha512.hpp:51-69: the loop starts with `i = 1` and runs while
    `i < num_iters`. -/
def kdf512 (junk : Nat → BitVec 64) (buf seed key : List Byte) (numIters : BitVec 32) :
    List Byte × List Byte :=
  halves (kdfLoop junk buf seed (numIters.toNat - 1) (hmacOf junk buf key [seed]))

end Verif.Hash
