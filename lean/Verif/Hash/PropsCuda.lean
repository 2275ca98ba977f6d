import Verif.Hash.CudaLemmas
/-
  C99: SHA-512 on the GPU is SHA-512.
-/
namespace Verif.Hash

/-- The message `m` in a zeroed buffer of 64-bit words. -/
def InBuffer (m : List Byte) (msg : List (BitVec 64)) : Prop :=
  ∃ k, wordBytes 8 msg = m ++ List.replicate k 0#8

/-- **C99.** A message in a zeroed buffer that has room for the padding: no access outside of the
    buffer, and the eight words that are left in memory are the bytes of its SHA-512. -/
theorem C99_gpu (junk : Nat → BitVec 64) (m : List Byte) (msg : List (BitVec 64))
    (hm : InBuffer m msg) (hn : m.length + 144 < 2 ^ 32)
    (hroom : (m.length + 17 + 127) / 128 * 16 ≤ msg.length) :
    ∃ out, Cuda.sha512 junk msg (BitVec.ofNat 32 m.length) = some out
      ∧ wordBytes 8 out = sha512 m := by
  obtain ⟨k, hk⟩ := hm
  obtain ⟨out, h1, h2, _⟩ := Cuda.sha512_eq junk m k msg hn hk hroom
  exact ⟨out, h1, h2⟩

/-- **C99.** The GPU and the CPU agree, whatever the pieces in which the CPU hashed. -/
theorem C99_agrees (junk j2 : Nat → BitVec 64) (buf : List Byte) (hb : buf.length = 128)
    (pieces : List (List Byte)) (msg : List (BitVec 64)) (hm : InBuffer pieces.flatten msg)
    (hn : pieces.flatten.length + 144 < 2 ^ 32)
    (hroom : (pieces.flatten.length + 17 + 127) / 128 * 16 ≤ msg.length) :
    (Cuda.sha512 junk msg (BitVec.ofNat 32 pieces.flatten.length)).map (wordBytes 8)
      = some (((Hasher.new buf).writes j2 pieces).finalize j2) := by
  obtain ⟨out, h1, h2⟩ := C99_gpu junk _ msg hm hn hroom
  have h3 := (Holds.new buf hb).writes (junk := j2) pieces
  rw [List.nil_append] at h3
  rw [h1, Option.map_some, h2, finalize_eq h3 (by omega)]

/-- A buffer without room for the end mark: an access outside of it. -/
theorem C99_room (junk : Nat → BitVec 64) :
    Cuda.sha512 junk (List.replicate 16 0) (BitVec.ofNat 32 112) = none := by
  unfold Cuda.sha512
  rw [if_neg (by decide)]

/-- The cases of C99 are not empty: the two uses in the code, 36 bytes in 16 words and 192 in 32. -/
example (junk : Nat → BitVec 64) (m : List Byte) (h : m.length = 36) (msg : List (BitVec 64))
    (hl : msg.length = 16) (hm : InBuffer m msg) :
    ∃ out, Cuda.sha512 junk msg 36 = some out ∧ wordBytes 8 out = sha512 m := by
  have := C99_gpu junk m msg hm (by omega) (by rw [h, hl])
  rwa [h] at this

example (junk : Nat → BitVec 64) (m : List Byte) (h : m.length = 192) (msg : List (BitVec 64))
    (hl : msg.length = 32) (hm : InBuffer m msg) :
    ∃ out, Cuda.sha512 junk msg 192 = some out ∧ wordBytes 8 out = sha512 m := by
  have := C99_gpu junk m msg hm (by omega) (by rw [h, hl])
  rwa [h] at this

example : InBuffer [1#8, 2#8, 3#8] (0x030201 :: List.replicate 15 0) := ⟨125, by decide⟩

end Verif.Hash
