import Verif.Hash.HmacLemmas
/-
  C97, C98: the hash functions of the wallet and of the proofs of space are the standard ones.

  `sha512` (Spec.lean) is SHA-512 as FIPS 180-4 states it; `hmac` below is RFC 2104.
-/
namespace Verif.Hash

/-! ### C97 -/

/-- **C97.** Whatever the pieces in which a message is written, and whatever memory the object was
    created in, `Finalize` gives the SHA-512 of the whole message. -/
theorem C97_streamed (junk : Nat → BitVec 64) (buf : List Byte) (hb : buf.length = 128)
    (pieces : List (List Byte)) (h : pieces.flatten.length < 2 ^ 61) :
    ((Hasher.new buf).writes junk pieces).finalize junk = sha512 pieces.flatten := by
  have := (Holds.new buf hb).writes (junk := junk) pieces
  rw [List.nil_append] at this
  exact finalize_eq this h

/-- **C97.** Two ways of cutting the same message give the same hash, in two different objects. -/
theorem C97_split (j1 j2 : Nat → BitVec 64) (b1 b2 : List Byte) (h1 : b1.length = 128)
    (h2 : b2.length = 128) (p1 p2 : List (List Byte)) (he : p1.flatten = p2.flatten)
    (h : p1.flatten.length < 2 ^ 61) :
    ((Hasher.new b1).writes j1 p1).finalize j1 = ((Hasher.new b2).writes j2 p2).finalize j2 := by
  rw [C97_streamed j1 b1 h1 p1 h, C97_streamed j2 b2 h2 p2 (he ▸ h), he]

/-- **C97.** An object used before and reset starts over. -/
theorem C97_reset (junk : Nat → BitVec 64) (buf : List Byte) (hb : buf.length = 128)
    (before pieces : List (List Byte)) (h : pieces.flatten.length < 2 ^ 61) :
    ((((Hasher.new buf).writes junk before).reset).writes junk pieces).finalize junk
      = sha512 pieces.flatten := by
  have h0 := (Holds.new buf hb).writes (junk := junk) before
  have := (Holds.new _ h0.len).writes (junk := junk) pieces
  rw [List.nil_append] at this
  exact finalize_eq this h

/-- One block: the unrolled code does the eighty rounds of the standard. -/
theorem C97_block (junk : Nat → BitVec 64) (s : Regs 64) (chunk : List Byte)
    (hc : chunk.length = 128) : transform junk s chunk = compress sha512Alg s chunk :=
  transform_eq junk s chunk hc

/-- The case of C97 is not empty: "abc" in two pieces. -/
example : ((Hasher.new (List.replicate 128 7#8)).writes (fun _ => 9) [[0x61#8], [0x62#8, 0x63#8]]).finalize
    (fun _ => 9) = sha512 [0x61#8, 0x62#8, 0x63#8] :=
  C97_streamed _ _ (List.length_replicate ..) _ (by decide)

/-- A message that crosses the block boundary, in three pieces. -/
example (l : List Byte) (hl : l.length = 100) :
    ((Hasher.new (List.replicate 128 7#8)).writes (fun _ => 9) [l, l, [1#8]]).finalize (fun _ => 9)
      = sha512 (l ++ (l ++ [1#8])) :=
  C97_streamed _ _ (List.length_replicate ..) [l, l, [1#8]]
    (by simp only [List.flatten_cons, List.flatten_nil, List.length_append, hl, List.length_cons,
      List.length_nil]; decide)

/-! ### C98 -/

/-- RFC 2104: the key, brought to the size of a block. -/
def blockKey (H : List Byte → List Byte) (B : Nat) (key : List Byte) : List Byte :=
  let k := if B < key.length then H key else key
  k ++ List.replicate (B - k.length) 0#8

/-- RFC 2104: `H(K XOR opad, H(K XOR ipad, text))`. -/
def hmac (H : List Byte → List Byte) (B : Nat) (key text : List Byte) : List Byte :=
  H ((blockKey H B key).map (· ^^^ 0x5c#8) ++ H ((blockKey H B key).map (· ^^^ 0x36#8) ++ text))

theorem hmacKey_spec (junk : Nat → BitVec 64) (buf key : List Byte) (hb : buf.length = 128)
    (hk : key.length < 2 ^ 61) : hmacKey junk buf key = blockKey sha512 128 key := by
  unfold hmacKey blockKey
  by_cases h : key.length ≤ 128
  · rw [if_pos h]
    dsimp only
    rw [if_neg (by omega)]
  · rw [if_neg h]
    dsimp only
    rw [if_pos (by omega), finalize_eq (m := key) ((Holds.new buf hb).write key) hk, sha512_length]

/-- **C98.** `HMAC_SHA512` computes HMAC-SHA-512, for every key (also one longer than a block) and
    every message in any pieces. -/
theorem C98_hmac (junk : Nat → BitVec 64) (buf : List Byte) (hb : buf.length = 128)
    (key : List Byte) (hk : key.length < 2 ^ 61) (pieces : List (List Byte))
    (h : pieces.flatten.length < 2 ^ 60) :
    hmacOf junk buf key pieces = hmac sha512 128 key pieces.flatten := by
  have h1 := (HmacHolds.new junk buf key hb).writes (junk := junk) pieces
  have hl := hmacKey_length junk buf key hb hk
  unfold hmacOf
  rw [h1.finalize (by rw [List.length_map, hl]; decide)
    (by rw [List.length_append, List.length_map, hl]; omega), hmacKey_spec junk buf key hb hk]
  rfl

theorem halves_join (t : List Byte) (h : t.length = 64) :
    t.take 32 ++ (t.drop 32).take 32 = t := by
  rw [List.take_of_length_le (l := t.drop 32) (by rw [List.length_drop]; omega),
    List.take_append_drop]

/-- **C98.** Keys of accounts and addresses: HMAC of the parent value followed by the index, four
    bytes, big endian. -/
theorem C98_child (junk : Nat → BitVec 64) (buf : List Byte) (hb : buf.length = 128)
    (seed key : List Byte) (hs : seed.length = 32) (hk : key.length = 32) (index : BitVec 32) :
    (hmac512N junk buf seed key index).1 ++ (hmac512N junk buf seed key index).2
      = hmac sha512 128 key (seed ++ toBE 4 index)
    ∧ (hmac512N junk buf seed key index).1.length = 32
    ∧ (hmac512N junk buf seed key index).2.length = 32 := by
  have hf : ([seed, toBE 4 index] : List (List Byte)).flatten = seed ++ toBE 4 index := by
    rw [List.flatten_cons, List.flatten_cons, List.flatten_nil, List.append_nil]
  have h := C98_hmac junk buf hb key (by omega) [seed, toBE 4 index]
    (by rw [hf, List.length_append, toBE_length, hs]; decide)
  rw [hf] at h
  unfold hmac512N halves
  rw [h]
  have hl : (hmac sha512 128 key (seed ++ toBE 4 index)).length = 64 := sha512_length _
  dsimp only
  refine ⟨?_, by rw [List.length_take]; omega, by rw [List.length_take, List.length_drop]; omega⟩
  exact halves_join _ hl

/-- `n` applications after the first: `t ↦ HMAC(t, seed)`. -/
def hmacChain (seed key : List Byte) : Nat → List Byte
  | 0 => hmac sha512 128 key seed
  | n + 1 => hmac sha512 128 (hmacChain seed key n) seed

theorem hmacChain_shift (seed key : List Byte) (n : Nat) :
    hmacChain seed key (n + 1) = hmacChain seed (hmac sha512 128 key seed) n := by
  induction n with
  | zero => rfl
  | succ n ih => rw [hmacChain, ih, hmacChain]

theorem kdfLoop_eq (junk : Nat → BitVec 64) (buf : List Byte) (hb : buf.length = 128)
    (seed : List Byte) (hs : seed.length < 2 ^ 60) (n : Nat) (key : List Byte) :
    kdfLoop junk buf seed n (hmac sha512 128 key seed) = hmacChain seed key n := by
  induction n generalizing key with
  | zero => rfl
  | succ n ih =>
    have hl : (hmac sha512 128 key seed).length = 64 := sha512_length _
    have h := C98_hmac junk buf hb (hmac sha512 128 key seed) (by omega) [seed]
      (by rw [List.flatten_cons, List.flatten_nil, List.append_nil]; exact hs)
    rw [List.flatten_cons, List.flatten_nil, List.append_nil] at h
    rw [kdfLoop, h, ih, hmacChain_shift]

/-- **C98.** The master key: as many nested HMACs as asked for, one at least. -/
theorem C98_kdf (junk : Nat → BitVec 64) (buf : List Byte) (hb : buf.length = 128)
    (seed key : List Byte) (hs : seed.length = 32) (hk : key.length = 32) (n : BitVec 32) :
    (kdf512 junk buf seed key n).1 ++ (kdf512 junk buf seed key n).2
      = hmacChain seed key (n.toNat - 1) := by
  have h := C98_hmac junk buf hb key (by omega) [seed]
      (by rw [List.flatten_cons, List.flatten_nil, List.append_nil, hs]; decide)
  rw [List.flatten_cons, List.flatten_nil, List.append_nil] at h
  unfold kdf512 halves
  rw [h, kdfLoop_eq junk buf hb seed (by omega)]
  have hl : (hmacChain seed key (n.toNat - 1)).length = 64 := by
    cases (n.toNat - 1) with
    | zero => exact sha512_length _
    | succ k => exact sha512_length _
  dsimp only
  exact halves_join _ hl

theorem toBE4_injective {x y : BitVec 32} (h : toBE 4 x = toBE 4 y) : x = y := by
  rw [← toLE_bswap32, ← toLE_bswap32] at h
  have h1 := congrArg (ofLE 32) h
  rw [ofLE_toLE 4 rfl, ofLE_toLE 4 rfl] at h1
  have h2 := congrArg (fun z => ofBE 32 (toLE 4 z)) h1
  simp only [toLE_bswap32] at h2
  have h3 : ∀ z : BitVec 32, ofBE 32 (toBE 4 z) = z := fun z => by
    rw [← toLE_bswap32, ← bswap32_le _ (toLE_length _ _), ofLE_toLE 4 rfl, bswap32_bswap32]
  rw [h3, h3] at h2
  exact h2

/-- **C98.** Different indexes, different HMAC inputs: no two addresses of an account are derived from
    the same message. -/
theorem C98_distinct (seed : List Byte) (i j : BitVec 32) (h : i ≠ j) :
    seed ++ toBE 4 i ≠ seed ++ toBE 4 j := by
  intro he
  exact h (toBE4_injective (List.append_cancel_left he))

end Verif.Hash
