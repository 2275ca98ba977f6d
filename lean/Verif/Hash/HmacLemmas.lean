import Verif.Hash.Hmac
import Verif.Hash.Sha512Lemmas
namespace Verif.Hash

/-- `HMAC_SHA512` objects after the bytes `m`. -/
structure HmacHolds (h : HmacHasher) (o i : List Byte) : Prop where
  outer : Holds h.outer o
  inner : Holds h.inner i

theorem hmacKey_length (junk : Nat → BitVec 64) (buf key : List Byte) (hb : buf.length = 128)
    (hk : key.length < 2 ^ 61) : (hmacKey junk buf key).length = 128 := by
  unfold hmacKey
  by_cases h : key.length ≤ 128
  · rw [if_pos h, List.length_append, List.length_replicate]; omega
  · rw [if_neg h, List.length_append, List.length_replicate,
      finalize_eq (m := key) ((Holds.new buf hb).write key) hk, sha512_length]

theorem HmacHolds.new (junk : Nat → BitVec 64) (buf key : List Byte) (hb : buf.length = 128) :
    HmacHolds (HmacHasher.new junk buf key) ((hmacKey junk buf key).map (· ^^^ 0x5c#8))
      ((hmacKey junk buf key).map (· ^^^ 0x36#8)) := by
  have h1 := (Holds.new buf hb).write (junk := junk) ((hmacKey junk buf key).map (· ^^^ 0x5c#8))
  have h2 := (Holds.new buf hb).write (junk := junk)
    (((hmacKey junk buf key).map (fun b => b ^^^ 0x5c#8)).map (fun b => b ^^^ (0x5c#8 ^^^ 0x36#8)))
  refine ⟨h1, ?_⟩
  unfold HmacHasher.new
  dsimp only
  have he : ((hmacKey junk buf key).map (fun b => b ^^^ 0x5c#8)).map
      (fun b => b ^^^ (0x5c#8 ^^^ 0x36#8)) = (hmacKey junk buf key).map (· ^^^ 0x36#8) := by
    rw [List.map_map]
    apply List.map_congr_left
    intro b _
    show b ^^^ 0x5c#8 ^^^ (0x5c#8 ^^^ 0x36#8) = b ^^^ 0x36#8
    rw [BitVec.xor_assoc, ← BitVec.xor_assoc 0x5c#8, BitVec.xor_self, BitVec.zero_xor]
  rw [he] at h2
  rw [he]
  exact h2

theorem HmacHolds.writes {junk : Nat → BitVec 64} (l : List (List Byte)) {h : HmacHasher}
    {o i : List Byte} (hh : HmacHolds h o i) :
    HmacHolds (l.foldl (HmacHasher.write junk) h) o (i ++ l.flatten) := by
  induction l generalizing h i with
  | nil => rw [List.flatten_nil, List.append_nil]; exact hh
  | cons d l ih =>
    rw [List.foldl_cons, List.flatten_cons, ← List.append_assoc]
    exact ih ⟨hh.outer, hh.inner.write d⟩

theorem HmacHolds.finalize {junk : Nat → BitVec 64} {h : HmacHasher} {o i : List Byte}
    (hh : HmacHolds h o i) (ho : o.length < 2 ^ 60) (hi : i.length < 2 ^ 61) :
    h.finalize junk = sha512 (o ++ sha512 i) := by
  unfold HmacHasher.finalize
  rw [finalize_eq hh.inner hi]
  refine finalize_eq (hh.outer.write (sha512 i)) ?_
  rw [List.length_append, sha512_length]
  omega

end Verif.Hash
