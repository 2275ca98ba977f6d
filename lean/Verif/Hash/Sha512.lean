import Verif.Hash.Spec
/-
  src/sha512.cpp and src/hmac_sha512.cpp: the streaming SHA-512 and HMAC used for keys and plots.

  A little-endian machine is assumed (as the code does: `memcpy` into an integer and `bswap_64`).
-/
namespace Verif.Hash

/-- A register file or array. -/
def upd {β : Type} (f : Nat → β) (i : Nat) (v : β) : Nat → β := fun j => if j = i then v else f j

/-- An integer from bytes in memory, as `memcpy` gives it: the first byte is the lowest. -/
def ofLE (w : Nat) (l : List Byte) : BitVec w := l.foldr (fun b x => x <<< 8 ||| b.setWidth w) 0

/-- The bytes of an integer in memory. -/
def toLE {w : Nat} (n : Nat) (x : BitVec w) : List Byte :=
  (List.range n).map fun i => (x >>> (8 * i)).setWidth 8

/-- `bswap_32`, sha512.cpp:11-13 (the same in sha256_avx2.cpp:99-101). -/
def bswap32 (x : BitVec 32) : BitVec 32 :=
  (x &&& 0xFF) <<< 24 ||| (x &&& 0xFF00) <<< 8 ||| (x &&& 0xFF0000) >>> 8 ||| (x &&& 0xFF000000) >>> 24

/-- `bswap_64`, sha512.cpp:15-17. -/
def bswap64 (x : BitVec 64) : BitVec 64 :=
  (bswap32 (x.setWidth 32)).setWidth 64 <<< 32 ||| (bswap32 ((x >>> 32).setWidth 32)).setWidth 64

/-- `ReadBE64`, sha512.cpp:19-24: eight bytes at an offset. -/
def readBE64 (l : List Byte) (off : Nat) : BitVec 64 := bswap64 (ofLE 64 ((l.drop off).take 8))

/-- `WriteBE64`, sha512.cpp:26-30. -/
def writeBE64 (x : BitVec 64) : List Byte := toLE 8 (bswap64 x)

/-- sha512.cpp:36-41. -/
def ch64 (x y z : BitVec 64) : BitVec 64 := z ^^^ (x &&& (y ^^^ z))
def maj64 (x y z : BitVec 64) : BitVec 64 := (x &&& y) ||| (z &&& (x ||| y))
def bigSigma0 (x : BitVec 64) : BitVec 64 :=
  (x >>> 28 ||| x <<< 36) ^^^ (x >>> 34 ||| x <<< 30) ^^^ (x >>> 39 ||| x <<< 25)
def bigSigma1 (x : BitVec 64) : BitVec 64 :=
  (x >>> 14 ||| x <<< 50) ^^^ (x >>> 18 ||| x <<< 46) ^^^ (x >>> 41 ||| x <<< 23)
def smallSigma0 (x : BitVec 64) : BitVec 64 :=
  (x >>> 1 ||| x <<< 63) ^^^ (x >>> 8 ||| x <<< 56) ^^^ (x >>> 7)
def smallSigma1 (x : BitVec 64) : BitVec 64 :=
  (x >>> 19 ||| x <<< 45) ^^^ (x >>> 61 ||| x <<< 3) ^^^ (x >>> 6)

/-- `Round`, sha512.cpp:44-50, on a register file `r` (`a` to `h` are 0 to 7). `i` gives the registers
    passed for the eight parameters. -/
def round64 (r : Nat → BitVec 64) (i : List Nat) (k w : BitVec 64) : Nat → BitVec 64 :=
  let v := fun j => r (i.getD j 0)
  let t1 := v 7 + bigSigma1 (v 4) + ch64 (v 4) (v 5) (v 6) + k + w
  let t2 := bigSigma0 (v 0) + maj64 (v 0) (v 1) (v 2)
  upd (upd r (i.getD 3 0) (v 3 + t1)) (i.getD 7 0) (t1 + t2)

/-- The last argument of a line of `Transform`, for the variable `w`:
    `w = ReadBE64(chunk + n)`, `w += sigma1(i) + j + sigma0(k)`, or the same sum not stored. -/
inductive Src where
  | load (n : Nat)
  | add (i j k : Nat)
  | peek (i j k : Nat)
deriving DecidableEq

/-- A line of `Transform`: registers, constant, index of `w`, argument. -/
structure Row where
  regs : List Nat
  k : BitVec 64
  w : Nat
  src : Src
deriving DecidableEq

/-- `Transform`, sha512.cpp:71-154, one row for each of its lines. -/
def transformRows : List Row := [
  ⟨[0, 1, 2, 3, 4, 5, 6, 7], 0x428a2f98d728ae22, 0, .load 0⟩,
  ⟨[7, 0, 1, 2, 3, 4, 5, 6], 0x7137449123ef65cd, 1, .load 8⟩,
  ⟨[6, 7, 0, 1, 2, 3, 4, 5], 0xb5c0fbcfec4d3b2f, 2, .load 16⟩,
  ⟨[5, 6, 7, 0, 1, 2, 3, 4], 0xe9b5dba58189dbbc, 3, .load 24⟩,
  ⟨[4, 5, 6, 7, 0, 1, 2, 3], 0x3956c25bf348b538, 4, .load 32⟩,
  ⟨[3, 4, 5, 6, 7, 0, 1, 2], 0x59f111f1b605d019, 5, .load 40⟩,
  ⟨[2, 3, 4, 5, 6, 7, 0, 1], 0x923f82a4af194f9b, 6, .load 48⟩,
  ⟨[1, 2, 3, 4, 5, 6, 7, 0], 0xab1c5ed5da6d8118, 7, .load 56⟩,
  ⟨[0, 1, 2, 3, 4, 5, 6, 7], 0xd807aa98a3030242, 8, .load 64⟩,
  ⟨[7, 0, 1, 2, 3, 4, 5, 6], 0x12835b0145706fbe, 9, .load 72⟩,
  ⟨[6, 7, 0, 1, 2, 3, 4, 5], 0x243185be4ee4b28c, 10, .load 80⟩,
  ⟨[5, 6, 7, 0, 1, 2, 3, 4], 0x550c7dc3d5ffb4e2, 11, .load 88⟩,
  ⟨[4, 5, 6, 7, 0, 1, 2, 3], 0x72be5d74f27b896f, 12, .load 96⟩,
  ⟨[3, 4, 5, 6, 7, 0, 1, 2], 0x80deb1fe3b1696b1, 13, .load 104⟩,
  ⟨[2, 3, 4, 5, 6, 7, 0, 1], 0x9bdc06a725c71235, 14, .load 112⟩,
  ⟨[1, 2, 3, 4, 5, 6, 7, 0], 0xc19bf174cf692694, 15, .load 120⟩,
  ⟨[0, 1, 2, 3, 4, 5, 6, 7], 0xe49b69c19ef14ad2, 0, .add 14 9 1⟩,
  ⟨[7, 0, 1, 2, 3, 4, 5, 6], 0xefbe4786384f25e3, 1, .add 15 10 2⟩,
  ⟨[6, 7, 0, 1, 2, 3, 4, 5], 0x0fc19dc68b8cd5b5, 2, .add 0 11 3⟩,
  ⟨[5, 6, 7, 0, 1, 2, 3, 4], 0x240ca1cc77ac9c65, 3, .add 1 12 4⟩,
  ⟨[4, 5, 6, 7, 0, 1, 2, 3], 0x2de92c6f592b0275, 4, .add 2 13 5⟩,
  ⟨[3, 4, 5, 6, 7, 0, 1, 2], 0x4a7484aa6ea6e483, 5, .add 3 14 6⟩,
  ⟨[2, 3, 4, 5, 6, 7, 0, 1], 0x5cb0a9dcbd41fbd4, 6, .add 4 15 7⟩,
  ⟨[1, 2, 3, 4, 5, 6, 7, 0], 0x76f988da831153b5, 7, .add 5 0 8⟩,
  ⟨[0, 1, 2, 3, 4, 5, 6, 7], 0x983e5152ee66dfab, 8, .add 6 1 9⟩,
  ⟨[7, 0, 1, 2, 3, 4, 5, 6], 0xa831c66d2db43210, 9, .add 7 2 10⟩,
  ⟨[6, 7, 0, 1, 2, 3, 4, 5], 0xb00327c898fb213f, 10, .add 8 3 11⟩,
  ⟨[5, 6, 7, 0, 1, 2, 3, 4], 0xbf597fc7beef0ee4, 11, .add 9 4 12⟩,
  ⟨[4, 5, 6, 7, 0, 1, 2, 3], 0xc6e00bf33da88fc2, 12, .add 10 5 13⟩,
  ⟨[3, 4, 5, 6, 7, 0, 1, 2], 0xd5a79147930aa725, 13, .add 11 6 14⟩,
  ⟨[2, 3, 4, 5, 6, 7, 0, 1], 0x06ca6351e003826f, 14, .add 12 7 15⟩,
  ⟨[1, 2, 3, 4, 5, 6, 7, 0], 0x142929670a0e6e70, 15, .add 13 8 0⟩,
  ⟨[0, 1, 2, 3, 4, 5, 6, 7], 0x27b70a8546d22ffc, 0, .add 14 9 1⟩,
  ⟨[7, 0, 1, 2, 3, 4, 5, 6], 0x2e1b21385c26c926, 1, .add 15 10 2⟩,
  ⟨[6, 7, 0, 1, 2, 3, 4, 5], 0x4d2c6dfc5ac42aed, 2, .add 0 11 3⟩,
  ⟨[5, 6, 7, 0, 1, 2, 3, 4], 0x53380d139d95b3df, 3, .add 1 12 4⟩,
  ⟨[4, 5, 6, 7, 0, 1, 2, 3], 0x650a73548baf63de, 4, .add 2 13 5⟩,
  ⟨[3, 4, 5, 6, 7, 0, 1, 2], 0x766a0abb3c77b2a8, 5, .add 3 14 6⟩,
  ⟨[2, 3, 4, 5, 6, 7, 0, 1], 0x81c2c92e47edaee6, 6, .add 4 15 7⟩,
  ⟨[1, 2, 3, 4, 5, 6, 7, 0], 0x92722c851482353b, 7, .add 5 0 8⟩,
  ⟨[0, 1, 2, 3, 4, 5, 6, 7], 0xa2bfe8a14cf10364, 8, .add 6 1 9⟩,
  ⟨[7, 0, 1, 2, 3, 4, 5, 6], 0xa81a664bbc423001, 9, .add 7 2 10⟩,
  ⟨[6, 7, 0, 1, 2, 3, 4, 5], 0xc24b8b70d0f89791, 10, .add 8 3 11⟩,
  ⟨[5, 6, 7, 0, 1, 2, 3, 4], 0xc76c51a30654be30, 11, .add 9 4 12⟩,
  ⟨[4, 5, 6, 7, 0, 1, 2, 3], 0xd192e819d6ef5218, 12, .add 10 5 13⟩,
  ⟨[3, 4, 5, 6, 7, 0, 1, 2], 0xd69906245565a910, 13, .add 11 6 14⟩,
  ⟨[2, 3, 4, 5, 6, 7, 0, 1], 0xf40e35855771202a, 14, .add 12 7 15⟩,
  ⟨[1, 2, 3, 4, 5, 6, 7, 0], 0x106aa07032bbd1b8, 15, .add 13 8 0⟩,
  ⟨[0, 1, 2, 3, 4, 5, 6, 7], 0x19a4c116b8d2d0c8, 0, .add 14 9 1⟩,
  ⟨[7, 0, 1, 2, 3, 4, 5, 6], 0x1e376c085141ab53, 1, .add 15 10 2⟩,
  ⟨[6, 7, 0, 1, 2, 3, 4, 5], 0x2748774cdf8eeb99, 2, .add 0 11 3⟩,
  ⟨[5, 6, 7, 0, 1, 2, 3, 4], 0x34b0bcb5e19b48a8, 3, .add 1 12 4⟩,
  ⟨[4, 5, 6, 7, 0, 1, 2, 3], 0x391c0cb3c5c95a63, 4, .add 2 13 5⟩,
  ⟨[3, 4, 5, 6, 7, 0, 1, 2], 0x4ed8aa4ae3418acb, 5, .add 3 14 6⟩,
  ⟨[2, 3, 4, 5, 6, 7, 0, 1], 0x5b9cca4f7763e373, 6, .add 4 15 7⟩,
  ⟨[1, 2, 3, 4, 5, 6, 7, 0], 0x682e6ff3d6b2b8a3, 7, .add 5 0 8⟩,
  ⟨[0, 1, 2, 3, 4, 5, 6, 7], 0x748f82ee5defb2fc, 8, .add 6 1 9⟩,
  ⟨[7, 0, 1, 2, 3, 4, 5, 6], 0x78a5636f43172f60, 9, .add 7 2 10⟩,
  ⟨[6, 7, 0, 1, 2, 3, 4, 5], 0x84c87814a1f0ab72, 10, .add 8 3 11⟩,
  ⟨[5, 6, 7, 0, 1, 2, 3, 4], 0x8cc702081a6439ec, 11, .add 9 4 12⟩,
  ⟨[4, 5, 6, 7, 0, 1, 2, 3], 0x90befffa23631e28, 12, .add 10 5 13⟩,
  ⟨[3, 4, 5, 6, 7, 0, 1, 2], 0xa4506cebde82bde9, 13, .add 11 6 14⟩,
  ⟨[2, 3, 4, 5, 6, 7, 0, 1], 0xbef9a3f7b2c67915, 14, .add 12 7 15⟩,
  ⟨[1, 2, 3, 4, 5, 6, 7, 0], 0xc67178f2e372532b, 15, .add 13 8 0⟩,
  ⟨[0, 1, 2, 3, 4, 5, 6, 7], 0xca273eceea26619c, 0, .add 14 9 1⟩,
  ⟨[7, 0, 1, 2, 3, 4, 5, 6], 0xd186b8c721c0c207, 1, .add 15 10 2⟩,
  ⟨[6, 7, 0, 1, 2, 3, 4, 5], 0xeada7dd6cde0eb1e, 2, .add 0 11 3⟩,
  ⟨[5, 6, 7, 0, 1, 2, 3, 4], 0xf57d4f7fee6ed178, 3, .add 1 12 4⟩,
  ⟨[4, 5, 6, 7, 0, 1, 2, 3], 0x06f067aa72176fba, 4, .add 2 13 5⟩,
  ⟨[3, 4, 5, 6, 7, 0, 1, 2], 0x0a637dc5a2c898a6, 5, .add 3 14 6⟩,
  ⟨[2, 3, 4, 5, 6, 7, 0, 1], 0x113f9804bef90dae, 6, .add 4 15 7⟩,
  ⟨[1, 2, 3, 4, 5, 6, 7, 0], 0x1b710b35131c471b, 7, .add 5 0 8⟩,
  ⟨[0, 1, 2, 3, 4, 5, 6, 7], 0x28db77f523047d84, 8, .add 6 1 9⟩,
  ⟨[7, 0, 1, 2, 3, 4, 5, 6], 0x32caab7b40c72493, 9, .add 7 2 10⟩,
  ⟨[6, 7, 0, 1, 2, 3, 4, 5], 0x3c9ebe0a15c9bebc, 10, .add 8 3 11⟩,
  ⟨[5, 6, 7, 0, 1, 2, 3, 4], 0x431d67c49c100d4c, 11, .add 9 4 12⟩,
  ⟨[4, 5, 6, 7, 0, 1, 2, 3], 0x4cc5d4becb3e42b6, 12, .add 10 5 13⟩,
  ⟨[3, 4, 5, 6, 7, 0, 1, 2], 0x597f299cfc657e2a, 13, .add 11 6 14⟩,
  ⟨[2, 3, 4, 5, 6, 7, 0, 1], 0x5fcb6fab3ad6faec, 14, .peek 12 7 15⟩,
  ⟨[1, 2, 3, 4, 5, 6, 7, 0], 0x6c44198c4a475817, 15, .peek 13 8 0⟩]

/-- Value of the last argument. -/
def Row.value (chunk : List Byte) (w : Nat → BitVec 64) (r : Row) : BitVec 64 :=
  match r.src with
  | .load n => readBE64 chunk n
  | .add i j k => w r.w + (smallSigma1 (w i) + w j + smallSigma0 (w k))
  | .peek i j k => w r.w + smallSigma1 (w i) + w j + smallSigma0 (w k)

/-- The variables `w0` to `w15` after a line. -/
def Row.store (chunk : List Byte) (w : Nat → BitVec 64) (r : Row) : Nat → BitVec 64 :=
  match r.src with
  | .peek .. => w
  | _ => upd w r.w (r.value chunk w)

/-- One line. -/
def Row.exec (chunk : List Byte) (st : (Nat → BitVec 64) × (Nat → BitVec 64)) (r : Row) :
    (Nat → BitVec 64) × (Nat → BitVec 64) :=
  (round64 st.1 r.regs r.k (r.value chunk st.2), r.store chunk st.2)

/-- The array `s[8]` as a register file and back. -/
def Regs.file {w : Nat} (s : Regs w) : Nat → BitVec w
  | 0 => s.a
  | 1 => s.b
  | 2 => s.c
  | 3 => s.d
  | 4 => s.e
  | 5 => s.f
  | 6 => s.g
  | _ => s.h

def Regs.ofFile {w : Nat} (r : Nat → BitVec w) : Regs w :=
  { a := r 0, b := r 1, c := r 2, d := r 3, e := r 4, f := r 5, g := r 6, h := r 7 }

/-- `Transform`, sha512.cpp:66-164. `junk` is what the variables `w0` to `w15` hold before they are
    assigned. -/
def transform (junk : Nat → BitVec 64) (s : Regs 64) (chunk : List Byte) : Regs 64 :=
  s.add (Regs.ofFile (transformRows.foldl (Row.exec chunk) (s.file, junk)).1)

/-- `class SHA512`, include/sha512.h. -/
structure Hasher where
  s : Regs 64
  buf : List Byte
  bytes : BitVec 64

/-- `Initialize`, sha512.cpp:53-63. -/
def initRegs : Regs 64 :=
  { a := 0x6a09e667f3bcc908, b := 0xbb67ae8584caa73b, c := 0x3c6ef372fe94f82b,
    d := 0xa54ff53a5f1d36f1, e := 0x510e527fade682d1, f := 0x9b05688c2b3e6c1f,
    g := 0x1f83d9abfb41bd6b, h := 0x5be0cd19137e2179 }

/-- A new object, sha512.cpp:171-174; the buffer holds anything. -/
def Hasher.new (buf : List Byte) : Hasher := { s := initRegs, buf := buf, bytes := 0 }

/-- `memcpy(buf + off, data, n)`. -/
def fillBuf (buf : List Byte) (off : Nat) (data : List Byte) : List Byte :=
  buf.take off ++ data ++ buf.drop (off + data.length)

/-- `bufsize`, sha512.cpp:179. -/
def Hasher.bufsize (h : Hasher) : Nat := h.bytes.toNat % 128

/-- `bufsize && bufsize + len >= 128`, sha512.cpp:180. -/
def Hasher.fills (h : Hasher) (data : List Byte) : Bool :=
  decide (h.bufsize ≠ 0) && decide (128 ≤ h.bufsize + data.length)

/-- sha512.cpp:181-186: fill the buffer and process it. -/
def Hasher.flush (junk : Nat → BitVec 64) (h : Hasher) (data : List Byte) : Hasher × List Byte :=
  if h.fills data then
    ({ s := transform junk h.s (fillBuf h.buf h.bufsize (data.take (128 - h.bufsize)))
       buf := fillBuf h.buf h.bufsize (data.take (128 - h.bufsize))
       bytes := h.bytes + BitVec.ofNat 64 (128 - h.bufsize) },
     data.drop (128 - h.bufsize))
  else (h, data)

/-- sha512.cpp:188-193: full chunks from the source. The first argument bounds the number of
    iterations; the length of the data is enough. -/
def Hasher.bulk (junk : Nat → BitVec 64) : Nat → Hasher × List Byte → Hasher × List Byte
  | 0, x => x
  | n + 1, x =>
    if 128 ≤ x.2.length then
      Hasher.bulk junk n
        ({ s := transform junk x.1.s (x.2.take 128), buf := x.1.buf, bytes := x.1.bytes + 128 },
         x.2.drop 128)
    else x

/-- sha512.cpp:194-198: keep what remains. `bufsize` is that of line 179, or 0 after the buffer was
    processed. -/
def Hasher.keep (bufsize : Nat) (x : Hasher × List Byte) : Hasher :=
  if x.2 ≠ [] then
    { s := x.1.s, buf := fillBuf x.1.buf bufsize x.2,
      bytes := x.1.bytes + BitVec.ofNat 64 x.2.length }
  else x.1

/-- `SHA512::Write`, sha512.cpp:176-200. -/
def Hasher.write (junk : Nat → BitVec 64) (h : Hasher) (data : List Byte) : Hasher :=
  Hasher.keep (if h.fills data then 0 else h.bufsize)
    (Hasher.bulk junk data.length (h.flush junk data))

/-- `pad`, sha512.cpp:204. -/
def padArray : List Byte := 0x80#8 :: List.replicate 127 0#8

/-- `sizedesc`, sha512.cpp:205-206. -/
def Hasher.sizedesc (h : Hasher) : List Byte := List.replicate 8 0#8 ++ writeBE64 (h.bytes <<< 3)

/-- `SHA512::Finalize`, sha512.cpp:202-217. -/
def Hasher.finalize (junk : Nat → BitVec 64) (h : Hasher) : List Byte :=
  let t := (h.write junk (padArray.take (1 + ((239 - h.bytes.toNat % 128) % 128)))).write junk
    h.sizedesc
  writeBE64 t.s.a ++ writeBE64 t.s.b ++ writeBE64 t.s.c ++ writeBE64 t.s.d
    ++ writeBE64 t.s.e ++ writeBE64 t.s.f ++ writeBE64 t.s.g ++ writeBE64 t.s.h

/-- `SHA512::Reset`, sha512.cpp:219-224. -/
def Hasher.reset (h : Hasher) : Hasher := { h with bytes := 0, s := initRegs }

/-- Several writes. -/
def Hasher.writes (junk : Nat → BitVec 64) (h : Hasher) (l : List (List Byte)) : Hasher :=
  l.foldl (Hasher.write junk) h

/-- `class HMAC_SHA512`, include/hmac_sha512.h. -/
structure HmacHasher where
  outer : Hasher
  inner : Hasher

/-- `rkey` before the key is mixed, hmac_sha512.cpp:11-18. -/
def hmacKey (junk : Nat → BitVec 64) (buf key : List Byte) : List Byte :=
  if key.length ≤ 128 then key ++ List.replicate (128 - key.length) 0#8
  else ((Hasher.new buf).write junk key).finalize junk ++ List.replicate 64 0#8

/-- `HMAC_SHA512::HMAC_SHA512`, hmac_sha512.cpp:9-27. -/
def HmacHasher.new (junk : Nat → BitVec 64) (buf key : List Byte) : HmacHasher :=
  let r1 := (hmacKey junk buf key).map (fun b => b ^^^ 0x5c#8)
  let r2 := r1.map (fun b => b ^^^ (0x5c#8 ^^^ 0x36#8))
  { outer := (Hasher.new buf).write junk r1, inner := (Hasher.new buf).write junk r2 }

/-- `HMAC_SHA512::Write`, include/hmac_sha512.h:26-30. -/
def HmacHasher.write (junk : Nat → BitVec 64) (h : HmacHasher) (data : List Byte) : HmacHasher :=
  { h with inner := h.inner.write junk data }

/-- `HMAC_SHA512::Finalize`, hmac_sha512.cpp:29-34. -/
def HmacHasher.finalize (junk : Nat → BitVec 64) (h : HmacHasher) : List Byte :=
  (h.outer.write junk (h.inner.finalize junk)).finalize junk

end Verif.Hash
