import Verif.Hash.Sha256NiCode
/-
  Model of src/sha256_ni.cpp and src/sha256_ni_rec.cpp: the functions around the straight-line code.
-/
namespace Verif.Hash.Ni
open Reg

/-- sha256_ni.cpp:62-71. -/
def loadState (s : Regs 32) : V4 × V4 :=
  let st0 := shuf32 ⟨s.a, s.b, s.c, s.d⟩ 0xB1
  let st1 := shuf32 ⟨s.e, s.f, s.g, s.h⟩ 0x1B
  (alignr st0 st1 8, blend16 st1 st0 0xF0)

/-- sha256_ni.cpp:81-84, with `junk` in the variables that are not assigned yet. -/
def loadBlock (junk : File) (st : V4 × V4) (input : List Byte) : File :=
  (((((junk.set S0 st.1).set S1 st.2).set T0 (shuf8 (V4.load input) mask)).set T1
    (shuf8 (V4.load (input.drop 16)) mask)).set T2 (shuf8 (V4.load (input.drop 32)) mask)).set T3
    (shuf8 (V4.load (input.drop 48)) mask)

/-- One block, sha256_ni.cpp:75-218. -/
def block (junk : File) (st : V4 × V4) (input : List Byte) : V4 × V4 :=
  let f := run Kni (loadBlock junk st input) niGroups.flatten
  ((f S0).add st.1, (f S1).add st.2)

/-- The loop, sha256_ni.cpp:73-222. -/
def blocks (junk : File) : Nat → V4 × V4 → List Byte → V4 × V4
  | 0, st, _ => st
  | n + 1, st, input => blocks junk n (block junk st input) (input.drop 64)

/-- The two vectors as they are stored, sha256_ni.cpp:224-229 (sha256_ni_rec.cpp:175-178). -/
def reorder (st : V4 × V4) : V4 × V4 :=
  let st0 := shuf32 st.1 0x1B
  let st1 := shuf32 st.2 0xB1
  (blend16 st0 st1 0xF0, alignr st1 st0 8)

/-- The array `state` from the two vectors. -/
def storeState (v : V4 × V4) : Regs 32 :=
  { a := v.1.x0, b := v.1.x1, c := v.1.x2, d := v.1.x3, e := v.2.x0, f := v.2.x1, g := v.2.x2,
    h := v.2.x3 }

/-- `compress_digest`, sha256_ni.cpp:55-230. -/
def compressDigest (junk : File) (s : Regs 32) (input : List Byte) (n : Nat) : Regs 32 :=
  storeState (reorder (blocks junk n (loadState s) input))

/-- sha256_ni.cpp:234. -/
def initState : Regs 32 :=
  { a := 0x6a09e667, b := 0xbb67ae85, c := 0x3c6ef372, d := 0xa54ff53a, e := 0x510e527f,
    f := 0x9b05688c, g := 0x1f83d9ab, h := 0x5be0cd19 }

/-- `final_blocks`, sha256_ni.cpp:240-241. -/
def finalBlocks (length : Nat) : Nat := (length % 64 + 9 + 63) / 64

/-- `last`, sha256_ni.cpp:242-249. -/
def lastBlocks (input : List Byte) : List Byte :=
  let remain := input.length % 64
  let l1 := fillBuf (List.replicate 128 0#8) 0 (input.drop (input.length / 64 * 64))
  let l2 := fillBuf l1 remain (List.replicate (128 - remain) 0#8)
  let l3 := fillBuf l2 remain [0x80#8]
  fillBuf l3 (finalBlocks input.length * 64 - 8)
    (toLE 8 (bswap64 (BitVec.ofNat 64 input.length * 8)))

/-- `sha256_ni`, sha256_ni.cpp:232-257. -/
def sha256Ni (junk : File) (input : List Byte) : List Byte :=
  let s1 := if input.length / 64 ≠ 0 then compressDigest junk initState input (input.length / 64)
    else initState
  let s2 := compressDigest junk s1 (lastBlocks input) (finalBlocks input.length)
  toLE 4 (bswap32 s2.a) ++ toLE 4 (bswap32 s2.b) ++ toLE 4 (bswap32 s2.c) ++ toLE 4 (bswap32 s2.d)
    ++ toLE 4 (bswap32 s2.e) ++ toLE 4 (bswap32 s2.f) ++ toLE 4 (bswap32 s2.g)
    ++ toLE 4 (bswap32 s2.h)

/-! ### The recursive version -/

/-- sha256_ni_rec.cpp:55-56 (218-219). -/
def abefInit : V4 := setEpi64 0x6a09e667bb67ae85 0x510e527f9b05688c
def cdghInit : V4 := setEpi64 0x3c6ef372a54ff53a 0x1f83d9ab5be0cd19

/-- sha256_ni_rec.cpp:59-60 (222-223). -/
def hpad0 : V4 := setEpi64 0x0000000000000000 0x0000000080000000
def hpad1 : V4 := setEpi64 0x0000010000000000 0x0000000000000000

/-- The variables at the start of an iteration, sha256_ni_rec.cpp:78-80 (252-256). -/
def startIter (junk : File) (h : V4 × V4) : File :=
  (((((junk.set S0 abefInit).set S1 cdghInit).set H0 h.1).set H1 h.2).set P0 hpad0).set P1 hpad1

/-- sha256_ni_rec.cpp:170-178 (403-417). -/
def endIter (f : File) : V4 × V4 := reorder ((f S0).add abefInit, (f S1).add cdghInit)

/-- One iteration, sha256_ni_rec.cpp:78-178. -/
def iter (junk : File) (h : V4 × V4) : V4 × V4 :=
  endIter (run Krec (startIter junk h) recGroups.flatten)

/-- `n` times. -/
def times {β : Type} (f : β → β) : Nat → β → β
  | 0, x => x
  | n + 1, x => times f n (f x)

/-- sha256_ni_rec.cpp:71-74 and 182-185. -/
def loadHash (hash : List Byte) : V4 × V4 :=
  (shuf8 (V4.load hash) mask, shuf8 (V4.load (hash.drop 16)) mask)

def storeHash (h : V4 × V4) : List Byte := (shuf8 h.1 mask).bytes ++ (shuf8 h.2 mask).bytes

/-- `recursive_sha256_ni`, sha256_ni_rec.cpp:25-186: the 32 bytes of `hash` afterwards. -/
def recursiveNi (junk : File) (hash : List Byte) (numIters : BitVec 64) : List Byte :=
  if numIters.toNat = 0 then hash
  else storeHash (times (iter junk) numIters.toNat (loadHash hash))

/-- One iteration of the version for two hashes, sha256_ni_rec.cpp:252-417. -/
def iter2 (junk : Bool → File) (h : Bool → V4 × V4) : Bool → V4 × V4 :=
  let f := run2 Krec2 (fun p => startIter (junk p) (h p)) rec2Groups.flatten
  fun p => endIter (f p)

/-- `recursive_sha256_ni_x2`, sha256_ni_rec.cpp:188-429: the 64 bytes of `hash` afterwards. -/
def recursiveNi2 (junk : Bool → File) (hash : List Byte) (numIters : BitVec 64) : List Byte :=
  if numIters.toNat = 0 then hash
  else
    let h := times (iter2 junk) numIters.toNat
      (fun p => loadHash (hash.drop (if p then 32 else 0)))
    storeHash (h false) ++ storeHash (h true)

end Verif.Hash.Ni
