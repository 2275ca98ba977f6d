import Verif.Hash.Sha256ArmCode
/-
  Model of src/sha256_arm.cpp and src/sha256_arm_rec.cpp: the functions around the straight-line code.
-/
namespace Verif.Hash.Arm
open Reg
open Ni (V4 times)

/-- sha256_arm.cpp:50-51. -/
def loadState (s : Regs 32) : V4 × V4 := (⟨s.a, s.b, s.c, s.d⟩, ⟨s.e, s.f, s.g, s.h⟩)

/-- sha256_arm.cpp:62-70, with `junk` in the variables that are not assigned yet. -/
def loadBlock (junk : File) (st : V4 × V4) (input : List Byte) : File :=
  (((((junk.set S0 st.1).set S1 st.2).set T0 (rev32 (V4.load input))).set T1
    (rev32 (V4.load (input.drop 16)))).set T2 (rev32 (V4.load (input.drop 32)))).set T3
    (rev32 (V4.load (input.drop 48)))

/-- One block, sha256_arm.cpp:55-194. -/
def block (junk : File) (st : V4 × V4) (input : List Byte) : V4 × V4 :=
  let f := run Karm (loadBlock junk st input) armGroups.flatten
  ((f S0).add st.1, (f S1).add st.2)

/-- The loop, sha256_arm.cpp:53-198. -/
def blocks (junk : File) : Nat → V4 × V4 → List Byte → V4 × V4
  | 0, st, _ => st
  | n + 1, st, input => blocks junk n (block junk st input) (input.drop 64)

/-- sha256_arm.cpp:201-202. -/
def storeState (v : V4 × V4) : Regs 32 :=
  { a := v.1.x0, b := v.1.x1, c := v.1.x2, d := v.1.x3, e := v.2.x0, f := v.2.x1, g := v.2.x2,
    h := v.2.x3 }

/-- `compress_digest`, sha256_arm.cpp:45-203. -/
def compressDigest (junk : File) (s : Regs 32) (input : List Byte) (n : Nat) : Regs 32 :=
  storeState (blocks junk n (loadState s) input)

/-- sha256_arm.cpp:207. -/
def initState : Regs 32 :=
  { a := 0x6a09e667, b := 0xbb67ae85, c := 0x3c6ef372, d := 0xa54ff53a, e := 0x510e527f,
    f := 0x9b05688c, g := 0x1f83d9ab, h := 0x5be0cd19 }

/-- `final_blocks`, sha256_arm.cpp:213-214. -/
def finalBlocks (length : Nat) : Nat := (length % 64 + 9 + 63) / 64

/-- `last`, sha256_arm.cpp:215-222. -/
def lastBlocks (input : List Byte) : List Byte :=
  let remain := input.length % 64
  let l1 := fillBuf (List.replicate 128 0#8) 0 (input.drop (input.length / 64 * 64))
  let l2 := fillBuf l1 remain (List.replicate (128 - remain) 0#8)
  let l3 := fillBuf l2 remain [0x80#8]
  fillBuf l3 (finalBlocks input.length * 64 - 8)
    (toLE 8 (bswap64 (BitVec.ofNat 64 input.length * 8)))

/-- `sha256_arm`, sha256_arm.cpp:205-230. -/
def sha256Arm (junk : File) (input : List Byte) : List Byte :=
  let s1 := if input.length / 64 ≠ 0 then compressDigest junk initState input (input.length / 64)
    else initState
  let s2 := compressDigest junk s1 (lastBlocks input) (finalBlocks input.length)
  toLE 4 (bswap32 s2.a) ++ toLE 4 (bswap32 s2.b) ++ toLE 4 (bswap32 s2.c) ++ toLE 4 (bswap32 s2.d)
    ++ toLE 4 (bswap32 s2.e) ++ toLE 4 (bswap32 s2.f) ++ toLE 4 (bswap32 s2.g)
    ++ toLE 4 (bswap32 s2.h)

/-! ### The recursive version -/

/-- sha256_arm_rec.cpp:47-50 (194-197). -/
def abcdInit : V4 := ⟨0x6a09e667, 0xbb67ae85, 0x3c6ef372, 0xa54ff53a⟩
def efghInit : V4 := ⟨0x510e527f, 0x9b05688c, 0x1f83d9ab, 0x5be0cd19⟩

/-- sha256_arm_rec.cpp:53-56 (200-203). -/
def hpad0 : V4 := ⟨0x80000000, 0, 0, 0⟩
def hpad1 : V4 := ⟨0, 0, 0, 0x100⟩

/-- The variables at the start of an iteration, sha256_arm_rec.cpp:75-77 (234-238). -/
def startIter (junk : File) (h : V4 × V4) : File :=
  (((((junk.set S0 abcdInit).set S1 efghInit).set H0 h.1).set H1 h.2).set P0 hpad0).set P1 hpad1

/-- sha256_arm_rec.cpp:156-158 (364-368). -/
def endIter (f : File) : V4 × V4 := ((f S0).add abcdInit, (f S1).add efghInit)

/-- One iteration, sha256_arm_rec.cpp:75-158. -/
def iter (junk : File) (h : V4 × V4) : V4 × V4 :=
  endIter (run Krec (startIter junk h) recGroups.flatten)

/-- sha256_arm_rec.cpp:68-71 (223-230). -/
def loadHash (hash : List Byte) : V4 × V4 :=
  (rev32 (V4.load hash), rev32 (V4.load (hash.drop 16)))

/-- sha256_arm_rec.cpp:162-165 (372-379). -/
def storeHash (h : V4 × V4) : List Byte := (rev32 h.1).bytes ++ (rev32 h.2).bytes

/-- `recursive_sha256_arm`, sha256_arm_rec.cpp:21-166: the 32 bytes of `hash` afterwards. -/
def recursiveArm (junk : File) (hash : List Byte) (numIters : BitVec 64) : List Byte :=
  if numIters.toNat = 0 then hash
  else storeHash (times (iter junk) numIters.toNat (loadHash hash))

/-- One iteration of the version for two hashes, sha256_arm_rec.cpp:234-368. -/
def iter2 (junk : Bool → File) (h : Bool → V4 × V4) : Bool → V4 × V4 :=
  let f := run2 Krec2 (fun p => startIter (junk p) (h p)) rec2Groups.flatten
  fun p => endIter (f p)

/-- `recursive_sha256_arm_x2`, sha256_arm_rec.cpp:168-380: the 64 bytes of `hash` afterwards. -/
def recursiveArm2 (junk : Bool → File) (hash : List Byte) (numIters : BitVec 64) : List Byte :=
  if numIters.toNat = 0 then hash
  else
    let h := times (iter2 junk) numIters.toNat
      (fun p => loadHash (hash.drop (if p then 32 else 0)))
    storeHash (h false) ++ storeHash (h true)

end Verif.Hash.Arm
