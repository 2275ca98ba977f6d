import Verif.Hash.Sha512
import Verif.Codec.Vdf
/-
  Model of kernel/sha256.cl, kernel/rsha256.cl and src/OCL_VDF.cpp: the check of a proof of time with
  OpenCL. A work item touches its own 32 bytes and its own counter, so a launch acts on each lane
  separately.
-/
namespace Verif.Hash.Ocl

/-- `k` and `h_init`, sha256.cl:8-18. -/
def k : List (BitVec 32) := [
  0x428a2f98, 0x71374491, 0xb5c0fbcf, 0xe9b5dba5, 0x3956c25b, 0x59f111f1, 0x923f82a4, 0xab1c5ed5,
  0xd807aa98, 0x12835b01, 0x243185be, 0x550c7dc3, 0x72be5d74, 0x80deb1fe, 0x9bdc06a7, 0xc19bf174,
  0xe49b69c1, 0xefbe4786, 0x0fc19dc6, 0x240ca1cc, 0x2de92c6f, 0x4a7484aa, 0x5cb0a9dc, 0x76f988da,
  0x983e5152, 0xa831c66d, 0xb00327c8, 0xbf597fc7, 0xc6e00bf3, 0xd5a79147, 0x06ca6351, 0x14292967,
  0x27b70a85, 0x2e1b2138, 0x4d2c6dfc, 0x53380d13, 0x650a7354, 0x766a0abb, 0x81c2c92e, 0x92722c85,
  0xa2bfe8a1, 0xa81a664b, 0xc24b8b70, 0xc76c51a3, 0xd192e819, 0xd6990624, 0xf40e3585, 0x106aa070,
  0x19a4c116, 0x1e376c08, 0x2748774c, 0x34b0bcb5, 0x391c0cb3, 0x4ed8aa4a, 0x5b9cca4f, 0x682e6ff3,
  0x748f82ee, 0x78a5636f, 0x84c87814, 0x8cc70208, 0x90befffa, 0xa4506ceb, 0xbef9a3f7, 0xc67178f2]

def hInit : Regs 32 :=
  { a := 0x6a09e667, b := 0xbb67ae85, c := 0x3c6ef372, d := 0xa54ff53a, e := 0x510e527f,
    f := 0x9b05688c, g := 0x1f83d9ab, h := 0x5be0cd19 }

/-- `Zrotr`, sha256.cl:21: the function `rotate` of OpenCL turns to the left. -/
def zrotr (x : BitVec 32) (b : Nat) : BitVec 32 := x.rotateLeft b

/-- sha256.cl:23-29. -/
def zr25 (n : BitVec 32) : BitVec 32 := zrotr n 25 ^^^ zrotr n 14 ^^^ n >>> 3
def zr15 (n : BitVec 32) : BitVec 32 := zrotr n 15 ^^^ zrotr n 13 ^^^ n >>> 10
def zr26 (n : BitVec 32) : BitVec 32 := zrotr n 26 ^^^ zrotr n 21 ^^^ zrotr n 7
def zr30 (n : BitVec 32) : BitVec 32 := zrotr n 30 ^^^ zrotr n 19 ^^^ zrotr n 10
def ch (x y z : BitVec 32) : BitVec 32 := z ^^^ (x &&& (y ^^^ z))
def ma (x y z : BitVec 32) : BitVec 32 := (x &&& z) ||| (y &&& (x ||| z))

/-- sha256.cl:45-47, with `junk` in the rest of the array. -/
def fillLow (junk msg : Nat → BitVec 32) : Nat → BitVec 32 := fun i => if i < 16 then msg i else junk i

/-- One step of the loop of sha256.cl:52-57. -/
def fillStep (w : Nat → BitVec 32) (i : Nat) : Nat → BitVec 32 :=
  upd w i (w (i - 16) + zr25 (w (i - 15)) + w (i - 7) + zr15 (w (i - 2)))

/-- `w` after both loops. -/
def fill (junk msg : Nat → BitVec 32) : Nat → BitVec 32 :=
  ((List.range 48).map (· + 16)).foldl fillStep (fillLow junk msg)

/-- The body of the loop of sha256.cl:71-90. -/
def round (w : Nat → BitVec 32) (s : Regs 32) (i : Nat) : Regs 32 :=
  let temp1 := s.h + zr26 s.e + ch s.e s.f s.g + k.getD i 0 + w i
  let temp2 := zr30 s.a + ma s.a s.b s.c
  { h := s.g, g := s.f, f := s.e, e := s.d + temp1, d := s.c, c := s.b, b := s.a, a := temp1 + temp2 }

/-- `sha256`, sha256.cl:37-100. -/
def sha (junk msg : Nat → BitVec 32) (s : Regs 32) : Regs 32 :=
  let t := (List.range 64).foldl (round (fill junk msg)) s
  { a := s.a + t.a, b := s.b + t.b, c := s.c + t.c, d := s.d + t.d, e := s.e + t.e, f := s.f + t.f,
    g := s.g + t.g, h := s.h + t.h }

/-- `msg` before the loop, rsha256.cl:20-31. -/
def message (hash : List Byte) : Nat → BitVec 32 := fun i =>
  if i < 8 then bswap32 (ofLE 32 ((hash.drop (4 * i)).take 4))
  else if i = 8 then bswap32 0x80 else if i < 15 then 0 else 256

/-- rsha256.cl:48-50. -/
def feed (msg : Nat → BitVec 32) (s : Regs 32) : Nat → BitVec 32 :=
  fun i => if i < 8 then s.file i else msg i

/-- The loop of rsha256.cl:35-51 on `msg` and `state`. -/
def loop (junk : Nat → BitVec 32) : Nat → (Nat → BitVec 32) × Regs 32 → (Nat → BitVec 32) × Regs 32
  | 0, x => x
  | n + 1, x => loop junk n (feed x.1 (sha junk x.1 hInit), sha junk x.1 hInit)

/-- What a work item does to its lane: 32 bytes of `hash` and `num_iters[id]`, rsha256.cl:2-59. -/
def item (junk : Nat → BitVec 32) (junkS : Regs 32) (maxIters : Nat) (x : List Byte × Nat) :
    List Byte × Nat :=
  let n := min x.2 maxIters
  if n = 0 then x
  else
    let s := (loop junk n (message x.1, junkS)).2
    ((List.range 8).flatMap fun i => toLE 4 (bswap32 (s.file i)), x.2 - n)

/-- `n` launches one after the other. -/
def launches (junk : Nat → BitVec 32) (junkS : Regs 32) (maxIters : Nat) :
    Nat → List Byte × Nat → List Byte × Nat
  | 0, x => x
  | n + 1, x => launches junk junkS maxIters n (item junk junkS maxIters x)

/-- `max_iters`, OCL_VDF.cpp:85. -/
def maxIters : Nat := 2500

/-- How often the loop of OCL_VDF.cpp:91-93 runs from `k`; `none` if `fuel` steps are not enough. -/
def countLaunches (segmentSize : Nat) : Nat → Nat → Option Nat
  | 0, _ => none
  | fuel + 1, k =>
    if k < segmentSize then (countLaunches segmentSize fuel (u32 (k + maxIters))).map (· + 1)
    else some 0

/-- The host: the start points (OCL_VDF.cpp:61-72) and counters (74-77) of the lanes that are
    compared. The lanes that only fill up the last group of 64 are left out. -/
def points (p : Codec.Vdf (List Byte)) : List (List Byte × Nat) :=
  ((p.first :: p.segments).take p.segments.length).map fun x => (x, p.segmentSize)

/-- The first segment that differs, OCL_VDF.cpp:100-105. -/
def firstWrong : Nat → List (List Byte) → List (List Byte) → Option Nat
  | i, h :: hs, s :: ss => if h ≠ s then some i else firstWrong (i + 1) hs ss
  | _, _, _ => none

/-- `compute` and `verify`, OCL_VDF.cpp:53-106: `throw` for an exception, `ub` if the loop over the
    launches does not end within `fuel`. -/
def verify (junk : Nat → BitVec 32) (junkS : Regs 32) (fuel : Nat) (p : Codec.Vdf (List Byte)) :
    Res Unit :=
  if p.segments = [] then .throw
  else match countLaunches p.segmentSize fuel 0 with
    | none => .ub
    | some n =>
      match firstWrong 0 ((points p).map fun x => (launches junk junkS maxIters n x).1) p.segments with
      | some _ => .throw
      | none => .ok ()

end Verif.Hash.Ocl
