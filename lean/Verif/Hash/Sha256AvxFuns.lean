import Verif.Hash.Sha256AvxCode
import Verif.Hash.Sha256NiFuns
/-
  Model of src/sha256_avx2.cpp and src/sha256_64_x8.cpp: the functions around the rounds.
-/
namespace Verif.Hash.Avx
open Ni

/-- The 64 bytes of one message with padding, sha256_avx2.cpp:148-150. -/
def padLane (l : List Byte) (length : Nat) : List Byte :=
  fillBuf (fillBuf (fillBuf l length (List.replicate (64 - length) 0#8)) length [0x80#8]) 56
    (toLE 8 (bswap64 (BitVec.ofNat 64 length * 8)))

/-- The bytes of the words turned around, sha256_avx2.cpp:152-155. -/
def swapLane (l : List Byte) : List Byte :=
  (List.range 4).flatMap fun k => (shuf8 (V4.load (l.drop (16 * k))) mask).bytes

/-- `w` after the transposition, sha256_avx2.cpp:161-167; `junk` in the rest of the array. -/
def loadLanes (junk : Nat → V8) (lanes : Nat → List Byte) : Nat → V8 :=
  fun i => if i < 8 then transpose (fun j => load (lanes j)) i
    else if i < 16 then transpose (fun j => load ((lanes j).drop 32)) (i - 8) else junk i

/-- The constants of sha256_avx2.cpp:170-177 and 294-301. -/
def H0 : Nat → V8
  | 0 => set1 0x6a09e667
  | 1 => set1 0xbb67ae85
  | 2 => set1 0x3c6ef372
  | 3 => set1 0xa54ff53a
  | 4 => set1 0x510e527f
  | 5 => set1 0x9b05688c
  | 6 => set1 0x1f83d9ab
  | _ => set1 0x5be0cd19

/-- The state after rounds and feed forward, sha256_avx2.cpp:169-301. -/
def compress8 (w : Nat → V8) : Nat → V8 :=
  fun i => add ((rows.foldl (Row.exec RC) (H0, w)).1 i) (H0 i)

/-- The output of message `i`, sha256_avx2.cpp:303-315: a transposed vector in memory with the bytes of
    its words turned around. -/
def outLane (s : Nat → V8) (i : Nat) : List Byte :=
  store fun j => bswap32 (transpose s i j)

/-- `sha256_avx2_64_x8`, sha256_avx2.cpp:138-316: the 32 bytes for message `i` in the output, `none`
    for an exception. The input is eight messages of 64 bytes each, of which the first `length`
    count. -/
def sha256Avx (junk : Nat → V8) (input : Nat → List Byte) (length : Nat) :
    Option (Nat → List Byte) :=
  if 56 ≤ length then none
  else some (outLane (compress8 (loadLanes junk fun i => swapLane (padLane (input i) length))))

/-- Which instructions the processor has. -/
structure Cpu where
  avx2 : Bool
  shaNi : Bool

/-- `sha256_64_x8`, sha256_64_x8.cpp:14-40, without the branch for ARM. `soft` is the constructor of
    `hash_t` for processors without SHA-NI, which calls `vnx::SHA256` (not in the checkout). -/
def sha256x8 (cpu : Cpu) (soft : List Byte → List Byte) (junkN : File) (junkA : Nat → V8)
    (input : Nat → List Byte) (length : Nat) : Option (Nat → List Byte) :=
  if length > 64 - 9 then none
  else if cpu.shaNi then some fun i => sha256Ni junkN ((input i).take length)
  else if cpu.avx2 then sha256Avx junkA input length
  else some fun i => soft ((input i).take length)

end Verif.Hash.Avx
