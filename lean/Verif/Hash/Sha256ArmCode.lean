import Verif.Hash.Sha256Arm
/-
  Written by tools/gen_sha256_arm.py: the straight-line code of src/sha256_arm.cpp and
  src/sha256_arm_rec.cpp, one instruction per statement, in groups of four rounds.
-/
namespace Verif.Hash.Arm
open Reg

/-- `K64`, sha256_arm.cpp:18-35. -/
def Karm : List (BitVec 32) := [
  0x428a2f98, 0x71374491, 0xb5c0fbcf, 0xe9b5dba5, 0x3956c25b, 0x59f111f1, 0x923f82a4, 0xab1c5ed5,
  0xd807aa98, 0x12835b01, 0x243185be, 0x550c7dc3, 0x72be5d74, 0x80deb1fe, 0x9bdc06a7, 0xc19bf174,
  0xe49b69c1, 0xefbe4786, 0x0fc19dc6, 0x240ca1cc, 0x2de92c6f, 0x4a7484aa, 0x5cb0a9dc, 0x76f988da,
  0x983e5152, 0xa831c66d, 0xb00327c8, 0xbf597fc7, 0xc6e00bf3, 0xd5a79147, 0x06ca6351, 0x14292967,
  0x27b70a85, 0x2e1b2138, 0x4d2c6dfc, 0x53380d13, 0x650a7354, 0x766a0abb, 0x81c2c92e, 0x92722c85,
  0xa2bfe8a1, 0xa81a664b, 0xc24b8b70, 0xc76c51a3, 0xd192e819, 0xd6990624, 0xf40e3585, 0x106aa070,
  0x19a4c116, 0x1e376c08, 0x2748774c, 0x34b0bcb5, 0x391c0cb3, 0x4ed8aa4a, 0x5b9cca4f, 0x682e6ff3,
  0x748f82ee, 0x78a5636f, 0x84c87814, 0x8cc70208, 0x90befffa, 0xa4506ceb, 0xbef9a3f7, 0xc67178f2]

/-- `K64` of `recursive_sha256_arm`, sha256_arm_rec.cpp:27-44. -/
def Krec : List (BitVec 32) := [
  0x428a2f98, 0x71374491, 0xb5c0fbcf, 0xe9b5dba5, 0x3956c25b, 0x59f111f1, 0x923f82a4, 0xab1c5ed5,
  0xd807aa98, 0x12835b01, 0x243185be, 0x550c7dc3, 0x72be5d74, 0x80deb1fe, 0x9bdc06a7, 0xc19bf174,
  0xe49b69c1, 0xefbe4786, 0x0fc19dc6, 0x240ca1cc, 0x2de92c6f, 0x4a7484aa, 0x5cb0a9dc, 0x76f988da,
  0x983e5152, 0xa831c66d, 0xb00327c8, 0xbf597fc7, 0xc6e00bf3, 0xd5a79147, 0x06ca6351, 0x14292967,
  0x27b70a85, 0x2e1b2138, 0x4d2c6dfc, 0x53380d13, 0x650a7354, 0x766a0abb, 0x81c2c92e, 0x92722c85,
  0xa2bfe8a1, 0xa81a664b, 0xc24b8b70, 0xc76c51a3, 0xd192e819, 0xd6990624, 0xf40e3585, 0x106aa070,
  0x19a4c116, 0x1e376c08, 0x2748774c, 0x34b0bcb5, 0x391c0cb3, 0x4ed8aa4a, 0x5b9cca4f, 0x682e6ff3,
  0x748f82ee, 0x78a5636f, 0x84c87814, 0x8cc70208, 0x90befffa, 0xa4506ceb, 0xbef9a3f7, 0xc67178f2]

/-- `K64` of `recursive_sha256_arm_x2`, sha256_arm_rec.cpp:174-191. -/
def Krec2 : List (BitVec 32) := [
  0x428a2f98, 0x71374491, 0xb5c0fbcf, 0xe9b5dba5, 0x3956c25b, 0x59f111f1, 0x923f82a4, 0xab1c5ed5,
  0xd807aa98, 0x12835b01, 0x243185be, 0x550c7dc3, 0x72be5d74, 0x80deb1fe, 0x9bdc06a7, 0xc19bf174,
  0xe49b69c1, 0xefbe4786, 0x0fc19dc6, 0x240ca1cc, 0x2de92c6f, 0x4a7484aa, 0x5cb0a9dc, 0x76f988da,
  0x983e5152, 0xa831c66d, 0xb00327c8, 0xbf597fc7, 0xc6e00bf3, 0xd5a79147, 0x06ca6351, 0x14292967,
  0x27b70a85, 0x2e1b2138, 0x4d2c6dfc, 0x53380d13, 0x650a7354, 0x766a0abb, 0x81c2c92e, 0x92722c85,
  0xa2bfe8a1, 0xa81a664b, 0xc24b8b70, 0xc76c51a3, 0xd192e819, 0xd6990624, 0xf40e3585, 0x106aa070,
  0x19a4c116, 0x1e376c08, 0x2748774c, 0x34b0bcb5, 0x391c0cb3, 0x4ed8aa4a, 0x5b9cca4f, 0x682e6ff3,
  0x748f82ee, 0x78a5636f, 0x84c87814, 0x8cc70208, 0x90befffa, 0xa4506ceb, 0xbef9a3f7, 0xc67178f2]

/-- The rounds of `compress_digest`, sha256_arm.cpp:72-190. -/
def armGroups : List (List Op) := [
  [.addK M T0 0, .mov V S0, .h S0 S0 S1 M, .h2 S1 S1 V M, .su0 T0 T0 T1],
  [.addK M T1 4, .mov V S0, .h S0 S0 S1 M, .h2 S1 S1 V M, .su1 T0 T0 T2 T3, .su0 T1 T1 T2],
  [.addK M T2 8, .mov V S0, .h S0 S0 S1 M, .h2 S1 S1 V M, .su1 T1 T1 T3 T0, .su0 T2 T2 T3],
  [.addK M T3 12, .mov V S0, .h S0 S0 S1 M, .h2 S1 S1 V M, .su1 T2 T2 T0 T1, .su0 T3 T3 T0],
  [.addK M T0 16, .mov V S0, .h S0 S0 S1 M, .h2 S1 S1 V M, .su1 T3 T3 T1 T2, .su0 T0 T0 T1],
  [.addK M T1 20, .mov V S0, .h S0 S0 S1 M, .h2 S1 S1 V M, .su1 T0 T0 T2 T3, .su0 T1 T1 T2],
  [.addK M T2 24, .mov V S0, .h S0 S0 S1 M, .h2 S1 S1 V M, .su1 T1 T1 T3 T0, .su0 T2 T2 T3],
  [.addK M T3 28, .mov V S0, .h S0 S0 S1 M, .h2 S1 S1 V M, .su1 T2 T2 T0 T1, .su0 T3 T3 T0],
  [.addK M T0 32, .mov V S0, .h S0 S0 S1 M, .h2 S1 S1 V M, .su1 T3 T3 T1 T2, .su0 T0 T0 T1],
  [.addK M T1 36, .mov V S0, .h S0 S0 S1 M, .h2 S1 S1 V M, .su1 T0 T0 T2 T3, .su0 T1 T1 T2],
  [.addK M T2 40, .mov V S0, .h S0 S0 S1 M, .h2 S1 S1 V M, .su1 T1 T1 T3 T0, .su0 T2 T2 T3],
  [.addK M T3 44, .mov V S0, .h S0 S0 S1 M, .h2 S1 S1 V M, .su1 T2 T2 T0 T1, .su0 T3 T3 T0],
  [.addK M T0 48, .mov V S0, .h S0 S0 S1 M, .h2 S1 S1 V M, .su1 T3 T3 T1 T2],
  [.addK M T1 52, .mov V S0, .h S0 S0 S1 M, .h2 S1 S1 V M],
  [.addK M T2 56, .mov V S0, .h S0 S0 S1 M, .h2 S1 S1 V M],
  [.addK M T3 60, .mov V S0, .h S0 S0 S1 M, .h2 S1 S1 V M]]

/-- The rounds of `recursive_sha256_arm`, sha256_arm_rec.cpp:79-154. -/
def recGroups : List (List Op) := [
  [.addK M H0 0, .mov V S0, .h S0 S0 S1 M, .h2 S1 S1 V M, .su0 T0 H0 H1],
  [.addK M H1 4, .mov V S0, .h S0 S0 S1 M, .h2 S1 S1 V M, .su1 T0 T0 P0 P1, .su0 T1 H1 P0],
  [.addK M P0 8, .mov V S0, .h S0 S0 S1 M, .h2 S1 S1 V M, .su1 T1 T1 P1 T0, .mov T2 P0],
  [.addK M P1 12, .mov V S0, .h S0 S0 S1 M, .h2 S1 S1 V M, .su1 T2 T2 T0 T1, .su0 T3 P1 T0],
  [.addK M T0 16, .mov V S0, .h S0 S0 S1 M, .h2 S1 S1 V M, .su1 T3 T3 T1 T2, .su0 T0 T0 T1],
  [.addK M T1 20, .mov V S0, .h S0 S0 S1 M, .h2 S1 S1 V M, .su1 T0 T0 T2 T3, .su0 T1 T1 T2],
  [.addK M T2 24, .mov V S0, .h S0 S0 S1 M, .h2 S1 S1 V M, .su1 T1 T1 T3 T0, .su0 T2 T2 T3],
  [.addK M T3 28, .mov V S0, .h S0 S0 S1 M, .h2 S1 S1 V M, .su1 T2 T2 T0 T1, .su0 T3 T3 T0],
  [.addK M T0 32, .mov V S0, .h S0 S0 S1 M, .h2 S1 S1 V M, .su1 T3 T3 T1 T2, .su0 T0 T0 T1],
  [.addK M T1 36, .mov V S0, .h S0 S0 S1 M, .h2 S1 S1 V M, .su1 T0 T0 T2 T3, .su0 T1 T1 T2],
  [.addK M T2 40, .mov V S0, .h S0 S0 S1 M, .h2 S1 S1 V M, .su1 T1 T1 T3 T0, .su0 T2 T2 T3],
  [.addK M T3 44, .mov V S0, .h S0 S0 S1 M, .h2 S1 S1 V M, .su1 T2 T2 T0 T1, .su0 T3 T3 T0],
  [.addK M T0 48, .mov V S0, .h S0 S0 S1 M, .h2 S1 S1 V M, .su1 T3 T3 T1 T2],
  [.addK M T1 52, .mov V S0, .h S0 S0 S1 M, .h2 S1 S1 V M],
  [.addK M T2 56, .mov V S0, .h S0 S0 S1 M, .h2 S1 S1 V M],
  [.addK M T3 60, .mov V S0, .h S0 S0 S1 M, .h2 S1 S1 V M]]

/-- The rounds of `recursive_sha256_arm_x2`, sha256_arm_rec.cpp:240-362; `false` for the
    variables `_P1` and `true` for `_P2`. -/
def rec2Groups : List (List (Bool × Op)) := [
  [(false, .addK M H0 0), (true, .addK M H0 0), (false, .mov V S0), (true, .mov V S0),
   (false, .h S0 S0 S1 M), (true, .h S0 S0 S1 M), (false, .h2 S1 S1 V M), (true, .h2 S1 S1 V M),
   (false, .su0 T0 H0 H1), (true, .su0 T0 H0 H1)],
  [(false, .addK M H1 4), (true, .addK M H1 4), (false, .mov V S0), (true, .mov V S0),
   (false, .h S0 S0 S1 M), (true, .h S0 S0 S1 M), (false, .h2 S1 S1 V M), (true, .h2 S1 S1 V M),
   (false, .su1 T0 T0 P0 P1), (true, .su1 T0 T0 P0 P1), (false, .su0 T1 H1 P0),
   (true, .su0 T1 H1 P0)],
  [(false, .addK M P0 8), (true, .addK M P0 8), (false, .mov V S0), (true, .mov V S0),
   (false, .h S0 S0 S1 M), (true, .h S0 S0 S1 M), (false, .h2 S1 S1 V M), (true, .h2 S1 S1 V M),
   (false, .su1 T1 T1 P1 T0), (true, .su1 T1 T1 P1 T0), (false, .mov T2 P0), (true, .mov T2 P0)],
  [(false, .addK M P1 12), (true, .addK M P1 12), (false, .mov V S0), (true, .mov V S0),
   (false, .h S0 S0 S1 M), (true, .h S0 S0 S1 M), (false, .h2 S1 S1 V M), (true, .h2 S1 S1 V M),
   (false, .su1 T2 T2 T0 T1), (true, .su1 T2 T2 T0 T1), (false, .su0 T3 P1 T0),
   (true, .su0 T3 P1 T0)],
  [(false, .addK M T0 16), (true, .addK M T0 16), (false, .mov V S0), (true, .mov V S0),
   (false, .h S0 S0 S1 M), (true, .h S0 S0 S1 M), (false, .h2 S1 S1 V M), (true, .h2 S1 S1 V M),
   (false, .su1 T3 T3 T1 T2), (true, .su1 T3 T3 T1 T2), (false, .su0 T0 T0 T1),
   (true, .su0 T0 T0 T1)],
  [(false, .addK M T1 20), (true, .addK M T1 20), (false, .mov V S0), (true, .mov V S0),
   (false, .h S0 S0 S1 M), (true, .h S0 S0 S1 M), (false, .h2 S1 S1 V M), (true, .h2 S1 S1 V M),
   (false, .su1 T0 T0 T2 T3), (true, .su1 T0 T0 T2 T3), (false, .su0 T1 T1 T2),
   (true, .su0 T1 T1 T2)],
  [(false, .addK M T2 24), (true, .addK M T2 24), (false, .mov V S0), (true, .mov V S0),
   (false, .h S0 S0 S1 M), (true, .h S0 S0 S1 M), (false, .h2 S1 S1 V M), (true, .h2 S1 S1 V M),
   (false, .su1 T1 T1 T3 T0), (true, .su1 T1 T1 T3 T0), (false, .su0 T2 T2 T3),
   (true, .su0 T2 T2 T3)],
  [(false, .addK M T3 28), (true, .addK M T3 28), (false, .mov V S0), (true, .mov V S0),
   (false, .h S0 S0 S1 M), (true, .h S0 S0 S1 M), (false, .h2 S1 S1 V M), (true, .h2 S1 S1 V M),
   (false, .su1 T2 T2 T0 T1), (true, .su1 T2 T2 T0 T1), (false, .su0 T3 T3 T0),
   (true, .su0 T3 T3 T0)],
  [(false, .addK M T0 32), (true, .addK M T0 32), (false, .mov V S0), (true, .mov V S0),
   (false, .h S0 S0 S1 M), (true, .h S0 S0 S1 M), (false, .h2 S1 S1 V M), (true, .h2 S1 S1 V M),
   (false, .su1 T3 T3 T1 T2), (true, .su1 T3 T3 T1 T2), (false, .su0 T0 T0 T1),
   (true, .su0 T0 T0 T1)],
  [(false, .addK M T1 36), (true, .addK M T1 36), (false, .mov V S0), (true, .mov V S0),
   (false, .h S0 S0 S1 M), (true, .h S0 S0 S1 M), (false, .h2 S1 S1 V M), (true, .h2 S1 S1 V M),
   (false, .su1 T0 T0 T2 T3), (true, .su1 T0 T0 T2 T3), (false, .su0 T1 T1 T2),
   (true, .su0 T1 T1 T2)],
  [(false, .addK M T2 40), (true, .addK M T2 40), (false, .mov V S0), (true, .mov V S0),
   (false, .h S0 S0 S1 M), (true, .h S0 S0 S1 M), (false, .h2 S1 S1 V M), (true, .h2 S1 S1 V M),
   (false, .su1 T1 T1 T3 T0), (true, .su1 T1 T1 T3 T0), (false, .su0 T2 T2 T3),
   (true, .su0 T2 T2 T3)],
  [(false, .addK M T3 44), (true, .addK M T3 44), (false, .mov V S0), (true, .mov V S0),
   (false, .h S0 S0 S1 M), (true, .h S0 S0 S1 M), (false, .h2 S1 S1 V M), (true, .h2 S1 S1 V M),
   (false, .su1 T2 T2 T0 T1), (true, .su1 T2 T2 T0 T1), (false, .su0 T3 T3 T0),
   (true, .su0 T3 T3 T0)],
  [(false, .addK M T0 48), (true, .addK M T0 48), (false, .mov V S0), (true, .mov V S0),
   (false, .h S0 S0 S1 M), (true, .h S0 S0 S1 M), (false, .h2 S1 S1 V M), (true, .h2 S1 S1 V M),
   (false, .su1 T3 T3 T1 T2), (true, .su1 T3 T3 T1 T2)],
  [(false, .addK M T1 52), (true, .addK M T1 52), (false, .mov V S0), (true, .mov V S0),
   (false, .h S0 S0 S1 M), (true, .h S0 S0 S1 M), (false, .h2 S1 S1 V M), (true, .h2 S1 S1 V M)],
  [(false, .addK M T2 56), (true, .addK M T2 56), (false, .mov V S0), (true, .mov V S0),
   (false, .h S0 S0 S1 M), (true, .h S0 S0 S1 M), (false, .h2 S1 S1 V M), (true, .h2 S1 S1 V M)],
  [(false, .addK M T3 60), (true, .addK M T3 60), (false, .mov V S0), (true, .mov V S0),
   (false, .h S0 S0 S1 M), (true, .h S0 S0 S1 M), (false, .h2 S1 S1 V M), (true, .h2 S1 S1 V M)]]

end Verif.Hash.Arm
