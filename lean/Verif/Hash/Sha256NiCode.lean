import Verif.Hash.Sha256Ni
/-
  Written by tools/gen_sha256_ni.py: the straight-line code of src/sha256_ni.cpp and
  src/sha256_ni_rec.cpp, one instruction per statement, in groups of four rounds.
-/
namespace Verif.Hash.Ni
open Reg

/-- `K`, sha256_ni.cpp:28-45. -/
def Kni : List (BitVec 32) := [
  0x428a2f98, 0x71374491, 0xb5c0fbcf, 0xe9b5dba5, 0x3956c25b, 0x59f111f1, 0x923f82a4, 0xab1c5ed5,
  0xd807aa98, 0x12835b01, 0x243185be, 0x550c7dc3, 0x72be5d74, 0x80deb1fe, 0x9bdc06a7, 0xc19bf174,
  0xe49b69c1, 0xefbe4786, 0x0fc19dc6, 0x240ca1cc, 0x2de92c6f, 0x4a7484aa, 0x5cb0a9dc, 0x76f988da,
  0x983e5152, 0xa831c66d, 0xb00327c8, 0xbf597fc7, 0xc6e00bf3, 0xd5a79147, 0x06ca6351, 0x14292967,
  0x27b70a85, 0x2e1b2138, 0x4d2c6dfc, 0x53380d13, 0x650a7354, 0x766a0abb, 0x81c2c92e, 0x92722c85,
  0xa2bfe8a1, 0xa81a664b, 0xc24b8b70, 0xc76c51a3, 0xd192e819, 0xd6990624, 0xf40e3585, 0x106aa070,
  0x19a4c116, 0x1e376c08, 0x2748774c, 0x34b0bcb5, 0x391c0cb3, 0x4ed8aa4a, 0x5b9cca4f, 0x682e6ff3,
  0x748f82ee, 0x78a5636f, 0x84c87814, 0x8cc70208, 0x90befffa, 0xa4506ceb, 0xbef9a3f7, 0xc67178f2]

/-- `K64` of `recursive_sha256_ni`, sha256_ni_rec.cpp:32-49. -/
def Krec : List (BitVec 32) := [
  0x428a2f98, 0x71374491, 0xb5c0fbcf, 0xe9b5dba5, 0x3956c25b, 0x59f111f1, 0x923f82a4, 0xab1c5ed5,
  0xd807aa98, 0x12835b01, 0x243185be, 0x550c7dc3, 0x72be5d74, 0x80deb1fe, 0x9bdc06a7, 0xc19bf174,
  0xe49b69c1, 0xefbe4786, 0x0fc19dc6, 0x240ca1cc, 0x2de92c6f, 0x4a7484aa, 0x5cb0a9dc, 0x76f988da,
  0x983e5152, 0xa831c66d, 0xb00327c8, 0xbf597fc7, 0xc6e00bf3, 0xd5a79147, 0x06ca6351, 0x14292967,
  0x27b70a85, 0x2e1b2138, 0x4d2c6dfc, 0x53380d13, 0x650a7354, 0x766a0abb, 0x81c2c92e, 0x92722c85,
  0xa2bfe8a1, 0xa81a664b, 0xc24b8b70, 0xc76c51a3, 0xd192e819, 0xd6990624, 0xf40e3585, 0x106aa070,
  0x19a4c116, 0x1e376c08, 0x2748774c, 0x34b0bcb5, 0x391c0cb3, 0x4ed8aa4a, 0x5b9cca4f, 0x682e6ff3,
  0x748f82ee, 0x78a5636f, 0x84c87814, 0x8cc70208, 0x90befffa, 0xa4506ceb, 0xbef9a3f7, 0xc67178f2]

/-- `K64` of `recursive_sha256_ni_x2`, sha256_ni_rec.cpp:195-212. -/
def Krec2 : List (BitVec 32) := [
  0x428a2f98, 0x71374491, 0xb5c0fbcf, 0xe9b5dba5, 0x3956c25b, 0x59f111f1, 0x923f82a4, 0xab1c5ed5,
  0xd807aa98, 0x12835b01, 0x243185be, 0x550c7dc3, 0x72be5d74, 0x80deb1fe, 0x9bdc06a7, 0xc19bf174,
  0xe49b69c1, 0xefbe4786, 0x0fc19dc6, 0x240ca1cc, 0x2de92c6f, 0x4a7484aa, 0x5cb0a9dc, 0x76f988da,
  0x983e5152, 0xa831c66d, 0xb00327c8, 0xbf597fc7, 0xc6e00bf3, 0xd5a79147, 0x06ca6351, 0x14292967,
  0x27b70a85, 0x2e1b2138, 0x4d2c6dfc, 0x53380d13, 0x650a7354, 0x766a0abb, 0x81c2c92e, 0x92722c85,
  0xa2bfe8a1, 0xa81a664b, 0xc24b8b70, 0xc76c51a3, 0xd192e819, 0xd6990624, 0xf40e3585, 0x106aa070,
  0x19a4c116, 0x1e376c08, 0x2748774c, 0x34b0bcb5, 0x391c0cb3, 0x4ed8aa4a, 0x5b9cca4f, 0x682e6ff3,
  0x748f82ee, 0x78a5636f, 0x84c87814, 0x8cc70208, 0x90befffa, 0xa4506ceb, 0xbef9a3f7, 0xc67178f2]

/-- The rounds of `compress_digest`, sha256_ni.cpp:86-214. -/
def niGroups : List (List Op) := [
  [.addK M T0 0, .rnds S1 S1 S0 M, .rndsShuf S0 S0 S1 M 0x0E],
  [.addK M T1 4, .rnds S1 S1 S0 M, .rndsShuf S0 S0 S1 M 0x0E, .msg1 T0 T0 T1],
  [.addK M T2 8, .rnds S1 S1 S0 M, .rndsShuf S0 S0 S1 M 0x0E, .msg1 T1 T1 T2],
  [.addK M T3 12, .rnds S1 S1 S0 M, .rndsShuf S0 S0 S1 M 0x0E, .addAlign T0 T0 T3 T2 4,
   .msg2 T0 T0 T3, .msg1 T2 T2 T3],
  [.addK M T0 16, .rnds S1 S1 S0 M, .rndsShuf S0 S0 S1 M 0x0E, .addAlign T1 T1 T0 T3 4,
   .msg2 T1 T1 T0, .msg1 T3 T3 T0],
  [.addK M T1 20, .rnds S1 S1 S0 M, .rndsShuf S0 S0 S1 M 0x0E, .addAlign T2 T2 T1 T0 4,
   .msg2 T2 T2 T1, .msg1 T0 T0 T1],
  [.addK M T2 24, .rnds S1 S1 S0 M, .rndsShuf S0 S0 S1 M 0x0E, .addAlign T3 T3 T2 T1 4,
   .msg2 T3 T3 T2, .msg1 T1 T1 T2],
  [.addK M T3 28, .rnds S1 S1 S0 M, .rndsShuf S0 S0 S1 M 0x0E, .addAlign T0 T0 T3 T2 4,
   .msg2 T0 T0 T3, .msg1 T2 T2 T3],
  [.addK M T0 32, .rnds S1 S1 S0 M, .rndsShuf S0 S0 S1 M 0x0E, .addAlign T1 T1 T0 T3 4,
   .msg2 T1 T1 T0, .msg1 T3 T3 T0],
  [.addK M T1 36, .rnds S1 S1 S0 M, .rndsShuf S0 S0 S1 M 0x0E, .addAlign T2 T2 T1 T0 4,
   .msg2 T2 T2 T1, .msg1 T0 T0 T1],
  [.addK M T2 40, .rnds S1 S1 S0 M, .rndsShuf S0 S0 S1 M 0x0E, .addAlign T3 T3 T2 T1 4,
   .msg2 T3 T3 T2, .msg1 T1 T1 T2],
  [.addK M T3 44, .rnds S1 S1 S0 M, .rndsShuf S0 S0 S1 M 0x0E, .addAlign T0 T0 T3 T2 4,
   .msg2 T0 T0 T3, .msg1 T2 T2 T3],
  [.addK M T0 48, .rnds S1 S1 S0 M, .rndsShuf S0 S0 S1 M 0x0E, .addAlign T1 T1 T0 T3 4,
   .msg2 T1 T1 T0, .msg1 T3 T3 T0],
  [.addK M T1 52, .rnds S1 S1 S0 M, .rndsShuf S0 S0 S1 M 0x0E, .addAlign T2 T2 T1 T0 4,
   .msg2 T2 T2 T1],
  [.addK M T2 56, .rnds S1 S1 S0 M, .rndsShuf S0 S0 S1 M 0x0E, .addAlign T3 T3 T2 T1 4,
   .msg2 T3 T3 T2],
  [.addK M T3 60, .rnds S1 S1 S0 M, .rndsShuf S0 S0 S1 M 0x0E]]

/-- The rounds of `recursive_sha256_ni`, sha256_ni_rec.cpp:82-168. -/
def recGroups : List (List Op) := [
  [.mov M H0, .mov T0 M, .addK M M 0, .rnds S1 S1 S0 M, .shuf M M 0x0E, .rnds S0 S0 S1 M],
  [.mov M H1, .mov T1 M, .addK M M 4, .rnds S1 S1 S0 M, .shuf M M 0x0E, .rnds S0 S0 S1 M,
   .msg1 T0 T0 T1],
  [.mov M P0, .mov T2 M, .addK M M 8, .rnds S1 S1 S0 M, .shuf M M 0x0E, .rnds S0 S0 S1 M,
   .msg1 T1 T1 T2],
  [.mov M P1, .mov T3 M, .addK M M 12, .rnds S1 S1 S0 M, .addAlign T0 T0 T3 T2 4, .msg2 T0 T0 T3,
   .shuf M M 0x0E, .rnds S0 S0 S1 M, .msg1 T2 T2 T3],
  [.mov M T0, .addK M M 16, .rnds S1 S1 S0 M, .addAlign T1 T1 T0 T3 4, .msg2 T1 T1 T0,
   .shuf M M 0x0E, .rnds S0 S0 S1 M, .msg1 T3 T3 T0],
  [.mov M T1, .addK M M 20, .rnds S1 S1 S0 M, .addAlign T2 T2 T1 T0 4, .msg2 T2 T2 T1,
   .shuf M M 0x0E, .rnds S0 S0 S1 M, .msg1 T0 T0 T1],
  [.mov M T2, .addK M M 24, .rnds S1 S1 S0 M, .addAlign T3 T3 T2 T1 4, .msg2 T3 T3 T2,
   .shuf M M 0x0E, .rnds S0 S0 S1 M, .msg1 T1 T1 T2],
  [.mov M T3, .addK M M 28, .rnds S1 S1 S0 M, .addAlign T0 T0 T3 T2 4, .msg2 T0 T0 T3,
   .shuf M M 0x0E, .rnds S0 S0 S1 M, .msg1 T2 T2 T3],
  [.mov M T0, .addK M M 32, .rnds S1 S1 S0 M, .addAlign T1 T1 T0 T3 4, .msg2 T1 T1 T0,
   .shuf M M 0x0E, .rnds S0 S0 S1 M, .msg1 T3 T3 T0],
  [.mov M T1, .addK M M 36, .rnds S1 S1 S0 M, .addAlign T2 T2 T1 T0 4, .msg2 T2 T2 T1,
   .shuf M M 0x0E, .rnds S0 S0 S1 M, .msg1 T0 T0 T1],
  [.mov M T2, .addK M M 40, .rnds S1 S1 S0 M, .addAlign T3 T3 T2 T1 4, .msg2 T3 T3 T2,
   .shuf M M 0x0E, .rnds S0 S0 S1 M, .msg1 T1 T1 T2],
  [.mov M T3, .addK M M 44, .rnds S1 S1 S0 M, .addAlign T0 T0 T3 T2 4, .msg2 T0 T0 T3,
   .shuf M M 0x0E, .rnds S0 S0 S1 M, .msg1 T2 T2 T3],
  [.mov M T0, .addK M M 48, .rnds S1 S1 S0 M, .addAlign T1 T1 T0 T3 4, .msg2 T1 T1 T0,
   .shuf M M 0x0E, .rnds S0 S0 S1 M, .msg1 T3 T3 T0],
  [.mov M T1, .addK M M 52, .rnds S1 S1 S0 M, .addAlign T2 T2 T1 T0 4, .msg2 T2 T2 T1,
   .shuf M M 0x0E, .rnds S0 S0 S1 M],
  [.mov M T2, .addK M M 56, .rnds S1 S1 S0 M, .addAlign T3 T3 T2 T1 4, .msg2 T3 T3 T2,
   .shuf M M 0x0E, .rnds S0 S0 S1 M],
  [.mov M T3, .addK M M 60, .rnds S1 S1 S0 M, .shuf M M 0x0E, .rnds S0 S0 S1 M]]

/-- The rounds of `recursive_sha256_ni_x2`, sha256_ni_rec.cpp:258-401; `false` for the
    variables `_P1` and `true` for `_P2`. -/
def rec2Groups : List (List (Bool × Op)) := [
  [(false, .mov M H0), (true, .mov M H0), (false, .mov T0 M), (true, .mov T0 M),
   (false, .addK M M 0), (true, .addK M M 0), (false, .rnds S1 S1 S0 M),
   (true, .rnds S1 S1 S0 M), (false, .shuf M M 0x0E), (true, .shuf M M 0x0E),
   (false, .rnds S0 S0 S1 M), (true, .rnds S0 S0 S1 M)],
  [(false, .mov M H1), (true, .mov M H1), (false, .mov T1 M), (true, .mov T1 M),
   (false, .addK M M 4), (true, .addK M M 4), (false, .rnds S1 S1 S0 M),
   (true, .rnds S1 S1 S0 M), (false, .shuf M M 0x0E), (true, .shuf M M 0x0E),
   (false, .rnds S0 S0 S1 M), (true, .rnds S0 S0 S1 M), (false, .msg1 T0 T0 T1),
   (true, .msg1 T0 T0 T1)],
  [(false, .mov M P0), (true, .mov M P0), (false, .mov T2 M), (true, .mov T2 M),
   (false, .addK M M 8), (true, .addK M M 8), (false, .rnds S1 S1 S0 M),
   (true, .rnds S1 S1 S0 M), (false, .shuf M M 0x0E), (true, .shuf M M 0x0E),
   (false, .rnds S0 S0 S1 M), (true, .rnds S0 S0 S1 M), (false, .msg1 T1 T1 T2),
   (true, .msg1 T1 T1 T2)],
  [(false, .mov M P1), (true, .mov M P1), (false, .mov T3 M), (true, .mov T3 M),
   (false, .addK M M 12), (true, .addK M M 12), (false, .rnds S1 S1 S0 M),
   (true, .rnds S1 S1 S0 M), (false, .addAlign T0 T0 T3 T2 4), (true, .addAlign T0 T0 T3 T2 4),
   (false, .msg2 T0 T0 T3), (true, .msg2 T0 T0 T3), (false, .shuf M M 0x0E),
   (true, .shuf M M 0x0E), (false, .rnds S0 S0 S1 M), (true, .rnds S0 S0 S1 M),
   (false, .msg1 T2 T2 T3), (true, .msg1 T2 T2 T3)],
  [(false, .mov M T0), (true, .mov M T0), (false, .addK M M 16), (true, .addK M M 16),
   (false, .rnds S1 S1 S0 M), (true, .rnds S1 S1 S0 M), (false, .addAlign T1 T1 T0 T3 4),
   (true, .addAlign T1 T1 T0 T3 4), (false, .msg2 T1 T1 T0), (true, .msg2 T1 T1 T0),
   (false, .shuf M M 0x0E), (true, .shuf M M 0x0E), (false, .rnds S0 S0 S1 M),
   (true, .rnds S0 S0 S1 M), (false, .msg1 T3 T3 T0), (true, .msg1 T3 T3 T0)],
  [(false, .mov M T1), (true, .mov M T1), (false, .addK M M 20), (true, .addK M M 20),
   (false, .rnds S1 S1 S0 M), (true, .rnds S1 S1 S0 M), (false, .addAlign T2 T2 T1 T0 4),
   (true, .addAlign T2 T2 T1 T0 4), (false, .msg2 T2 T2 T1), (true, .msg2 T2 T2 T1),
   (false, .shuf M M 0x0E), (true, .shuf M M 0x0E), (false, .rnds S0 S0 S1 M),
   (true, .rnds S0 S0 S1 M), (false, .msg1 T0 T0 T1), (true, .msg1 T0 T0 T1)],
  [(false, .mov M T2), (true, .mov M T2), (false, .addK M M 24), (true, .addK M M 24),
   (false, .rnds S1 S1 S0 M), (true, .rnds S1 S1 S0 M), (false, .addAlign T3 T3 T2 T1 4),
   (true, .addAlign T3 T3 T2 T1 4), (false, .msg2 T3 T3 T2), (true, .msg2 T3 T3 T2),
   (false, .shuf M M 0x0E), (true, .shuf M M 0x0E), (false, .rnds S0 S0 S1 M),
   (true, .rnds S0 S0 S1 M), (false, .msg1 T1 T1 T2), (true, .msg1 T1 T1 T2)],
  [(false, .mov M T3), (true, .mov M T3), (false, .addK M M 28), (true, .addK M M 28),
   (false, .rnds S1 S1 S0 M), (true, .rnds S1 S1 S0 M), (false, .addAlign T0 T0 T3 T2 4),
   (true, .addAlign T0 T0 T3 T2 4), (false, .msg2 T0 T0 T3), (true, .msg2 T0 T0 T3),
   (false, .shuf M M 0x0E), (true, .shuf M M 0x0E), (false, .rnds S0 S0 S1 M),
   (true, .rnds S0 S0 S1 M), (false, .msg1 T2 T2 T3), (true, .msg1 T2 T2 T3)],
  [(false, .mov M T0), (true, .mov M T0), (false, .addK M M 32), (true, .addK M M 32),
   (false, .rnds S1 S1 S0 M), (true, .rnds S1 S1 S0 M), (false, .addAlign T1 T1 T0 T3 4),
   (true, .addAlign T1 T1 T0 T3 4), (false, .msg2 T1 T1 T0), (true, .msg2 T1 T1 T0),
   (false, .shuf M M 0x0E), (true, .shuf M M 0x0E), (false, .rnds S0 S0 S1 M),
   (true, .rnds S0 S0 S1 M), (false, .msg1 T3 T3 T0), (true, .msg1 T3 T3 T0)],
  [(false, .mov M T1), (true, .mov M T1), (false, .addK M M 36), (true, .addK M M 36),
   (false, .rnds S1 S1 S0 M), (true, .rnds S1 S1 S0 M), (false, .addAlign T2 T2 T1 T0 4),
   (true, .addAlign T2 T2 T1 T0 4), (false, .msg2 T2 T2 T1), (true, .msg2 T2 T2 T1),
   (false, .shuf M M 0x0E), (true, .shuf M M 0x0E), (false, .rnds S0 S0 S1 M),
   (true, .rnds S0 S0 S1 M), (false, .msg1 T0 T0 T1), (true, .msg1 T0 T0 T1)],
  [(false, .mov M T2), (true, .mov M T2), (false, .addK M M 40), (true, .addK M M 40),
   (false, .rnds S1 S1 S0 M), (true, .rnds S1 S1 S0 M), (false, .addAlign T3 T3 T2 T1 4),
   (true, .addAlign T3 T3 T2 T1 4), (false, .msg2 T3 T3 T2), (true, .msg2 T3 T3 T2),
   (false, .shuf M M 0x0E), (true, .shuf M M 0x0E), (false, .rnds S0 S0 S1 M),
   (true, .rnds S0 S0 S1 M), (false, .msg1 T1 T1 T2), (true, .msg1 T1 T1 T2)],
  [(false, .mov M T3), (true, .mov M T3), (false, .addK M M 44), (true, .addK M M 44),
   (false, .rnds S1 S1 S0 M), (true, .rnds S1 S1 S0 M), (false, .addAlign T0 T0 T3 T2 4),
   (true, .addAlign T0 T0 T3 T2 4), (false, .msg2 T0 T0 T3), (true, .msg2 T0 T0 T3),
   (false, .shuf M M 0x0E), (true, .shuf M M 0x0E), (false, .rnds S0 S0 S1 M),
   (true, .rnds S0 S0 S1 M), (false, .msg1 T2 T2 T3), (true, .msg1 T2 T2 T3)],
  [(false, .mov M T0), (true, .mov M T0), (false, .addK M M 48), (true, .addK M M 48),
   (false, .rnds S1 S1 S0 M), (true, .rnds S1 S1 S0 M), (false, .addAlign T1 T1 T0 T3 4),
   (true, .addAlign T1 T1 T0 T3 4), (false, .msg2 T1 T1 T0), (true, .msg2 T1 T1 T0),
   (false, .shuf M M 0x0E), (true, .shuf M M 0x0E), (false, .rnds S0 S0 S1 M),
   (true, .rnds S0 S0 S1 M), (false, .msg1 T3 T3 T0), (true, .msg1 T3 T3 T0)],
  [(false, .mov M T1), (true, .mov M T1), (false, .addK M M 52), (true, .addK M M 52),
   (false, .rnds S1 S1 S0 M), (true, .rnds S1 S1 S0 M), (false, .addAlign T2 T2 T1 T0 4),
   (true, .addAlign T2 T2 T1 T0 4), (false, .msg2 T2 T2 T1), (true, .msg2 T2 T2 T1),
   (false, .shuf M M 0x0E), (true, .shuf M M 0x0E), (false, .rnds S0 S0 S1 M),
   (true, .rnds S0 S0 S1 M)],
  [(false, .mov M T2), (true, .mov M T2), (false, .addK M M 56), (true, .addK M M 56),
   (false, .rnds S1 S1 S0 M), (true, .rnds S1 S1 S0 M), (false, .addAlign T3 T3 T2 T1 4),
   (true, .addAlign T3 T3 T2 T1 4), (false, .msg2 T3 T3 T2), (true, .msg2 T3 T3 T2),
   (false, .shuf M M 0x0E), (true, .shuf M M 0x0E), (false, .rnds S0 S0 S1 M),
   (true, .rnds S0 S0 S1 M)],
  [(false, .mov M T3), (true, .mov M T3), (false, .addK M M 60), (true, .addK M M 60),
   (false, .rnds S1 S1 S0 M), (true, .rnds S1 S1 S0 M), (false, .shuf M M 0x0E),
   (true, .shuf M M 0x0E), (false, .rnds S0 S0 S1 M), (true, .rnds S0 S0 S1 M)]]

end Verif.Hash.Ni
