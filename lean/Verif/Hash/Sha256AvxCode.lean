import Verif.Hash.Sha256Avx
/-
  Written by tools/gen_sha256_avx2.py: the constants and the rounds of src/sha256_avx2.cpp.
-/
namespace Verif.Hash.Avx

/-- `RC`, sha256_avx2.cpp:43-60. -/
def RC : List (BitVec 32) := [
  0x428a2f98, 0x71374491, 0xb5c0fbcf, 0xe9b5dba5, 0x3956c25b, 0x59f111f1, 0x923f82a4, 0xab1c5ed5,
  0xd807aa98, 0x12835b01, 0x243185be, 0x550c7dc3, 0x72be5d74, 0x80deb1fe, 0x9bdc06a7, 0xc19bf174,
  0xe49b69c1, 0xefbe4786, 0x0fc19dc6, 0x240ca1cc, 0x2de92c6f, 0x4a7484aa, 0x5cb0a9dc, 0x76f988da,
  0x983e5152, 0xa831c66d, 0xb00327c8, 0xbf597fc7, 0xc6e00bf3, 0xd5a79147, 0x06ca6351, 0x14292967,
  0x27b70a85, 0x2e1b2138, 0x4d2c6dfc, 0x53380d13, 0x650a7354, 0x766a0abb, 0x81c2c92e, 0x92722c85,
  0xa2bfe8a1, 0xa81a664b, 0xc24b8b70, 0xc76c51a3, 0xd192e819, 0xd6990624, 0xf40e3585, 0x106aa070,
  0x19a4c116, 0x1e376c08, 0x2748774c, 0x34b0bcb5, 0x391c0cb3, 0x4ed8aa4a, 0x5b9cca4f, 0x682e6ff3,
  0x748f82ee, 0x78a5636f, 0x84c87814, 0x8cc70208, 0x90befffa, 0xa4506ceb, 0xbef9a3f7, 0xc67178f2]

/-- sha256_avx2.cpp:179-290, one row for each round with the assignment to `w` before it. -/
def rows : List Row := [
  ⟨none, [0, 1, 2, 3, 4, 5, 6, 7], 0, 0⟩,
  ⟨none, [7, 0, 1, 2, 3, 4, 5, 6], 1, 1⟩,
  ⟨none, [6, 7, 0, 1, 2, 3, 4, 5], 2, 2⟩,
  ⟨none, [5, 6, 7, 0, 1, 2, 3, 4], 3, 3⟩,
  ⟨none, [4, 5, 6, 7, 0, 1, 2, 3], 4, 4⟩,
  ⟨none, [3, 4, 5, 6, 7, 0, 1, 2], 5, 5⟩,
  ⟨none, [2, 3, 4, 5, 6, 7, 0, 1], 6, 6⟩,
  ⟨none, [1, 2, 3, 4, 5, 6, 7, 0], 7, 7⟩,
  ⟨none, [0, 1, 2, 3, 4, 5, 6, 7], 8, 8⟩,
  ⟨none, [7, 0, 1, 2, 3, 4, 5, 6], 9, 9⟩,
  ⟨none, [6, 7, 0, 1, 2, 3, 4, 5], 10, 10⟩,
  ⟨none, [5, 6, 7, 0, 1, 2, 3, 4], 11, 11⟩,
  ⟨none, [4, 5, 6, 7, 0, 1, 2, 3], 12, 12⟩,
  ⟨none, [3, 4, 5, 6, 7, 0, 1, 2], 13, 13⟩,
  ⟨none, [2, 3, 4, 5, 6, 7, 0, 1], 14, 14⟩,
  ⟨none, [1, 2, 3, 4, 5, 6, 7, 0], 15, 15⟩,
  ⟨some (16, 14, 0, 9, 1), [0, 1, 2, 3, 4, 5, 6, 7], 16, 16⟩,
  ⟨some (17, 15, 1, 10, 2), [7, 0, 1, 2, 3, 4, 5, 6], 17, 17⟩,
  ⟨some (18, 16, 2, 11, 3), [6, 7, 0, 1, 2, 3, 4, 5], 18, 18⟩,
  ⟨some (19, 17, 3, 12, 4), [5, 6, 7, 0, 1, 2, 3, 4], 19, 19⟩,
  ⟨some (20, 18, 4, 13, 5), [4, 5, 6, 7, 0, 1, 2, 3], 20, 20⟩,
  ⟨some (21, 19, 5, 14, 6), [3, 4, 5, 6, 7, 0, 1, 2], 21, 21⟩,
  ⟨some (22, 20, 6, 15, 7), [2, 3, 4, 5, 6, 7, 0, 1], 22, 22⟩,
  ⟨some (23, 21, 7, 16, 8), [1, 2, 3, 4, 5, 6, 7, 0], 23, 23⟩,
  ⟨some (24, 22, 8, 17, 9), [0, 1, 2, 3, 4, 5, 6, 7], 24, 24⟩,
  ⟨some (25, 23, 9, 18, 10), [7, 0, 1, 2, 3, 4, 5, 6], 25, 25⟩,
  ⟨some (26, 24, 10, 19, 11), [6, 7, 0, 1, 2, 3, 4, 5], 26, 26⟩,
  ⟨some (27, 25, 11, 20, 12), [5, 6, 7, 0, 1, 2, 3, 4], 27, 27⟩,
  ⟨some (28, 26, 12, 21, 13), [4, 5, 6, 7, 0, 1, 2, 3], 28, 28⟩,
  ⟨some (29, 27, 13, 22, 14), [3, 4, 5, 6, 7, 0, 1, 2], 29, 29⟩,
  ⟨some (30, 28, 14, 23, 15), [2, 3, 4, 5, 6, 7, 0, 1], 30, 30⟩,
  ⟨some (31, 29, 15, 24, 16), [1, 2, 3, 4, 5, 6, 7, 0], 31, 31⟩,
  ⟨some (32, 30, 16, 25, 17), [0, 1, 2, 3, 4, 5, 6, 7], 32, 32⟩,
  ⟨some (33, 31, 17, 26, 18), [7, 0, 1, 2, 3, 4, 5, 6], 33, 33⟩,
  ⟨some (34, 32, 18, 27, 19), [6, 7, 0, 1, 2, 3, 4, 5], 34, 34⟩,
  ⟨some (35, 33, 19, 28, 20), [5, 6, 7, 0, 1, 2, 3, 4], 35, 35⟩,
  ⟨some (36, 34, 20, 29, 21), [4, 5, 6, 7, 0, 1, 2, 3], 36, 36⟩,
  ⟨some (37, 35, 21, 30, 22), [3, 4, 5, 6, 7, 0, 1, 2], 37, 37⟩,
  ⟨some (38, 36, 22, 31, 23), [2, 3, 4, 5, 6, 7, 0, 1], 38, 38⟩,
  ⟨some (39, 37, 23, 32, 24), [1, 2, 3, 4, 5, 6, 7, 0], 39, 39⟩,
  ⟨some (40, 38, 24, 33, 25), [0, 1, 2, 3, 4, 5, 6, 7], 40, 40⟩,
  ⟨some (41, 39, 25, 34, 26), [7, 0, 1, 2, 3, 4, 5, 6], 41, 41⟩,
  ⟨some (42, 40, 26, 35, 27), [6, 7, 0, 1, 2, 3, 4, 5], 42, 42⟩,
  ⟨some (43, 41, 27, 36, 28), [5, 6, 7, 0, 1, 2, 3, 4], 43, 43⟩,
  ⟨some (44, 42, 28, 37, 29), [4, 5, 6, 7, 0, 1, 2, 3], 44, 44⟩,
  ⟨some (45, 43, 29, 38, 30), [3, 4, 5, 6, 7, 0, 1, 2], 45, 45⟩,
  ⟨some (46, 44, 30, 39, 31), [2, 3, 4, 5, 6, 7, 0, 1], 46, 46⟩,
  ⟨some (47, 45, 31, 40, 32), [1, 2, 3, 4, 5, 6, 7, 0], 47, 47⟩,
  ⟨some (48, 46, 32, 41, 33), [0, 1, 2, 3, 4, 5, 6, 7], 48, 48⟩,
  ⟨some (49, 47, 33, 42, 34), [7, 0, 1, 2, 3, 4, 5, 6], 49, 49⟩,
  ⟨some (50, 48, 34, 43, 35), [6, 7, 0, 1, 2, 3, 4, 5], 50, 50⟩,
  ⟨some (51, 49, 35, 44, 36), [5, 6, 7, 0, 1, 2, 3, 4], 51, 51⟩,
  ⟨some (52, 50, 36, 45, 37), [4, 5, 6, 7, 0, 1, 2, 3], 52, 52⟩,
  ⟨some (53, 51, 37, 46, 38), [3, 4, 5, 6, 7, 0, 1, 2], 53, 53⟩,
  ⟨some (54, 52, 38, 47, 39), [2, 3, 4, 5, 6, 7, 0, 1], 54, 54⟩,
  ⟨some (55, 53, 39, 48, 40), [1, 2, 3, 4, 5, 6, 7, 0], 55, 55⟩,
  ⟨some (56, 54, 40, 49, 41), [0, 1, 2, 3, 4, 5, 6, 7], 56, 56⟩,
  ⟨some (57, 55, 41, 50, 42), [7, 0, 1, 2, 3, 4, 5, 6], 57, 57⟩,
  ⟨some (58, 56, 42, 51, 43), [6, 7, 0, 1, 2, 3, 4, 5], 58, 58⟩,
  ⟨some (59, 57, 43, 52, 44), [5, 6, 7, 0, 1, 2, 3, 4], 59, 59⟩,
  ⟨some (60, 58, 44, 53, 45), [4, 5, 6, 7, 0, 1, 2, 3], 60, 60⟩,
  ⟨some (61, 59, 45, 54, 46), [3, 4, 5, 6, 7, 0, 1, 2], 61, 61⟩,
  ⟨some (62, 60, 46, 55, 47), [2, 3, 4, 5, 6, 7, 0, 1], 62, 62⟩,
  ⟨some (63, 61, 47, 56, 48), [1, 2, 3, 4, 5, 6, 7, 0], 63, 63⟩]

end Verif.Hash.Avx
