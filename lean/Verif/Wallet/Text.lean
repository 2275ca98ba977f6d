import Verif.Wallet.Model
import Verif.Wallet.WordList
/-
  Seed words (src/mnemonic.cpp) and address strings (src/addr_t.cpp).

  A word is a value of any type with equality.  The hash and the bech32 library are parameters; neither
  is part of the checkout.  `uint256_t` values are numbers below 2^256, shifts to the left are cut.
-/
namespace Verif.Wallet
open Verif

def u256 (x : Nat) : Nat := x % 2 ^ 256

/-- `bytes_t<N>::to_uint(false)`, include/mmx/bytes_t.hpp:132-146: the bytes from the last to the first. -/
def toUint (bytes : List Nat) : Nat :=
  bytes.reverse.foldl (fun out b => u256 (out <<< 8) ||| b) 0

/-- The loop of `from_uint`, include/mmx/bytes_t.hpp:152-159, bytes in the order they are written. -/
def fromLoop : Nat → Nat → List Nat
  | 0, _ => []
  | n + 1, value => value % 256 :: fromLoop n (value >>> 8)

/-- `bytes_t<32>::from_uint(value, big_endian)`, include/mmx/bytes_t.hpp:148-161. -/
def fromUint (value : Nat) (big : Bool) : List Nat :=
  if big then (fromLoop 32 value).reverse else fromLoop 32 value

/-- `word_map`, src/mnemonic.cpp:50-53: a later entry replaces an earlier one. -/
def wordMap {α : Type} [DecidableEq α] : List α → Nat → (α → Option Nat) → α → Option Nat
  | [], _, m => m
  | x :: l, i, m => wordMap l (i + 1) fun w => if w = x then some i else m w

/-- The loop of `seed_to_words`, src/mnemonic.cpp:26-37; reading past the list is undefined. -/
def seedLoop {α : Type} (wl : List α) (ck : Nat) : Nat → Nat → Nat → List α → Res (List α)
  | 0, _, _, words => .ok words
  | n + 1, i, bits, words =>
    let index := if i = 0 then ((bits &&& 0x7) <<< 8) % 2 ^ 16 ||| (ck &&& 0xFF) else (bits &&& 0x7FF) % 2 ^ 16
    let bits := if i = 0 then bits >>> 3 else bits >>> 11
    match wl[index]? with
    | none => .ub
    | some w => seedLoop wl ck n (i + 1) bits (words ++ [w])

/-- `seed_to_words`, src/mnemonic.cpp:17-41.  `H` is the first byte of the hash. -/
def seedToWords {α : Type} (H : List Nat → Nat) (wl : List α) (seed : List Nat) : Res (List α) :=
  if wl.length ≠ 2048 then .throw
  else
    let bits := toUint seed
    (seedLoop wl (H (fromUint bits true)) 24 0 bits []).bind fun ws => .ok ws.reverse

/-- The loop of `words_to_seed`, src/mnemonic.cpp:57-70: the seed and the checksum. -/
def wordsLoop {α : Type} (m : α → Option Nat) : List α → Nat → Nat → Nat → Res (Nat × Nat)
  | [], _, seed, ck => .ok (seed, ck)
  | w :: ws, i, seed, ck =>
    match m w with
    | none => .throw
    | some x =>
      if i < 23 then wordsLoop m ws (i + 1) (u256 (seed <<< 11) ||| x) ck
      else wordsLoop m ws (i + 1) (u256 (seed <<< 3) ||| (x >>> 8)) (x &&& 0xFF)

/-- `words_to_seed`, src/mnemonic.cpp:43-79. -/
def wordsToSeed {α : Type} [DecidableEq α] (H : List Nat → Nat) (wl : List α) (words : List α) : Res (List Nat) :=
  if words.length ≠ 24 then .throw
  else if wl.length ≠ 2048 then .throw
  else
    (wordsLoop (wordMap wl 0 fun _ => none) words 0 0 0).bind fun r =>
      if r.2 ≠ H (fromUint r.1 false) ∧ r.2 ≠ H (fromUint r.1 true) then .throw
      else .ok (fromUint r.1 false)

/-! ### addresses -/

/-- The bech32 library: `encode(hrp, dp)` and `decode(str)`, the latter with the encoding found (`true` for
Bech32m) and the data part; the human-readable part it also returns is not looked at. -/
structure Bech where
  encode : String → List Nat → String
  decode : String → Bool × List Nat

/-- `dp[50 - i] = bits & 0x1F; bits >>= 5`, src/addr_t.cpp:23-26, symbols in the order they are written. -/
def addrSyms : Nat → Nat → List Nat
  | 0, _ => []
  | n + 1, bits => (bits &&& 0x1F) :: addrSyms n (bits >>> 5)

/-- The 52 symbols of an address, src/addr_t.cpp:19-26. -/
def addrData (bytes : List Nat) : List Nat :=
  let bits := toUint bytes
  (addrSyms 51 (bits >>> 1)).reverse ++ [(bits &&& 1) <<< 4]

/-- `addr_t::to_string`, src/addr_t.cpp:16-28. -/
def addrToString (B : Bech) (bytes : List Nat) : String := B.encode "mmx" (addrData bytes)

/-- src/addr_t.cpp:44-47: the first fifty symbols. -/
def symLoop : List Nat → Nat → Nat
  | [], bits => bits
  | d :: ds, bits => symLoop ds (u256 ((bits ||| (d &&& 0x1F)) <<< 5))

/-- src/addr_t.cpp:43-51. -/
def dataAddr (dp : List Nat) : Res (List Nat) :=
  match dp[50]?, dp[51]? with
  | some d50, some d51 =>
    let bits := symLoop (dp.take 50) 0
    let bits := u256 ((bits ||| (d50 &&& 0x1F)) <<< 1)
    .ok (fromUint (bits ||| ((d51 >>> 4) &&& 1)) false)
  | _, _ => .ub

/-- `addr_t::from_string`, src/addr_t.cpp:30-52. -/
def addrFromString (B : Bech) (s : String) : Res (List Nat) :=
  if s = "MMX" then .ok (List.replicate 32 0)
  else
    let r := B.decode s
    if r.1 = false then .throw
    else if r.2.length ≠ 52 then .throw
    else dataAddr r.2

/-- Reading an address from a string value, src/addr_t.cpp:60-72: a string that is not an address is the
zero address. -/
def addrRead (B : Bech) (s : String) : List Nat :=
  match addrFromString B s with
  | .ok a => a
  | _ => List.replicate 32 0

end Verif.Wallet
