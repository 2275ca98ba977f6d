import Verif.Base
/-
  `fixed128` decimal numbers (src/fixed128.cpp, include/mmx/fixed128.hpp) and the price conversion
  of offers (src/offer_data_t.cpp).
-/
namespace Verif.Codec

/-- `fixed128::decimals` and `fixed128::divider`, fixed128.hpp:65-67, fixed128.cpp:18-27. -/
def fxDecimals : Nat := 15
def fxDivider : Nat := 10 ^ 15

/-- What the code takes from libraries that are not part of the repository: `uint128_t(str, 10)` and
    `vnx::from_string<int>`. -/
structure DecLib where
  u128 : List Char → Res Nat
  int : List Char → Res Int

def digitVal (c : Char) : Nat := c.toNat - 48
def isDigit (c : Char) : Bool := 48 ≤ c.toNat && c.toNat ≤ 57

/-- The number a string of decimal digits stands for. -/
def decVal (s : List Char) : Nat := s.foldl (fun n c => 10 * n + digitVal c) 0

def digitChar (d : Nat) : Char := Char.ofNat (48 + d)

/-- Decimal digits without leading zeros (`str(10)`, `std::to_string`), for numbers below
    `10 ^ (fuel + 1)`. -/
def decStr : Nat → Nat → List Char
  | 0, n => [digitChar (n % 10)]
  | fuel + 1, n => if n < 10 then [digitChar n] else decStr fuel (n / 10) ++ [digitChar (n % 10)]

/-- Dropping trailing zeros, fixed128.cpp:108-110. -/
def stripZeros (s : List Char) : List Char := (s.reverse.dropWhile (· = '0')).reverse

/-- `fixed128::to_string`, fixed128.cpp:99-114. -/
def fxToString (x : Nat) : List Char :=
  let str := decStr 39 (x / fxDivider)
  let lower := x % fxDivider
  if lower ≠ 0 then
    let fract := decStr 19 lower
    str ++ ['.'] ++ List.replicate (fxDecimals - fract.length) '0' ++ stripZeros fract
  else str

/-- `k` times `x *= 10` on a `uint128_t`. -/
def mul10 : Nat → Nat → Nat
  | 0, x => x
  | k + 1, x => mul10 k (u128 (x * 10))

/-- `k` times `x /= 10`. -/
def div10 : Nat → Nat → Nat
  | 0, x => x
  | k + 1, x => div10 k (x / 10)

def isDec (c : Char) : Bool := c = '.' || c = ','
def isExp (c : Char) : Bool := c = 'e' || c = 'E'
def numberChar (c : Char) : Bool := isDigit c || isDec c || isExp c || c = '-'

/-- `std::min(dec_pos, exp_pos)`, where absent is the largest position. -/
def minPos : Option Nat → Option Nat → Option Nat
  | some a, some b => some (min a b)
  | some a, none => some a
  | none, b => b

/-- The fraction part, fixed128.cpp:63-78: its digits (at most fifteen) and the new value. -/
def addFract (lib : DecLib) (str : List Char) (dec ex : Option Nat) (fixed : Nat) :
    Res (List Char × Nat) :=
  match dec with
  | none => .ok ([], fixed)
  | some d => do
    let fract := match ex with
      | some x => if x > d then (str.drop (d + 1)).take (x - d - 1) else str.drop (d + 1)
      | none => str.drop (d + 1)
    let fract := fract.take fxDecimals
    let lower ← lib.u128 fract
    .ok (fract, if lower ≠ 0 then u128 (fixed + mul10 (fxDecimals - fract.length) lower) else fixed)

/-- The exponent, fixed128.cpp:79-93. -/
def applyExp (lib : DecLib) (str : List Char) (ex : Option Nat) (fract : List Char)
    (fixed : Nat) : Res Nat :=
  match ex with
  | none => .ok fixed
  | some x => do
    let e ← lib.int (str.drop (x + 1))
    Res.chk (e.natAbs ≤ fxDecimals - fract.length)
    .ok (if e ≥ 0 then mul10 e.natAbs fixed else div10 e.natAbs fixed)

/-- The constructor `fixed128(std::string)`, fixed128.cpp:47-97. -/
def fxParse (lib : DecLib) (str : List Char) : Res Nat := do
  Res.chk (str ≠ [] ∧ str.all numberChar = true)
  let dec := str.findIdx? isDec
  let ex := str.findIdx? isExp
  match minPos dec ex with
  | some pos => do
    let integer := str.take pos
    Res.chk (integer ≠ [] ∧ integer.all isDigit = true)
    let i ← lib.u128 integer
    let (fract, fixed) ← addFract lib str dec ex (u128 (i * fxDivider))
    applyExp lib str ex fract fixed
  | none => do
    let i ← lib.u128 str
    .ok (u128 (i * fxDivider))

/-- The constructor `fixed128(value, decimals)`, fixed128.cpp:35-45 (256-bit intermediate). -/
def fxOfAmount (value decimals : Nat) : Res Nat :=
  let tmp := div10 decimals (u256 (value * fxDivider))
  if tmp / 2 ^ 128 ≠ 0 then .throw else .ok (u128 tmp)

/-- `fixed128::to_amount`, fixed128.cpp:121-134. -/
def fxToAmount (x decimals : Nat) : Nat :=
  if decimals < fxDecimals then div10 (fxDecimals - decimals) x
  else mul10 (decimals - fxDecimals) x

/-- `get_bid_amount`, src/offer_data_t.cpp:20-27. -/
def getBidAmount (ask inv : Nat) : Res Nat :=
  let bid := u256 (ask * inv) >>> 64
  if bid / 2 ^ 128 ≠ 0 then .throw else .ok (u128 bid)

/-- `get_ask_amount`, src/offer_data_t.cpp:29-36. Division by zero is undefined. -/
def getAskAmount (bid inv : Nat) : Res Nat :=
  if inv = 0 then .ub
  else
    let ask := u256 (u256 (u256 (bid <<< 64) + inv) + (2 ^ 256 - 1)) / inv
    if ask / 2 ^ 128 ≠ 0 then .throw else .ok (u128 ask)

end Verif.Codec
