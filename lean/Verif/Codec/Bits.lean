import Verif.Base
/-
  Bit level access of plot files: `write_bits` / `read_bits` (include/mmx/pos/util.h) and the symbol
  codec (src/pos/encoding.cpp).
-/
namespace Verif.Codec

/-- Bit `k` of an array of 64-bit words, least significant bit first (false outside the array). -/
def bitAt (ws : List Nat) (k : Nat) : Bool :=
  match ws[k / 64]? with
  | some w => w.testBit (k % 64)
  | none => false

/-- `dst[i] |= v` on an array; outside of the array is undefined. -/
def orWord (ws : List Nat) (i v : Nat) : Res (List Nat) :=
  match ws[i]? with
  | some w => .ok (ws.set i (w ||| v))
  | none => .ub

/-- `write_bits`, include/mmx/pos/util.h:66-81. `value` is a `uint64_t`. The result is the new
    array and the new offset (64-bit sum). -/
def writeBits (ws : List Nat) (value offset numBits : Nat) : Res (List Nat × Nat) := do
  let value := if numBits < 64 then value &&& (2 ^ numBits - 1) else value
  let shift := offset % 64
  let free := 64 - shift
  let ws ← orWord ws (offset / 64) (u64 (value <<< shift))
  let ws ← if free < numBits then do
      Res.defd (free < 64)
      orWord ws (offset / 64 + 1) (value >>> free)
    else .ok ws
  return (ws, u64 (offset + numBits))

/-- The loop of `read_bits`, include/mmx/pos/util.h:89-96. Every iteration adds at least one bit, so
    `numBits` iterations are enough (`fuel`). -/
def readLoop (ws : List Nat) (numBits : Nat) : Nat → Nat → Nat → Nat → Res Nat
  | 0, _, _, result => .ok result
  | fuel + 1, count, offset, result =>
    if count < numBits then
      let shift := offset % 64
      let bits := min (numBits - count) (64 - shift)
      match ws[offset / 64]? with
      | none => .ub
      | some w => do
        Res.defd (count < 64)
        readLoop ws numBits fuel (count + bits) (offset + bits)
          (result ||| u64 ((w >>> shift) <<< count))
    else .ok result

/-- `read_bits`, include/mmx/pos/util.h:83-101. -/
def readBits (ws : List Nat) (offset numBits : Nat) : Res Nat := do
  let result ← readLoop ws numBits numBits 0 offset 0
  return if numBits < 64 then result &&& (2 ^ numBits - 1) else result

/-- `encode_symbol`, src/pos/encoding.cpp:14-30: code bits and width. -/
def encodeSymbol (sym : Nat) : Res (Nat × Nat) :=
  if sym = 0 then .ok (0, 2) else if sym = 1 then .ok (1, 2) else if sym = 2 then .ok (2, 2)
  else
    let index := sym / 3
    let mod := sym % 3
    if index > 15 then .throw
    else do
      Res.defd (32 - 2 * index < 32)
      .ok (((2 ^ 32 - 1) >>> (32 - 2 * index)) ||| u32 (mod <<< (2 * index)), 2 * index + 2)

/-- The loop of `decode_symbol`, src/pos/encoding.cpp:41-49. -/
def decodeLoop : Nat → Nat → Nat → Nat × Nat
  | 0, _, _ => (48, 32)
  | fuel + 1, index, shift =>
    let mod := shift &&& 3
    if mod = 3 then decodeLoop fuel (index + 1) (shift >>> 2)
    else (3 * index + mod, 2 * index + 2)

/-- `decode_symbol`, src/pos/encoding.cpp:32-51. -/
def decodeSymbol (bits : Nat) : Nat × Nat :=
  if bits &&& 3 = 0 then (0, 2) else if bits &&& 3 = 1 then (1, 2)
  else if bits &&& 3 = 2 then (2, 2)
  else decodeLoop 16 0 bits

/-- The state of `encode`: `out`, `total_bits`, `offset`, `buffer`. -/
structure Enc where
  out : List Nat
  total : Nat
  offset : Nat
  buffer : Nat
  deriving Repr, DecidableEq

/-- One iteration of `encode`, src/pos/encoding.cpp:61-77. -/
def encStep (s : Enc) (sym : Nat) : Res Enc := do
  let (code, width) ← encodeSymbol sym
  let buffer := s.buffer ||| u64 (code <<< s.offset)
  let end_ := s.offset + width
  let (out, buffer) := if end_ ≥ 64 then (s.out ++ [buffer], 0) else (s.out, buffer)
  let buffer ← if end_ > 64 then do
      Res.defd (64 - s.offset < 32)
      .ok (code >>> (64 - s.offset))
    else .ok buffer
  return { out := out, total := u64 (s.total + width), offset := end_ % 64, buffer := buffer }

def encLoop : List Nat → Enc → Res Enc
  | [], s => .ok s
  | sym :: rest, s => do
    let s ← encStep s sym
    encLoop rest s

/-- `encode`, src/pos/encoding.cpp:53-82: the words and `total_bits`. -/
def encode (symbols : List Nat) : Res (List Nat × Nat) := do
  let s ← encLoop symbols ⟨[], 0, 0, 0⟩
  return (if s.offset ≠ 0 then s.out ++ [s.buffer] else s.out, s.total)

/-- The state of `decode`: `out`, `bits`, `offset`, `buffer`. -/
structure Dec where
  out : List Nat
  bits : Nat
  offset : Nat
  buffer : Nat
  deriving Repr, DecidableEq

/-- The refill part of one iteration, src/pos/encoding.cpp:95-105. -/
def refill (ws : List Nat) (s : Dec) : Res Dec :=
  if s.bits < 32 then
    match ws[s.offset / 64]? with
    | some w =>
      let count := min (64 - s.offset % 64) (64 - s.bits)
      .ok { s with buffer := s.buffer ||| u64 ((w >>> (s.offset % 64)) <<< s.bits)
                   offset := u64 (s.offset + count), bits := s.bits + count }
    | none => if s.bits = 0 then .throw else .ok s
  else .ok s

/-- One iteration of `decode`, src/pos/encoding.cpp:93-114. `decode_symbol` takes a `uint32_t`;
    symbols are stored as `uint8_t`. -/
def decStep (ws : List Nat) (s : Dec) : Res Dec := do
  let s ← refill ws s
  let (sym, width) := decodeSymbol (u32 s.buffer)
  Res.chk (width ≤ s.bits)
  return { s with out := s.out ++ [sym % 256], buffer := s.buffer >>> width, bits := s.bits - width }

def decLoop (ws : List Nat) : Nat → Dec → Res Dec
  | 0, s => .ok s
  | n + 1, s => do
    let s ← decStep ws s
    decLoop ws n s

/-- `decode`, src/pos/encoding.cpp:84-116. -/
def decode (ws : List Nat) (numSymbols bitOffset : Nat) : Res (List Nat) := do
  let s ← decLoop ws numSymbols ⟨[], 0, bitOffset, 0⟩
  return s.out

end Verif.Codec
