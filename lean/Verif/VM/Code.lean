import Verif.VM.VarLemmas
/-
  Bytecode and its serialized form: include/mmx/vm/instr_t.h and src/vm/instr_t.cpp.
-/
namespace Verif.VM
open Verif.Codec (Bytes le)

/-- `instr_t`, instr_t.h:105-121. `code` is any byte, also one that is no operation. -/
structure Instr where
  code : Nat
  flags : Nat := 0
  a : Nat := 0
  b : Nat := 0
  c : Nat := 0
  d : Nat := 0
  deriving DecidableEq, Repr

/-- `get_opcode_info(code).nargs`: the table filled at instr_t.cpp:23-76 with the codes of
    instr_t.h:28-85; entries never set have no arguments. -/
def nargs (code : Nat) : Nat :=
  match code with
  | 0x01 | 0x04 => 1
  | 0x02 | 0x03 | 0x05 | 0x06 | 0x07 => 2
  | 0x20 | 0x21 | 0x22 | 0x23 | 0x24 => 3
  | 0x40 => 2
  | 0x41 | 0x42 | 0x43 | 0x44 | 0x45 | 0x46 | 0x47 => 3
  | 0x60 | 0x61 | 0x62 | 0x63 | 0x64 | 0x65 => 3
  | 0x80 | 0x81 => 2
  | 0x82 | 0x83 => 3
  | 0x84 | 0x85 | 0x86 => 2
  | 0xA0 => 4
  | 0xA1 => 3
  | 0xA2 => 4
  | 0xA3 => 2
  | 0xA4 => 4
  | 0xC0 => 2
  | 0xC1 => 4
  | 0xC2 => 3
  | 0xC3 | 0xC4 => 2
  | 0xC5 => 4
  | 0xC6 => 3
  | 0xC7 => 2
  | _ => 0

/-- `encode_instr`, instr_t.cpp:104-107. -/
def encodeInstr (i : Instr) : Nat := i.flags * 256 + i.code

/-- The operands that count for an instruction, in order. -/
def operands (i : Instr) : List Nat := [i.a, i.b, i.c, i.d].take (nargs i.code)

/-- All symbols counted in `sym_count`, instr_t.cpp:111-127. -/
def symUses (code : List Instr) : List Nat :=
  code.flatMap fun i => operands i ++ [encodeInstr i]

/-- The order of `sym_list`, instr_t.cpp:135-138. -/
def symLess (l r : Nat × Nat) : Bool := if l.2 = r.2 then l.1 < r.1 else l.2 > r.2

/-- `std::sort` under `symLess`: a strict total order on pairs with different keys, so the sorted
    list is unique and insertion sort computes it. -/
def symInsert (x : Nat × Nat) : List (Nat × Nat) → List (Nat × Nat)
  | [] => [x]
  | y :: l => if symLess x y then x :: y :: l else y :: symInsert x l

/-- `sym_count`: every symbol used, once, with its number of uses; instr_t.cpp:111-127. -/
def symCount (l : List Nat) : List (Nat × Nat) := l.eraseDups.map fun s => (s, u32 (l.count s))

/-- `sym_list`: symbols used more than once, most used first, at most 0x7FFF + 0xFF of them;
    instr_t.cpp:128-140. -/
def symList (code : List Instr) : List Nat :=
  (((symCount (symUses code)).filter (fun p => p.2 > 1)).foldr symInsert []).map (·.1)
    |>.take (0x7FFF + 0xFF)

/-- `encode_symbol` together with `sym_map`, instr_t.cpp:84-102 and 142-154. -/
def encodeSymbol (syms : List Nat) (s : Nat) : Bytes :=
  match syms.findIdx? (· == s) with
  | some i => if i < 0xFF then le 1 i else le 3 ((i - 0xFF) * 256 + 0xFF)
  | none =>
    if s < 0x7FFF then le 3 ((0x8000 + s) * 256 + 0xFF)
    else le 7 (s * 2 ^ 24 + 0xFFFFFF)

/-- One serialized instruction, instr_t.cpp:168-185. -/
def encodeOne (syms : List Nat) (i : Instr) : Bytes :=
  encodeSymbol syms (encodeInstr i) ++ (operands i).flatMap (encodeSymbol syms)

/-- `serialize(code)`, instr_t.cpp:109-189. -/
def serializeCode (code : List Instr) : Bytes :=
  le 1 1 ++ le 4 (symList code).length ++ (symList code).flatMap (le 4) ++
    le 4 code.length ++ code.flatMap (encodeOne (symList code))

/-- `sym_list[i]` behind the bounds check, instr_t.cpp:196-213. -/
def symAt (syms : List Nat) (i : Nat) (s : Bytes) : Res (Nat × Bytes) :=
  match syms[i]? with
  | some x => .ok (x, s)
  | none => .throw

/-- `decode_symbol`, instr_t.cpp:191-221. Reading past the end throws. -/
def decodeSymbol (syms : List Nat) (s : Bytes) : Res (Nat × Bytes) := do
  let (f, s) ← rd 1 s
  if f < 0xFF then symAt syms f s
  else do
    let (x, s) ← rd 2 s
    if x < 0x7FFF then symAt syms (x + 0xFF) s
    else if x < 0xFFFF then .ok (x % 0x8000, s)
    else rd 4 s

/-- The next `n` symbols. -/
def decodeSymbols (syms : List Nat) : Nat → Bytes → Res (List Nat × Bytes)
  | 0, s => .ok ([], s)
  | n + 1, s => do
    let (x, s) ← decodeSymbol syms s
    let (l, s) ← decodeSymbols syms n s
    .ok (x :: l, s)

/-- `decode_instr` and the operands, instr_t.cpp:223-230 and 257-275: operands not read stay 0. -/
def decodeOne (syms : List Nat) (s : Bytes) : Res (Instr × Bytes) := do
  let (w, s) ← decodeSymbol syms s
  let (l, s) ← decodeSymbols syms (nargs (w % 256)) s
  .ok ({ code := w % 256, flags := w / 256 % 256, a := (l[0]?).getD 0, b := (l[1]?).getD 0,
         c := (l[2]?).getD 0, d := (l[3]?).getD 0 }, s)

/-- `n` times a parser. -/
def rdMany {α : Type} (f : Bytes → Res (α × Bytes)) : Nat → Bytes → Res (List α × Bytes)
  | 0, s => .ok ([], s)
  | n + 1, s => do
    let (x, s) ← f s
    let (l, s) ← rdMany f n s
    .ok (x :: l, s)

/-- `deserialize(code, data, length)` with an empty `code`, keeping the unread rest;
    instr_t.cpp:232-277. -/
def deserializeCode (s : Bytes) : Res (List Instr × Bytes) := do
  let (v, s) ← rd 1 s
  Res.chk (v = 1)
  let (n, s) ← rd 4 s
  Res.chk (¬ n > 0x7FFF + 0xFF)
  let (syms, s) ← rdMany (rd 4) n s
  let (m, s) ← rd 4 s
  rdMany (decodeOne syms) m s

/-- Ranges of the fields of `instr_t`. -/
structure Instr.Wf (i : Instr) : Prop where
  code : i.code < 256
  flags : i.flags < 256
  a : i.a < 2 ^ 32
  b : i.b < 2 ^ 32
  c : i.c < 2 ^ 32
  d : i.d < 2 ^ 32

end Verif.VM
