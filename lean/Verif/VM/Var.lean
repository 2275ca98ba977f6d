import Verif.Base
import Verif.Codec.HashBytes
/-
  Values of the contract virtual machine: include/mmx/vm/var_t.h and src/vm/var_t.cpp.
  A byte is a `Nat` below 256, a machine integer a `Nat` below its bound (`Val.Wf`).
-/
namespace Verif.VM
open Verif.Codec (Bytes le)

/-- The value part of `var_t` and its subclasses, var_t.h:67-115 and 117-266. The five narrow
    integer codes of `vartype_e` exist in serialized form only. `capacity` of `binary_t` and the
    terminating zero of strings are allocation details and not kept. -/
inductive Val where
  | nil
  | fls
  | tru
  | ref (addr : Nat)
  | uint (v : Nat)
  | str (b : Bytes)
  | bin (b : Bytes)
  | arr (addr size : Nat)
  | map (addr : Nat)
  deriving DecidableEq, Repr

/-- `vartype_e` of a value, var_t.h:47-65. -/
def Val.code : Val → Nat
  | .nil => 0
  | .fls => 1
  | .tru => 2
  | .ref _ => 3
  | .uint _ => 4
  | .str _ => 5
  | .bin _ => 6
  | .arr _ _ => 7
  | .map _ => 8

/-- A variable: `ref_count`, `flags` and the value, var_t.h:67-73. -/
structure Var where
  rc : Nat
  flags : Nat
  val : Val
  deriving DecidableEq, Repr

/-- `num_bytes`, var_t.h:305-321. -/
def numBytes : Val → Nat
  | .ref _ => 8
  | .uint _ => 32
  | .str b => b.length
  | .bin b => b.length
  | .arr _ _ => 12
  | .map _ => 8
  | _ => 0

/-- `a == b ? 0 : (a < b ? -1 : 1)`, the pattern used throughout `compare`. -/
def cmpN (a b : Nat) : Ordering := if a = b then .eq else if a < b then .lt else .gt

/-- `::memcmp` of two buffers of the same size (sign of the result). -/
def memcmp : Bytes → Bytes → Ordering
  | [], _ => .eq
  | _, [] => .eq
  | a :: l, b :: r => if a = b then memcmp l r else if a < b then .lt else .gt

/-- `compare(const var_t&, const var_t&)`, var_t.cpp:47-101. -/
def compare (l r : Val) : Ordering :=
  if l.code ≠ r.code then (if l.code < r.code then .lt else .gt)
  else match l, r with
    | .ref a, .ref b => cmpN a b
    | .uint a, .uint b => cmpN a b
    | .str a, .str b => if a.length = b.length then memcmp a b else if a.length < b.length then .lt else .gt
    | .bin a, .bin b => if a.length = b.length then memcmp a b else if a.length < b.length then .lt else .gt
    | .arr a _, .arr b _ => cmpN a b
    | .map a, .map b => cmpN a b
    | _, _ => .eq

/-- `compare(const var_t*, const var_t*)`, var_t.cpp:103-112. -/
def comparePtr : Option Val → Option Val → Ordering
  | some a, some b => compare a b
  | none, none => .eq
  | none, some _ => .lt
  | some _, none => .gt

/-- The value bytes of `serialize`, with the type code, var_t.cpp:146-198. -/
def serVal : Val → Bytes
  | .ref a => 3 :: le 8 a
  | .uint v =>
    if v / 2 ^ 128 ≠ 0 then 13 :: le 32 v
    else if v / 2 ^ 64 ≠ 0 then 12 :: le 16 v
    else if v / 2 ^ 32 ≠ 0 then 11 :: le 8 v
    else if v / 2 ^ 16 ≠ 0 then 10 :: le 4 v
    else 9 :: le 2 v
  | .str b => 5 :: (le 4 b.length ++ b)
  | .bin b => 6 :: (le 4 b.length ++ b)
  | .arr a n => 7 :: (le 8 a ++ le 4 n)
  | .map a => 8 :: le 8 a
  | v => [v.code]

/-- `serialize(src, with_rc, with_vf)`, var_t.cpp:114-200. -/
def serialize (v : Var) (rc vf : Bool) : Bytes :=
  (if rc then le 4 v.rc else []) ++ (if vf then le 1 v.flags else []) ++ serVal v.val

/-- Value of a little-endian byte string (`memcpy` into an integer). -/
def leNat : Bytes → Nat
  | [] => 0
  | b :: l => b + 256 * leNat l

/-- `if(length < offset + n) throw; memcpy; offset += n`: the next `n` bytes as an integer and the
    rest of the input. -/
def rd (n : Nat) (s : Bytes) : Res (Nat × Bytes) :=
  if s.length < n then .throw else .ok (leNat (s.take n), s.drop n)

/-- A string or binary payload, var_t.cpp:291-307. `unsafe_alloc` refuses the size 2^32-1,
    var_t.h:225-228. -/
def rdBytes (s : Bytes) : Res (Bytes × Bytes) := do
  let (n, s) ← rd 4 s
  Res.chk (¬ s.length < n)
  Res.chk (¬ n ≥ 2 ^ 32 - 1)
  .ok (s.take n, s.drop n)

/-- The value part of `deserialize`: type code, payload, rest; var_t.cpp:221-329. -/
def desVal (s : Bytes) : Res (Val × Bytes) := do
  let (t, s) ← rd 1 s
  match t with
  | 0 => .ok (.nil, s)
  | 1 => .ok (.fls, s)
  | 2 => .ok (.tru, s)
  | 3 => do let (a, s) ← rd 8 s; .ok (.ref a, s)
  | 4 => do let (v, s) ← rd 32 s; .ok (.uint v, s)
  | 5 => do let (b, s) ← rdBytes s; .ok (.str b, s)
  | 6 => do let (b, s) ← rdBytes s; .ok (.bin b, s)
  | 7 => do
    Res.chk (¬ s.length < 12)
    let (a, s) ← rd 8 s
    let (n, s) ← rd 4 s
    .ok (.arr a n, s)
  | 8 => do let (a, s) ← rd 8 s; .ok (.map a, s)
  | 9 => do let (v, s) ← rd 2 s; .ok (.uint v, s)
  | 10 => do let (v, s) ← rd 4 s; .ok (.uint v, s)
  | 11 => do let (v, s) ← rd 8 s; .ok (.uint v, s)
  | 12 => do let (v, s) ← rd 16 s; .ok (.uint v, s)
  | 13 => do let (v, s) ← rd 32 s; .ok (.uint v, s)
  | _ => .throw

/-- `deserialize(out, data, length, with_rc, with_vf)`: the variable and the number of bytes
    consumed, var_t.cpp:202-335. The model keeps the unread rest instead of an offset. -/
def deserialize (s : Bytes) (rc vf : Bool) : Res (Var × Nat) := do
  let (c, s1) ← (if rc then rd 4 s else .ok (0, s))
  let (f, s2) ← (if vf then rd 1 s1 else .ok (0, s1))
  let (v, s3) ← desVal s2
  .ok (⟨c, f, v⟩, s.length - s3.length)

/-- `read_constants`: variables without count and flags until the input is used up,
    src/vm_interface.cpp:36-46. Every round consumes at least one byte, so the length is enough fuel. -/
def readConstants : Nat → Bytes → Res (List Val)
  | _, [] => .ok []
  | 0, _ => .ok []
  | k + 1, s => do
    let (v, n) ← deserialize s false false
    let l ← readConstants k (s.drop n)
    .ok (v.val :: l)

/-- The ranges of the C++ types; the size bound of strings is the one of `unsafe_alloc`. -/
def Val.Wf : Val → Prop
  | .ref a => a < 2 ^ 64
  | .uint v => v < 2 ^ 256
  | .str b => b.length < 2 ^ 32 - 1 ∧ ∀ x ∈ b, x < 256
  | .bin b => b.length < 2 ^ 32 - 1 ∧ ∀ x ∈ b, x < 256
  | .arr a n => a < 2 ^ 64 ∧ n < 2 ^ 32
  | .map a => a < 2 ^ 64
  | _ => True

structure Var.Wf (v : Var) : Prop where
  rc : v.rc < 2 ^ 32
  flags : v.flags < 256
  val : v.val.Wf

end Verif.VM
