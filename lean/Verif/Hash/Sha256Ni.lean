import Verif.Hash.Sha512
/-
  The x86 instructions that src/sha256_ni.cpp and src/sha256_ni_rec.cpp are made of, as the Intel
  manual describes them, on vectors of four 32-bit words. The straight-line code itself is in
  Sha256NiCode.lean.
-/
namespace Verif.Hash.Ni

/-- `__m128i` as four words, the lowest first. -/
structure V4 where
  x0 : BitVec 32
  x1 : BitVec 32
  x2 : BitVec 32
  x3 : BitVec 32
deriving DecidableEq

def V4.words (v : V4) : List (BitVec 32) := [v.x0, v.x1, v.x2, v.x3]

def V4.ofWords (l : List (BitVec 32)) : V4 :=
  ⟨l.getD 0 0, l.getD 1 0, l.getD 2 0, l.getD 3 0⟩

/-- `_mm_set_epi64x`: the high half first. -/
def setEpi64 (hi lo : BitVec 64) : V4 :=
  ⟨lo.setWidth 32, (lo >>> 32).setWidth 32, hi.setWidth 32, (hi >>> 32).setWidth 32⟩

/-- The memory image of a vector, and a vector from memory (`_mm_storeu_si128`, `_mm_loadu_si128`). -/
def V4.bytes (v : V4) : List Byte := toLE 4 v.x0 ++ toLE 4 v.x1 ++ toLE 4 v.x2 ++ toLE 4 v.x3

def V4.load (l : List Byte) : V4 :=
  ⟨ofLE 32 (l.take 4), ofLE 32 ((l.drop 4).take 4), ofLE 32 ((l.drop 8).take 4),
   ofLE 32 ((l.drop 12).take 4)⟩

/-- `_mm_add_epi32`. -/
def V4.add (a b : V4) : V4 := ⟨a.x0 + b.x0, a.x1 + b.x1, a.x2 + b.x2, a.x3 + b.x3⟩

/-- `_mm_shuffle_epi32`: word `i` of the result is chosen by bits `2i` and `2i + 1`. -/
def shuf32 (v : V4) (imm : Nat) : V4 :=
  V4.ofWords ((List.range 4).map fun i => v.words.getD (imm / 4 ^ i % 4) 0)

/-- `_mm_shuffle_epi8`: byte `i` of the result is the byte of `v` that byte `i` of the mask numbers,
    or zero if the highest bit of that is set. -/
def shuf8 (v mask : V4) : V4 :=
  V4.load (mask.bytes.map fun m => if m.msb then 0 else v.bytes.getD (m.toNat % 16) 0)

/-- `_mm_alignr_epi8`: `a` above `b`, shifted right by `imm` bytes; here for multiples of four. -/
def alignr (a b : V4) (imm : Nat) : V4 := V4.ofWords ((b.words ++ a.words).drop (imm / 4))

/-- `_mm_blend_epi16`: half word `i` is that of `b` if bit `i` is set; here for immediates with
    equal bits `2i` and `2i + 1`. -/
def blend16 (a b : V4) (imm : Nat) : V4 :=
  V4.ofWords ((List.range 4).map fun i =>
    if imm / 4 ^ i % 4 = 3 then b.words.getD i 0 else a.words.getD i 0)

/-- The variables of a round of `SHA256RNDS2`: `A` to `H`. -/
def rndsOne (s : Regs 32) (wk : BitVec 32) : Regs 32 :=
  let t := specCh s.e s.f s.g + sha256Alg.S1 s.e + wk + s.h
  { a := t + specMaj s.a s.b s.c + sha256Alg.S0 s.a, b := s.a, c := s.b, d := s.c, e := t + s.d,
    f := s.e, g := s.f, h := s.g }

/-- `_mm_sha256rnds2_epu32(a, b, k)`: `a` holds `C D G H` and `b` holds `A B E F`, from the highest
    word; two rounds with the two low words of `k`; the result holds `A B E F`. -/
def rnds2 (a b k : V4) : V4 :=
  let s : Regs 32 := { a := b.x3, b := b.x2, c := a.x3, d := a.x2, e := b.x1, f := b.x0, g := a.x1,
                       h := a.x0 }
  let t := rndsOne (rndsOne s k.x0) k.x1
  ⟨t.f, t.e, t.b, t.a⟩

/-- `_mm_sha256msg1_epu32`. -/
def msg1 (a b : V4) : V4 :=
  ⟨a.x0 + sha256Alg.s0 a.x1, a.x1 + sha256Alg.s0 a.x2, a.x2 + sha256Alg.s0 a.x3,
   a.x3 + sha256Alg.s0 b.x0⟩

/-- `_mm_sha256msg2_epu32`. -/
def msg2 (a b : V4) : V4 :=
  let w16 := a.x0 + sha256Alg.s1 b.x2
  let w17 := a.x1 + sha256Alg.s1 b.x3
  ⟨w16, w17, a.x2 + sha256Alg.s1 w16, a.x3 + sha256Alg.s1 w17⟩

/-- The variables of type `__m128i`: `TMSG0` to `TMSG3` (`MSGTMP0` to `MSGTMP3`), `STATE0`, `STATE1`,
    `MSG`, and for the recursive version `HASH0_SAVE`, `HASH1_SAVE`, `HPAD0_CACHE`, `HPAD1_CACHE`. -/
inductive Reg where
  | T0 | T1 | T2 | T3 | S0 | S1 | M | H0 | H1 | P0 | P1
deriving DecidableEq

/-- A statement. The first register is assigned. -/
inductive Op where
  | mov (d s : Reg)
  /-- `d = add(s, K[k .. k + 3])` -/
  | addK (d s : Reg) (k : Nat)
  | rnds (d a b k : Reg)
  /-- `d = rnds2(a, b, shuffle(k, imm))` -/
  | rndsShuf (d a b k : Reg) (imm : Nat)
  | shuf (d s : Reg) (imm : Nat)
  | msg1 (d a b : Reg)
  | msg2 (d a b : Reg)
  /-- `d = add(a, alignr(b, c, imm))` -/
  | addAlign (d a b c : Reg) (imm : Nat)
deriving DecidableEq

abbrev File := Reg → V4

def File.set (f : File) (r : Reg) (v : V4) : File := fun x => if x = r then v else f x

/-- `_mm_load_si128(&K[k])`. -/
def kvec (K : List (BitVec 32)) (k : Nat) : V4 := V4.ofWords (K.drop k)

def Op.exec (K : List (BitVec 32)) (f : File) : Op → File
  | .mov d s => f.set d (f s)
  | .addK d s k => f.set d ((f s).add (kvec K k))
  | .rnds d a b k => f.set d (rnds2 (f a) (f b) (f k))
  | .rndsShuf d a b k imm => f.set d (rnds2 (f a) (f b) (shuf32 (f k) imm))
  | .shuf d s imm => f.set d (shuf32 (f s) imm)
  | .msg1 d a b => f.set d (Ni.msg1 (f a) (f b))
  | .msg2 d a b => f.set d (Ni.msg2 (f a) (f b))
  | .addAlign d a b c imm => f.set d ((f a).add (alignr (f b) (f c) imm))

/-- Statements one after the other. -/
def run (K : List (BitVec 32)) (f : File) (l : List Op) : File := l.foldl (Op.exec K) f

/-- The same for two sets of variables, `_P1` (`false`) and `_P2` (`true`). -/
def exec2 (K : List (BitVec 32)) (f : Bool → File) (o : Bool × Op) : Bool → File :=
  fun p => if p = o.1 then Op.exec K (f p) o.2 else f p

def run2 (K : List (BitVec 32)) (f : Bool → File) (l : List (Bool × Op)) : Bool → File :=
  l.foldl (exec2 K) f

/-- `MASK`, sha256_ni.cpp:60 (`SHUF_MASK`, sha256_ni_rec.cpp:52 and 215). -/
def mask : V4 := setEpi64 0x0c0d0e0f08090a0b 0x0405060700010203

end Verif.Hash.Ni
