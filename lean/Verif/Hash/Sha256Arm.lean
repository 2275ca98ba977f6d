import Verif.Hash.Sha256NiFuns
/-
  The Arm instructions that src/sha256_arm.cpp and src/sha256_arm_rec.cpp are made of, as the Arm
  manual describes them, on vectors of four 32-bit words. The straight-line code itself is in
  Sha256ArmCode.lean.
-/
namespace Verif.Hash.Arm
open Ni (V4 kvec)

/-- One round of the manual's `SHA256hash(X, Y, W)`: `X` holds `a b c d` and `Y` holds `e f g h`, from
    the lowest word. The highest words are replaced, then `Y : X` is rotated left by one word. -/
def hashOne (p : V4 × V4) (w : BitVec 32) : V4 × V4 :=
  let x := p.1
  let y := p.2
  let t := y.x3 + sha256Alg.S1 y.x0 + specCh y.x0 y.x1 y.x2 + w
  let xd := t + x.x3
  let yh := t + sha256Alg.S0 x.x0 + specMaj x.x0 x.x1 x.x2
  (⟨yh, x.x0, x.x1, x.x2⟩, ⟨xd, y.x0, y.x1, y.x2⟩)

/-- `SHA256hash(X, Y, W)`: four rounds with the words of `W`, the lowest first. -/
def hashFour (x y w : V4) : V4 × V4 :=
  hashOne (hashOne (hashOne (hashOne (x, y) w.x0) w.x1) w.x2) w.x3

/-- `vsha256hq_u32(abcd, efgh, wk)`: the first half of the result. -/
def sha256h (abcd efgh wk : V4) : V4 := (hashFour abcd efgh wk).1

/-- `vsha256h2q_u32(efgh, abcd, wk)`: the second half of the result. -/
def sha256h2 (efgh abcd wk : V4) : V4 := (hashFour abcd efgh wk).2

/-- `vsha256su0q_u32(a, b)`: each word of `a` plus sigma 0 of the word after it; after the last of `a`
    comes the first of `b`. -/
def sha256su0 (a b : V4) : V4 :=
  ⟨sha256Alg.s0 a.x1 + a.x0, sha256Alg.s0 a.x2 + a.x1, sha256Alg.s0 a.x3 + a.x2,
   sha256Alg.s0 b.x0 + a.x3⟩

/-- `vsha256su1q_u32(t, n, m)`: the two low words from sigma 1 of the two high words of `m`, the two
    high words from sigma 1 of the two low words of the result. -/
def sha256su1 (t n m : V4) : V4 :=
  let r0 := sha256Alg.s1 m.x2 + t.x0 + n.x1
  let r1 := sha256Alg.s1 m.x3 + t.x1 + n.x2
  ⟨r0, r1, sha256Alg.s1 r0 + t.x2 + n.x3, sha256Alg.s1 r1 + t.x3 + m.x0⟩

/-- `vrev32q_u8`: the bytes of each word in reverse. -/
def rev32 (v : V4) : V4 :=
  V4.load ((toLE 4 v.x0).reverse ++ (toLE 4 v.x1).reverse ++ (toLE 4 v.x2).reverse
    ++ (toLE 4 v.x3).reverse)

/-- The variables of type `uint32x4_t`: `MSGTMP0` to `MSGTMP3`, `STATE0`, `STATE1`, `STATEV`, `MSGV`, and
    for the recursive version `HASH0_SAVE`, `HASH1_SAVE`, `HPAD0_CACHE`, `HPAD1_CACHE`. -/
inductive Reg where
  | T0 | T1 | T2 | T3 | S0 | S1 | V | M | H0 | H1 | P0 | P1
deriving DecidableEq

/-- A statement. The first register is assigned. -/
inductive Op where
  | mov (d s : Reg)
  /-- `d = vaddq(s, vld1q(&K64[k]))` -/
  | addK (d s : Reg) (k : Nat)
  | h (d a b k : Reg)
  | h2 (d a b k : Reg)
  | su0 (d a b : Reg)
  | su1 (d a b c : Reg)
deriving DecidableEq

abbrev File := Reg → V4

def File.set (f : File) (r : Reg) (v : V4) : File := fun x => if x = r then v else f x

def Op.exec (K : List (BitVec 32)) (f : File) : Op → File
  | .mov d s => f.set d (f s)
  | .addK d s k => f.set d ((f s).add (kvec K k))
  | .h d a b k => f.set d (sha256h (f a) (f b) (f k))
  | .h2 d a b k => f.set d (sha256h2 (f a) (f b) (f k))
  | .su0 d a b => f.set d (sha256su0 (f a) (f b))
  | .su1 d a b c => f.set d (sha256su1 (f a) (f b) (f c))

/-- Statements one after the other. -/
def run (K : List (BitVec 32)) (f : File) (l : List Op) : File := l.foldl (Op.exec K) f

/-- The same for two sets of variables, `_P1` (`false`) and `_P2` (`true`). -/
def exec2 (K : List (BitVec 32)) (f : Bool → File) (o : Bool × Op) : Bool → File :=
  fun p => if p = o.1 then Op.exec K (f p) o.2 else f p

def run2 (K : List (BitVec 32)) (f : Bool → File) (l : List (Bool × Op)) : Bool → File :=
  l.foldl (exec2 K) f

end Verif.Hash.Arm
