import Verif.Hash.ArmLemmas
import Verif.Hash.PropsSha256
/-
  C164: the versions of SHA-256 for Arm processors compute SHA-256, and so do the functions that pick a
  version by what the processor can do.
-/
namespace Verif.Hash
open Ni (V4 times)

/-- **C164.** The version with Arm's SHA instructions is SHA-256, for every message, whatever is in the
    registers at the start. -/
theorem C164_arm (junk : Arm.File) (m : List Byte) : Arm.sha256Arm junk m = sha256 m :=
  Arm.sha256Arm_eq junk m

/-- **C164.** The recursive version hashes a hash as often as asked, for every number of times. -/
theorem C164_recursive (junk : Arm.File) (hash : List Byte) (h : hash.length = 32) (n : BitVec 64) :
    Arm.recursiveArm junk hash n = Codec.iter sha256 n.toNat hash := by
  unfold Arm.recursiveArm
  rw [← times_iterate]
  by_cases hn : n.toNat = 0
  · rw [if_pos hn, hn]
    rfl
  · rw [if_neg hn, Arm.times_iter junk _ _ h, Arm.store_times _ _ h hn]

/-- **C164.** The version for two hashes at once works on both as if alone. -/
theorem C164_two (junk : Bool → Arm.File) (a b : List Byte) (ha : a.length = 32) (hb : b.length = 32)
    (n : BitVec 64) :
    Arm.recursiveArm2 junk (a ++ b) n
      = Codec.iter sha256 n.toNat a ++ Codec.iter sha256 n.toNat b := by
  unfold Arm.recursiveArm2
  rw [← times_iterate, ← times_iterate]
  by_cases hn : n.toNat = 0
  · rw [if_pos hn, hn]
    rfl
  · rw [if_neg hn]
    have h0 : (fun p : Bool => Arm.loadHash ((a ++ b).drop (if p then 32 else 0)))
        = fun p => Arm.loadHash (if p then b else a) := by
      funext p
      cases p
      · show Arm.loadHash (a ++ b) = Arm.loadHash a
        rw [Arm.loadHash_eq, Arm.loadHash_eq, loadHash_append a b ha]
      · show Arm.loadHash ((a ++ b).drop 32) = Arm.loadHash b
        rw [List.drop_left' ha]
    dsimp only
    rw [h0, Arm.times_iter2 junk n.toNat (fun p => if p then b else a)
      (by intro p; cases p <;> assumption)]
    dsimp only
    rw [if_neg (by decide), if_pos rfl, Arm.store_times _ _ ha hn, Arm.store_times _ _ hb hn]

/-! ### The functions that choose -/

/-- Which instructions the processor has, and what is in its registers. -/
structure Machine where
  avx2 : Bool
  shaNi : Bool
  shaArm : Bool
  junkNi : Bool → Ni.File
  junkArm : Bool → Arm.File
  junkAvx : Nat → Avx.V8
  /-- `vnx::SHA256`, not in the checkout -/
  soft : List Byte → List Byte

/-- The software version is only asked for on processors without SHA instructions; there it must be
    right. -/
def Machine.SoftOk (c : Machine) : Prop :=
  c.shaNi = false → c.shaArm = false → ∀ m : List Byte, m ≠ [] → c.soft m = sha256 m

/-- `hash_t::hash_t(data, num_bytes)`, src/hash_t.cpp:23-41, all branches. -/
def hashAny (c : Machine) (m : List Byte) : List Byte :=
  if m.length = 0 then
    [0xe3, 0xb0, 0xc4, 0x42, 0x98, 0xfc, 0x1c, 0x14, 0x9a, 0xfb, 0xf4, 0xc8, 0x99, 0x6f, 0xb9, 0x24,
     0x27, 0xae, 0x41, 0xe4, 0x64, 0x9b, 0x93, 0x4c, 0xa4, 0x95, 0x99, 0x1b, 0x78, 0x52, 0xb8, 0x55]
  else if c.shaNi then Ni.sha256Ni (c.junkNi false) m
  else if c.shaArm then Arm.sha256Arm (c.junkArm false) m
  else c.soft m

/-- `sha256_64_x8`, src/sha256_64_x8.cpp:14-40, all branches; `none` for an exception. The last branch
    goes through the constructor of `hash_t`. -/
def x8Any (c : Machine) (input : Nat → List Byte) (length : Nat) : Option (Nat → List Byte) :=
  if length > 64 - 9 then none
  else if c.shaNi then some fun i => Ni.sha256Ni (c.junkNi false) ((input i).take length)
  else if c.shaArm then some fun i => Arm.sha256Arm (c.junkArm false) ((input i).take length)
  else if c.avx2 then Avx.sha256Avx c.junkAvx input length
  else some fun i => hashAny c ((input i).take length)

/-- `TimeLord::compute`, src/TimeLord.cpp:324-340. -/
def computeAny (c : Machine) (input : List Byte) (numIters : BitVec 64) : List Byte :=
  if c.shaNi then Ni.recursiveNi (c.junkNi false) input numIters
  else if c.shaArm then Arm.recursiveArm (c.junkArm false) input numIters
  else times (hashAny c) numIters.toNat input

/-- Two points of a proof of time, src/Node_verify.cpp:307-318, on processors with SHA instructions
    (line 303); `none` for the exception in line 315. `num_iters` has 32 bits there. -/
def twoAny (c : Machine) (a b : List Byte) (numIters : BitVec 32) : Option (List Byte × List Byte) :=
  let split (l : List Byte) := (l.take 32, (l.drop 32).take 32)
  if c.shaNi then some (split (Ni.recursiveNi2 c.junkNi (a ++ b) (numIters.setWidth 64)))
  else if c.shaArm then some (split (Arm.recursiveArm2 c.junkArm (a ++ b) (numIters.setWidth 64)))
  else none

/-- **C164.** The hash of the node is SHA-256 on every processor. -/
theorem C164_hash (c : Machine) (hs : c.SoftOk) (m : List Byte) : hashAny c m = sha256 m := by
  unfold hashAny
  by_cases h : m.length = 0
  · rw [if_pos h, List.length_eq_zero_iff.1 h]
    decide +kernel
  · rw [if_neg h]
    have hm : m ≠ [] := fun h' => h (by rw [h']; rfl)
    by_cases h1 : c.shaNi = true
    · rw [if_pos h1, C100_ni]
    · rw [if_neg h1]
      by_cases h2 : c.shaArm = true
      · rw [if_pos h2, C164_arm]
      · rw [if_neg h2]
        exact hs (by simpa using h1) (by simpa using h2) m hm

/-- **C164.** Eight at once on every processor: each output is the hash of the first `n` bytes of its own
    input; more than 55 bytes are refused. -/
theorem C164_x8 (c : Machine) (hs : c.SoftOk) (input : Nat → List Byte) (n : Nat)
    (hl : ∀ i, i < 8 → (input i).length = 64) :
    (55 < n → x8Any c input n = none)
    ∧ (n ≤ 55 → ∃ out, x8Any c input n = some out
      ∧ ∀ i, i < 8 → out i = sha256 ((input i).take n)) := by
  unfold x8Any
  refine ⟨fun h => if_pos (by omega), fun h => ?_⟩
  rw [if_neg (by omega)]
  by_cases h1 : c.shaNi = true
  · rw [if_pos h1]
    exact ⟨_, rfl, fun i _ => C100_ni _ _⟩
  · rw [if_neg h1]
    by_cases h2 : c.shaArm = true
    · rw [if_pos h2]
      exact ⟨_, rfl, fun i _ => C164_arm _ _⟩
    · rw [if_neg h2]
      by_cases h3 : c.avx2 = true
      · rw [if_pos h3]
        exact C100_avx2 c.junkAvx input n h hl
      · rw [if_neg h3]
        exact ⟨_, rfl, fun i _ => C164_hash c hs _⟩

/-- **C164.** A time lord computes the same chain of hashes on every processor. -/
theorem C164_compute (c : Machine) (hs : c.SoftOk) (input : List Byte) (h : input.length = 32)
    (n : BitVec 64) : computeAny c input n = Codec.iter sha256 n.toNat input := by
  unfold computeAny
  by_cases h1 : c.shaNi = true
  · rw [if_pos h1, C100_recursive _ _ h]
  · rw [if_neg h1]
    by_cases h2 : c.shaArm = true
    · rw [if_pos h2, C164_recursive _ _ h]
    · rw [if_neg h2, times_iterate, show hashAny c = sha256 from funext (C164_hash c hs)]

theorem iter_len (n : Nat) (m : List Byte) (h : m.length = 32) :
    (Codec.iter sha256 n m).length = 32 := by
  rw [← times_iterate]
  exact Ni.times_length n m h

/-- **C164.** Where the node checks two points at once, it gets what the time lord computes, for every
    number of iterations. -/
theorem C164_check (c d : Machine) (hs : d.SoftOk) (hc : c.shaNi = true ∨ c.shaArm = true)
    (a b : List Byte) (ha : a.length = 32) (hb : b.length = 32) (n : BitVec 32) :
    twoAny c a b n = some (computeAny d a (n.setWidth 64), computeAny d b (n.setWidth 64)) := by
  rw [C164_compute d hs a ha, C164_compute d hs b hb]
  have h1 := iter_len (n.setWidth 64).toNat a ha
  have h2 := iter_len (n.setWidth 64).toNat b hb
  have hsplit : ∀ x y : List Byte, x.length = 32 → y.length = 32 →
      ((x ++ y).take 32, ((x ++ y).drop 32).take 32) = (x, y) := by
    intro x y hx hy
    rw [List.take_left' hx, List.drop_left' hx, List.take_of_length_le (by omega)]
  unfold twoAny
  dsimp only
  by_cases h3 : c.shaNi = true
  · rw [if_pos h3, C100_two _ _ _ ha hb, hsplit _ _ h1 h2]
  · rw [if_neg h3, if_pos (by cases hc <;> simp_all), C164_two _ _ _ ha hb, hsplit _ _ h1 h2]

/-! ### Instances -/

/-- Processors with and without SHA instructions meet the hypotheses. -/
def exMachine (arm : Bool) : Machine where
  avx2 := false
  shaNi := false
  shaArm := arm
  junkNi _ _ := ⟨1, 2, 3, 4⟩
  junkArm _ _ := ⟨5, 6, 7, 8⟩
  junkAvx _ _ := 9
  soft m := if arm then [] else sha256 m

theorem exMachine_ok (arm : Bool) : (exMachine arm).SoftOk := by
  intro _ h m _
  have h : arm = false := h
  subst h
  rfl

/-- The hash of "abc" on an Arm processor, by running the code. -/
example : Arm.sha256Arm (fun _ => ⟨5, 6, 7, 8⟩) [0x61, 0x62, 0x63]
    = [0xba, 0x78, 0x16, 0xbf, 0x8f, 0x01, 0xcf, 0xea, 0x41, 0x41, 0x40, 0xde, 0x5d, 0xae, 0x22, 0x23,
       0xb0, 0x03, 0x61, 0xa3, 0x96, 0x17, 0x7a, 0x9c, 0xb4, 0x10, 0xff, 0x61, 0xf2, 0x00, 0x15, 0xad] := by
  decide +kernel

example (a b : List Byte) (ha : a.length = 32) (hb : b.length = 32) :
    twoAny (exMachine true) a b 50000
      = some (computeAny (exMachine false) a 50000, computeAny (exMachine false) b 50000) :=
  C164_check _ _ (exMachine_ok false) (Or.inr rfl) a b ha hb 50000

end Verif.Hash
