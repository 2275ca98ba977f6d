import Verif.Hash.AvxLemmas
import Verif.Hash.OclLemmas
/-
  C100: the versions of SHA-256 for processors with special instructions compute SHA-256.
  C101: a proof of time is judged in the same way on the GPU and on the CPU.
-/
namespace Verif.Hash
open Ni

/-! ### C100 -/

/-- **C100.** The version with SHA instructions is SHA-256, for every message, whatever is in the
    registers at the start. -/
theorem C100_ni (junk : File) (m : List Byte) : sha256Ni junk m = sha256 m := sha256Ni_eq junk m

theorem times_iterate {β : Type} (f : β → β) (n : Nat) (x : β) : times f n x = Codec.iter f n x := by
  induction n generalizing x with
  | zero => rfl
  | succ n ih => exact ih (f x)

/-- **C100.** The recursive version hashes a hash as often as asked, for every number of times. -/
theorem C100_recursive (junk : File) (hash : List Byte) (h : hash.length = 32) (n : BitVec 64) :
    recursiveNi junk hash n = Codec.iter sha256 n.toNat hash := by
  unfold recursiveNi
  rw [← times_iterate]
  by_cases hn : n.toNat = 0
  · rw [if_pos hn, hn]
    rfl
  · rw [if_neg hn, times_iter junk _ _ h, store_times _ _ h hn]

theorem loadHash_append (a r : List Byte) (h : a.length = 32) : loadHash (a ++ r) = loadHash a := by
  have hx : ∀ l r : List Byte, 16 ≤ l.length → V4.load (l ++ r) = V4.load l := by
    intro l r hlr
    unfold V4.load
    rw [List.take_append_of_le_length (by omega), List.drop_append_of_le_length (by omega),
      List.take_append_of_le_length (by rw [List.length_drop]; omega),
      List.drop_append_of_le_length (by omega),
      List.take_append_of_le_length (by rw [List.length_drop]; omega),
      List.drop_append_of_le_length (by omega),
      List.take_append_of_le_length (by rw [List.length_drop]; omega)]
  unfold loadHash
  rw [List.drop_append_of_le_length (by omega), hx _ _ (by omega),
    hx _ _ (by rw [List.length_drop]; omega)]

/-- **C100.** The version for two hashes at once works on both as if alone. -/
theorem C100_two (junk : Bool → File) (a b : List Byte) (ha : a.length = 32) (hb : b.length = 32)
    (n : BitVec 64) :
    recursiveNi2 junk (a ++ b) n = Codec.iter sha256 n.toNat a ++ Codec.iter sha256 n.toNat b := by
  unfold recursiveNi2
  rw [← times_iterate, ← times_iterate]
  by_cases hn : n.toNat = 0
  · rw [if_pos hn, hn]
    rfl
  · rw [if_neg hn]
    have h0 : (fun p : Bool => loadHash ((a ++ b).drop (if p then 32 else 0)))
        = fun p => loadHash (if p then b else a) := by
      funext p
      cases p
      · show loadHash (a ++ b) = loadHash a
        exact loadHash_append a b ha
      · show loadHash ((a ++ b).drop 32) = loadHash b
        rw [List.drop_left' ha]
    dsimp only
    rw [h0, times_iter2 junk n.toNat (fun p => if p then b else a) (by intro p; cases p <;> assumption)]
    dsimp only
    rw [if_neg (by decide), if_pos rfl, store_times _ _ ha hn, store_times _ _ hb hn]

/-- **C100.** The version with AVX2: each of the eight outputs is the hash of the first `n` bytes of its
    own input, whatever the rest of the input and the registers hold. -/
theorem C100_avx2 (junk : Nat → Avx.V8) (input : Nat → List Byte) (n : Nat) (hn : n ≤ 55)
    (hl : ∀ i, i < 8 → (input i).length = 64) :
    ∃ out, Avx.sha256Avx junk input n = some out
      ∧ ∀ i, i < 8 → out i = sha256 ((input i).take n) :=
  Avx.sha256Avx_eq junk input n (by omega) hl

/-- **C100.** Longer inputs are refused. -/
theorem C100_avx2_long (junk : Nat → Avx.V8) (input : Nat → List Byte) (n : Nat) (hn : 55 < n) :
    Avx.sha256Avx junk input n = none := by
  unfold Avx.sha256Avx
  rw [if_pos (by omega)]

/-- **C100.** Eight at once on any processor: the same hashes, if the software version is right for
    short messages. -/
theorem C100_x8 (cpu : Avx.Cpu) (soft : List Byte → List Byte) (junkN : File) (junkA : Nat → Avx.V8)
    (hsoft : cpu.shaNi = false → cpu.avx2 = false → ∀ m : List Byte, m.length ≤ 55 → soft m = sha256 m)
    (input : Nat → List Byte) (n : Nat) (hl : ∀ i, i < 8 → (input i).length = 64) :
    (55 < n → Avx.sha256x8 cpu soft junkN junkA input n = none)
    ∧ (n ≤ 55 → ∃ out, Avx.sha256x8 cpu soft junkN junkA input n = some out
      ∧ ∀ i, i < 8 → out i = sha256 ((input i).take n)) := by
  unfold Avx.sha256x8
  refine ⟨fun h => if_pos (by omega), fun h => ?_⟩
  rw [if_neg (by omega)]
  by_cases h1 : cpu.shaNi = true
  · rw [if_pos h1]
    exact ⟨_, rfl, fun i _ => C100_ni junkN _⟩
  · rw [if_neg h1]
    by_cases h2 : cpu.avx2 = true
    · rw [if_pos h2]
      exact C100_avx2 junkA input n h hl
    · rw [if_neg h2]
      refine ⟨_, rfl, fun i hi => hsoft (by simpa using h1) (by simpa using h2) _ ?_⟩
      rw [List.length_take]
      omega

/-- `hash_t::hash_t(data, num_bytes)`, src/hash_t.cpp:23-42, without the branch for ARM; the
    constant of line 23 is the hash of nothing. `soft` is `vnx::SHA256`. -/
def hashT (shaNi : Bool) (soft : List Byte → List Byte) (junk : File) (m : List Byte) : List Byte :=
  if m.length = 0 then
    [0xe3, 0xb0, 0xc4, 0x42, 0x98, 0xfc, 0x1c, 0x14, 0x9a, 0xfb, 0xf4, 0xc8, 0x99, 0x6f, 0xb9, 0x24,
     0x27, 0xae, 0x41, 0xe4, 0x64, 0x9b, 0x93, 0x4c, 0xa4, 0x95, 0x99, 0x1b, 0x78, 0x52, 0xb8, 0x55]
  else if shaNi then sha256Ni junk m
  else soft m

/-- **C100.** The hash of the node is SHA-256, if the software version is where it is used. -/
theorem C100_hash (shaNi : Bool) (soft : List Byte → List Byte) (junk : File)
    (hsoft : shaNi = false → ∀ m : List Byte, m ≠ [] → soft m = sha256 m) (m : List Byte) :
    hashT shaNi soft junk m = sha256 m := by
  unfold hashT
  by_cases h : m.length = 0
  · rw [if_pos h, List.length_eq_zero_iff.1 h]
    decide +kernel
  · rw [if_neg h]
    have hm : m ≠ [] := fun h' => h (by rw [h']; rfl)
    cases shaNi with
    | true => exact C100_ni junk m
    | false => exact hsoft rfl m hm

/-! ### C101 -/

open Ocl in
theorem getElem?_lane (p : Codec.Vdf (List Byte)) (i : Nat) (hi : i < p.segments.length) :
    (points p)[i]? = some (if i = 0 then p.first else (p.segments[i - 1]?).getD p.first, p.segmentSize) := by
  unfold points
  rw [List.getElem?_map, List.getElem?_take_of_lt hi]
  cases i with
  | zero => rfl
  | succ i =>
    rw [List.getElem?_cons_succ, if_neg (by omega), show i + 1 - 1 = i by omega,
      List.getElem?_eq_getElem (by omega)]
    rfl

open Ocl in
/-- **C101.** The check with OpenCL accepts exactly the proofs that have segments and whose
    checkpoints are all reproduced by iterating SHA-256 one after the other. -/
theorem C101_gpu (junk : Nat → BitVec 32) (junkS : Regs 32) (p : Codec.Vdf (List Byte))
    (hs : p.segmentSize ≤ 2 ^ 32 - 2500) (fuel : Nat) (hf : p.segmentSize < fuel)
    (h0 : p.first.length = 32) (hseg : ∀ x ∈ p.segments, x.length = 32) :
    Ocl.verify junk junkS fuel p = .ok () ↔ p.segments ≠ [] ∧ Codec.SequentialOk sha256 p := by
  unfold Ocl.verify
  by_cases he : p.segments = []
  · rw [if_pos he]
    exact ⟨fun h => by simp at h, fun h => absurd he h.1⟩
  · rw [if_neg he]
    obtain ⟨n, h1, h2, -⟩ := count_eq p.segmentSize hs fuel 0 (by unfold maxIters; omega)
      (by unfold maxIters; omega)
    rw [h1]
    dsimp only
    have hlen : ((points p).map fun x => (launches junk junkS maxIters n x).1).length
        = p.segments.length := by
      unfold points
      rw [List.length_map, List.length_map, List.length_take, List.length_cons]
      omega
    have hlane : ((points p).map fun x => (launches junk junkS maxIters n x).1) = p.segments
        ↔ ∀ i, i < p.segments.length → p.segments[i]? = some (Codec.iter sha256 p.segmentSize
          (if i = 0 then p.first else (p.segments[i - 1]?).getD p.first)) := by
      have hst : ∀ i, i < p.segments.length →
          (if i = 0 then p.first else (p.segments[i - 1]?).getD p.first).length = 32 := by
        intro i hi
        by_cases hi0 : i = 0
        · rw [if_pos hi0]; exact h0
        · rw [if_neg hi0, List.getElem?_eq_getElem (by omega)]
          exact hseg _ (List.getElem_mem _)
      have hi' : ∀ i, i < p.segments.length →
          ((points p).map fun x => (launches junk junkS maxIters n x).1)[i]?
            = some (Codec.iter sha256 p.segmentSize
              (if i = 0 then p.first else (p.segments[i - 1]?).getD p.first)) := by
        intro i hi
        rw [List.getElem?_map, getElem?_lane p i hi, Option.map_some,
          launches_eq _ _ _ _ _ (hst i hi), Nat.min_eq_left (by omega)]
      refine ⟨fun h i hi => ?_, fun h => ?_⟩
      · rw [← hi' i hi, h]
      · refine List.ext_getElem? fun i => ?_
        by_cases hi : i < p.segments.length
        · rw [hi' i hi, h i hi]
        · rw [List.getElem?_eq_none (by omega), List.getElem?_eq_none (by omega)]
    have hseq : (∀ i, i < p.segments.length → p.segments[i]? = some (Codec.iter sha256 p.segmentSize
          (if i = 0 then p.first else (p.segments[i - 1]?).getD p.first)))
        ↔ Codec.SequentialOk sha256 p := by
      have := Codec.segOk_iff (e := { H := sha256, batch := 1, twoLane := false, zero := [], junk := [] })
        (p := p) (by omega)
      unfold Codec.segOk Codec.startOf at this
      rw [u32_of_lt (by omega)] at this
      exact this
    rw [← hseq, ← hlane, ← firstWrong_none 0 _ _ hlen]
    generalize firstWrong 0 _ p.segments = r
    cases r with
    | none => exact ⟨fun _ => ⟨he, rfl⟩, fun _ => rfl⟩
    | some i => exact ⟨fun h => by simp at h, fun h => by simp at h⟩

/-- **C101.** GPU and CPU give the same verdict on every proof, for every interleaving of the threads on
    the CPU: nodes with and without a GPU accept the same proofs. -/
theorem C101_same (junk : Nat → BitVec 32) (junkS : Regs 32) (p : Codec.Vdf (List Byte))
    (hs : p.segmentSize ≤ 2 ^ 32 - 2500) (fuel : Nat) (hf : p.segmentSize < fuel)
    (h0 : p.first.length = 32) (hseg : ∀ x ∈ p.segments, x.length = 32)
    (e : Codec.VdfEnv (List Byte)) (he : e.H = sha256) (fit : Codec.VdfFits e p) (s : Codec.VState)
    (hr : Codec.VRun e p Codec.vInit s) (hfin : Codec.vFinal e p s) :
    Ocl.verify junk junkS fuel p = .ok () ↔ Codec.vOutcome p s = .ok () := by
  rw [C101_gpu junk junkS p hs fuel hf h0 hseg, Codec.C35_any_schedule e p fit (by omega) s hr hfin, he]

/-- With a segment size of 2 ^ 32 - 3 or more the counter of launches wraps around for ever: the
    check on the GPU never ends. (The segment size is a parameter of the chain, 50000.) -/
theorem C101_endless (junk : Nat → BitVec 32) (junkS : Regs 32) (p : Codec.Vdf (List Byte))
    (hs : 2 ^ 32 - 4 < p.segmentSize) (he : p.segments ≠ []) (fuel : Nat) :
    Ocl.verify junk junkS fuel p = .ub := by
  unfold Ocl.verify
  rw [if_neg he, Ocl.count_never p.segmentSize hs fuel 0 rfl (by decide)]

/-! ### Instances -/

/-- A proof of two segments of three hashes each, from the hash of nothing, meets the hypotheses and is
    accepted; with the second checkpoint wrong it is not. -/
def exProof (good : Bool) : Codec.Vdf (List Byte) where
  first := sha256 []
  segments := [Codec.iter sha256 3 (sha256 []),
    if good then Codec.iter sha256 6 (sha256 []) else Codec.iter sha256 5 (sha256 [])]
  segmentSize := 3

theorem exProof_meets (good : Bool) : (exProof good).segmentSize ≤ 2 ^ 32 - 2500
    ∧ (exProof good).first.length = 32 ∧ ∀ x ∈ (exProof good).segments, x.length = 32 := by
  refine ⟨(by show 3 ≤ 2 ^ 32 - 2500; decide), sha256_length _, fun x hx => ?_⟩
  rcases List.mem_cons.1 hx with rfl | hx
  · exact Ocl.iter_length _ _ (sha256_length _)
  · rcases List.mem_cons.1 hx with rfl | hx
    · cases good
      · exact Ocl.iter_length _ _ (sha256_length _)
      · exact Ocl.iter_length _ _ (sha256_length _)
    · simp at hx

example (junk : Nat → BitVec 32) (junkS : Regs 32) : Ocl.verify junk junkS 4 (exProof true) = .ok () := by
  obtain ⟨h1, h2, h3⟩ := exProof_meets true
  refine (C101_gpu junk junkS _ h1 4 (by show 3 < 4; decide) h2 h3).2 ⟨by simp [exProof], ?_⟩
  intro i hi
  have hi : i < 2 := hi
  have hc : i = 0 ∨ i = 1 := by omega
  rcases hc with rfl | rfl <;> rfl

theorem ex_differ : Codec.iter sha256 5 (sha256 []) ≠ Codec.iter sha256 6 (sha256 []) := by
  decide +kernel

example (junk : Nat → BitVec 32) (junkS : Regs 32) : Ocl.verify junk junkS 4 (exProof false) ≠ .ok () := by
  obtain ⟨h1, h2, h3⟩ := exProof_meets false
  intro h
  have := ((C101_gpu junk junkS _ h1 4 (by show 3 < 4; decide) h2 h3).1 h).2 1 (by show 1 < 2; decide)
  exact ex_differ (Option.some.inj this)

end Verif.Hash
