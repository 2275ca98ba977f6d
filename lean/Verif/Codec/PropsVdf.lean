import Verif.Codec.VdfLemmas
/-
  C35: the chunked, multi-threaded check of a proof of time.
-/
namespace Verif.Codec

variable {α : Type} [DecidableEq α]

/-- The proof is right: iterating the hash sequentially from the start point reproduces every
    recorded checkpoint. Checkpoint `i` is due after `(i + 1) * segment_size` hashes. -/
def SequentialOk (H : α → α) (p : Vdf α) : Prop :=
  ∀ i, i < p.segments.length →
    p.segments[i]? = some (iter H ((i + 1) * p.segmentSize) p.first)

omit [DecidableEq α] in
theorem segOk_iff {e : VdfEnv α} {p : Vdf α} (hs : p.segmentSize < 2 ^ 32) :
    (∀ i, i < p.segments.length → segOk e p i) ↔ SequentialOk e.H p := by
  unfold SequentialOk segOk
  rw [u32_of_lt hs]
  constructor
  · intro h i
    induction i with
    | zero => intro hi; rw [h 0 hi]; simp [startOf]
    | succ i ih =>
      intro hi
      have hi' : i < p.segments.length := by omega
      rw [h (i + 1) hi]
      unfold startOf
      rw [if_neg (by omega), show i + 1 - 1 = i by omega, ih hi', Option.getD_some, ← iter_add,
        Nat.add_mul (i + 1) 1, Nat.one_mul]
  · intro h i hi
    rw [h i hi]
    unfold startOf
    by_cases h0 : i = 0
    · subst h0; simp
    · have hi' : i - 1 < p.segments.length := by omega
      rw [if_neg h0, h (i - 1) hi', Option.getD_some, ← iter_add,
        show (i - 1 + 1) * p.segmentSize + p.segmentSize = (i + 1) * p.segmentSize by
          rw [show i + 1 = (i - 1 + 1) + 1 by omega, Nat.add_mul (i - 1 + 1) 1, Nat.one_mul]]

/-- C35. However the chunks are scheduled over threads, once all of them are done the check accepts
    exactly the proofs that have segments and whose checkpoints are all reproduced by iterating
    sequentially. -/
theorem C35_any_schedule (e : VdfEnv α) (p : Vdf α) (f : VdfFits e p)
    (hs : p.segmentSize < 2 ^ 32) (s : VState) (hr : VRun e p vInit s) (hf : vFinal e p s) :
    vOutcome p s = .ok () ↔ p.segments ≠ [] ∧ SequentialOk e.H p := by
  have hi := (VInv.init e p).run f hr
  unfold vOutcome
  by_cases h0 : p.segments = []
  · simp [h0]
  · rw [if_neg h0]
    by_cases hinv : s.invalid = 0
    · rw [if_neg (by simpa using hinv)]
      refine ⟨fun _ => ⟨h0, (segOk_iff hs).1 fun i hi' => ?_⟩, fun _ => rfl⟩
      obtain ⟨h1, h2⟩ := chunk_of f hi'
      have h3 := hi.fin _ h1 (hf _ h1) hinv _ h2
      rw [show i / e.batch * e.batch + i % e.batch = i by
        rw [Nat.mul_comm]; exact Nat.div_add_mod ..] at h3
      exact h3
    · rw [if_pos hinv]
      refine ⟨fun h => (by cases h), fun h => ?_⟩
      obtain ⟨h1, h2⟩ := hi.flag hinv
      exact absurd ((segOk_iff hs).2 h.2 _ h1) h2

/-- C35, error message. When the check fails, the segment it names is one that its predecessor does
    not lead to. -/
theorem C35_reported_segment (e : VdfEnv α) (p : Vdf α) (f : VdfFits e p)
    (hs : p.segmentSize < 2 ^ 32) (s : VState) (hr : VRun e p vInit s) (hinv : s.invalid ≠ 0) :
    s.invalid - 1 < p.segments.length
    ∧ p.segments[s.invalid - 1]? ≠ some (iter e.H p.segmentSize
        (if s.invalid - 1 = 0 then p.first else (p.segments[s.invalid - 2]?).getD p.first)) := by
  obtain ⟨h1, h2⟩ := ((VInv.init e p).run f hr).flag hinv
  refine ⟨h1, ?_⟩
  unfold segOk startOf at h2
  rw [u32_of_lt hs] at h2
  exact h2

/-- C35, no schedule gets stuck: every partial run can be completed. -/
theorem C35_completes (e : VdfEnv α) (p : Vdf α) (f : VdfFits e p) (s : VState) :
    ∃ t, VRun e p s t ∧ vFinal e p t := by
  obtain ⟨t, h1, h2, -⟩ := vRun_finish f (numChunks e p) s (Nat.le_refl _)
  exact ⟨t, h1, h2⟩

/-- The claimed output (`segments.back()`, the input of the next proof) of an accepted proof is the
    start point hashed `num_iters` times, where `num_iters` is the product checked by
    `verify_vdf` (Node_verify.cpp:258-260). -/
theorem C35_output (e : VdfEnv α) (p : Vdf α) (f : VdfFits e p) (hs : p.segmentSize < 2 ^ 32)
    (s : VState) (hr : VRun e p vInit s) (hf : vFinal e p s) (hok : vOutcome p s = .ok ())
    (numIters : Nat) (hn : p.segments.length * p.segmentSize = numIters) :
    p.segments.getLast? = some (iter e.H numIters p.first) := by
  obtain ⟨h0, h1⟩ := (C35_any_schedule e p f hs s hr hf).1 hok
  have hl : 0 < p.segments.length := List.length_pos_iff.2 h0
  rw [List.getLast?_eq_getElem?, h1 _ (by omega), ← hn,
    show p.segments.length - 1 + 1 = p.segments.length by omega]

/-! ### A concrete proof of time -/

def exEnv (two : Bool) : VdfEnv Nat :=
  { H := fun x => (x * 5 + 3) % 101, batch := 16, twoLane := two, zero := 0, junk := [7, 7, 7] }

/-- 19 segments (a full chunk and an odd rest of three lanes), segment size 4. -/
def exVdf : Vdf Nat :=
  { first := 1
    segments := (List.range 19).map fun i => iter (fun x => (x * 5 + 3) % 101) ((i + 1) * 4) 1
    segmentSize := 4 }

example (two : Bool) : VdfFits (exEnv two) exVdf :=
  ⟨by cases two <;> decide, by cases two <;> decide, by cases two <;> decide⟩

example : SequentialOk (exEnv true).H exVdf := by
  unfold SequentialOk; decide +kernel

/-- Both machine variants, both chunks. -/
example : ∀ two ∈ [true, false], ∀ c ∈ [0, 1], chunkResult (exEnv two) exVdf c = .ok none := by
  decide +kernel

/-- Segments 3 and 17 damaged: their chunks report them, or the next one. -/
example : chunkResult (exEnv true)
      { exVdf with segments := (exVdf.segments.set 3 100).set 17 100 } 0 = .ok (some 4)
    ∧ chunkResult (exEnv true)
      { exVdf with segments := (exVdf.segments.set 3 100).set 17 100 } 1 = .ok (some 18) := by
  decide +kernel

end Verif.Codec
