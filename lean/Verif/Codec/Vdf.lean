import Verif.Base
/-
  Verification of a proof of time on the CPU, src/Node_verify.cpp:266-347.

  `α` is `hash_t`, `H` one SHA-256 of a hash. `recursive_sha256_ni_x2` / `recursive_sha256_arm_x2`
  are taken to iterate `H` on both halves, `sha256_64_x8` to apply `H` to eight lanes (proved for the
  x86 versions as C100).
-/
namespace Verif.Codec

/-- `H` applied `n` times. -/
def iter {α : Type} (H : α → α) : Nat → α → α
  | 0, x => x
  | n + 1, x => iter H n (H x)

/-- A proof of time as far as the check looks at it. `first` is
    `hash_t(hash_t(input + prev) + reward_addr)`. -/
structure Vdf (α : Type) where
  first : α
  segments : List α
  segmentSize : Nat

/-- The compile-time and machine parameters: `batch_size`, whether a two-lane SHA instruction
    extension is used, and the contents of memory the code never initialises. -/
structure VdfEnv (α : Type) where
  H : α → α
  batch : Nat
  twoLane : Bool
  zero : α
  junk : List α

/-- Start point of segment `i`, Node_verify.cpp:295-301. Reading outside is undefined. -/
def startPoint {α : Type} (p : Vdf α) (i : Nat) : Res α :=
  if i > 0 then
    match p.segments[i - 1]? with
    | some x => .ok x
    | none => .ub
  else .ok p.first

/-- `num_lanes`, Node_verify.cpp:287. -/
def numLanes {α : Type} (e : VdfEnv α) (p : Vdf α) (chunk : Nat) : Nat :=
  min e.batch (u32 (p.segments.length - chunk * e.batch))

/-- Filling `point[]`, Node_verify.cpp:293-302: lanes `j` up to `num_lanes`. The rest keeps the
    default value. -/
def fillLanes {α : Type} (e : VdfEnv α) (p : Vdf α) (chunk : Nat) :
    Nat → Nat → List α → Res (List α)
  | 0, _, pts => .ok pts
  | fuel + 1, j, pts =>
    if j < numLanes e p chunk then do
      let x ← startPoint p (u32 (chunk * e.batch + j))
      fillLanes e p chunk fuel (j + 1) (pts.set j x)
    else .ok pts

/-- The two-lane loop, Node_verify.cpp:305-319. -/
def pairLoop {α : Type} (e : VdfEnv α) (n lanes : Nat) : Nat → Nat → List α → Res (List α)
  | 0, _, pts => .ok pts
  | fuel + 1, j, pts =>
    if j < lanes then
      match pts[j]?, pts[j + 1]? with
      | some a, some b =>
        pairLoop e n lanes fuel (j + 2) ((pts.set j (iter e.H n a)).set (j + 1) (iter e.H n b))
      | _, _ => .ub
    else .ok pts

/-- One iteration of the lock-step loop, Node_verify.cpp:321-332: copy the used lanes to `input`,
    hash all lanes, copy the used lanes back. `input` and `pts` are the two arrays. -/
def lockStep {α : Type} (e : VdfEnv α) (lanes : Nat) (s : List α × List α) : List α × List α :=
  let input := s.1.take lanes ++ s.2.drop lanes
  let hash := input.map e.H
  (hash.take lanes ++ s.1.drop lanes, input)

def lockLoop {α : Type} (e : VdfEnv α) (lanes : Nat) : Nat → List α × List α → List α × List α
  | 0, s => s
  | n + 1, s => lockLoop e lanes n (lockStep e lanes s)

/-- The comparison, Node_verify.cpp:334-342: the number of the first wrong segment plus one. -/
def compareLanes {α : Type} [DecidableEq α] (e : VdfEnv α) (p : Vdf α) (chunk : Nat)
    (pts : List α) : Nat → Nat → Res (Option Nat)
  | 0, _ => .ok none
  | fuel + 1, j =>
    if j < numLanes e p chunk then
      let i := u32 (chunk * e.batch + j)
      match pts[j]?, p.segments[i]? with
      | some a, some b => if a ≠ b then .ok (some (u32 (i + 1))) else compareLanes e p chunk pts fuel (j + 1)
      | _, _ => .ub
    else .ok none

/-- The work of one chunk, Node_verify.cpp:287-342, up to the update of the shared flag. -/
def chunkResult {α : Type} [DecidableEq α] (e : VdfEnv α) (p : Vdf α) (chunk : Nat) :
    Res (Option Nat) := do
  let n := u32 p.segmentSize
  let lanes := numLanes e p chunk
  let pts ← fillLanes e p chunk e.batch 0 (List.replicate e.batch e.zero)
  let pts ← if e.twoLane then pairLoop e n lanes e.batch 0 pts
    else .ok (lockLoop e lanes n (pts, e.junk)).1
  compareLanes e p chunk pts e.batch 0

/-- `num_chunks`, Node_verify.cpp:279. -/
def numChunks {α : Type} (e : VdfEnv α) (p : Vdf α) : Nat :=
  u32 ((p.segments.length + e.batch - 1) / e.batch)

/-- Where the thread of one loop iteration stands. -/
inductive Phase where
  | ready
  | busy
  | done
  deriving DecidableEq, Repr

/-- The parallel loop: the shared flag and the phase of every chunk. -/
structure VState where
  invalid : Nat
  phase : Nat → Phase

def setPhase (f : Nat → Phase) (c : Nat) (x : Phase) : Nat → Phase :=
  fun d => if d = c then x else f d

/-- One atomic access to the shared flag by some thread: the load at the top
    (Node_verify.cpp:284) or the compare-exchange at the end (line 339). OpenMP may run the
    chunks in any order, with any overlap. -/
inductive VStep {α : Type} [DecidableEq α] (e : VdfEnv α) (p : Vdf α) : VState → VState → Prop
  | skip (s : VState) (c : Nat) : c < numChunks e p → s.phase c = .ready → s.invalid ≠ 0 →
      VStep e p s { s with phase := setPhase s.phase c .done }
  | start (s : VState) (c : Nat) : c < numChunks e p → s.phase c = .ready → s.invalid = 0 →
      VStep e p s { s with phase := setPhase s.phase c .busy }
  | good (s : VState) (c : Nat) : c < numChunks e p → s.phase c = .busy →
      chunkResult e p c = .ok none →
      VStep e p s { s with phase := setPhase s.phase c .done }
  | bad (s : VState) (c k : Nat) : c < numChunks e p → s.phase c = .busy →
      chunkResult e p c = .ok (some k) →
      VStep e p s { invalid := if s.invalid = 0 then k else s.invalid,
                    phase := setPhase s.phase c .done }

inductive VRun {α : Type} [DecidableEq α] (e : VdfEnv α) (p : Vdf α) : VState → VState → Prop
  | refl (s : VState) : VRun e p s s
  | step {s t u : VState} : VRun e p s t → VStep e p t u → VRun e p s u

def vInit : VState := ⟨0, fun _ => .ready⟩

/-- The loop has ended: every chunk is done. -/
def vFinal {α : Type} (e : VdfEnv α) (p : Vdf α) (s : VState) : Prop :=
  ∀ c, c < numChunks e p → s.phase c = .done

/-- The end of `verify_vdf_cpu`, Node_verify.cpp:271-274 and 344-346. -/
def vOutcome {α : Type} (p : Vdf α) (s : VState) : Res Unit :=
  if p.segments = [] then .throw else if s.invalid ≠ 0 then .throw else .ok ()

end Verif.Codec
