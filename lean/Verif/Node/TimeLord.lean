import Verif.Base
/-
  The time lord: src/TimeLord.cpp:102-322. One thread iterates the hash and records a checkpoint
  every `segment_iters` iterations, the other takes requests and publishes proofs of time.

  Everything either thread does to shared data happens under one mutex, so a run is a sequence of
  the critical sections below. Only `compute` (TimeLord.cpp:312-313) runs outside of it, on data of
  its own thread. `α` is `hash_t`. Iteration counts are natural numbers (the code has 64 bits). The
  speed estimate, logging, heights, keys and signatures are left out. `update` can run at any time
  (a superset of the `add_task` calls at lines 198 and 300).
-/
namespace Verif.Node.TimeLord

variable {α : Type}

/-- What the two threads compute with: `seg` is `segment_iters`, `comp` is
    `compute(·, segment_iters)` (TimeLord.cpp:324-340), `mix output value` the infusion
    `hash_t(hash_t(output + value) + reward_addr)` (TimeLord.cpp:306-307; the reward address is
    set once, before the thread starts), `zero` is `hash_t()`, `keep` is `max_history`. -/
structure Env (α : Type) where
  seg : Nat
  comp : α → α
  mix : α → α → α
  zero : α
  keep : Nat

/-- A checkpoint, `history` in include/mmx/TimeLord.h. The field `used` is not in the code: it records
    the value infused when the computation went on from here. -/
structure Entry (α : Type) where
  iters : Nat
  out : α
  used : Option α
deriving DecidableEq

/-- `IntervalRequest`. -/
structure Request (α : Type) where
  start : Nat
  stop : Nat
  infuse : α
  input : Option α
deriving DecidableEq

/-- `ProofOfTime` as far as it is filled in from the history, TimeLord.cpp:223-238. -/
structure Proof (α : Type) where
  start : Nat
  numIters : Nat
  segmentSize : Nat
  input : α
  prev : α
  segments : List α
deriving DecidableEq

/-- Shared data (include/mmx/TimeLord.h), and of the computing thread its `point` and whether it is
    between two critical sections (`computing`). Maps are lists in the order of their keys.
    `published` collects what was sent. -/
structure State (α : Type) where
  doRun : Bool
  isReset : Bool
  peak : Option (Nat × α)
  peakIters : Nat
  history : List (Entry α)
  infuse : List (Nat × α)
  pending : List (Request α)
  point : Nat × α
  computing : Bool
  published : List (Proof α)
deriving DecidableEq

/-- Before the first request. -/
def State.init (e : Env α) : State α :=
  { doRun := false, isReset := false, peak := none, peakIters := 0, history := [], infuse := [],
    pending := [], point := (0, e.zero), computing := false, published := [] }

/-- Look up a value in `infuse`. -/
def infuseAt (l : List (Nat × α)) (k : Nat) : Option α :=
  (l.find? (fun p => p.1 == k)).map (·.2)

/-- `infuse[k] = v`. -/
def putInfuse (l : List (Nat × α)) (k : Nat) (v : α) : List (Nat × α) :=
  l.filter (fun p => decide (p.1 < k)) ++ (k, v) :: l.filter (fun p => decide (k < p.1))

/-- `infuse.erase(infuse.upper_bound(start), infuse.lower_bound(end))`, TimeLord.cpp:131. -/
def dropInfuse (l : List (Nat × α)) (a b : Nat) : List (Nat × α) :=
  l.filter (fun p => !(decide (a < p.1) && decide (p.1 < b)))

/-- `history.find(k)`. -/
def entryAt (l : List (Entry α)) (k : Nat) : Option (Entry α) := l.find? (fun p => p.iters == k)

/-- `history[k] = x`. -/
def putEntry (l : List (Entry α)) (x : Entry α) : List (Entry α) :=
  l.filter (fun p => decide (p.iters < x.iters)) ++ x ::
    l.filter (fun p => decide (x.iters < p.iters))

/-- `pending.erase(pending.upper_bound(start), pending.lower_bound(end))`, TimeLord.cpp:132. -/
def dropPending (l : List (Request α)) (a b : Nat) : List (Request α) :=
  l.filter (fun q => !(decide (a < q.stop) && decide (q.stop < b)))

/-- `pending[end] = req`, TimeLord.cpp:195. -/
def putPending (l : List (Request α)) (r : Request α) : List (Request α) :=
  l.filter (fun p => decide (p.stop < r.stop)) ++ r ::
    l.filter (fun p => decide (r.stop < p.stop))

/-- `peak && start <= peak->num_iters`, TimeLord.cpp:135. -/
def passed (s : State α) (start : Nat) : Bool :=
  match s.peak with
  | none => false
  | some p => decide (start ≤ p.1)

/-- Whether the request's infusion differs from what was used, TimeLord.cpp:137-150. -/
def infusionFork [DecidableEq α] (s : State α) (r : Request α) : Bool :=
  match infuseAt s.infuse r.start with
  | some v => passed s r.start && decide (r.infuse ≠ v)
  | none => passed s r.start

/-- TimeLord.cpp:130-132: forget infusions and requests inside the interval. -/
def clearBetween (s : State α) (r : Request α) : State α :=
  { s with
    infuse := dropInfuse s.infuse r.start r.stop
    pending := dropPending s.pending r.start r.stop }

/-- `history[start]` read with `operator[]`, TimeLord.cpp:155: a missing checkpoint is inserted as
    the zero hash. -/
def readHistory (e : Env α) (l : List (Entry α)) (k : Nat) : α × List (Entry α) :=
  match entryAt l k with
  | some x => (x.out, l)
  | none => (e.zero, putEntry l { iters := k, out := e.zero, used := none })

/-- TimeLord.cpp:134-160: take over the infusion value, go back if the computation is past it. -/
def takeInfusion [DecidableEq α] (e : Env α) (s : State α) (r : Request α) : State α :=
  if infusionFork s r then
    { s with
      infuse := putInfuse s.infuse r.start r.infuse
      history := (readHistory e s.history r.start).2
      peak := some (r.start, (readHistory e s.history r.start).1)
      isReset := true }
  else
    { s with infuse := putInfuse s.infuse r.start r.infuse }

/-- TimeLord.cpp:169-171. -/
def inputFork [DecidableEq α] (s : State α) (start : Nat) (input : α) : Bool :=
  match s.peak with
  | none => false
  | some p => decide ((entryAt s.history start).map (·.out) ≠ some input)
      && (!s.isReset || decide (p.1 < start))

/-- `!peak || is_fork || begin.num_iters > peak->num_iters`, TimeLord.cpp:181. -/
def restarts [DecidableEq α] (s : State α) (start : Nat) (input : α) : Bool :=
  match s.peak with
  | none => true
  | some p => inputFork s start input || decide (p.1 < start)

/-- TimeLord.cpp:162-189 with `start_vdf` (102-111). -/
def takeInput [DecidableEq α] (s : State α) (r : Request α) : State α :=
  match r.input with
  | none => s
  | some x =>
    if s.doRun then
      if restarts s r.start x then { s with peak := some (r.start, x), isReset := true } else s
    else { s with doRun := true, isReset := true, peak := some (r.start, x) }

/-- TimeLord.cpp:191-193: `peak_iters` after a reset. -/
def floorIters (s : State α) : Nat := if s.isReset then 0 else s.peakIters

/-- TimeLord.cpp:191-196: remember the request. -/
def enqueue (s : State α) (r : Request α) : State α :=
  { s with
    peakIters := floorIters s
    pending := if floorIters s < r.stop then putPending s.pending r else s.pending }

/-- `TimeLord::handle`, TimeLord.cpp:123-200. An empty or backward interval would erase a
    backward range at lines 131-132, which is undefined: callers give `start < stop`. -/
def handle [DecidableEq α] (e : Env α) (s : State α) (r : Request α) : State α :=
  enqueue (takeInput (takeInfusion e (clearBetween s r) r) r) r

/-- The checkpoints after `begin` up to and including `end`, TimeLord.cpp:234-238. -/
def between (l : List (Entry α)) (a b : Nat) : List α :=
  (l.filter (fun x => decide (a < x.iters) && decide (x.iters ≤ b))).map (·.out)

/-- The proof for a request whose end is reached, TimeLord.cpp:220-239. -/
def proofFor (e : Env α) (l : List (Entry α)) (r : Request α) : Option (Proof α) :=
  match entryAt l r.start with
  | none => none
  | some b => some
    { start := r.start, numIters := r.stop - r.start, segmentSize := e.seg, input := b.out,
      prev := r.infuse, segments := between l r.start r.stop }

/-- Whether the end of a request is reached, TimeLord.cpp:217-218. -/
def reached (l : List (Entry α)) (r : Request α) : Bool := (entryAt l r.stop).isSome

/-- TimeLord.cpp:206-210: requests that end before the history begins are dropped. -/
def current (l : List (Entry α)) (q : List (Request α)) : List (Request α) :=
  match l with
  | [] => q
  | x :: _ => q.filter (fun r => decide (x.iters ≤ r.stop))

/-- Requests served by one `update`, in order of their ends up to the first one not reached. -/
def served (s : State α) : List (Request α) :=
  (current s.history s.pending).takeWhile (reached s.history)

/-- What one `update` publishes. -/
def proofs (e : Env α) (s : State α) : List (Proof α) :=
  (served s).filterMap (proofFor e s.history)

/-- `peak_iters = req->end` for the last one published, TimeLord.cpp:240. -/
def lastEnd (old : Nat) (l : List (Proof α)) : Nat :=
  match l.getLast? with
  | none => old
  | some p => p.start + p.numIters

/-- `TimeLord::update`, TimeLord.cpp:202-266. -/
def update (e : Env α) (s : State α) : State α :=
  { s with
    pending := (current s.history s.pending).dropWhile (reached s.history)
    peakIters := lastEnd s.peakIters (proofs e s)
    infuse := s.infuse.drop (s.infuse.length - 1000)
    history := s.history.drop (s.history.length - e.keep)
    published := s.published ++ proofs e s }

/-- `TimeLord::stop_vdf`, TimeLord.cpp:113-121. -/
def stop (s : State α) : State α :=
  { s with doRun := false, peak := none, peakIters := 0, history := [], infuse := [] }

/-- The output after the infusion at this point, if any, TimeLord.cpp:303-308. -/
def infused (e : Env α) (x : α) : Option α → α
  | none => x
  | some v => e.mix x v

/-- Where the computation goes on, TimeLord.cpp:286-296: from `peak` after a reset (reading a null
    pointer otherwise), else from its own point. -/
def nextPoint (s : State α) : Option (Nat × α) := if s.isReset then s.peak else some s.point

/-- The critical section of `vdf_loop`, TimeLord.cpp:274-309. While stopped the thread waits. A null
    `peak` would be undefined behaviour, shown as `none`. -/
def lockStep (e : Env α) (s : State α) : Option (State α) :=
  if s.doRun && !s.computing then
    match nextPoint s with
    | none => none
    | some p => some
      { s with
        isReset := false
        peak := some p
        history := putEntry (if s.isReset then [] else s.history)
          { iters := p.1, out := p.2, used := infuseAt s.infuse p.1 }
        point := (p.1, infused e p.2 (infuseAt s.infuse p.1))
        computing := true }
  else some s

/-- `compute` outside of the mutex, TimeLord.cpp:312-313. -/
def computeStep (e : Env α) (s : State α) : State α :=
  if s.computing then
    { s with point := (s.point.1 + e.seg, e.comp s.point.2), computing := false }
  else s

/-- One atomic step of either thread, or of the timer at TimeLord.cpp:88-90. -/
inductive Op (α : Type) where
  | request (r : Request α)
  | update
  | stop
  | lock
  | compute
  | timer

/-- One step; `none` is undefined behaviour. -/
def step [DecidableEq α] (e : Env α) (s : State α) : Op α → Option (State α)
  | .request r => some (handle e s r)
  | .update => some (update e s)
  | .stop => some (stop s)
  | .lock => lockStep e s
  | .compute => some (computeStep e s)
  | .timer => some { s with peakIters := 0 }

/-- A sequence of steps. -/
def run [DecidableEq α] (e : Env α) : State α → List (Op α) → Option (State α)
  | s, [] => some s
  | s, o :: os =>
    match step e s o with
    | none => none
    | some t => run e t os

end Verif.Node.TimeLord
