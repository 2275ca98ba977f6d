/-!
# The queue of requests for the GPU

`src/pos/cuda_recompute.cu:244-462` and `493-627`: a thread hands in a request and polls for its
result, a thread per device takes requests of one kind together and computes their first table,
tasks on the CPU do the rest. What the kernels and `compute_full` give for a request is the subject of
C102 and C105 to C107; here a result names the request it was computed from.

One event is one section under the lock `g_mutex` or one step outside of it. Requests that wait are
one list in the order in which they came; the queue `g_wait_map[type]` is its part of this type.
-/

namespace Verif.Gpu

/-- What is asked for: the parameters of `cuda_recompute`, cuda_recompute.cu:386. -/
structure Body where
  ksize : Int
  xbits : Int
  plot : Nat
  xs : List Nat
  deriving DecidableEq, Repr

/-- `request_t`, cuda_recompute.cu:225-237. -/
structure Req where
  id : Nat
  body : Body
  deriving DecidableEq, Repr

/-- The type of a request, cuda_recompute.cu:400. -/
abbrev Ty := Int × Int

def Req.ty (r : Req) : Ty := (r.body.ksize, r.body.xbits)

/-- `cuda_result_t`, cuda_recompute.h: `none` if it has failed, otherwise what was computed from these
    parameters. -/
structure Result where
  id : Nat
  out : Option Body
  deriving DecidableEq, Repr

/-- Where the thread of a device stands. -/
inductive DevSt
  /-- Allocates memory, lines 466-486. -/
  | booting
  /-- At the head of the loop, lines 493-497. -/
  | idle
  /-- Computes for these requests, lines 526-618. -/
  | busy (l : List Req)
  /-- Before line 626. -/
  | ending
  /-- Gone. -/
  | dead
  deriving DecidableEq, Repr

structure Dev where
  buffer : Nat
  st : DevSt
  deriving DecidableEq, Repr

/-- Where a thread that polls stands, lines 422-441. -/
inductive PollSt
  | out
  /-- Before line 425. -/
  | ready (jobs : List Nat)
  /-- In `wait`, line 439. -/
  | waiting (jobs : List Nat)
  deriving DecidableEq, Repr

structure State where
  doRun : Bool
  /-- `cuda_recompute_init` is through. It holds the lock until then. -/
  initDone : Bool
  haveCuda : Int
  nextId : Nat
  order : List Ty
  wait : List Req
  devs : List Dev
  /-- Tasks in `g_cpu_threads`, any of which can end next. -/
  cpu : List Req
  results : List Result
  /-- Calls of `notify_all` still to be made (line 461, outside of the lock). -/
  owed : Nat
  polls : Nat → PollSt
  /-- The requests that were accepted, the newest first. -/
  accepted : List Req
  /-- What polls have returned. -/
  returned : List Result
  /-- Threads whose poll has thrown. -/
  thrown : List Nat

/-- While `cuda_recompute_init` runs, with devices of these sizes (lines 339-359). -/
def start (buffers : List Nat) : State :=
  { doRun := true, initDone := false, haveCuda := 0, nextId := 1, order := [], wait := []
    devs := buffers.map fun b => { buffer := b, st := .booting }
    cpu := [], results := [], owed := 0, polls := fun _ => .out, accepted := [], returned := [], thrown := [] }

inductive Event
  /-- Line 360, and the lock is released. -/
  | initEnd
  /-- `cuda_recompute`. -/
  | submit (b : Body)
  /-- A thread calls `cuda_recompute_poll`. -/
  | poll (t : Nat) (jobs : List Nat)
  /-- It has the lock. -/
  | check (t : Nat)
  /-- It wakes up although nobody has called `notify_all`. -/
  | spurious (t : Nat)
  /-- Line 461. -/
  | signal
  /-- `cuda_recompute_shutdown`. -/
  | shutdown
  | booted (d : Nat)
  | allocFail (d : Nat)
  | pick (d : Nat)
  | stop (d : Nat)
  | done (d : Nat)
  | error (d : Nat)
  | decrement (d : Nat)
  /-- The task of this place in `cpu` ends. -/
  | finish (i : Nat)
  deriving DecidableEq, Repr

/-- Lines 388-396. -/
def Body.valid (b : Body) : Prop :=
  ¬ (b.ksize < 8 ∨ b.ksize > 32) ∧ ¬ (b.xbits < 0 ∨ b.xbits > 20 ∨ b.xbits + 8 ≥ b.ksize) ∧ b.xs.length = 256

instance (b : Body) : Decidable b.valid := inferInstanceAs (Decidable (_ ∧ _))

/-- Lines 388-419. The id is taken before the lock in the code; two requests may enter the queue in another
    order than that of their ids. -/
def submit (s : State) (b : Body) : State :=
  if b.valid ∧ s.doRun = true ∧ 0 < s.haveCuda then
    let r : Req := { id := s.nextId, body := b }
    { s with
      nextId := s.nextId + 1
      order := if r.ty ∈ s.order then s.order else s.order ++ [r.ty]
      wait := s.wait ++ [r]
      accepted := r :: s.accepted }
  else s

/-- `256 << xbits`, line 506. -/
def reqSize (t : Ty) : Nat := 256 * 2 ^ t.2.toNat

/-- Lines 508-521: what is taken, and what stays. Once a request does not fit, no later one does. -/
def takeFit (t : Ty) (buffer : Nat) : Nat → List Req → List Req × List Req
  | _, [] => ([], [])
  | sum, r :: rest =>
    if r.ty = t ∧ (sum = 0 ∨ sum + reqSize t ≤ buffer) then
      (r :: (takeFit t buffer (sum + reqSize t) rest).1, (takeFit t buffer (sum + reqSize t) rest).2)
    else ((takeFit t buffer sum rest).1, r :: (takeFit t buffer sum rest).2)


/-- Lines 501-526. -/
def pickStep (s : State) (d : Nat) (dev : Dev) (t : Ty) (rest : List Ty) : State :=
  { s with
    devs := s.devs.set d { dev with st := .busy (takeFit t dev.buffer 0 s.wait).1 }
    wait := (takeFit t dev.buffer 0 s.wait).2
    order := if ∃ r ∈ (takeFit t dev.buffer 0 s.wait).2, r.ty = t then rest ++ [t] else rest }

/-- `g_result_map[res->id] = res`. -/
def putResult (m : List Result) (r : Result) : List Result := r :: m.filter fun x => x.id ≠ r.id

/-- `notify_all` on `g_result_signal`. -/
def wakeAll (p : Nat → PollSt) : Nat → PollSt := fun t =>
  match p t with
  | .waiting jobs => .ready jobs
  | x => x

/-- Lines 426-435: the first of the jobs that has a result. -/
def findJob (m : List Result) (jobs : List Nat) : Option Result :=
  jobs.findSome? fun j => m.find? fun x => x.id = j

/-- Lines 425-439. -/
def checkStep (s : State) (t : Nat) (jobs : List Nat) : State :=
  match findJob s.results jobs with
  | some x => { s with
      results := s.results.filter fun y => y.id ≠ x.id
      returned := x :: s.returned
      polls := fun u => if u = t then .out else s.polls u }
  | none =>
    if s.doRun then { s with polls := fun u => if u = t then .waiting jobs else s.polls u }
    else { s with polls := fun u => if u = t then .out else s.polls u, thrown := t :: s.thrown }

/-- Lines 594-607. -/
def errorStep (s : State) (d : Nat) (dev : Dev) (l : List Req) : State :=
  { s with
    results := l.foldl (fun m r => putResult m { id := r.id, out := none }) s.results
    polls := wakeAll s.polls
    devs := s.devs.set d { dev with st := .ending } }

/-- Lines 443-460; `ok` tells whether `compute_full` has given anything. -/
def finishStep (s : State) (i : Nat) (r : Req) (ok : Body → Bool) : State :=
  { s with
    cpu := s.cpu.eraseIdx i
    results := putResult s.results { id := r.id, out := if ok r.body then some r.body else none }
    owed := s.owed + 1 }

/-- One event; an event that cannot happen does nothing. `ok` tells for which requests `compute_full` does
    not throw. -/
def step (ok : Body → Bool) (s : State) : Event → State
  | .initEnd => if s.initDone then s else { s with initDone := true, haveCuda := s.devs.length }
  | .submit b => if s.initDone then submit s b else s
  | .poll t jobs => match s.polls t with
    | .out => { s with polls := fun u => if u = t then .ready jobs else s.polls u }
    | _ => s
  | .check t => if s.initDone then match s.polls t with
      | .ready jobs => checkStep s t jobs
      | _ => s
    else s
  | .spurious t => match s.polls t with
    | .waiting jobs => { s with polls := fun u => if u = t then .ready jobs else s.polls u }
    | _ => s
  | .signal => if 0 < s.owed then { s with owed := s.owed - 1, polls := wakeAll s.polls } else s
  | .shutdown => if s.initDone then { s with doRun := false } else s
  | .booted d => match s.devs[d]? with
    | some ⟨b, .booting⟩ => { s with devs := s.devs.set d ⟨b, .idle⟩ }
    | _ => s
  | .allocFail d => match s.devs[d]? with
    | some ⟨b, .booting⟩ => { s with devs := s.devs.set d ⟨b, .ending⟩ }
    | _ => s
  | .pick d => if s.initDone = true ∧ s.doRun = true then match s.devs[d]?, s.order with
      | some ⟨b, .idle⟩, t :: rest => pickStep s d ⟨b, .idle⟩ t rest
      | _, _ => s
    else s
  | .stop d => if s.doRun then s else match s.devs[d]? with
    | some ⟨b, .idle⟩ => { s with devs := s.devs.set d ⟨b, .ending⟩ }
    | _ => s
  | .done d => match s.devs[d]? with
    | some ⟨b, .busy l⟩ => { s with devs := s.devs.set d ⟨b, .idle⟩, cpu := s.cpu ++ l }
    | _ => s
  | .error d => match s.devs[d]? with
    | some ⟨b, .busy l⟩ => errorStep s d ⟨b, .busy l⟩ l
    | _ => s
  | .decrement d => match s.devs[d]? with
    | some ⟨b, .ending⟩ => { s with devs := s.devs.set d ⟨b, .dead⟩, haveCuda := s.haveCuda - 1 }
    | _ => s
  | .finish i => match s.cpu[i]? with
    | some r => finishStep s i r ok
    | none => s

def run (ok : Body → Bool) (s : State) (evs : List Event) : State := evs.foldl (step ok) s

end Verif.Gpu
