/-
  The queue of challenges of a harvester (src/Harvester.cpp:89-132, 367-368, 585-594).
-/
import Verif.Farm.Harvest

namespace Verif.Farm

variable {η : Type}

/-- `lookup_t`, include/mmx/Harvester.h:89-92; the request and when it came. -/
structure Ent (η : Type) where
  req : Challenge η
  recv : Int

/-- What happens to challenges. -/
inductive Ev (η : Type)
  | queued (e : Ent η)
  | replaced (e : Ent η)
  | missed (e : Ent η) (now : Int)
  | looked (e : Ent η) (now : Int)
  | cleared

/-- The state: `is_ready`, `already_checked`, `lookup_queue` in the order of the map (ascending height), whether the
    timer is set, and a record of what happened, last first.  The timer of the framework (vnx, not in the repository) is
    taken to fire once after it was set; setting it again restarts it. -/
structure Hv (η : Type) where
  ready : Bool
  checked : List η
  queue : List (Ent η)
  armed : Bool
  log : List (Ev η)

def Hv.init : Hv η := { ready := false, checked := [], queue := [], armed := false, log := [] }

/-- `lookup_queue[value->vdf_height]` as it is before, Harvester.cpp:122-124. -/
def find (h : Nat) : List (Ent η) → Option (Ent η)
  | [] => none
  | x :: l => if x.req.vdfHeight = h then some x else find h l

/-- Writing `lookup_queue[value->vdf_height]`, Harvester.cpp:122, 126-127. -/
def put (e : Ent η) : List (Ent η) → List (Ent η)
  | [] => [e]
  | x :: l =>
    if e.req.vdfHeight < x.req.vdfHeight then e :: x :: l
    else if x.req.vdfHeight = e.req.vdfHeight then e :: l
    else x :: put e l

/-- `Harvester::handle(Challenge)`, Harvester.cpp:114-132. -/
def handle [DecidableEq η] (c : Challenge η) (recv : Int) (s : Hv η) : Hv η :=
  if s.ready = false then s
  else if c.challenge ∈ s.checked then s
  else
    let s1 := { s with checked := c.challenge :: s.checked }
    match find c.vdfHeight s.queue with
    | none => { s1 with queue := put ⟨c, recv⟩ s.queue, armed := true, log := .queued ⟨c, recv⟩ :: s.log }
    | some x =>
      if x.req.challenge = c.challenge then s1
      else { s1 with queue := put ⟨c, recv⟩ s.queue, armed := true
                     log := .queued ⟨c, recv⟩ :: .replaced x :: s.log }

/-- Whether an entry is too old, Harvester.cpp:96-98; `limit` is `challenge_delay * block_interval_ms`. -/
def late (limit now : Int) (e : Ent η) : Bool := decide (limit < now - e.recv)

/-- Removing what is too old, Harvester.cpp:93-104. -/
def purge (limit now : Int) (s : Hv η) : Hv η :=
  { s with queue := s.queue.filter fun e => !late limit now e
           log := ((s.queue.filter (late limit now)).map fun e => .missed e now).reverse ++ s.log }

/-- The lookup of the last entry, Harvester.cpp:105-111; `lookup_task` sets the timer (368). -/
def look (now : Int) (s : Hv η) : Hv η :=
  match s.queue.getLast? with
  | none => s
  | some e => { s with queue := s.queue.dropLast, armed := true, log := .looked e now :: s.log }

/-- The timer fires: `Harvester::check_queue`, Harvester.cpp:89-112. -/
def fire (limit now : Int) (s : Hv η) : Hv η :=
  if s.armed then look now (purge limit now { s with armed := false }) else s

/-- The end of `Harvester::reload`, Harvester.cpp:585-589; `found` says that there are new plots. -/
def reload (found : Bool) (s : Hv η) : Hv η :=
  if found then { s with ready := false, checked := [], log := .cleared :: s.log } else s

/-- The timeout of 3 seconds, Harvester.cpp:590-594. -/
def getReady (s : Hv η) : Hv η := { s with ready := true }

inductive Op (η : Type)
  | handle (c : Challenge η) (recv : Int)
  | fire (now : Int)
  | reload (found : Bool)
  | ready

def step [DecidableEq η] (limit : Int) (s : Hv η) : Op η → Hv η
  | .handle c recv => handle c recv s
  | .fire now => fire limit now s
  | .reload found => reload found s
  | .ready => getReady s

def run [DecidableEq η] (limit : Int) (ops : List (Op η)) : Hv η := ops.foldl (step limit) Hv.init

end Verif.Farm
