import Verif.Base
/-
  src/Node_control.cpp: how a node decides its vote on the reward from prices that it fetches.
  Simplified:
  * Finite positive doubles are ordered like the natural numbers; a price is such a number.  `mid` stands for the mean
    of two of them, `over` and `under` for the comparisons of the quotient with the target (Node_control.cpp:362-372).
    The price of one host is the mean of its bid and ask, which is not checked again (174-178): a price may be the infinite
    double, which is one more number above the others.
  * A file is gone, or has a time and either a price that passes the checks or not.
  * `get_swap_info` gives a price or fails (a parameter of each update).
  * `update_control` holds `fetch_mutex` (97); the end of a download takes it too (79).  A download replaces the file before
    that: a step of its own.  Timers (`update_control_deferred`) call `update_control` at times that are not fixed here.
-/
namespace Verif.Control

/-- The keys of the hosts: three for gold (Node_control.cpp:106, 144, 191), three for MMX (269, 311-314, 320). -/
abbrev Key := Nat
def goldKeys : List Key := [0, 1, 2]
def mmxKeys : List Key := [3, 4, 5]

structure File where
  time : Nat
  price : Option Nat
  deriving DecidableEq, Repr

structure St where
  files : Key → Option File
  pending : List Key
  failed : List Key
  /-- Downloads that are running in `fetch_threads`. -/
  running : List Key
  vote : Int

/-- `is_expired`, Node_control.cpp:20-24. -/
def isExpired (now : Nat) : Option File → Bool
  | none => true
  | some f => decide (f.time + 86400 < now)

/-- `do_fetch` and adding the task, Node_control.cpp:93-95, 107-110. -/
def request (k : Key) (s : St) : St :=
  if k ∈ s.failed ∨ k ∈ s.pending then s
  else { s with pending := k :: s.pending, running := k :: s.running }

structure Scan where
  st : St
  prices : List Nat
  again : Bool

/-- The blocks for one host each, Node_control.cpp:102-138, 140-185, 187-232, 265-303, 316-352. -/
def scan (now : Nat) : List Key → St → Bool → Scan
  | [], s, again => ⟨s, [], again⟩
  | k :: l, s, again =>
    if isExpired now (s.files k) then scan now l (request k s) true
    else
      let r := scan now l s again
      { r with prices := (match s.files k with | some f => f.price.toList | none => []) ++ r.prices }

/-- Insertion of one value: `std::list::sort` gives the ascending order. -/
def insert (x : Nat) : List Nat → List Nat
  | [] => [x]
  | y :: l => if x ≤ y then x :: y :: l else y :: insert x l

def sort : List Nat → List Nat
  | [] => []
  | x :: l => insert x (sort l)

/-- The loop Node_control.cpp:33-36, with fuel. -/
def middle : Nat → List Nat → List Nat
  | 0, l => l
  | n + 1, l => if 2 < l.length then middle n (l.drop 1).dropLast else l

/-- `get_median`, Node_control.cpp:27-43. -/
def median (mid : Nat → Nat → Nat) (l : List Nat) : Res Nat :=
  match middle l.length (sort l) with
  | [] => .throw
  | [a] => .ok a
  | [a, b] => .ok (mid a b)
  | _ => .ub

variable (mid : Nat → Nat → Nat) (over under : Nat → Nat → Bool)

/-- Node_control.cpp:364-372. -/
def decideVote (gold mmx : Nat) : Int := if over gold mmx then -1 else if under gold mmx then 1 else 0

/-- `update_control` from the prices of MMX on, Node_control.cpp:354-372. -/
def finish (gold : Nat) (prices : List Nat) (again : Bool) (s : St) : St :=
  if prices = [] then (if again then s else { s with vote := 0 })
  else
    match median mid prices with
    | .ok m => { s with vote := decideVote over under gold m }
    | _ => s

/-- `update_control`, Node_control.cpp:97-375; `swap`: the price of the swap. -/
def update (now : Nat) (swap : Option Nat) (s : St) : St :=
  let g := scan now goldKeys s false
  if g.prices = [] then (if g.again then g.st else { g.st with vote := 0 })
  else
    match median mid g.prices with
    | .ok gold =>
      let m := scan now mmxKeys g.st g.again
      finish mid over under gold (swap.toList ++ m.prices) m.again m.st
    | _ => g.st

inductive Ev where
  | update (now : Nat) (swap : Option Nat)
  /-- A running download replaces the file (Node_control.cpp:71). -/
  | written (k : Key) (f : File)
  /-- A download ends (Node_control.cpp:77-86). -/
  | done (k : Key) (success : Bool)
  /-- `update_control_hourly`, Node_control.cpp:57-64. -/
  | hourly

def step (s : St) : Ev → St
  | .update now swap => update mid over under now swap s
  | .written k f => if k ∈ s.running then { s with files := fun x => if x = k then some f else s.files x } else s
  | .done k success =>
    if k ∈ s.running then
      { s with
        running := s.running.erase k
        pending := s.pending.filter (· ≠ k)
        failed := if success then s.failed.filter (· ≠ k) else k :: s.failed }
    else s
  | .hourly => { s with failed := [] }

def run (s : St) (es : List Ev) : St := es.foldl (step mid over under) s

def init (files : Key → Option File) : St := ⟨files, [], [], [], 0⟩

end Verif.Control
