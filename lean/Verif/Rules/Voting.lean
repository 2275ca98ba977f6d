/-
  Validators of a block (`Node::get_validators`, src/Node.cpp:1713-1726) and the votes of a node
  (`Node::vote_for_block`, src/Node.cpp:898-925, and its use in src/Node_update.cpp:443-466).
-/
import Verif.Base

namespace Verif.Rules

/-- A block header as far as it matters here: the hash of the block before it and the key of the farmer of its first proof,
    if it has proofs. -/
structure Hdr where
  prev : Nat
  key : Option Nat

/-- `find_prev(block, distance)`, src/Node.cpp:1458-1465, not clamped; `get` is `get_header`. -/
def findPrev (get : Nat → Option Hdr) : Nat → Hdr → Option Hdr
  | 0, b => some b
  | n + 1, b =>
    match get b.prev with
    | none => none
    | some p => findPrev get n p

/-- `set.insert(block->proof[0]->farmer_key)` if there is a proof, src/Node.cpp:1720-1722; the set in the order of
    insertion. -/
def insertKey (set : List Nat) : Option Nat → List Nat
  | none => set
  | some k => if k ∈ set then set else set ++ [k]

/-- The loop, src/Node.cpp:1718-1724; the first argument is `max_history - k`. -/
def collect (get : Nat → Option Hdr) (maxValidators : Nat) : Nat → Option Hdr → List Nat → List Nat
  | 0, _, set => set
  | _ + 1, none, set => set
  | n + 1, some b, set =>
    if set.length < maxValidators then collect get maxValidators n (get b.prev) (insertKey set b.key) else set

/-- `Node::get_validators`, src/Node.cpp:1713-1726.  `max_history` is a setting of the node (modules/Node.vni:33), the
    others are parameters of the chain. -/
def validators (get : Nat → Option Hdr) (commitDelay maxHistory maxValidators : Nat) (b : Hdr) : List Nat :=
  collect get maxValidators maxHistory (findPrev get commitDelay b) []

/-! ### voting -/

/-- A fork as far as it matters here. -/
structure Blk where
  height : Nat
  prev : Nat
  hash : Nat
  validators : List Nat

/-- A vote that was published. -/
structure Cast where
  key : Nat
  prev : Nat
  hash : Nat
  time : Nat

/-- `voted_blocks` (include/mmx/Node.h:534), the votes published, last first, and the time in milliseconds. -/
structure Voter where
  clock : Nat
  voted : List (Nat × Nat × Nat)
  log : List Cast

def Voter.init : Voter := { clock := 0, voted := [], log := [] }

/-- `find_value(voted_blocks, prev)`. -/
def lookup (prev : Nat) : List (Nat × Nat × Nat) → Option (Nat × Nat)
  | [] => none
  | (p, r) :: l => if p = prev then some r else lookup prev l

/-- What an update finds: the time that has passed, the fork of the peak, if there is one, and whether the peak has the
    best proof seen for its challenge (src/Node_update.cpp:447-448), the line from the root to the peak, and for a
    farmer key whether a farmer has registered it (`farmer_keys`) and whether it signs, and how long that takes. -/
structure Env where
  wait : Nat
  peak : Option Blk
  best : Bool
  line : List Blk
  farmer : Nat → Option Bool
  delay : Nat → Nat

/-- `Node::vote_for_block`, src/Node.cpp:898-925, from some validator on. -/
def voteLoop (e : Env) (b : Blk) : List Nat → Voter → Voter
  | [], s => s
  | k :: l, s =>
    match e.farmer k with
    | none => voteLoop e b l s
    | some signs =>
      voteLoop e b l
        { clock := s.clock + e.delay k
          voted := (b.prev, b.hash, s.clock + e.delay k) :: s.voted
          log := if signs then ⟨k, b.prev, b.hash, s.clock + e.delay k⟩ :: s.log else s.log }

/-- The vote for a new peak, src/Node_update.cpp:443-451. -/
def votePeak (e : Env) (s : Voter) : Voter :=
  match e.peak with
  | none => s
  | some b =>
    if b.height ≠ 0 ∧ lookup b.prev s.voted = none ∧ e.best = true then voteLoop e b b.validators s else s

/-- One block of the line, src/Node_update.cpp:454-466. -/
def voteAgain (e : Env) (interval now : Nat) (s : Voter) (b : Blk) : Voter :=
  match lookup b.prev s.voted with
  | none => s
  | some (h, t) => if h ≠ b.hash ∧ t + interval < now then voteLoop e b b.validators s else s

/-- The part of `Node::update` that votes, src/Node_update.cpp:443-466, of a node in sync. -/
def update (interval : Nat) (s : Voter) (e : Env) : Voter :=
  let now := s.clock + e.wait
  e.line.foldl (voteAgain e interval now) (votePeak e { s with clock := now })

def run (interval : Nat) (es : List Env) : Voter := es.foldl (update interval) Voter.init

end Verif.Rules
