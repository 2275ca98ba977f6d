/-
  What the properties of the requests for blocks say, in terms of the log only (the newest first).
-/
import Verif.Router.Sync

namespace Verif.Router.Sync

/-- On behalf of request `rid` of the node a request `a` went to peer `c`, and later a return with its
    id and content `r` came from `src`. -/
def Answer (src : Client) (rid : Nat) (c : Client) (a : Ask) (r : Result) (log : List Ev) : Prop :=
  ∃ l1 l2 now id, log = l1 ++ .reply now src id r :: l2 ∧ .asked rid id c a ∈ l2

/-- The same from whoever. -/
def Answered (rid : Nat) (c : Client) (r : Result) (log : List Ev) : Prop :=
  ∃ src a, Answer src rid c a r log

/-- The result has what a peer said: it has no block, or the block it named is in the result, or the
    block it sent is if that was valid. -/
def Covers (bs : List Block) : Result → Prop
  | .hash none => True
  | .hash (some h) => ∃ b ∈ bs, b.hash = h.2
  | .block none => True
  | .block (some b) => b.valid = true → ∃ b' ∈ bs, b'.hash = b.hash
  | _ => False

/-- The answers a request of the node got. -/
def answers (rid : Nat) : List Ev → Nat
  | [] => 0
  | .blocks r _ :: l => (if r = rid then 1 else 0) + answers rid l
  | .block r _ :: l => (if r = rid then 1 else 0) + answers rid l
  | .refused r :: l => (if r = rid then 1 else 0) + answers rid l
  | _ :: l => answers rid l

/-- The peers that count as synced. -/
def live (c : Client) : List Ev → Bool
  | [] => false
  | .sync c' :: l => c' == c || live c l
  | .lost c' :: l => c' != c && live c l
  | _ :: l => live c l

/-- Every return came from the peer its request went to. -/
def Tied (log : List Ev) : Prop :=
  ∀ l1 l2 now src id r, log = l1 ++ .reply now src id r :: l2 →
    ∀ rid c a, .asked rid id c a ∈ l2 → src = c

end Verif.Router.Sync
