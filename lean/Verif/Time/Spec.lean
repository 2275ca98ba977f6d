import Verif.Time.Model
/-
  What the look-ups are meant to give, said about a chain of blocks and not about the look-ups.
-/
namespace Verif.Time
variable {H A P : Type}

/-- `line` lists a block, its predecessor, and so on down to the genesis block, as the node's headers
    have them. Every block adds at least one VDF height (src/BlockHeader.cpp:18, src/Node_verify.cpp:84). -/
def Line (get : Store H A P) : List (Hdr H A P) → Prop
  | [] => False
  | [g] => get g.prev = none ∧ g.height = 0 ∧ g.vdfHeight = 0
  | b :: prev :: rest => get b.prev = some prev ∧ b.height ≠ 0 ∧ 1 ≤ b.vdfCount ∧
      b.vdfHeight = prev.vdfHeight + b.vdfCount ∧ Line get (prev :: rest)

/-- The challenge and difficulty that belong to VDF height `h` of a chain. At the height of a block they
    are the block's; up to the next block the challenge is hashed once per height and the difficulty
    stays; below the genesis block the challenge is hashed with another word. -/
def chalAt (fn : Fns H) : List (Hdr H A P) → Int → Option (H × Nat)
  | [], _ => none
  | [g], h =>
    if (g.vdfHeight : Int) ≤ h then some (iter fn.next (h - g.vdfHeight).toNat g.challenge, g.spaceDiff)
    else some (iter fn.before (g.vdfHeight - h).toNat g.challenge, g.spaceDiff)
  | b :: rest, h =>
    if (b.vdfHeight : Int) ≤ h then some (iter fn.next (h - b.vdfHeight).toNat b.challenge, b.spaceDiff)
    else chalAt fn rest h

/-- The iterations a time difficulty stands for. -/
def itersOf (p : Params) (timeDiff : Nat) : Nat :=
  u64 (timeDiff / p.base.timeDiffDivider * p.base.timeDiffConstant)

/-- What is infused at VDF height `h` of a chain, and the iterations of that step: the newest block at or
    below `h`, and the time difficulty `commit_delay` blocks before it (or of the genesis block). -/
def infusedAt (p : Params) (line : List (Hdr H A P)) (h : Nat) : Option (H × Nat) :=
  match line.dropWhile fun b => decide (b.vdfHeight > h) with
  | [] => none
  | x :: rest => (((x :: rest).take (p.commitDelay + 1)).getLast?).map fun y => (x.hash, itersOf p y.timeDiff)

/-- The step from VDF height `v` to `v + 1` infuses what belongs to `infuse_delay` heights earlier. -/
def stepFrom (p : Params) (line : List (Hdr H A P)) (v : Nat) : Option (H × Nat) :=
  infusedAt p line (v - p.infuseDelay)

/-- Verified VDF points that lead from output `x` at VDF height `v` to output `y`, each with the infusion
    and the iterations of its step. -/
def Leads (p : Params) (line : List (Hdr H A P)) : Nat → H → List (Point H A) → H → Prop
  | _, x, [], y => x = y
  | v, x, q :: rest, y => q.input = x ∧ stepFrom p line v = some (q.prev, q.numIters) ∧
      Leads p line (v + 1) q.output rest y

/-- Every point claims the position that its input has in the chain of VDFs: `pos` gives the number of
    iterations before an output. -/
def Honest (index : List (Point H A)) (pos : H → Nat) : Prop :=
  ∀ q ∈ index, q.start = pos q.input ∧ pos q.output = q.start + q.numIters ∧ 0 < q.numIters ∧
    q.start + q.numIters < 2 ^ 64

/-- `std::sort` by time of arrival puts some point with the least time first. -/
def PicksFirst (pick : List (Point H A) → Option (Point H A)) : Prop :=
  (pick [] = none) ∧ ∀ l, l ≠ [] → ∃ q ∈ l, pick l = some q ∧ ∀ x ∈ l, q.recvTime ≤ x.recvTime

end Verif.Time
