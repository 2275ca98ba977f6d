/-
  What a node records about farmers: `farmer_block_map` and `farmer_ranking` in `Node::apply` and `Node::revert`
  (src/Node.cpp:927-933, 1122-1143, 1155-1161, 1289-1347), and the queries `get_farmed_blocks`,
  `get_farmed_block_summary` and `get_farmer_ranking` (src/Node_api.cpp:1455-1512).
-/
import Verif.Base

namespace Verif.Index.Farmers

/-- What matters of a block: the key of its farmer, its reward and the address it goes to (zero if there is none,
    src/Node.cpp:1126). -/
structure Blk where
  height : Nat
  key : Nat
  reward : Nat
  addr : Nat
deriving DecidableEq

abbrev Ranking := List (Nat × Nat)

/-- `farmer_ranking` when a block is applied, without the sorting, src/Node.cpp:1131-1141. -/
def bump (k : Nat) : Ranking → Ranking
  | [] => [(k, 1)]
  | (a, n) :: r => if a = k then (a, n + 1) :: r else (a, n) :: bump k r

/-- `farmer_ranking` when a block is reverted, src/Node.cpp:1298-1308. -/
def lower (k : Nat) : Ranking → Ranking
  | [] => []
  | (a, n) :: r => if a = k then (a, if n ≠ 0 then n - 1 else n) :: r else (a, n) :: lower k r

/-- The state: the blocks of the chain, newest first (what `height_map` and `farmer_block_map` hold, since both are
    reverted with the database); the ranking; the height of the root, if there is one. -/
structure State where
  chain : List Blk
  ranking : Ranking
  root : Option Nat

def State.init : State := { chain := [], ranking := [], root := none }

/-- The rows of `farmer_block_map`: all blocks but that at height 0, src/Node.cpp:1122-1129. -/
def farmed (chain : List Blk) : List Blk := chain.filter fun b => b.height ≠ 0

/-- `farmer_block_count` from `farmer_block_map`, src/Node.cpp:1337-1345; the order of `std::map` is left open, as the list
    is sorted afterwards. -/
def tally (chain : List Blk) : Ranking := (farmed chain).foldr (fun b r => bump b.key r) []

/-- Where `apply` fails: before the ranking is changed; in `write_block`; or after `state_hash` was set
    (src/Node.cpp:1145-1152). -/
inductive Stage
  | early
  | write
  | commit

inductive Op
  | apply (key reward addr : Nat)
  | failed (key : Nat) (at_ : Stage)
  | revert (height : Nat)
  | commit (height : Nat)
  | restart (height : Nat)

/-- The blocks from a height on are reverted one by one, from the newest, src/Node.cpp:1295-1308. -/
def unwind (blocks : List Blk) (r : Ranking) : Ranking :=
  blocks.foldl (fun r b => if b.height ≠ 0 then lower b.key r else r) r

/-- `is_deep`, src/Node.cpp:1293. -/
def isDeep (root : Option Nat) (height : Nat) : Bool :=
  match root with
  | none => true
  | some r => height ≤ r

/-- `Node::revert`, src/Node.cpp:1289-1347, as to the ranking.  `top`: the blocks that `get_peak` and `find_prev` give from
    `height` on; `sort`: what `std::sort` does (`update_farmer_ranking`, src/Node.cpp:927-933). -/
def revertTo (sort : Ranking → Ranking) (height : Nat) (top : List Blk) (s : State) : State :=
  let r := if isDeep s.root height then s.ranking else unwind top s.ranking
  let chain := s.chain.drop (s.chain.length - height)
  { s with
    chain := chain
    ranking := sort (if isDeep s.root height ∨ r = [] then tally chain else r) }

/-- The next block on the chain: its height is one more than that of the block before. -/
def nextBlk (s : State) (key reward addr : Nat) : Blk := { height := s.chain.length, key, reward, addr }

/-- `farmer_ranking` in `apply`, src/Node.cpp:1122-1143. -/
def counted (sort : Ranking → Ranking) (b : Blk) (r : Ranking) : Ranking := if b.height ≠ 0 then sort (bump b.key r) else r

def step (sort : Ranking → Ranking) (s : State) : Op → State
  | .apply key reward addr =>
    let b := nextBlk s key reward addr
    { s with chain := b :: s.chain, ranking := counted sort b s.ranking }
  | .failed key at_ =>
    let b := nextBlk s key 0 0
    match at_ with
    | .early => revertTo sort b.height [] s
    | .write => revertTo sort b.height [] { s with ranking := counted sort b s.ranking }
    | .commit => revertTo sort b.height [b] { s with ranking := counted sort b s.ranking }
  | .revert height => revertTo sort height (s.chain.take (s.chain.length - height)) s
  | .commit height => { s with root := some height }
  | .restart height => revertTo sort height [] { s with ranking := [], root := none }

def run (sort : Ranking → Ranking) (ops : List Op) : State := ops.foldl (step sort) State.init

/-- `Node::get_farmer_ranking`, src/Node_api.cpp:1498-1512. -/
def getRanking (s : State) (limit : Int) : Ranking := if limit < 0 then s.ranking else s.ranking.take limit.toNat

/-- `farmer_block_map.find_last_range` from (key, since) to (key, 2^32 - 1), src/Node_api.cpp:1461 (see C70): the newest
    come first.  `limit` as it is given, turned into `size_t`. -/
def lastOf (chain : List Blk) (since : Nat) (limit : Int) (key : Nat) : List Blk :=
  ((farmed chain).filter fun b => b.key = key ∧ since ≤ b.height ∧ b.height < 2 ^ 32 - 1).take (limit % 2 ^ 64).toNat

/-- `get_block_at`: the block of the chain at a height. -/
def blockAt (chain : List Blk) (height : Nat) : Option Blk := chain.find? fun b => b.height = height

/-- `Node::get_farmed_blocks`, src/Node_api.cpp:1455-1480; `sort`: what `std::sort` does. -/
def getFarmed (sort : List Blk → List Blk) (chain : List Blk) (keys : List Nat) (since : Nat) (limit : Int) :
    List (Option Blk) :=
  let entries := sort (keys.flatMap (lastOf chain since limit))
  let cut := if 0 ≤ limit then entries.take limit.toNat else entries.reverse
  cut.map fun b => blockAt chain b.height

structure Summary where
  num : Nat
  last : Nat
  rewards : Nat
  byAddr : Nat → Nat

/-- One row of the summary, src/Node_api.cpp:1488-1493.  The reward in `farmer_block_map` has 32 bits
    (interface/farmed_block_info_t.vni:7); the sums have 64. -/
def Summary.add (o : Summary) (b : Blk) : Summary :=
  { num := (o.num + 1) % 2 ^ 32
    last := max b.height o.last
    rewards := (o.rewards + b.reward % 2 ^ 32) % 2 ^ 64
    byAddr := fun a => if a = b.addr then (o.byAddr a + b.reward % 2 ^ 32) % 2 ^ 64 else o.byAddr a }

/-- `Node::get_farmed_block_summary`, src/Node_api.cpp:1482-1496; `find_range` gives the oldest first. -/
def getSummary (chain : List Blk) (keys : List Nat) (since : Nat) : Summary :=
  (keys.flatMap fun k => ((farmed chain).filter fun b => b.key = k ∧ since ≤ b.height ∧ b.height < 2 ^ 32 - 1).reverse).foldl
    Summary.add { num := 0, last := 0, rewards := 0, byAddr := fun _ => 0 }

/-! ### specification -/

/-- The number of blocks of a farmer on the chain, that at height 0 left out. -/
def minedBy (chain : List Blk) (key : Nat) : Nat := (chain.filter fun b => b.height ≠ 0 ∧ b.key = key).length

/-- The number of blocks that is reported for a farmer. -/
def reported (r : Ranking) (key : Nat) : Nat :=
  match r.find? fun e => e.1 = key with
  | some e => e.2
  | none => 0

/-- What is assumed of `std::sort`. -/
structure Sorts (sort : Ranking → Ranking) : Prop where
  perm : ∀ l, (sort l).Perm l
  sorted : ∀ l, (sort l).Pairwise fun a b => b.2 ≤ a.2

structure SortsBlk (sort : List Blk → List Blk) : Prop where
  perm : ∀ l, (sort l).Perm l
  sorted : ∀ l, (sort l).Pairwise fun a b => b.height ≤ a.height

/-- The blocks of the given farmers from a height on, newest first. -/
def ofFarmers (chain : List Blk) (keys : List Nat) (since : Nat) : List Blk :=
  chain.filter fun b => b.height ≠ 0 ∧ b.key ∈ keys ∧ since ≤ b.height

end Verif.Index.Farmers
