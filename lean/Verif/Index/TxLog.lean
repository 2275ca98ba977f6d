/-
  Which transactions a node lists: `tx_log` and `tx_index` in `Node::apply` and `write_block` (src/Node.cpp:1079-1091, 1868-1929), and
  `get_tx_ids`, `get_tx_ids_at`, `get_tx_ids_since`, `get_tx_height` (src/Node_api.cpp:241-283).

  A block is the list of the ids of its transactions; ids are numbers.
-/
import Verif.Wallet.Refresh

namespace Verif.Index.TxLog

/-- A chain from its first block on, `tx_log` in the order of its keys (include/mmx/Node.h:552), and `tx_index` as pairs of id and
    height. -/
structure State where
  chain : List (List Nat)
  log : List (Nat × List Nat)
  index : List (Nat × Nat)
  deriving DecidableEq

def init : State := ⟨[], [], []⟩

/-- What validation says of ids: none twice in the block (src/Node_validate.cpp:270-272), none in `tx_index` (lines 623-625). -/
def fresh (index : List (Nat × Nat)) : List Nat → List Nat → Bool
  | _, [] => true
  | seen, x :: l => if x ∈ seen then false else if index.any (fun e => e.1 == x) then false else fresh index (x :: seen) l

/-- `tx_log.insert`: sorted by height, the same height is replaced. -/
def insLog (h : Nat) (ids : List Nat) : List (Nat × List Nat) → List (Nat × List Nat)
  | [] => [(h, ids)]
  | r :: l => if r.1 < h then r :: insLog h ids l else if h < r.1 then (h, ids) :: r :: l else (h, ids) :: l

/-- `tx_index.insert`. -/
def insIndex (x h : Nat) (index : List (Nat × Nat)) : List (Nat × Nat) := (x, h) :: index.filter fun e => e.1 != x

/-- src/Node.cpp:1892-1894 and 1914-1916. -/
def insAll (h : Nat) : List Nat → List (Nat × Nat) → List (Nat × Nat)
  | [], index => index
  | x :: l, index => insAll h l (insIndex x h index)

/-- `Node::apply`, src/Node.cpp:1079-1091 and 1145, of a block that was validated on this chain; failed transactions are recorded as
    well (1085-1086). No row for a block without transactions (1089). -/
def apply (s : State) (ids : List Nat) : State :=
  ⟨s.chain ++ [ids], if ids = [] then s.log else insLog s.chain.length ids s.log, insAll s.chain.length ids s.index⟩

/-- `Node::revert`, src/Node.cpp:1326. Simplified: both tables lose the rows of blocks from this height on; that nothing else was
    replaced by these is in `C192_once`. -/
def revert (s : State) (h : Nat) : State :=
  ⟨s.chain.take h, s.log.filter fun r => decide (r.1 < h), s.index.filter fun e => decide (e.2 < h)⟩

inductive Event where
  | block (ids : List Nat)
  | revert (h : Nat)

/-- A block that does not pass is not applied. -/
def step (s : State) : Event → State
  | .block ids => if fresh s.index [] ids then apply s ids else s
  | .revert h => revert s h

def run : State → List Event → State
  | s, [] => s
  | s, e :: l => run (step s e) l

/-- The callback of `get_tx_ids` for one row, src/Node_api.cpp:245-252: the ids so far, and whether to go on. -/
def takeRow (limit : Nat) : List Nat → List Nat → List Nat × Bool
  | [], out => (out, decide (out.length < limit))
  | x :: l, out => if out.length < limit then takeRow limit l (out ++ [x]) else (out, false)

/-- `reverse_scan`, include/mmx/table.h:280-302, over the rows in reverse order. -/
def scan (limit : Nat) : List (Nat × List Nat) → List Nat → List Nat
  | [], out => out
  | r :: l, out =>
    match takeRow limit r.2 out with
    | (o, true) => scan limit l o
    | (o, false) => o

/-- `get_tx_ids`, src/Node_api.cpp:241-255. -/
def getIds (s : State) (limit : Nat) : List Nat := scan limit s.log.reverse []

/-- `get_tx_ids_at`, src/Node_api.cpp:257-262: empty if there is no row. -/
def getIdsAt (s : State) (h : Nat) : List Nat :=
  match s.log.find? (fun r => r.1 == h) with
  | some r => r.2
  | none => []

/-- `get_tx_ids_since`, src/Node_api.cpp:264-274; `find_greater_equal` see C70. -/
def getIdsSince (s : State) (h : Nat) : List Nat := (s.log.filter fun r => decide (h ≤ r.1)).flatMap Prod.snd

/-- `get_tx_height`, src/Node_api.cpp:276-283. -/
def getHeight (s : State) (x : Nat) : Option Nat :=
  match s.index.find? (fun e => e.1 == x) with
  | some e => some e.2
  | none => none

end Verif.Index.TxLog
