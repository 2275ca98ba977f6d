/-
  Which contracts a node lists by who deployed them and by owner: `deploy_map` and `owner_map` in `Node::apply` (src/Node.cpp:1029-1287),
  `get_contracts_by` and `get_contracts_owned_by` (src/Node_api.cpp:647-675), and the lists of a wallet (src/Wallet.cpp:764-798).

  Addresses, hashes and type names are numbers.
-/
import Verif.Base

namespace Verif.Index.Deploys

/-- The binaries with an owner, `ChainParams`; see src/Node.cpp:1193-1197. -/
structure Params where
  plotNft : Nat
  offer : Nat
  timeLock : Nat
  escrow : Nat

/-- A contract to be deployed, with the hash of the name of its type; `args` of an executable are read as addresses. `PubKey` is the only
    class with an owner of its own (src/contract/PubKey.cpp:42-45, src/Contract.cpp:34-37). -/
inductive Contr where
  | pubkey (type : Nat) (address : Nat)
  | exec (type : Nat) (binary : Nat) (args : List Nat)
  | other (type : Nat)
  deriving DecidableEq

/-- Hash of `get_type_name()`. -/
def Contr.type : Contr → Nat
  | .pubkey t _ => t
  | .exec t _ _ => t
  | .other t => t

/-- `Executable::get_arg(index).to<addr_t>()`, src/contract/Executable.cpp:86-92; if there is none, or it is no address, it is the zero
    address (src/addr_t.cpp:60-83). -/
def argAt (args : List Nat) (i : Nat) : Nat :=
  match args[i]? with
  | some a => a
  | none => 0

/-- An operation of a transaction: a call of `transfer` of a plot NFT, or anything else. -/
inductive Op where
  | transfer (nft user owner : Nat)
  | other
  deriving DecidableEq

/-- A transaction in a block; `failed`: `exec_result->did_fail`. -/
structure Tx where
  id : Nat
  sender : Option Nat
  failed : Bool
  deploy : Option Contr
  ops : List Op
  deriving DecidableEq

/-- A block, with the number of its inputs and outputs, which are counted first (src/Node.cpp:1055-1078). -/
structure Block where
  ios : Nat
  txs : List Tx
  deriving DecidableEq

/-- A row: height and ticket, the contract, and its type. -/
structure Row where
  height : Nat
  ticket : Nat
  id : Nat
  type : Nat
  deriving DecidableEq

/-- The order of rows with the same address. -/
def Row.lt (a b : Row) : Bool := a.height < b.height || (a.height == b.height && a.ticket < b.ticket)

/-- The rows by address, sorted (include/mmx/Node.h:506-507; see C70 for the tables). -/
abbrev Table := Nat → List Row

/-- `insert` for one address: a row with the same key is replaced. -/
def insRow (r : Row) : List Row → List Row
  | [] => [r]
  | x :: l =>
    if x.lt r then x :: insRow r l
    else if r.lt x then r :: x :: l
    else r :: l

def Table.insert (t : Table) (a : Nat) (r : Row) : Table := fun x => if x = a then insRow r (t x) else t x

/-- What is on record; the heights of blocks are their positions in the chain. -/
structure State where
  chain : List Block
  deploys : Table
  owners : Table

def init : State := ⟨[], fun _ => [], fun _ => []⟩

/-- `type_hash` in the end, src/Node.cpp:1171-1177. -/
def recType : Contr → Nat
  | .exec _ b _ => b
  | c => c.type

/-- The argument that names the owner, src/Node.cpp:1192-1199. -/
def ownerIndex (P : Params) (binary : Nat) : Option Nat :=
  if binary = P.plotNft ∨ binary = P.offer ∨ binary = P.timeLock then some 0
  else if binary = P.escrow then some 2
  else none

/-- src/Node.cpp:1200-1202. -/
def recOwnerArg (P : Params) (h ticket id : Nat) (c : Contr) (t : Table) : Table :=
  match c with
  | .exec _ b args =>
    match ownerIndex P b with
    | some i => t.insert (argAt args i) ⟨h, ticket, id, recType c⟩
    | none => t
  | _ => t

/-- src/Node.cpp:1217-1219. -/
def recOwner (h ticket id : Nat) (c : Contr) (t : Table) : Table :=
  match c with
  | .pubkey _ a => t.insert a ⟨h, ticket, id, recType c⟩
  | _ => t

/-- src/Node.cpp:1214-1216. -/
def recSender (h ticket id : Nat) (c : Contr) (sender : Option Nat) (t : Table) : Table :=
  match sender with
  | some a => t.insert a ⟨h, ticket, id, recType c⟩
  | none => t

/-- The two tables and the counter. -/
structure Acc where
  deploys : Table
  owners : Table
  counter : Nat

/-- `counter++` of a number of 32 bits. -/
def next (n : Nat) : Nat := (n + 1) % 2 ^ 32

/-- Lines 1168-1220. -/
def applyDeploy (P : Params) (h : Nat) (a : Acc) (t : Tx) : Acc :=
  match t.deploy with
  | some c => ⟨recSender h a.counter t.id c t.sender a.deploys,
      recOwner h a.counter t.id c (recOwnerArg P h a.counter t.id c a.owners), next a.counter⟩
  | none => a

/-- `Node::apply` of a transaction, src/Node.cpp:1164-1287: each operation takes a number (1223), and is not looked at by these tables. -/
def applyTx (P : Params) (h : Nat) (a : Acc) (t : Tx) : Acc :=
  let b := applyDeploy P h a t
  { b with counter := t.ops.foldl (fun n _ => next n) b.counter }

/-- src/Node.cpp:1079-1088: what failed is left out. -/
def applyTxs (P : Params) (h : Nat) (a : Acc) : List Tx → Acc
  | [] => a
  | t :: l => applyTxs P h (if t.failed then a else applyTx P h a t) l

/-- `Node::apply` of a block, src/Node.cpp:1029-1162. -/
def applyBlock (P : Params) (s : State) (b : Block) : State :=
  let a := applyTxs P s.chain.length ⟨s.deploys, s.owners, b.ios % 2 ^ 32⟩ b.txs
  ⟨s.chain ++ [b], a.deploys, a.owners⟩

/-- `revert` of a table to what it was before the block of that height (the models of the database say what reverting does): as rows are never replaced (`C191_once`) this
    leaves those of earlier blocks. -/
def revTable (h : Nat) (t : Table) : Table := fun a => (t a).filter fun r => decide (r.height < h)

/-- `Node::revert`, src/Node.cpp:1289-1350 (the tables: line 1326), as far as it concerns these tables. -/
def revert (s : State) (h : Nat) : State := ⟨s.chain.take h, revTable h s.deploys, revTable h s.owners⟩

inductive Event where
  | block (b : Block)
  | revert (h : Nat)

def step (P : Params) (s : State) : Event → State
  | .block b => applyBlock P s b
  | .revert h => revert s h

def run (P : Params) : State → List Event → State
  | s, [] => s
  | s, e :: l => run P (step P s e) l

/-- `find_range` from `(address, 0, 0)` up to, but not with, `(address, -1, -1)`; both numbers have 32 bits. -/
def rangeOf (l : List Row) : List Row := l.filter fun r => r.lt ⟨2 ^ 32 - 1, 2 ^ 32 - 1, 0, 0⟩

/-- The test for the type, src/Node_api.cpp:654 and 669. -/
def typeFits (type : Option Nat) (t : Nat) : Bool :=
  match type with
  | none => true
  | some x => t == x

/-- `get_contracts_by` and `get_contracts_owned_by`, src/Node_api.cpp:647-675, each with its table. -/
def listed (t : Table) (type : Option Nat) : List Nat → List Nat
  | [] => []
  | a :: l => ((rangeOf (t a)).filter fun r => typeFits type r.type).map Row.id ++ listed t type l

/-- The map that `Wallet::get_contracts` and `get_contracts_owned` return, src/Wallet.cpp:764-798: as pairs, the newest first. `get` is
    `node->get_contracts`, by address; `name` the name of a type that is asked for. -/
def walletMap (get : Nat → Option Contr) (name : Option Nat) : List Nat → List (Nat × Contr) → List (Nat × Contr)
  | [], m => m
  | a :: l, m =>
    match get a with
    | some c => if typeFits name c.type then walletMap get name l ((a, c) :: m) else walletMap get name l m
    | none => walletMap get name l m

/-- `std::map::find`. -/
def look (m : List (Nat × Contr)) (a : Nat) : Option Contr := (m.find? fun x => x.1 == a).map Prod.snd

end Verif.Index.Deploys
