/-
  The file of blocks (`blocks.dat`) and its indexes: `Node::write_block` (src/Node.cpp:1869-1928), `Node::read_block`
  (src/Node.cpp:1830-1867), `Node::get_block_ex` and `Node::get_transaction` from the file (src/Node_api.cpp:188-194,
  361-370), and the check at the start of `Node::reset` (src/Node.cpp:1365-1385).
-/
import Verif.Base

namespace Verif.Blocks

variable {H T : Type}

/-- What is written to the file: a header, a transaction, or the null that ends a block. -/
inductive Val (H T : Type)
  | header (h : H)
  | tx (t : T)
  | null

/-- `vnx::write` and `vnx::read` (vnx-base is not part of the repository): bytes of a value, and the value at the front of
    some bytes with the bytes after it; `none`: an exception, or a value of another type. -/
structure Codec (H T : Type) where
  enc : Val H T → List Nat
  dec : List Nat → Option (Val H T × List Nat)

/-- What is assumed of it: a value is at least one byte, and is read back whatever follows. -/
structure Codec.Ok (c : Codec H T) : Prop where
  pos : ∀ v, c.enc v ≠ []
  back : ∀ v r, c.dec (c.enc v ++ r) = some (v, r)

/-- `Block`: header and transactions. -/
structure Blk (H T : Type) where
  header : H
  txs : List T

/-- What is used of headers, transactions and blocks.  `valid` is `Block::is_valid`, src/Block.cpp:19-41. -/
structure Sem (H T : Type) where
  hash : H → Nat
  height : H → Nat
  count : H → Nat
  id : T → Nat
  valid : Blk H T → Bool

/-- An entry of `tx_index` (interface/tx_index_t.vni) as far as it matters here. -/
structure TxAt where
  height : Nat
  offset : Nat

/-- The file, `block_index`, `height_index` (newest first) and `tx_index` (include/mmx/Node.h:548-553).  A new entry
    hides an older one for the same key; an older version of a table is what is left without the newest entries. -/
structure Store where
  file : List Nat
  blocks : List (Nat × Nat)
  heights : List (Nat × Nat)
  txs : List (Nat × TxAt)

def Store.init : Store := { file := [], blocks := [], heights := [], txs := [] }

/-- `find` of a table. -/
def lookup {α : Type} (k : Nat) : List (Nat × α) → Option α
  | [] => none
  | (a, b) :: l => if a = k then some b else lookup k l

/-- The loop of `read_block`, src/Node.cpp:1842-1858, on the bytes from the position on; with the offsets of the
    transactions.  The first argument bounds the number of values read. -/
def readTxs (c : Codec H T) : Nat → Nat → List Nat → Option (List (Nat × T))
  | 0, _, _ => none
  | fuel + 1, pos, bytes =>
    match c.dec bytes with
    | some (.tx t, r) =>
      match readTxs c fuel (pos + (bytes.length - r.length)) r with
      | some l => some ((pos, t) :: l)
      | none => none
    | some (.null, _) => some []
    | _ => none

/-- `Node::read_block` of a whole block at an offset, src/Node.cpp:1830-1867. -/
def readBlock (c : Codec H T) (file : List Nat) (offset : Nat) : Option (H × List (Nat × T)) :=
  match c.dec (file.drop offset) with
  | some (.header h, r) =>
    match readTxs c (file.length + 1) (offset + ((file.drop offset).length - r.length)) r with
    | some l => some (h, l)
    | none => none
  | _ => none

/-- `Node::read_block` of a header, src/Node.cpp:1839-1861. -/
def readHeader (c : Codec H T) (file : List Nat) (offset : Nat) : Option H :=
  match c.dec (file.drop offset) with
  | some (.header h, _) => some h
  | _ => none

/-- The block read. -/
def blockOf (r : H × List (Nat × T)) : Blk H T := { header := r.1, txs := r.2.map (·.2) }

/-- The bytes of transactions, and of a block, src/Node.cpp:1905-1917. -/
def txBytes (c : Codec H T) : List T → List Nat
  | [] => []
  | t :: l => c.enc (.tx t) ++ txBytes c l

def blkBytes (c : Codec H T) (b : Blk H T) : List Nat :=
  c.enc (.header b.header) ++ (txBytes c b.txs ++ c.enc .null)

/-- Where the transactions of a block are, when the first is at `pos`, src/Node.cpp:1908-1913. -/
def offsets (c : Codec H T) : Nat → List T → List Nat
  | _, [] => []
  | pos, t :: l => pos :: offsets c (pos + (c.enc (.tx t)).length) l

/-- Inserting into `tx_index`, src/Node.cpp:1892-1895 and 1914-1916, in the order of the block. -/
def insertTxs (m : Sem H T) (height : Nat) : List T → List Nat → List (Nat × TxAt) → List (Nat × TxAt)
  | t :: l, o :: os, txs => insertTxs m height l os ((m.id t, ⟨height, o⟩) :: txs)
  | _, _, txs => txs

/-- Appending a block, src/Node.cpp:1901-1927. -/
def append (c : Codec H T) (m : Sem H T) (b : Blk H T) (main : Bool) (s : Store) : Store :=
  let o := s.file.length
  { file := s.file ++ blkBytes c b
    blocks := (m.hash b.header, o) :: s.blocks
    heights := if (m.height b.header, m.hash b.header) ∈ s.heights then s.heights
      else (m.height b.header, m.hash b.header) :: s.heights
    txs := if main then
        insertTxs m (m.height b.header) b.txs (offsets c (o + (c.enc (.header b.header)).length) b.txs) s.txs
      else s.txs }

/-- The checks of a block that is in the file, src/Node.cpp:1877-1890: what was read is valid, and both have the number
    of transactions of the header of the block to be written. -/
def stands (m : Sem H T) (b : Blk H T) (r : H × List (Nat × T)) : Bool :=
  m.valid (blockOf r) && r.2.length == m.count b.header && b.txs.length == m.count b.header

/-- The offsets of the block in the file under the hash of `b`, if it passes the checks, src/Node.cpp:1872-1890. -/
def stored (c : Codec H T) (m : Sem H T) (b : Blk H T) (s : Store) : Option (List Nat) :=
  match lookup (m.hash b.header) s.blocks with
  | none => none
  | some o =>
    match readBlock c s.file o with
    | none => none
    | some r => if stands m b r then some (r.2.map (·.1)) else none

/-- `Node::write_block`, src/Node.cpp:1869-1928. -/
def writeBlock (c : Codec H T) (m : Sem H T) (b : Blk H T) (main : Bool) (s : Store) : Store :=
  match stored c m b s with
  | none => append c m b main s
  | some os => if main then { s with txs := insertTxs m (m.height b.header) b.txs os s.txs } else s

/-- `Node::get_block` of a block that is not in memory, src/Node_api.cpp:188-194. -/
def getBlock (c : Codec H T) (s : Store) (hash : Nat) : Option (Blk H T) :=
  match lookup hash s.blocks with
  | none => none
  | some o => (readBlock c s.file o).map blockOf

/-- `Node::get_header`, the same. -/
def getHeader (c : Codec H T) (s : Store) (hash : Nat) : Option H :=
  match lookup hash s.blocks with
  | none => none
  | some o => readHeader c s.file o

/-- `Node::get_transaction` of one that is not pending, src/Node_api.cpp:361-371. -/
def getTx (c : Codec H T) (s : Store) (id : Nat) : Option T :=
  match lookup id s.txs with
  | none => none
  | some e =>
    match c.dec (s.file.drop e.offset) with
    | some (.tx t, _) => some t
    | _ => none

/-- `Node::get_tx_height`, src/Node_api.cpp:276-283. -/
def getTxHeight (s : Store) (id : Nat) : Option Nat := (lookup id s.txs).map (·.height)

/-- The hashes of the blocks known at a height, oldest first (`height_index`). -/
def hashesAt (s : Store) (height : Nat) : List Nat :=
  ((s.heights.filter fun e => e.1 = height).map (·.2)).reverse

/-- What happens: a block is written; the node goes back to an older version (`tx_index` loses its newest entries,
    the others are not reverted); the process ends while a block is written, after `cut` of its bytes have come to the
    file, and `tx_index` comes back in an older version; or the whole store is given up (src/Node.cpp:1420-1423). -/
inductive Op (H T : Type)
  | write (b : Blk H T) (main : Bool)
  | revert (n : Nat)
  | crash (b : Blk H T) (cut n : Nat)
  | clear

def step (c : Codec H T) (m : Sem H T) (s : Store) : Op H T → Store
  | .write b main => writeBlock c m b main s
  | .revert n => { s with txs := s.txs.drop n }
  | .crash b cut n =>
    { s with
      file := s.file ++ (match stored c m b s with
        | none => (blkBytes c b).take cut
        | some _ => [])
      txs := s.txs.drop n }
  | .clear => Store.init

def run (c : Codec H T) (m : Sem H T) (ops : List (Op H T)) : Store := ops.foldl (step c m) Store.init

/-- The check of `Node::reset`, src/Node.cpp:1366-1374, for the block of the chain at a height. -/
def checks (c : Codec H T) (m : Sem H T) (s : Store) (height hash : Nat) : Bool :=
  match getBlock c s hash with
  | none => false
  | some b => m.valid b && m.height b.header == height

/-! ### specification -/

/-- What a user expects to find: blocks by hash, the hashes at a height in the order they came, and transactions by id
    with the height they are at. -/
structure Spec (H T : Type) where
  blocks : List (Blk H T)
  txs : List (Nat × Nat × T)

/-- The transactions of a block go in front, the last one first. -/
def Spec.add (m : Sem H T) (height : Nat) : List T → List (Nat × Nat × T) → List (Nat × Nat × T)
  | [], l => l
  | t :: ts, l => Spec.add m height ts ((m.id t, height, t) :: l)

/-- A block is taken in once; every write to the chain enters its transactions. -/
def Spec.step (m : Sem H T) (p : Spec H T) : Op H T → Spec H T
  | .write b main =>
    { blocks := if m.hash b.header ∈ p.blocks.map (fun x => m.hash x.header) then p.blocks else p.blocks ++ [b]
      txs := if main then Spec.add m (m.height b.header) b.txs p.txs else p.txs }
  | .revert n => { p with txs := p.txs.drop n }
  | .crash _ _ n => { p with txs := p.txs.drop n }
  | .clear => { blocks := [], txs := [] }

def Spec.run (m : Sem H T) (ops : List (Op H T)) : Spec H T := ops.foldl (Spec.step m) { blocks := [], txs := [] }

/-- The block with a hash. -/
def Spec.find (m : Sem H T) (p : Spec H T) (hash : Nat) : Option (Blk H T) :=
  p.blocks.find? fun b => m.hash b.header == hash

/-- What is assumed of the blocks that are written: they were checked (`is_valid`), which makes their number of
    transactions right, and the hash of a block commits to its height and its transactions (C33). -/
structure Good (m : Sem H T) (bs : List (Blk H T)) : Prop where
  valid : ∀ b ∈ bs, m.valid b = true
  count : ∀ b ∈ bs, m.count b.header = b.txs.length
  commits : ∀ a ∈ bs, ∀ b ∈ bs, m.hash a.header = m.hash b.header →
    a.txs = b.txs ∧ m.height a.header = m.height b.header ∧ m.count a.header = m.count b.header

/-- The blocks that are written, wholly or in part. -/
def Op.blk : Op H T → List (Blk H T)
  | .write b _ => [b]
  | .crash b _ _ => [b]
  | _ => []

end Verif.Blocks
