import Verif.DB.Bytes

/-!
# The bytes of block files (`NNNNNN.dat`)

`src/DataBase.cpp:32-97` (entries), `229-255` (`read_block`), `316-386` (`find`, `lower_bound`), the write loops of
`revert` (450-480), `flush` (541-563) and `rewrite` (603-648), `701-738` (header, index).  Numbers are written least
significant byte first (see `DB/Bytes.lean`); `int64_t` offsets are below 2^63 (`Fits`).  Keys are compared by the
default comparator.  Reading beyond the end of a file or section throws `std::underflow_error`.
-/

namespace Verif.DB

abbrev E := Entry DbKey (List Byte)

def le16 (n : Nat) : List Byte := leEnc 2 n
def le64 (n : Nat) : List Byte := leEnc 8 n

/-- `block_header_size`, DataBase.h:194. -/
def headerSize : Nat := 30

/-- Writing at a position; a gap behind the end is filled with zeros. -/
def writeAt (file : List Byte) (off : Nat) (new : List Byte) : List Byte :=
  (file ++ List.replicate (off - file.length) 0).take off ++ (new ++ file.drop (off + new.length))

def entryBytes (e : E) : List Byte := writeEntry ⟨e.ver, e.key.bytes, e.val⟩

/-- A block while its entries are written: the file, the position in it, and the fields of `block_t` (DataBase.h:82-91). -/
structure Writing where
  file : List Byte
  pos : Nat
  index : List Nat
  count : Nat
  minV : Nat
  maxV : Nat

/-- One round of the write loops, DataBase.cpp:467-473, 549-558, 626-635; `track`: whether the lowest version is kept up
to date (in `revert` it is taken from the old block). -/
def writeOne (track : Bool) (prev : Option DbKey) (w : Writing) (e : E) : Writing where
  file := writeAt w.file w.pos (entryBytes e)
  pos := w.pos + (entryBytes e).length
  index := if prev = some e.key then w.index else w.index ++ [w.pos]
  count := w.count + 1
  minV := if track then min e.ver w.minV else w.minV
  maxV := max e.ver w.maxV

def writeLoop (track : Bool) : Option DbKey → List E → Writing → Writing
  | _, [], w => w
  | prev, e :: es, w => writeLoop track (some e.key) es (writeOne track prev w e)

/-- `write_block_header`, DataBase.cpp:701-709. -/
def headBytes (level minV maxV count indexOff : Nat) : List Byte :=
  le16 0 ++ (le32 level ++ (le32 minV ++ (le32 maxV ++ (le64 count ++ le64 indexOff))))

/-- `write_block_index`, DataBase.cpp:711-715. -/
def indexBytes (index : List Nat) : List Byte := le64 index.length ++ index.flatMap le64

/-- `finish_block`, DataBase.cpp:727-738, with `index_offset` the position after the entries. -/
def finishBlock (level : Nat) (w : Writing) : List Byte :=
  writeAt (writeAt w.file 0 (headBytes level w.minV w.maxV w.count w.pos)) w.pos (indexBytes w.index)

/-- A block file from `create_block` (DataBase.cpp:717-725) to `finish_block`. -/
def blockFile (level : Nat) (track : Bool) (minV : Nat) (es : List E) : List Byte :=
  finishBlock level (writeLoop track none es ⟨[], headerSize, [], 0, minV, 0⟩)

/-- `block_t` as it is read. -/
structure Head where
  level : Nat
  minV : Nat
  maxV : Nat
  count : Nat
  indexOff : Nat
  index : List Nat
  deriving DecidableEq, Repr

/-- `vnx::read` of a number of `w` bytes. -/
def readNum (w : Nat) (bs : List Byte) : Option (Nat × List Byte) :=
  match readBytes w bs with
  | none => none
  | some (b, rest) => some (leDec b, rest)

/-- `in.read(block->index.data(), index_size * 8)`. -/
def readIndex : Nat → List Byte → Option (List Nat)
  | 0, _ => some []
  | n + 1, bs =>
    match readNum 8 bs with
    | none => none
    | some (x, rest) =>
      match readIndex n rest with
      | none => none
      | some l => some (x :: l)

/-- `read_block`, DataBase.cpp:229-255; the numbers of the header in order. -/
def readBlock (file : List Byte) : Option Head := do
  let (format, b) ← readNum 2 file
  if 0 < format then none
  else do
    let (level, b) ← readNum 4 b
    let (minV, b) ← readNum 4 b
    let (maxV, b) ← readNum 4 b
    let (count, b) ← readNum 8 b
    let (off, _) ← readNum 8 b
    let (n, b) ← readNum 8 (file.drop off)
    let index ← readIndex n b
    some ⟨level, minV, maxV, count, off, index⟩

/-- `read_key_at`, DataBase.cpp:42-47. -/
def keyAt (file : List Byte) (off : Nat) : Option (Nat × DbKey) :=
  match read32 (file.drop off) with
  | none => none
  | some (v, b) =>
    match readSized b with
    | none => none
    | some (k, _) => some (v, ⟨k⟩)

/-- `read_value_at`, DataBase.cpp:57-62. -/
def valueAt (file : List Byte) (off : Nat) (key : DbKey) : Option (List Byte) :=
  (readSized (file.drop (off + 8 + key.bytes.length))).map (·.1)

/-- The key at a position of the index. -/
def atB (file : List Byte) (h : Head) (pos : Nat) : Option (Nat × DbKey) :=
  match h.index[pos]? with
  | none => none
  | some off => keyAt file off

/-- The loop of `lower_bound`, DataBase.cpp:357-369. -/
def bsearchB (file : List Byte) (h : Head) (key : DbKey) : Nat → Nat → Nat → Option Nat
  | n, L, R =>
    if L < R then
      match n with
      | 0 => none
      | n + 1 =>
        match atB file h ((L + R) / 2) with
        | none => none
        | some e =>
          if comparator key.bytes e.2.bytes < 0 then bsearchB file h key n L ((L + R) / 2)
          else bsearchB file h key n ((L + R) / 2 + 1) R
    else some R

structure LowB where
  pos : Nat
  isMatch : Bool
  ent : Option (Nat × DbKey)

/-- `lower_bound` behind the loops, DataBase.cpp:378-385. -/
def lowerAfter (file : List Byte) (h : Head) (R : Nat) : Option LowB :=
  if R < h.index.length then
    match atB file h R with
    | none => none
    | some e => some ⟨R, false, some e⟩
  else some ⟨R, false, none⟩

/-- `lower_bound`, DataBase.cpp:350-386. -/
def lowerBoundB (file : List Byte) (h : Head) (key : DbKey) : Option LowB :=
  match bsearchB file h key h.index.length 0 h.index.length with
  | none => none
  | some R =>
    if 0 < R then
      match atB file h (R - 1) with
      | none => none
      | some e => if key = e.2 then some ⟨R - 1, true, some e⟩ else lowerAfter file h R
    else lowerAfter file h R

/-- The loop DataBase.cpp:333-345; fuel as large as the section. -/
def scanB (key : DbKey) (maxV : Nat) : Nat → Nat → List Byte → List Byte → Option (Option (List Byte))
  | n, ver, val, bs =>
    if maxV < ver then
      match n with
      | 0 => none
      | n + 1 =>
        match readEntry bs with
        | none => some none
        | some (r, rest) => if r.key = key.bytes then scanB key maxV n r.ver r.val rest else some none
    else some (some val)

/-- `find` in a block, DataBase.cpp:316-348; outer `none`: an exception. -/
def findB (file : List Byte) (h : Head) (key : DbKey) (maxV : Nat) : Option (Option (List Byte)) :=
  match lowerBoundB file h key with
  | none => none
  | some ⟨_, false, _⟩ => some none
  | some ⟨_, true, none⟩ => none
  | some ⟨pos, true, some (ver, _)⟩ =>
    match h.index[pos]? with
    | none => none
    | some o =>
      if h.indexOff < o + 8 + key.bytes.length then none
      else
        match readSized ((file.drop (o + 8 + key.bytes.length)).take (h.indexOff - (o + 8 + key.bytes.length))) with
        | none => none
        | some (val, rest) => scanB key maxV (rest.length + 1) ver val rest

/-- Reading the entries one after the other, DataBase.cpp:457-465, 607-613, 638-641. -/
def readAll : Nat → List Byte → Option (List E)
  | 0, _ => some []
  | n + 1, bs =>
    match readEntry bs with
    | none => none
    | some (r, rest) =>
      match readAll n rest with
      | none => none
      | some l => some (⟨⟨r.key⟩, r.ver, r.val⟩ :: l)

/-- All fields fit: 32 bit versions (an entry never has the highest one) and sizes, a file below 2^63 bytes. -/
structure Fits (level minV : Nat) (es : List E) : Prop where
  level : level < 2 ^ 32
  minV : minV < 2 ^ 32
  ent : ∀ e ∈ es, e.ver < u32max ∧ e.key.bytes.length < 2 ^ 32 ∧ e.val.length < 2 ^ 32
  size : headerSize + (es.flatMap entryBytes).length < 2 ^ 63

end Verif.DB
