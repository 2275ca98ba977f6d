import Verif.DB.Keys
import Verif.DB.Model

/-!
# The bytes of `write_log.dat`

`src/DataBase.cpp:23-103` (record format) and `178-215` (the loop of the constructor that reads the
log).  `vnx::write`/`vnx::read` of a `uint32_t` are not in the repository; they are taken to move four
bytes, least significant first (the order plays no role in the proofs).  `vnx::CRC64` is a parameter.
Reading beyond the end of the file throws `std::underflow_error`; memory for a record is assumed to be
available.
-/

namespace Verif.DB

/-- `vnx::write(out, uint32_t)`. -/
def leEnc : Nat → Nat → List Byte
  | 0, _ => []
  | w + 1, n => Fin.ofNat 256 n :: leEnc w (n / 256)

/-- The value of bytes, least significant first. -/
def leDec : List Byte → Nat
  | [] => 0
  | b :: bs => b.val + 256 * leDec bs

def le32 (n : Nat) : List Byte := leEnc 4 n

/-- A log record as stored. -/
structure Raw where
  ver : Nat
  key : List Byte
  val : List Byte
  deriving DecidableEq, Repr

/-- The 64 bit checksum of version, key bytes and value bytes. -/
abbrev Crc := Nat → List Byte → List Byte → Nat

/-- `calc_checksum_32` (DataBase.cpp:23-30). -/
def checksum (crc : Crc) (r : Raw) : Nat := crc r.ver r.key r.val % 2 ^ 32

/-- `write_entry` (DataBase.cpp:90-97). -/
def writeEntry (r : Raw) : List Byte :=
  le32 r.ver ++ (le32 r.key.length ++ (r.key ++ (le32 r.val.length ++ r.val)))

/-- `write_entry_sum` (DataBase.cpp:99-103). -/
def writeEntrySum (crc : Crc) (r : Raw) : List Byte := writeEntry r ++ le32 (checksum crc r)

/-- `in.read(data, n)`: `none` when the file ends before. -/
def readBytes (n : Nat) (bs : List Byte) : Option (List Byte × List Byte) :=
  if bs.length < n then none else some (bs.take n, bs.drop n)

/-- `vnx::read(in, uint32_t)`. -/
def read32 (bs : List Byte) : Option (Nat × List Byte) :=
  match readBytes 4 bs with
  | none => none
  | some (b, rest) => some (leDec b, rest)

/-- A size followed by so many bytes (`read_key` without the version, `read_value`,
DataBase.cpp:36-39, 51-54). -/
def readSized (bs : List Byte) : Option (List Byte × List Byte) :=
  match read32 bs with
  | none => none
  | some (n, rest) => readBytes n rest

/-- `read_entry` (DataBase.cpp:64-68). -/
def readEntry (bs : List Byte) : Option (Raw × List Byte) :=
  match read32 bs with
  | none => none
  | some (ver, b1) =>
    match readSized b1 with
    | none => none
    | some (key, b2) =>
      match readSized b2 with
      | none => none
      | some (val, b3) => some (⟨ver, key, val⟩, b3)

/-- Outcome of `read_entry_sum`: the file ended, the checksum is wrong, or a record. -/
inductive ReadRes where
  | underflow
  | bad (rest : List Byte)
  | record (r : Raw) (rest : List Byte)
  deriving DecidableEq, Repr

/-- `read_entry_sum` (DataBase.cpp:70-80). -/
def readEntrySum (crc : Crc) (bs : List Byte) : ReadRes :=
  match readEntry bs with
  | none => .underflow
  | some (r, b1) =>
    match read32 b1 with
    | none => .underflow
    | some (sum, b2) => if sum = checksum crc r then .record r b2 else .bad b2

/-- `"commit"`, `"reset"`, `"revert"`. -/
def cmdCommit : List Byte := [99, 111, 109, 109, 105, 116]
def cmdReset : List Byte := [114, 101, 115, 101, 116]
def cmdRevert : List Byte := [114, 101, 118, 101, 114, 116]

/-- What a record means (DataBase.cpp:189-205): `none` when `value->to<uint32_t>()` throws, `some none`
for an unknown command. -/
def interpret (r : Raw) : Option (Option (Rec DbKey (List Byte))) :=
  if r.ver = u32max then
    if r.key = cmdCommit then
      if r.val.length = 4 then some (some (.commit (leDec r.val))) else none
    else if r.key = cmdReset then
      if r.val.length = 4 then some (some (.reset (leDec r.val))) else none
    else if r.key = cmdRevert then
      if r.val.length = 4 then some (some (.revert (leDec r.val))) else none
    else some none
  else some (some (.put { key := ⟨r.key⟩, ver := r.ver, val := r.val }))

abbrev LogState := Replay DbKey (List Byte)

/-- Effect of a record on the state of the loop. -/
def logStep (minVer : Nat) (s : LogState) : Option (Rec DbKey (List Byte)) → LogState
  | none => s
  | some r => replayStep minVer s r

/-- The reading loop (DataBase.cpp:183-214) with the position after the last record that was accepted.
`total` is the size of the file, so that the position is `total` minus what is left.  The first number
bounds the rounds (`none` when it runs out, see `C13_loop_ends`). -/
def logLoop (crc : Crc) (minVer total : Nat) : Nat → List Byte → LogState → Nat → Option (LogState × Nat)
  | 0, _, _, _ => none
  | n + 1, bs, s, off =>
    match readEntrySum crc bs with
    | .underflow => some (s, off)
    | .bad rest => logLoop crc minVer total n rest s off
    | .record r rest =>
      match interpret r with
      | none => logLoop crc minVer total n rest s off
      | some x => logLoop crc minVer total n rest (logStep minVer s x) (total - rest.length)

/-- Reading a log file. -/
def readLog (crc : Crc) (minVer : Nat) (s : LogState) (file : List Byte) : Option (LogState × Nat) :=
  logLoop crc minVer file.length (file.length + 1) file s 0

/-- How the table writes a record (DataBase.cpp:266, 397-401, 430-434, 531-535). -/
def toRaw : Rec DbKey (List Byte) → Raw
  | .put e => ⟨e.ver, e.key.bytes, e.val⟩
  | .commit v => ⟨u32max, cmdCommit, le32 v⟩
  | .reset v => ⟨u32max, cmdReset, le32 v⟩
  | .revert v => ⟨u32max, cmdRevert, le32 v⟩

def recBytes (crc : Crc) (r : Rec DbKey (List Byte)) : List Byte := writeEntrySum crc (toRaw r)

/-- The file after writing records. -/
def logBytes (crc : Crc) (rs : List (Rec DbKey (List Byte))) : List Byte := rs.flatMap (recBytes crc)

/-- Sizes and versions fit their 32 bit fields; entries are not written at the version that marks
commands (`commit` refuses it, DataBase.cpp:390). -/
def RecOK : Rec DbKey (List Byte) → Prop
  | .put e => e.ver < u32max ∧ e.key.bytes.length < 2 ^ 32 ∧ e.val.length < 2 ^ 32
  | .commit v | .reset v | .revert v => v < 2 ^ 32

/-- Writing at a position of a file without truncating it (`write_log.seek_to(offset)`,
DataBase.cpp:215, and the writes that follow). -/
def overwrite (file : List Byte) (off : Nat) (new : List Byte) : List Byte :=
  file.take off ++ (new ++ file.drop (off + new.length))

/-- Opening a table: read the log, then `revert(curr_version)` writes and flushes a record at the
position found (DataBase.cpp:215, 224, 430-436). -/
def openLog (crc : Crc) (minVer : Nat) (s : LogState) (file : List Byte) :
    Option (LogState × List Byte) :=
  match readLog crc minVer s file with
  | none => none
  | some (s', off) => some (s', overwrite file off (recBytes crc (.revert s'.cur)))

end Verif.DB
