import Verif.Base
/-
  The canonical byte encoding behind every hash of the node: include/mmx/write_bytes.h, and the
  encoders of transactions, operations, contracts and solutions.

  A byte is a `Nat`. `std::string`, `bytes_t` and buffers are byte lists. The numbers called
  `*TypeHash` are the constants returned by the generated `get_type_hash()`; they are parameters.
-/
namespace Verif.Codec

abbrev Bytes := List Nat

/-- `b!"abc"` is the list of character codes. -/
syntax:max "b!" str : term
macro_rules
  | `(b! $s) => do
    let cs := s.getString.toList.map fun c => Lean.Syntax.mkNumLit (toString c.toNat)
    `(([$(cs.toArray),*] : List Nat))

/-- Little-endian, `k` bytes (`vnx::to_little_endian` then raw output). -/
def le : Nat → Nat → Bytes
  | 0, _ => []
  | k + 1, n => n % 256 :: le k (n / 256)

/-- `write_bytes(uint64_t)`; the narrower unsigned overloads widen first, write_bytes.h:80-95. -/
def encU (n : Nat) : Bytes := le 8 n

/-- `write_bytes(int64_t)`: two's complement; narrower overloads widen first, write_bytes.h:63-78. -/
def encI (z : Int) : Bytes := le 8 (z % 2 ^ 64).toNat

/-- `write_bytes(bool)`, write_bytes.h:58-61. -/
def encBool (b : Bool) : Bytes := [if b then 1 else 0]

/-- `write_bytes(uint128)`, write_bytes.h:97-100. -/
def encU128 (n : Nat) : Bytes := encU (n % 2 ^ 64) ++ encU (n / 2 ^ 64)

/-- `write_bytes(std::string)`, write_bytes.h:106-111. -/
def encStr (s : Bytes) : Bytes := b!"string<>" ++ encU s.length ++ s

/-- `write_bytes` of `bytes_t`, `vector<uint8_t>` and `Buffer`, write_bytes.h:113-133. -/
def encBytes (s : Bytes) : Bytes := b!"bytes<>" ++ encU s.length ++ s

/-- `write_bytes(optional)`, write_bytes.h:234-243. -/
def encOpt {α : Type} (e : α → Bytes) : Option α → Bytes
  | none => b!"optional<>" ++ encBool false
  | some a => b!"optional<>" ++ encBool true ++ e a

/-- The elements of a container, one after the other. -/
def encAll {α : Type} (e : α → Bytes) : List α → Bytes
  | [] => []
  | a :: l => e a ++ encAll e l

/-- `write_bytes` of vector, array and set (sets in key order), write_bytes.h:252-286. -/
def encVec {α : Type} (e : α → Bytes) (l : List α) : Bytes :=
  b!"vector<>" ++ encU l.length ++ encAll e l

/-- `write_bytes(pair)`, write_bytes.h:245-250. -/
def encPair {α β : Type} (e : α → Bytes) (f : β → Bytes) (p : α × β) : Bytes :=
  b!"pair<>" ++ e p.1 ++ f p.2

/-- `write_bytes(map)`: entries in key order, write_bytes.h:288-295. -/
def encMap {α β : Type} (e : α → Bytes) (f : β → Bytes) (l : List (α × β)) : Bytes :=
  encVec (encPair e f) l

/-- `write_field(name)`, write_bytes.h:297-300. -/
def fld (name : Bytes) : Bytes := b!"field<>" ++ encStr name

/-- `vnx::Variant` as far as the encoder distinguishes it: null, bool, unsigned, signed, string,
    array, object (entries in key order), or an opaque blob of its serialized data. Integer widths
    are not distinguished by the encoder and are not kept. -/
inductive Variant where
  | null
  | bool (b : Bool)
  | ulong (n : Nat)
  | long (z : Int)
  | str (s : Bytes)
  | arr (l : List Variant)
  | obj (l : List (Bytes × Variant))
  | blob (data : Bytes)
  deriving Repr

/-- `write_bytes(Variant)`, write_bytes.h:135-175, at hash revision `v`. `isJson` stands for
    `is_json` (src/utils.cpp:92-101); nothing is assumed about it. -/
def encVarPre (v : Nat) (j : Bool) : Bytes := if v ≥ 1 ∧ j = false then b!"variant<>" else []

def tagged (v : Nat) (t : Bytes) : Bytes := if v ≥ 1 then t else []

mutual
def encVar (isJson : Variant → Bool) (v : Nat) : Variant → Bytes
  | .null => encVarPre v (isJson .null) ++ b!"NULL"
  | .bool b => encVarPre v (isJson (.bool b)) ++ (tagged v b!"<bool>" ++ encBool b)
  | .ulong n => encVarPre v (isJson (.ulong n)) ++ (tagged v b!"<u64>" ++ encU n)
  | .long z => encVarPre v (isJson (.long z)) ++ (tagged v b!"<i64>" ++ encI z)
  | .str s => encVarPre v (isJson (.str s)) ++ encStr s
  | .arr l => encVarPre v (isJson (.arr l)) ++ (b!"vector<>" ++ encU l.length ++ encVars isJson v l)
  | .obj l => encVarPre v (isJson (.obj l)) ++
      (b!"object<>" ++ (b!"vector<>" ++ encU l.length ++ encFields isJson v l))
  | .blob d => encVarPre v (isJson (.blob d)) ++ encBytes d

def encVars (isJson : Variant → Bool) (v : Nat) : List Variant → Bytes
  | [] => []
  | x :: l => encVar isJson v x ++ encVars isJson v l

def encFields (isJson : Variant → Bool) (v : Nat) : List (Bytes × Variant) → Bytes
  | [] => []
  | (k, x) :: l => b!"pair<>" ++ encStr k ++ encVar isJson v x ++ encFields isJson v l
end

/-- `txio_t`, interface/txio_t.vni. -/
structure TxIO where
  address : Bytes
  contract : Bytes
  amount : Nat
  memo : Option Bytes
  deriving Repr, DecidableEq

/-- `txin_t`, interface/txin_t.vni. -/
structure TxIn where
  io : TxIO
  solution : Nat
  flags : Nat
  deriving Repr, DecidableEq

/-- `write_bytes_ex(txio_t)`, write_bytes.h:177-183. -/
def encTxIO (x : TxIO) : Bytes :=
  encBytes x.address ++ encBytes x.contract ++ encU128 x.amount ++ encOpt encStr x.memo

/-- `write_bytes_ex(txin_t, full_hash)`, write_bytes.h:185-193. -/
def encTxIn (full : Bool) (x : TxIn) : Bytes :=
  b!"txin_t<>" ++ encTxIO x.io ++ (if full then encU x.solution ++ encU x.flags else [])

/-- `write_bytes(txout_t)`, write_bytes.h:200-204. -/
def encTxOut (x : TxIO) : Bytes := b!"txout_t<>" ++ encTxIO x

/-- `operation::Execute` and `operation::Deposit`, interface/operation/*.vni. -/
inductive Op where
  | execute (version : Nat) (address : Bytes) (solution : Nat) (method : Bytes)
      (args : List Variant) (user : Option Bytes)
  | deposit (version : Nat) (address : Bytes) (solution : Nat) (method : Bytes)
      (args : List Variant) (user : Option Bytes) (currency : Bytes) (amount : Nat)
  deriving Repr

/-- `contract::method_t`, interface/contract/method_t.vni. -/
structure Method where
  name : Bytes
  info : Bytes
  isInit : Bool
  isConst : Bool
  isPublic : Bool
  isPayable : Bool
  entryPoint : Nat
  args : List Bytes
  deriving Repr, DecidableEq

/-- `compile_flags_t`, interface/compile_flags_t.vni. -/
structure CompileFlags where
  verbose : Int
  optLevel : Int
  catchOverflow : Bool
  deriving Repr, DecidableEq

/-- The deployable contracts, interface/contract/*.vni (maps and sets in key order). -/
inductive Contract where
  | pubKey (version : Nat) (address : Bytes)
  | multiSig (version : Nat) (required : Nat) (owners : List Bytes)
  | tokenBase (version : Nat) (name symbol : Bytes) (decimals : Int) (md : Variant)
  | executable (version : Nat) (name symbol : Bytes) (decimals : Int) (md : Variant)
      (binary initMethod : Bytes) (initArgs : List Variant) (depends : List (Bytes × Bytes))
  | binary (version : Nat) (name : Bytes) (fields : List (Bytes × Nat))
      (methods : List (Bytes × Method)) (constant binary : Bytes) (lineInfo : List (Nat × Nat))
      (source compiler : Bytes) (buildFlags : CompileFlags)
  | data (version : Nat) (value : Variant)
  | webData (version : Nat) (mimeType payload : Bytes)
  deriving Repr

/-- `solution::PubKey` and `solution::MultiSig`, interface/solution/*.vni. Null entries, which
    `is_valid` rejects (src/solution/MultiSig.cpp:15-23), are left out. -/
inductive Solution where
  | pubKey (version : Nat) (pubkey signature : Bytes)
  | multiSig (version : Nat) (solutions : List (Bytes × Solution)) (required : Nat)
  deriving Repr

/-- `exec_error_t` and `exec_result_t`, interface/exec_*.vni. -/
structure ExecError where
  code : Nat
  address : Nat
  operation : Nat
  line : Option Nat
  message : Bytes
  deriving Repr, DecidableEq

structure ExecResult where
  didFail : Bool
  totalCost : Nat
  totalFee : Nat
  inputs : List TxIn
  outputs : List TxIO
  error : Option ExecError
  deriving Repr, DecidableEq

/-- `Transaction`, interface/Transaction.vni, without the two stored hashes. Null operations and
    null solutions, which `is_valid` rejects (src/Transaction.cpp:71-80), are left out. -/
structure Tx where
  version : Nat
  expires : Nat
  feeRatio : Nat
  staticCost : Nat
  maxFee : Nat
  note : Nat
  nonce : Nat
  network : Bytes
  sender : Option Bytes
  inputs : List TxIn
  outputs : List TxIO
  execute : List Op
  solutions : List Solution
  deploy : Option Contract
  execResult : Option ExecResult
  deriving Repr

/-- The constants returned by the generated `get_type_hash()` functions. -/
structure TypeHash where
  tx : Nat
  execute : Nat
  deposit : Nat
  cPubKey : Nat
  cMultiSig : Nat
  tokenBase : Nat
  executable : Nat
  binary : Nat
  data : Nat
  webData : Nat
  method : Nat
  sPubKey : Nat
  sMultiSig : Nat
  execResult : Nat
  execError : Nat

/-- What the encoders take from outside: type hashes, `is_json`, and the hash function
    (`hash_t(std::vector<uint8_t>)`). -/
structure Env where
  th : TypeHash
  isJson : Variant → Bool
  H : Bytes → Bytes

/-- `hash_t()`: thirty-two zero bytes. -/
def zeroHash : Bytes := List.replicate 32 0

/-- Hash input of `Execute::calc_hash` / `Deposit::calc_hash`, src/operation/Execute.cpp:26-45,
    src/operation/Deposit.cpp:20-41. -/
def encOp (E : Env) (full : Bool) (v : Nat) : Op → Bytes
  | .execute version address solution method args user =>
    encU E.th.execute ++ fld b!"version" ++ encU version ++ fld b!"address" ++ encBytes address
      ++ fld b!"method" ++ encStr method ++ fld b!"args" ++ encVec (encVar E.isJson v) args
      ++ fld b!"user" ++ encOpt encBytes user
      ++ (if full then fld b!"solution" ++ encU solution else [])
  | .deposit version address solution method args user currency amount =>
    encU E.th.deposit ++ fld b!"version" ++ encU version ++ fld b!"address" ++ encBytes address
      ++ fld b!"method" ++ encStr method ++ fld b!"args" ++ encVec (encVar E.isJson v) args
      ++ fld b!"user" ++ encOpt encBytes user
      ++ fld b!"currency" ++ encBytes currency ++ fld b!"amount" ++ encU128 amount
      ++ (if full then fld b!"solution" ++ encU solution else [])

/-- `write_bytes(method_t)`, write_bytes.h:221-232. -/
def encMethod (E : Env) (m : Method) : Bytes :=
  encU E.th.method ++ fld b!"name" ++ encStr m.name ++ fld b!"info" ++ encStr m.info
    ++ fld b!"is_init" ++ encBool m.isInit ++ fld b!"is_const" ++ encBool m.isConst
    ++ fld b!"is_public" ++ encBool m.isPublic ++ fld b!"is_payable" ++ encBool m.isPayable
    ++ fld b!"entry_point" ++ encU m.entryPoint ++ fld b!"args" ++ encVec encStr m.args

/-- `write_bytes(compile_flags_t)`, write_bytes.h:213-219. -/
def encFlags (f : CompileFlags) : Bytes :=
  b!"compile_flags_t<>" ++ fld b!"verbose" ++ encI f.verbose ++ fld b!"opt_level" ++ encI f.optLevel
    ++ fld b!"catch_overflow" ++ encBool f.catchOverflow

/-- Hash input of `PubKey::calc_hash`, src/contract/PubKey.cpp:23-35. No contract looks at
    `full_hash`. -/
def encPubKey (E : Env) (version : Nat) (address : Bytes) : Bytes :=
  encU E.th.cPubKey ++ fld b!"version" ++ encU version ++ fld b!"address" ++ encBytes address

/-- Hash input of `MultiSig::calc_hash`, src/contract/MultiSig.cpp:24-37. -/
def encMultiSig (E : Env) (version required : Nat) (owners : List Bytes) : Bytes :=
  encU E.th.cMultiSig ++ fld b!"version" ++ encU version ++ fld b!"num_required" ++ encU required
    ++ fld b!"owners" ++ encVec encBytes owners

/-- Hash input of `TokenBase::calc_hash`, src/contract/TokenBase.cpp:24-39. -/
def encTokenBase (E : Env) (v version : Nat) (name symbol : Bytes) (decimals : Int)
    (md : Variant) : Bytes :=
  encU E.th.tokenBase ++ fld b!"version" ++ encU version ++ fld b!"name" ++ encStr name
    ++ fld b!"symbol" ++ encStr symbol ++ fld b!"decimals" ++ encI decimals
    ++ fld b!"meta_data" ++ encVar E.isJson v md

/-- Hash input of `Executable::calc_hash`, src/contract/Executable.cpp:42-61. -/
def encExecutable (E : Env) (v version : Nat) (name symbol : Bytes) (decimals : Int) (md : Variant)
    (binary initMethod : Bytes) (initArgs : List Variant) (depends : List (Bytes × Bytes)) : Bytes :=
  encU E.th.executable ++ fld b!"version" ++ encU version ++ fld b!"name" ++ encStr name
    ++ fld b!"symbol" ++ encStr symbol ++ fld b!"decimals" ++ encI decimals
    ++ fld b!"meta_data" ++ encVar E.isJson v md ++ fld b!"binary" ++ encBytes binary
    ++ fld b!"init_method" ++ encStr initMethod
    ++ fld b!"init_args" ++ encVec (encVar E.isJson v) initArgs
    ++ fld b!"depends" ++ encMap encStr encBytes depends

/-- Hash input of `Binary::calc_hash`, src/contract/Binary.cpp:32-52. -/
def encBinary (E : Env) (version : Nat) (name : Bytes) (fields : List (Bytes × Nat))
    (methods : List (Bytes × Method)) (constant binary : Bytes) (lineInfo : List (Nat × Nat))
    (source compiler : Bytes) (buildFlags : CompileFlags) : Bytes :=
  encU E.th.binary ++ fld b!"version" ++ encU version ++ fld b!"name" ++ encStr name
    ++ fld b!"fields" ++ encMap encStr encU fields
    ++ fld b!"methods" ++ encMap encStr (encMethod E) methods
    ++ fld b!"constant" ++ encBytes constant ++ fld b!"binary" ++ encBytes binary
    ++ fld b!"line_info" ++ encMap encU encU lineInfo
    ++ fld b!"source" ++ encStr source ++ fld b!"compiler" ++ encStr compiler
    ++ fld b!"build_flags" ++ encFlags buildFlags

/-- Hash input of `Data::calc_hash`, src/contract/Data.cpp:21-33. -/
def encData (E : Env) (v version : Nat) (value : Variant) : Bytes :=
  encU E.th.data ++ fld b!"version" ++ encU version ++ fld b!"value" ++ encVar E.isJson v value

/-- Hash input of `WebData::calc_hash`, src/contract/WebData.cpp:21-34. -/
def encWebData (E : Env) (version : Nat) (mimeType payload : Bytes) : Bytes :=
  encU E.th.webData ++ fld b!"version" ++ encU version ++ fld b!"mime_type" ++ encStr mimeType
    ++ fld b!"payload" ++ encBytes payload

/-- The virtual call `deploy->calc_hash(..)`. -/
def encContract (E : Env) (v : Nat) : Contract → Bytes
  | .pubKey version address => encPubKey E version address
  | .multiSig version required owners => encMultiSig E version required owners
  | .tokenBase version name symbol decimals md => encTokenBase E v version name symbol decimals md
  | .executable version name symbol decimals md binary initMethod initArgs depends =>
    encExecutable E v version name symbol decimals md binary initMethod initArgs depends
  | .binary version name fields methods constant binary lineInfo source compiler buildFlags =>
    encBinary E version name fields methods constant binary lineInfo source compiler buildFlags
  | .data version value => encData E v version value
  | .webData version mimeType payload => encWebData E version mimeType payload

mutual
/-- Hash input of `Solution::calc_hash`, src/solution/PubKey.cpp:15-28,
    src/solution/MultiSig.cpp:25-44. -/
def encSol (E : Env) : Solution → Bytes
  | .pubKey version pubkey signature =>
    encU E.th.sPubKey ++ fld b!"version" ++ encU version ++ fld b!"pubkey" ++ encBytes pubkey
      ++ fld b!"signature" ++ encBytes signature
  | .multiSig version solutions required =>
    encU E.th.sMultiSig ++ fld b!"version" ++ encU version ++ fld b!"solutions"
      ++ encU (u32 solutions.length) ++ encSolEntries E solutions
      ++ fld b!"num_required" ++ encU required

def encSolEntries (E : Env) : List (Bytes × Solution) → Bytes
  | [] => []
  | (a, s) :: l => b!"pair<>" ++ encBytes a ++ encBytes (E.H (encSol E s)) ++ encSolEntries E l
end

/-- Hash input of `exec_error_t::calc_hash`, src/exec_error_t.cpp:19-34. -/
def encError (E : Env) (x : ExecError) : Bytes :=
  encU E.th.execError ++ fld b!"code" ++ encU x.code ++ fld b!"address" ++ encU x.address
    ++ fld b!"operation" ++ encU x.operation ++ fld b!"line" ++ encOpt encU x.line
    ++ fld b!"message" ++ encStr x.message

/-- `p ? p->calc_hash() : hash_t()`. -/
def hashOr (E : Env) {α : Type} (e : α → Bytes) : Option α → Bytes
  | none => zeroHash
  | some a => E.H (e a)

/-- Hash input of `exec_result_t::calc_hash`, src/exec_result_t.cpp:30-46. The inputs go through
    `write_bytes(txin_t)`, i.e. without `solution` and `flags`. -/
def encResult (E : Env) (x : ExecResult) : Bytes :=
  encU E.th.execResult ++ fld b!"did_fail" ++ encBool x.didFail
    ++ fld b!"total_cost" ++ encU x.totalCost ++ fld b!"total_fee" ++ encU x.totalFee
    ++ fld b!"inputs" ++ encVec (encTxIn false) x.inputs
    ++ fld b!"outputs" ++ encVec encTxOut x.outputs
    ++ fld b!"error" ++ encBytes (hashOr E (encError E) x.error)

/-- `Transaction::hash_serialize`, src/Transaction.cpp:129-167. -/
def hashSerialize (E : Env) (full : Bool) (t : Tx) : Bytes :=
  encU E.th.tx ++ fld b!"version" ++ encU t.version ++ fld b!"expires" ++ encU t.expires
    ++ fld b!"fee_ratio" ++ encU t.feeRatio ++ fld b!"max_fee_amount" ++ encU t.maxFee
    ++ fld b!"note" ++ encU t.note ++ fld b!"nonce" ++ encU t.nonce
    ++ fld b!"network" ++ encStr t.network ++ fld b!"sender" ++ encOpt encBytes t.sender
    ++ fld b!"inputs" ++ encVec (encTxIn full) t.inputs
    ++ fld b!"outputs" ++ encVec encTxOut t.outputs
    ++ fld b!"execute" ++ encU (u32 t.execute.length)
    ++ encAll (fun op => encBytes (E.H (encOp E full t.version op))) t.execute
    ++ fld b!"deploy" ++ encBytes (hashOr E (encContract E t.version) t.deploy)
    ++ (if full then
          fld b!"static_cost" ++ encU t.staticCost
            ++ fld b!"solutions" ++ encU (u32 t.solutions.length)
            ++ encAll (fun s => encBytes (E.H (encSol E s))) t.solutions
            ++ fld b!"exec_result" ++ encBytes (hashOr E (encResult E) t.execResult)
        else [])

/-- `Transaction::calc_hash`, src/Transaction.cpp:169-172: `false` gives the id, `true` the content
    hash. -/
def calcHash (E : Env) (full : Bool) (t : Tx) : Bytes := E.H (hashSerialize E full t)

end Verif.Codec
