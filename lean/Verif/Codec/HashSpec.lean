import Verif.Codec.HashBytes
/-
  What the hash properties talk about: values in the range of their C++ types, transactions without
  their witnesses, and the byte strings that are hashed for a transaction.
-/
namespace Verif.Codec

/-- The length of a container fits `size_t`. -/
def Sz {α : Type} (l : List α) : Prop := l.length < 2 ^ 64
def U64 (n : Nat) : Prop := n < 2 ^ 64
def U128 (n : Nat) : Prop := n < 2 ^ 128
def I64 (z : Int) : Prop := -2 ^ 63 ≤ z ∧ z < 2 ^ 63
def OptOk {α : Type} (p : α → Prop) : Option α → Prop
  | none => True
  | some a => p a
def VecOk {α : Type} (p : α → Prop) (l : List α) : Prop := Sz l ∧ ∀ x ∈ l, p x
def PairOk {α β : Type} (p : α → Prop) (q : β → Prop) (x : α × β) : Prop := p x.1 ∧ q x.2

mutual
def VarOk : Variant → Prop
  | .null => True
  | .bool _ => True
  | .ulong n => U64 n
  | .long z => I64 z
  | .str s => Sz s
  | .arr l => Sz l ∧ VarsOk l
  | .obj l => Sz l ∧ FieldsOk l
  | .blob d => Sz d
def VarsOk : List Variant → Prop
  | [] => True
  | x :: l => VarOk x ∧ VarsOk l
def FieldsOk : List (Bytes × Variant) → Prop
  | [] => True
  | (k, x) :: l => (Sz k ∧ VarOk x) ∧ FieldsOk l
end

def TxIO.Ok (x : TxIO) : Prop := Sz x.address ∧ Sz x.contract ∧ U128 x.amount ∧ OptOk Sz x.memo
def TxIn.Ok (x : TxIn) : Prop := x.io.Ok ∧ U64 x.solution ∧ U64 x.flags

def Op.Ok : Op → Prop
  | .execute version address solution method args user =>
    U64 version ∧ Sz address ∧ U64 solution ∧ Sz method ∧ VecOk VarOk args ∧ OptOk Sz user
  | .deposit version address solution method args user currency amount =>
    U64 version ∧ Sz address ∧ U64 solution ∧ Sz method ∧ VecOk VarOk args ∧ OptOk Sz user
      ∧ Sz currency ∧ U128 amount

def Method.Ok (m : Method) : Prop :=
  Sz m.name ∧ Sz m.info ∧ U64 m.entryPoint ∧ VecOk Sz m.args
def CompileFlags.Ok (f : CompileFlags) : Prop := I64 f.verbose ∧ I64 f.optLevel

def Contract.Ok : Contract → Prop
  | .pubKey version address => U64 version ∧ Sz address
  | .multiSig version required owners => U64 version ∧ U64 required ∧ VecOk Sz owners
  | .tokenBase version name symbol decimals md =>
    U64 version ∧ Sz name ∧ Sz symbol ∧ I64 decimals ∧ VarOk md
  | .executable version name symbol decimals md bin initMethod initArgs depends =>
    U64 version ∧ Sz name ∧ Sz symbol ∧ I64 decimals ∧ VarOk md ∧ Sz bin ∧ Sz initMethod
      ∧ VecOk VarOk initArgs ∧ VecOk (PairOk Sz Sz) depends
  | .binary version name fields methods constant bin lineInfo source compiler buildFlags =>
    U64 version ∧ Sz name ∧ VecOk (PairOk Sz U64) fields ∧ VecOk (PairOk Sz Method.Ok) methods
      ∧ Sz constant ∧ Sz bin ∧ VecOk (PairOk U64 U64) lineInfo ∧ Sz source ∧ Sz compiler
      ∧ buildFlags.Ok
  | .data version value => U64 version ∧ VarOk value
  | .webData version mimeType payload => U64 version ∧ Sz mimeType ∧ Sz payload

mutual
def SolOk : Solution → Prop
  | .pubKey version pubkey signature => U64 version ∧ Sz pubkey ∧ Sz signature
  | .multiSig version solutions required =>
    U64 version ∧ solutions.length < 2 ^ 32 ∧ SolEntriesOk solutions ∧ U64 required
def SolEntriesOk : List (Bytes × Solution) → Prop
  | [] => True
  | (a, s) :: l => (Sz a ∧ SolOk s) ∧ SolEntriesOk l
end

def ExecError.Ok (x : ExecError) : Prop :=
  U64 x.code ∧ U64 x.address ∧ U64 x.operation ∧ OptOk U64 x.line ∧ Sz x.message
def ExecResult.Ok (x : ExecResult) : Prop :=
  U64 x.totalCost ∧ U64 x.totalFee ∧ VecOk TxIn.Ok x.inputs ∧ VecOk TxIO.Ok x.outputs
    ∧ OptOk ExecError.Ok x.error

/-- Every number of a transaction fits its C++ type and every container a `size_t`. -/
def Tx.Ok (t : Tx) : Prop :=
  U64 t.version ∧ U64 t.expires ∧ U64 t.feeRatio ∧ U64 t.staticCost ∧ U64 t.maxFee ∧ U64 t.note
    ∧ U64 t.nonce ∧ Sz t.network ∧ OptOk Sz t.sender ∧ VecOk TxIn.Ok t.inputs
    ∧ VecOk TxIO.Ok t.outputs ∧ (t.execute.length < 2 ^ 32 ∧ ∀ x ∈ t.execute, x.Ok)
    ∧ (t.solutions.length < 2 ^ 32 ∧ ∀ x ∈ t.solutions, SolOk x)
    ∧ OptOk Contract.Ok t.deploy ∧ OptOk ExecResult.Ok t.execResult

/-- The generated type hashes are distinct 64-bit numbers where the encoders rely on it. -/
structure TypeHash.Good (h : TypeHash) : Prop where
  range : ∀ x ∈ [h.tx, h.execute, h.deposit, h.cPubKey, h.cMultiSig, h.tokenBase, h.executable,
    h.binary, h.data, h.webData, h.method, h.sPubKey, h.sMultiSig, h.execResult, h.execError],
    U64 x
  ops : h.execute ≠ h.deposit
  contracts : [h.cPubKey, h.cMultiSig, h.tokenBase, h.executable, h.binary, h.data,
    h.webData].Nodup
  solutions : h.sPubKey ≠ h.sMultiSig

structure Env.Good (E : Env) : Prop where
  th : E.th.Good
  hlen : ∀ b, (E.H b).length = 32

/-! ### Transactions without their witnesses -/

/-- An input without the fields that do not belong to the id. -/
def TxIn.bare (x : TxIn) : TxIn := { x with solution := 65535, flags := 0 }

def Op.bare : Op → Op
  | .execute version address _ method args user => .execute version address 65535 method args user
  | .deposit version address _ method args user currency amount =>
    .deposit version address 65535 method args user currency amount

/-- The transaction as its author meant it: no signatures or references to them, no cost, no
    execution result. -/
def Tx.bare (t : Tx) : Tx :=
  { t with
    staticCost := 0
    inputs := t.inputs.map TxIn.bare
    execute := t.execute.map Op.bare
    solutions := []
    execResult := none }

def ExecResult.bareInputs (x : ExecResult) : ExecResult :=
  { x with inputs := x.inputs.map TxIn.bare }

/-! ### Which byte strings are hashed -/

mutual
def solInputs (E : Env) : Solution → List Bytes
  | .pubKey version pubkey signature => [encSol E (.pubKey version pubkey signature)]
  | .multiSig version solutions required =>
    encSol E (.multiSig version solutions required) :: solEntryInputs E solutions
def solEntryInputs (E : Env) : List (Bytes × Solution) → List Bytes
  | [] => []
  | (_, s) :: l => solInputs E s ++ solEntryInputs E l
end

/-- All byte strings hashed for the id of a transaction. -/
def idInputs (E : Env) (t : Tx) : List Bytes :=
  hashSerialize E false t :: (t.execute.map (encOp E false t.version)
    ++ t.deploy.toList.map (encContract E t.version))

/-- All byte strings hashed for the content hash of a transaction. -/
def contentInputs (E : Env) (t : Tx) : List Bytes :=
  hashSerialize E true t :: (t.execute.map (encOp E true t.version)
    ++ t.deploy.toList.map (encContract E t.version)
    ++ t.solutions.flatMap (solInputs E)
    ++ t.execResult.toList.map (encResult E)
    ++ (t.execResult.bind ExecResult.error).toList.map (encError E))

/-- The hash function does not collide on the listed strings, nor hit the all-zero hash. -/
structure Distinguishes (H : Bytes → Bytes) (xs ys : List Bytes) : Prop where
  inj : ∀ x ∈ xs, ∀ y ∈ ys, H x = H y → x = y
  left : ∀ x ∈ xs, H x ≠ zeroHash
  right : ∀ y ∈ ys, H y ≠ zeroHash

end Verif.Codec
