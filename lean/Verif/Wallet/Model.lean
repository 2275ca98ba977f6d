import Verif.Chain.Params
/-
  The wallet: include/mmx/ECDSA_Wallet.h, with the calls of src/Wallet.cpp that use it.

  Addresses, currencies, hashes, keys and signatures are numbers; 0 is the zero address and the native
  currency.  Key derivation, hashing, signing, the cost function and `std::sort` are parameters
  (`Env`).  Unsigned 128-bit arithmetic wraps; the integer library is not part of the checkout.
-/
namespace Verif.Wallet
open Verif

abbrev Addr := Nat
/-- Keys of `balance_map`: (address, currency). -/
abbrev Key := Addr × Addr

/-- `std::map` / `std::unordered_map` as the list of its entries in iteration order. -/
abbrev AMap (α β : Type) := List (α × β)

namespace AMap
variable {α β : Type} [DecidableEq α]

/-- `map.find(key)`. -/
def find (m : AMap α β) (k : α) : Option β :=
  match m with
  | [] => none
  | e :: m => if e.1 = k then some e.2 else find m k

/-- Position of a new key: before the first greater one. -/
def ins (lt : α → α → Bool) (m : AMap α β) (k : α) (v : β) : AMap α β :=
  match m with
  | [] => [(k, v)]
  | e :: m => if lt k e.1 then (k, v) :: e :: m else e :: ins lt m k v

/-- `map[key] = value`. -/
def put (lt : α → α → Bool) (m : AMap α β) (k : α) (v : β) : AMap α β :=
  match m.find k with
  | none => ins lt m k v
  | some _ => m.map fun e => if e.1 = k then (k, v) else e

/-- `map.erase(key)`. -/
def erase (m : AMap α β) (k : α) : AMap α β := m.filter fun e => e.1 ≠ k

end AMap

/-- Order of the keys of `std::map<addr_t, …>`. (The real order compares the bytes of the address;
which order it is does not matter here.) -/
def addrLt (a b : Addr) : Bool := decide (a < b)
/-- Order of `std::pair`. -/
def keyLt (a b : Key) : Bool := decide (a.1 < b.1 ∨ (a.1 = b.1 ∧ a.2 < b.2))

/-- `uint128_t` subtraction (wraps). -/
def sub128 (a b : Nat) : Nat := (a + 2 ^ 128 - b % 2 ^ 128) % 2 ^ 128

/-- `txin_t::NO_SOLUTION`, `Operation::NO_SOLUTION` (interface/txin_t.vni:12, interface/Operation.vni:11). -/
def noSolution : Nat := 65535

/-- `txin_t` (interface/txio_t.vni, interface/txin_t.vni); `exec` is the flag `IS_EXEC`. -/
structure TxIn where
  address : Addr
  contract : Addr
  amount : Nat
  memo : Option Nat := none
  solution : Nat := noSolution
  exec : Bool := false
  deriving DecidableEq, Repr

/-- `txout_t` (interface/txio_t.vni). -/
structure TxOut where
  address : Addr
  contract : Addr
  amount : Nat
  memo : Option Nat := none
  deriving DecidableEq, Repr

/-- The class of an operation (interface/Operation.vni, interface/operation/): the base class, an
`Execute` or a `Deposit`.  Method and arguments are one number. -/
inductive OpKind where
  | plain
  | execute (user : Option Addr) (call : Nat)
  | deposit (user : Option Addr) (call : Nat) (currency : Addr) (amount : Nat)
  deriving DecidableEq, Repr

structure Op where
  address : Addr
  kind : OpKind
  solution : Nat := noSolution
  deriving DecidableEq, Repr

/-- `solution::PubKey` (interface/solution/PubKey.vni). -/
structure Sol where
  pubkey : Nat
  sig : Nat
  deriving DecidableEq, Repr

/-- `Transaction` (interface/Transaction.vni) without `exec_result`, which is empty here; the contract
to deploy is a number. -/
structure Tx where
  id : Nat := 0
  version : Nat := 0
  expires : Nat := 2 ^ 32 - 1
  feeRatio : Nat := 1024
  staticCost : Nat := 0
  maxFee : Nat := 0
  note : Nat := 0
  nonce : Nat := 0
  network : Nat := 0
  sender : Option Addr := none
  inputs : List TxIn := []
  outputs : List TxOut := []
  ops : List Op := []
  solutions : List Sol := []
  deploy : Option Nat := none
  contentHash : Nat := 0
  deriving DecidableEq, Repr

/-- What `Transaction::hash_serialize(false)` writes (src/Transaction.cpp:129-153, include/mmx/write_bytes.h:185-193):
everything but the solutions, the solution indices, the input flags, the static cost and the content
hash.  Represented by the transaction with those fields at their defaults. -/
def Tx.body (tx : Tx) : Tx :=
  { tx with
    id := 0, staticCost := 0, contentHash := 0, solutions := []
    inputs := tx.inputs.map fun i => { i with solution := noSolution, exec := false }
    ops := tx.ops.map fun o => { o with solution := noSolution } }

/-- What `Transaction::hash_serialize(true)` writes (src/Transaction.cpp:129-167): everything but the two
hashes themselves. -/
def Tx.full (tx : Tx) : Tx := { tx with id := 0, contentHash := 0 }

/-- `spend_options_t` (interface/spend_options_t.vni): the fields the wallet reads. -/
structure Opts where
  feeRatio : Nat := 1024
  gasLimit : Nat := 5000000
  expireAt : Option Nat := none
  expireDelta : Option Nat := none
  nonce : Option Nat := none
  sender : Option Addr := none
  passphrase : Option Nat := none
  note : Option Nat := none
  memo : Option Nat := none
  ownerMap : AMap Addr Addr := []

/-- Everything outside the wallet class: `std::sort`, the chain parameters, the random nonce,
`Transaction::calc_cost`, the hashes, the key derivation for a passphrase, the public key of a secret
key, its address, the fingerprint of a passphrase and the signing function. -/
structure Env where
  srt : List (Addr × Nat) → List (Addr × Nat)
  version : Nat → Nat
  network : Nat
  rand : Nat
  cost : List TxIn → List TxOut → List Op → List Sol → Option Nat → Res Nat
  hash : Tx → Nat
  fullHash : Tx → Nat
  skey : Nat → Nat → Nat
  pub : Nat → Nat
  addrOf : Nat → Addr
  finger : Nat → Nat
  sign : Nat → Nat → Nat

/-- `Transaction::calc_cost`, src/Transaction.cpp:227-261: a function of the inputs, outputs, operations,
solutions and the deployed contract (there is no `exec_result` here). -/
def Env.costOf (E : Env) (tx : Tx) : Res Nat := E.cost tx.inputs tx.outputs tx.ops tx.solutions tx.deploy

/-- `ECDSA_Wallet` (ECDSA_Wallet.h:29-31, 552-577) without the farmer key, the external balances and the
time of the last update. -/
structure W where
  withPass : Bool
  finger : Nat
  num : Nat
  defaultExpire : Nat := 100
  addresses : List Addr := []
  index : AMap Addr Nat := []
  keypairs : List (Nat × Nat) := []
  kmap : AMap Addr Nat := []
  height : Nat := 0
  balance : AMap Key Nat := []
  reserved : AMap Key Nat := []
  pendingTx : AMap Nat Nat := []
  pendingMap : AMap Nat (AMap Key Nat) := []

/-! ### keys -/

/-- `lock()`, ECDSA_Wallet.h:59-68. -/
def W.lock (w : W) : W := { w with keypairs := [], kmap := [] }

/-- `is_locked()`, ECDSA_Wallet.h:118-121. -/
def W.isLocked (w : W) : Bool := w.addresses.isEmpty || decide (w.keypairs.length < w.addresses.length)

/-- The key pairs of a passphrase, ECDSA_Wallet.h:91-102. -/
def Env.keys (E : Env) (pass num : Nat) : List (Nat × Nat) :=
  (List.range num).map fun i => (E.skey pass i, E.pub (E.skey pass i))

/-- `map[addr] = i` for the addresses in order, ECDSA_Wallet.h:112-114. -/
def putAll (m : AMap Addr Nat) : List Addr → Nat → AMap Addr Nat
  | [], _ => m
  | a :: as, i => putAll (m.put addrLt a i) as (i + 1)

/-- `unlock(passphrase)`, ECDSA_Wallet.h:74-116.  The loop checks the first address before it changes
anything and then overwrites every entry, so it is written as one update. -/
def W.unlock (E : Env) (w : W) (pass : Nat) : Option W :=
  if w.withPass ∧ E.finger pass ≠ w.finger then none
  else if w.num = 0 then some w
  else
    let ks := E.keys pass w.num
    let as := ks.map fun k => E.addrOf k.2
    if w.addresses ≠ [] ∧ as.head? ≠ w.addresses.head? then none
    else some { w with
      keypairs := ks, addresses := as
      kmap := putAll w.kmap as 0, index := putAll w.index as 0 }

/-- `find_address(address) >= 0`, ECDSA_Wallet.h:159-166. -/
def W.owns (w : W) (a : Addr) : Bool := (w.index.find a).isSome

/-- `sign_msg`, ECDSA_Wallet.h:429-442 with `find_keypair` (182-189); an index outside `keypairs` is
undefined. -/
def W.signMsg (E : Env) (w : W) (owner : Addr) (msg : Nat) : Res (Option Sol) :=
  if w.isLocked then .throw
  else
    match w.kmap.find owner with
    | none => .ok none
    | some i =>
      match w.keypairs[i]? with
      | none => .ub
      | some k => .ok (some ⟨k.2, E.sign k.1 msg⟩)

/-! ### balances -/

/-- `clamped_sub_assign(balance_map[key], x)`, include/mmx/utils.h:404-416. -/
def subBal (m : AMap Key Nat) (k : Key) (x : Nat) : AMap Key Nat :=
  m.put keyLt k (Chain.clampedSub ((m.find k).getD 0) x)

/-- `update_cache`, ECDSA_Wallet.h:191-220. -/
def W.updateCache (w : W) (balances : AMap Key Nat) (history : List Nat) (height : Nat) : W :=
  let expired := (w.pendingTx.filter fun e => decide (e.2 < height)).map (·.1)
  let gone := expired ++ history
  let ptx := gone.foldl AMap.erase w.pendingTx
  let pmap := gone.foldl AMap.erase w.pendingMap
  let b1 := w.reserved.foldl (fun m e => subBal m e.1 e.2) balances
  let b2 := pmap.foldl (fun m e => e.2.foldl (fun m p => subBal m p.1 p.2) m) b1
  { w with height := height, pendingTx := ptx, pendingMap := pmap, balance := b2 }

/-- `pending_map[txid][key] += x`. -/
def addPending (m : AMap Nat (AMap Key Nat)) (txid : Nat) (k : Key) (x : Nat) : AMap Nat (AMap Key Nat) :=
  let cur := (m.find txid).getD []
  m.put addrLt txid (cur.put keyLt k (u128 ((cur.find k).getD 0 + x)))

/-- One subtraction of `update_from`, ECDSA_Wallet.h:230-231 and 236-237. -/
def W.spend (w : W) (txid : Nat) (k : Key) (x : Nat) : W :=
  { w with balance := subBal w.balance k x, pendingMap := addPending w.pendingMap txid k x }

/-- `update_from(tx)`, ECDSA_Wallet.h:222-241. -/
def W.updateFrom (w : W) (tx : Tx) : Res W :=
  if (w.pendingTx.find tx.id).isSome then .ok w
  else do
    let w1 ← (match tx.sender with
      | none => .ok w
      | some s => do
        let fee ← Chain.costToFee tx.staticCost tx.feeRatio
        pure (w.spend tx.id (s, 0) fee))
    let w2 := tx.inputs.foldl
      (fun (u : W) i => if u.owns i.address then u.spend tx.id (i.address, i.contract) i.amount else u) w1
    pure { w2 with pendingTx := w2.pendingTx.put addrLt tx.id tx.expires }

/-- `reset_cache()`, ECDSA_Wallet.h:542-550. -/
def W.resetCache (w : W) : W :=
  { w with balance := [], reserved := [], pendingTx := [], pendingMap := [] }

/-! ### funding -/

/-- What is left of a balance after the amounts already drawn, ECDSA_Wallet.h:261-267, 287-291, 511-515. -/
def avail (spent : AMap Key Nat) (k : Key) (b : Nat) : Nat :=
  match spent.find k with
  | none => b
  | some s => sub128 b s

/-- `spent_map[key] += amount`. -/
def addSpent (spent : AMap Key Nat) (k : Key) (x : Nat) : AMap Key Nat :=
  spent.put keyLt k (u128 ((spent.find k).getD 0 + x))

/-- The first loop of `gather_inputs`, ECDSA_Wallet.h:250-281: add to existing inputs. -/
def reuse (w : W) (cur : Addr) : List TxIn → Nat → AMap Key Nat → List TxIn × Nat × AMap Key Nat
  | [], left, sp => ([], left, sp)
  | i :: is, left, sp =>
    if left = 0 then (i :: is, left, sp)
    else if i.contract = cur ∧ w.owns i.address = true then
      match w.balance.find (i.address, i.contract) with
      | none => let r := reuse w cur is left sp; (i :: r.1, r.2)
      | some b =>
        let bal := avail sp (i.address, i.contract) b
        let amt := if bal ≥ left then left else bal
        if amt = 0 then let r := reuse w cur is left sp; (i :: r.1, r.2)
        else
          let r := reuse w cur is (sub128 left amt) (addSpent sp (i.address, i.contract) amt)
          ({ i with amount := u128 (i.amount + amt) } :: r.1, r.2)
    else let r := reuse w cur is left sp; (i :: r.1, r.2)

/-- The addresses with something left, ECDSA_Wallet.h:283-296. -/
def addrList (cur : Addr) (sp : AMap Key Nat) (m : AMap Key Nat) : List (Addr × Nat) :=
  m.filterMap fun e =>
    if e.1.2 = cur then
      let b := avail sp e.1 e.2
      if b = 0 then none else some (e.1.1, b)
    else none

/-- The loop that creates inputs, ECDSA_Wallet.h:303-324. -/
def takeNew (cur : Addr) (memo : Option Nat) :
    List (Addr × Nat) → Nat → AMap Key Nat → List TxIn × Nat × AMap Key Nat
  | [], left, sp => ([], left, sp)
  | e :: es, left, sp =>
    if left = 0 then ([], left, sp)
    else
      let amt := if left < e.2 then left else e.2
      let r := takeNew cur memo es (sub128 left amt) (addSpent sp (e.1, cur) amt)
      ({ address := e.1, contract := cur, amount := amt, memo := memo } :: r.1, r.2)

/-- `gather_inputs`, ECDSA_Wallet.h:243-328.  (After the early return of the first loop nothing is left,
and the rest changes nothing.) -/
def gather (E : Env) (w : W) (ins : List TxIn) (sp : AMap Key Nat) (amount : Nat) (cur : Addr) (memo : Option Nat) :
    Res (List TxIn × AMap Key Nat) :=
  let r := reuse w cur ins amount sp
  let t := takeNew cur memo (E.srt (addrList cur r.2.2 w.balance)) r.2.1 r.2.2
  if t.2.1 ≠ 0 then .throw else .ok (r.1 ++ t.1, t.2.2)

/-- `missing[currency] += amount`. -/
def addMissing (m : AMap Addr Nat) (c : Addr) (x : Nat) : AMap Addr Nat :=
  m.put addrLt c (u128 ((m.find c).getD 0 + x))

/-- ECDSA_Wallet.h:477-479. -/
def addDeposit (m : AMap Addr Nat) (o : Op) : AMap Addr Nat :=
  match o.kind with
  | .deposit _ _ c a => addMissing m c a
  | _ => m

/-- ECDSA_Wallet.h:472-491: what has to be funded. -/
def missing (tx : Tx) (deposit : List (Addr × Nat)) : AMap Addr Nat :=
  let m1 := tx.outputs.foldl (fun m o => addMissing m o.contract o.amount) []
  let m2 := tx.ops.foldl addDeposit m1
  let m3 := tx.inputs.foldl (fun m i =>
    let a := (m.find i.contract).getD 0
    m.put addrLt i.contract (if i.amount < a then sub128 a i.amount else 0)) m2
  deposit.foldl (fun m e => addMissing m e.1 e.2) m3

/-- ECDSA_Wallet.h:492-497: one `gather_inputs` per currency with something missing. -/
def fundAll (E : Env) (w : W) (memo : Option Nat) :
    AMap Addr Nat → List TxIn → AMap Key Nat → Res (List TxIn × AMap Key Nat)
  | [], ins, sp => .ok (ins, sp)
  | e :: es, ins, sp =>
    if e.2 = 0 then fundAll E w memo es ins sp
    else do
      let r ← gather E w ins sp e.2 e.1 memo
      fundAll E w memo es r.1 r.2

/-- ECDSA_Wallet.h:506-521: the first address with the largest native balance left. -/
def pickSender (sp : AMap Key Nat) : AMap Key Nat → Addr × Nat → Addr × Nat
  | [], best => best
  | e :: es, best =>
    if e.1.2 = 0 ∧ avail sp e.1 e.2 > best.2 then pickSender sp es (e.1.1, avail sp e.1 e.2)
    else pickSender sp es best

/-! ### signatures -/

/-- `sign_msg_ex`, ECDSA_Wallet.h:350-364: index of the signature of `owner`, made if there is none yet.
The index is cut to 16 bits. -/
def signEx (E : Env) (w : W) (msg : Nat) (owner : Addr) (st : List Sol × AMap Addr Nat) :
    Res (Nat × List Sol × AMap Addr Nat) :=
  match st.2.find owner with
  | some i => .ok (i % 65536, st)
  | none =>
    Res.bind (w.signMsg E owner msg) fun
      | none => .ok (noSolution, st)
      | some sol => .ok (st.1.length % 65536, st.1 ++ [sol], st.2.put addrLt owner st.1.length)

/-- The owner of an input, ECDSA_Wallet.h:378-385. -/
def inOwner (o : Opts) (i : TxIn) : Addr := (o.ownerMap.find i.address).getD i.address

/-- ECDSA_Wallet.h:372-387. -/
def signIns (E : Env) (w : W) (o : Opts) (msg : Nat) :
    List TxIn → List Sol × AMap Addr Nat → Res (List TxIn × List Sol × AMap Addr Nat)
  | [], st => .ok ([], st)
  | i :: is, st =>
    if i.solution ≠ noSolution then do
      let r ← signIns E w o msg is st
      pure (i :: r.1, r.2)
    else do
      let s ← signEx E w msg (inOwner o i) st
      let r ← signIns E w o msg is s.2
      pure ({ i with exec := i.exec || (o.ownerMap.find i.address).isSome, solution := s.1 } :: r.1, r.2)

/-- The owner of an operation, ECDSA_Wallet.h:395-408; none for a call without user. -/
def opOwner (o : Opts) (p : Op) : Option Addr :=
  match p.kind with
  | .plain => some ((o.ownerMap.find p.address).getD p.address)
  | .execute u _ => u
  | .deposit u _ _ _ => u

/-- ECDSA_Wallet.h:389-412. -/
def signOps (E : Env) (w : W) (o : Opts) (msg : Nat) :
    List Op → List Sol × AMap Addr Nat → Res (List Op × List Sol × AMap Addr Nat)
  | [], st => .ok ([], st)
  | p :: ps, st =>
    if p.solution ≠ noSolution then do
      let r ← signOps E w o msg ps st
      pure (p :: r.1, r.2)
    else
      match opOwner o p with
      | none => do
        let r ← signOps E w o msg ps st
        pure (p :: r.1, r.2)
      | some a => do
        let s ← signEx E w msg a st
        let r ← signOps E w o msg ps s.2
        pure ({ p with solution := s.1 } :: r.1, r.2)

/-- `Transaction::finalize()`, src/Transaction.cpp:48-54. -/
def Tx.finalize (E : Env) (tx : Tx) : Tx :=
  let t := { tx with nonce := if tx.nonce = 0 then E.rand else tx.nonce }
  { t with id := E.hash t.body }

/-- ECDSA_Wallet.h:342-346. -/
def prepare (E : Env) (o : Opts) (tx : Tx) : Tx :=
  Tx.finalize E { tx with nonce := o.nonce.getD tx.nonce, network := E.network }

/-- ECDSA_Wallet.h:366-370: the sender signs first, if there is no signature yet. -/
def signSender (E : Env) (w : W) (tx : Tx) : Res (List Sol × AMap Addr Nat) :=
  match tx.sender with
  | none => .ok (tx.solutions, [])
  | some s =>
    if tx.solutions = [] then do
      let r ← signEx E w tx.id s (tx.solutions, [])
      pure r.2
    else .ok (tx.solutions, [])

/-- ECDSA_Wallet.h:414-416: cost and content hash of the signed transaction. -/
def Tx.seal (E : Env) (t : Tx) : Res Tx := do
  let c ← E.costOf t
  let t2 := { t with staticCost := u32 c }
  pure { t2 with contentHash := E.fullHash t2.full }

/-- The `try` block of `sign_off`, ECDSA_Wallet.h:341-417, on an unlocked wallet. -/
def signBody (E : Env) (w : W) (o : Opts) (tx0 : Tx) : Res Tx := do
  let tx := prepare E o tx0
  let st ← signSender E w tx
  let ri ← signIns E w o tx.id tx.inputs st
  let ro ← signOps E w o tx.id tx.ops ri.2
  Tx.seal E { tx with inputs := ri.1, ops := ro.1, solutions := ro.2.1 }

/-- Whether an operation with a user points to solution `j`, src/Transaction.cpp:96-104. -/
def Op.usesSol (j : Nat) (o : Op) : Bool :=
  match o.kind with
  | .plain => false
  | .execute u _ => u.isSome && decide (o.solution = j)
  | .deposit u _ _ _ => u.isSome && decide (o.solution = j)

/-- The solution indices that `Transaction::is_valid` counts as used, src/Transaction.cpp:90-104. -/
def Tx.uses (tx : Tx) (j : Nat) : Bool :=
  (tx.sender.isSome && decide (j = 0)) ||
  tx.inputs.any (fun i => decide (i.solution = j)) ||
  tx.ops.any (Op.usesSol j)

/-- `Transaction::is_valid`, src/Transaction.cpp:56-119, without the sizes of the memos and the checks of
the single operations and solutions.  Solutions are compared by hash in the code and directly here. -/
def Tx.isValid (E : Env) (tx : Tx) : Bool :=
  (decide (tx.version = 0) ||
    (decide tx.solutions.Nodup && (List.range tx.solutions.length).all fun j => tx.uses j)) &&
  decide (tx.version ≤ 1) && decide (tx.nonce ≠ 0) && decide (tx.feeRatio ≥ 1024) &&
  decide (tx.network = E.network) && decide (tx.solutions.length ≤ 65535) &&
  decide (E.costOf tx = .ok tx.staticCost) && decide (tx.id = E.hash tx.body) &&
  decide (tx.contentHash = E.fullHash tx.full)

/-- Unlock if needed, run, and lock again on return and on throw: ECDSA_Wallet.h:332-341, 418-426 and
449-458, 531-539. -/
def W.guarded (E : Env) (w : W) (o : Opts) (f : W → W × Res Tx) : W × Res Tx :=
  if w.isLocked then
    match o.passphrase with
    | none => (w, .throw)
    | some p =>
      match w.unlock E p with
      | none => (w, .throw)
      | some u => let r := f u; (r.1.lock, r.2)
  else f w

/-- `sign_off`, ECDSA_Wallet.h:330-427. -/
def W.signOff (E : Env) (w : W) (o : Opts) (tx : Tx) : W × Res Tx :=
  w.guarded E o fun u => (u, signBody E u o tx)

/-- ECDSA_Wallet.h:459-470: version, note, expiry and fee ratio. -/
def setup (E : Env) (w : W) (o : Opts) (tx : Tx) : Tx :=
  { tx with
    version := E.version (u32 (w.height + 1))
    note := o.note.getD tx.note
    expires := min tx.expires (match o.expireAt, o.expireDelta with
      | some h, _ => h
      | none, some d => u32 (w.height + d)
      | none, none => u32 (w.height + w.defaultExpire))
    feeRatio := max tx.feeRatio o.feeRatio }

/-- ECDSA_Wallet.h:472-528: inputs, maximum fee (cut to 32 bits) and sender. -/
def fund (E : Env) (w : W) (o : Opts) (deposit : List (Addr × Nat)) (tx : Tx) : Res Tx := do
  let r ← fundAll E w o.memo (missing tx deposit) tx.inputs []
  let t := { tx with inputs := r.1 }
  let c ← E.costOf t
  let fee ← Chain.costToFee c t.feeRatio
  let mx ← Chain.costToFee (u64 (c + o.gasLimit)) t.feeRatio
  let t := { t with maxFee := u32 mx }
  match t.sender with
  | some _ => .ok t
  | none =>
    match o.sender with
    | some s => .ok { t with sender := some s }
    | none =>
      let b := pickSender r.2 w.balance (0, 0)
      if b.2 ≥ fee then .ok { t with sender := some b.1 } else .throw

/-- The `try` block of `complete`, ECDSA_Wallet.h:458-530. -/
def completeBody (E : Env) (o : Opts) (deposit : List (Addr × Nat)) (tx : Tx) (u : W) : W × Res Tx :=
  match fund E u o deposit (setup E u o tx) with
  | .ok t => u.signOff E o t
  | .throw => (u, .throw)
  | .ub => (u, .ub)

/-- `complete`, ECDSA_Wallet.h:444-540. -/
def W.complete (E : Env) (w : W) (o : Opts) (deposit : List (Addr × Nat)) (tx : Tx) : W × Res Tx :=
  w.guarded E o (completeBody E o deposit tx)

end Verif.Wallet
