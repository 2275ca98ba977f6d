/-!
# The signature check and its cache

`signature_t::verify`, src/signature_t.cpp:54-75. Many threads of a node call it at the same time.
It has two sections under a lock, with the slow check between them.

The library secp256k1 is not in the repository. What it answers is a parameter (`Lib`).
-/

namespace Verif.Sig

abbrev Bytes := List Nat

/-- `std::tuple<hash_t, pubkey_t, signature_t>`, signature_t.cpp:20 and 58. -/
structure Entry where
  hash : Bytes
  key : Bytes
  sig : Bytes
  deriving DecidableEq, Repr

/-- The entry of a cache that was never written. A global array of tuples is value-initialised
    (signature_t.cpp:20), and each part is `bytes = {}` (bytes_t.hpp:27): 32, 33 and 64 zeros. -/
def zeroEntry : Entry := ⟨List.replicate 32 0, List.replicate 33 0, List.replicate 64 0⟩

/-- What secp256k1 answers, and the slot of a signature. -/
structure Lib where
  /-- `secp256k1_ecdsa_signature_parse_compact`, signature_t.cpp:28-35. -/
  parseSig : Bytes → Bool
  /-- `secp256k1_ec_pubkey_parse`, pubkey_t.cpp:34-41. -/
  parseKey : Bytes → Bool
  /-- `secp256k1_ecdsa_verify`. -/
  check : Entry → Bool
  /-- `Hash64(crc64(), hash_salt) % 16384`, signature_t.cpp:56 and 60. The salt is random and differs
      from one process to the next (line 18). -/
  slot : Bytes → Nat

/-- What a caller sees: a boolean or an exception. -/
inductive Out
  | yes
  | no
  | throw
  deriving DecidableEq, Repr

/-- The check without the cache, signature_t.cpp:67-69: the signature is parsed first, then the key. -/
def fresh (L : Lib) (e : Entry) : Out :=
  if L.parseSig e.sig then
    if L.parseKey e.key then
      if L.check e then .yes else .no
    else .throw
  else .throw

/-- Where a thread stands in `verify`. -/
inductive Phase
  /-- Not in `verify`. -/
  | idle
  /-- The entry was not in the cache (after line 66). -/
  | missed (e : Entry)
  /-- The library said yes (before line 71). -/
  | checked (e : Entry)
  deriving DecidableEq, Repr

/-- One answer that was given. -/
structure Answer where
  thread : Nat
  entry : Entry
  out : Out
  deriving DecidableEq, Repr

structure State where
  cache : Nat → Entry
  phase : Nat → Phase
  /-- The answers so far, the newest first. -/
  log : List Answer

/-- What happens in a node: a thread calls, or gets to its next stop. -/
inductive Event
  | call (t : Nat) (e : Entry)
  | check (t : Nat)
  | store (t : Nat)
  deriving DecidableEq, Repr

/-- A node that was just started. -/
def start : State := { cache := fun _ => zeroEntry, phase := fun _ => .idle, log := [] }

def setPhase (s : State) (t : Nat) (p : Phase) : State :=
  { s with phase := fun u => if u = t then p else s.phase u }

/-- A thread returns with `o`. -/
def answer (s : State) (t : Nat) (e : Entry) (o : Out) : State :=
  { setPhase s t .idle with log := ⟨t, e, o⟩ :: s.log }

/-- Lines 56-66. -/
def callStep (L : Lib) (s : State) (t : Nat) (e : Entry) : State :=
  if s.cache (L.slot e.sig) = e then answer s t e .yes else setPhase s t (.missed e)

/-- Lines 67-70, without the lock. -/
def checkStep (L : Lib) (s : State) (t : Nat) (e : Entry) : State :=
  match fresh L e with
  | .yes => setPhase s t (.checked e)
  | .no => answer s t e .no
  | .throw => answer s t e .throw

/-- Lines 71-74. -/
def storeStep (L : Lib) (s : State) (t : Nat) (e : Entry) : State :=
  answer { s with cache := fun i => if i = L.slot e.sig then e else s.cache i } t e .yes

/-- One event. Events that do not fit the place where the thread stands do nothing. -/
def step (L : Lib) (s : State) : Event → State
  | .call t e => match s.phase t with
    | .idle => callStep L s t e
    | _ => s
  | .check t => match s.phase t with
    | .missed e => checkStep L s t e
    | _ => s
  | .store t => match s.phase t with
    | .checked e => storeStep L s t e
    | _ => s

/-- A history of a node. -/
def run (L : Lib) (s : State) (evs : List Event) : State := evs.foldl (step L) s

/-- What a call that is not disturbed answers with this cache. -/
def ask (L : Lib) (cache : Nat → Entry) (e : Entry) : Out :=
  if cache (L.slot e.sig) = e then .yes else fresh L e

/-- What the machine for contracts gets, Engine.cpp:818-821: the sizes are checked when the parts are
    made (bytes_t.hpp:80-87, hash_t.hpp:93-99), then `verify` is called. -/
def machineVerify (L : Lib) (cache : Nat → Entry) (msg key sig : Bytes) : Option Bool :=
  if msg.length = 32 ∧ key.length = 33 ∧ sig.length = 64 then
    match ask L cache ⟨msg, key, sig⟩ with
    | .yes => some true
    | .no => some false
    | .throw => none
  else none

end Verif.Sig
