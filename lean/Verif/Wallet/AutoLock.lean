/-
  Automatic locking of wallets with a passphrase: `unlock`, `lock`, `send_off`, `add_account`, `remove_account` of src/Wallet.cpp
  and the locks of include/mmx/ECDSA_Wallet.h.
-/
namespace Verif.Wallet.AutoLock

/-- An `ECDSA_Wallet` object, by a number; `pass` is `config.with_passphrase`. -/
structure Obj where
  no : Nat
  pass : Bool
  deriving DecidableEq, Repr

/-- `wallets`, `lock_timers` (Wallet.h:196) with the time at which each is due and the object that its function holds, and which
    objects have their keys in memory.  A timer that is stopped or has fired is not there.  Time is in milliseconds.  `next` is
    the number of the next object. -/
structure St where
  now : Nat
  slot : Nat → Option Obj
  keys : Nat → Nat → Bool
  timer : Nat → Option (Nat × Nat)
  next : Nat

def init : St := ⟨0, fun _ => none, fun _ _ => false, fun _ => none, 0⟩

def upd {α : Type} (f : Nat → α) (i : Nat) (x : α) : Nat → α := fun j => if j = i then x else f j

/-- `ok` tells whether the passphrase is the right one; `given` whether there is one. -/
inductive Op where
  | add (i : Nat) (pass given : Bool)
  | unlock (i : Nat) (ok : Bool)
  | lock (i : Nat)
  | send (i : Nat)
  | sign (i : Nat) (ok : Bool)
  | remove (i : Nat)
  | elapse (d : Nat)
  | fire (i : Nat)

/-- `ECDSA_Wallet::lock` and `unlock`, ECDSA_Wallet.h:59-116: keys in memory or not. -/
def setKeys (s : St) (i no : Nat) (b : Bool) : St := { s with keys := upd s.keys i (upd (s.keys i) no b) }

/-- `Wallet::unlock`, Wallet.cpp:891-906: an earlier timer is stopped.  `T` is `lock_timeout_sec` in milliseconds. -/
def unlockObj (T : Nat) (s : St) (i : Nat) (o : Obj) : St :=
  if o.pass = true ∧ T > 0 then { setKeys s i o.no true with timer := upd s.timer i (some (s.now + T, o.no)) }
  else setKeys s i o.no true

/-- A new object in `wallets`, without keys, Wallet.cpp:934-943. -/
def newObj (s : St) (i : Nat) (pass : Bool) : St :=
  { setKeys s i s.next false with slot := upd s.slot i (some ⟨s.next, pass⟩), next := s.next + 1 }

/-- `Wallet::add_account`, Wallet.cpp:917-956: with a passphrase given it is unlocked and locked again, to have the addresses.
    Failures to read files are left out. -/
def add (T : Nat) (s : St) (i : Nat) (pass given : Bool) : St :=
  match s.slot i with
  | some _ => s
  | none =>
    if pass = true ∧ given = false then newObj s i pass
    else if given = true then setKeys (unlockObj T (newObj s i pass) i ⟨s.next, pass⟩) i s.next false
    else unlockObj T (newObj s i pass) i ⟨s.next, pass⟩

/-- `Wallet::send_off`, Wallet.cpp:583-590: the time starts again. -/
def resetTimer (T : Nat) (s : St) (i : Nat) : St :=
  match s.timer i with
  | none => s
  | some (_, no) => { s with timer := upd s.timer i (some (s.now + T, no)) }

/-- `ECDSA_Wallet::sign_off` and `complete`, ECDSA_Wallet.h:332-340 and 418-426: unlocked for the time of the call. -/
def sign (s : St) (i : Nat) (ok : Bool) (o : Obj) : St :=
  if s.keys i o.no = true ∨ ok = false then s else setKeys (setKeys s i o.no true) i o.no false

/-- The function of a timer, Wallet.cpp:902-905, which runs some time after it is due. -/
def fire (s : St) (i : Nat) : St :=
  match s.timer i with
  | none => s
  | some (t, no) => if t ≤ s.now then { setKeys s i no false with timer := upd s.timer i none } else s

def step (T : Nat) (s : St) : Op → St
  | .add i pass given => add T s i pass given
  | .unlock i ok => match s.slot i with
    | none => s
    | some o => if ok then unlockObj T s i o else s
  | .lock i => match s.slot i with
    | none => s
    | some o => setKeys s i o.no false
  | .send i => resetTimer T s i
  | .sign i ok => match s.slot i with
    | none => s
    | some o => sign s i ok o
  | .remove i => { s with slot := upd s.slot i none }
  | .elapse d => { s with now := s.now + d }
  | .fire i => fire s i

def run (T : Nat) (s : St) : List Op → St
  | [] => s
  | o :: os => run T (step T s o) os

/-- `is_locked`, ECDSA_Wallet.h:118-121, of a wallet that is there: no keys in memory. -/
def isLocked (s : St) (i : Nat) : Option Bool := (s.slot i).map fun o => !s.keys i o.no

end Verif.Wallet.AutoLock
