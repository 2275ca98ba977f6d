import Verif.Contract.Swap
/-
  Common ground of the small contracts in src/contract/*.js: who calls, at which height, with which
  deposit; the coins the contract holds; `send` and `mint`; and histories of calls.

  * A call is made by `Node::execute` (src/Node_validate.cpp:389-455): the user is an address whose
    signature was checked, a calling contract (542), or nobody (416). A deposit is credited before the
    code runs (421-428). The flag `payable` is not looked at by the node: every public method can be
    called with a deposit, so every call here may carry one.
  * An aborted call has no effect (the transaction fails as a whole, see C25).
  * Numbers are the contract's 256-bit unsigned integers with checked `+ - *` (see C21, Contract/Swap.lean).
  * Simplified: `bech32(x)` and `uint(x)` of an argument are the identity on addresses and numbers, so
    the text forms of the arguments are not modelled; memos are left out (a memo can abort a call).
    `bech32()` without argument is the all-zero address, here `0`.
  * Coins arrive also by plain transfers, at any time: event `recv`.
-/
namespace Verif.Contract

/-- `bech32()`: the zero address, which is also the native currency. -/
def zeroAddr : Nat := 0

/-- What a method sees of its call: `this.user`, `this.height`, `this.deposit` (currency, amount).
    src/vm/Compiler.cpp:574-579; written by src/Node_validate.cpp:411-436, 574. -/
structure Env where
  user : Option Nat
  height : Nat
  dep : Option (Nat × Nat)
  deriving DecidableEq, Repr

/-- One payment out of the contract, with the caller and height of the call that made it. -/
structure Pay where
  to : Nat
  cur : Nat
  amount : Nat
  user : Option Nat
  height : Nat
  deriving DecidableEq, Repr

/-- One mint of the contract's own token. -/
structure Mint where
  to : Nat
  amount : Nat
  user : Option Nat
  height : Nat
  deriving DecidableEq, Repr

/-- A contract: storage, coins held, all payments and mints so far, all coins ever received. -/
structure W (S : Type) where
  st : S
  bal : Nat → Nat
  pays : List Pay
  mints : List Mint
  got : Nat → Nat

/-- Change one entry. -/
def upd (f : Nat → Nat) (k v : Nat) : Nat → Nat := fun x => if x = k then v else f x

/-- `Engine::send`, src/vm/Engine.cpp:1099-1123. -/
def send {S : Type} (e : Env) (to amount cur : Nat) (w : W S) : Res (W S) :=
  if amount = 0 then .ok w
  else if 2 ^ 128 ≤ amount then .throw
  else if w.bal cur < amount then .throw
  else .ok { w with bal := upd w.bal cur (w.bal cur - amount)
                    pays := w.pays ++ [⟨to, cur, amount, e.user, e.height⟩] }

/-- `send` to an address that may be null: `read_fail<binary_t>(address, TYPE_BINARY)`, Engine.cpp:1119. -/
def sendOpt {S : Type} (e : Env) (to : Option Nat) (amount cur : Nat) (w : W S) : Res (W S) :=
  match to with
  | some a => send e a amount cur w
  | none => if amount = 0 then .ok w else .throw

/-- `Engine::mint`, src/vm/Engine.cpp:1125-1140. -/
def mint {S : Type} (e : Env) (to : Option Nat) (amount : Nat) (w : W S) : Res (W S) :=
  if amount = 0 then .ok w
  else if 2 ^ 80 ≤ amount then .throw
  else match to with
    | none => .throw
    | some a => .ok { w with mints := w.mints ++ [⟨a, amount, e.user, e.height⟩] }

/-- Coins arriving. -/
def arrive {S : Type} (cur amount : Nat) (w : W S) : W S :=
  { w with bal := upd w.bal cur (w.bal cur + amount), got := upd w.got cur (w.got cur + amount) }

/-- The deposit of a call is credited before the code runs, Node_validate.cpp:421-428. -/
def arriveDep {S : Type} (e : Env) (w : W S) : W S :=
  match e.dep with
  | none => w
  | some (c, a) => arrive c a w

/-- An event in the life of a contract with methods `C`: coins arrive, or somebody calls. -/
inductive Ev (C : Type) where
  | recv (cur amount : Nat)
  | call (e : Env) (c : C)

/-- One event; an aborted call changes nothing. -/
def stepEv {S C : Type} (exec : Env → C → W S → Res (W S)) (w : W S) : Ev C → W S
  | .recv cur amount => arrive cur amount w
  | .call e c =>
    match exec e c (arriveDep e w) with
    | .ok w' => w'
    | _ => w

/-- A history. -/
def runEv {S C : Type} (exec : Env → C → W S → Res (W S)) (w : W S) (l : List (Ev C)) : W S :=
  l.foldl (stepEv exec) w

/-- A freshly deployed contract with storage `s`. -/
def fresh {S : Type} (s : S) : W S := ⟨s, fun _ => 0, [], [], fun _ => 0⟩

/-- The caller is `a`: `this.user == a`. A null user equals no address (vm/var_t.cpp:47-51). -/
def isUser (e : Env) (a : Nat) : Prop := e.user = some a
instance (e : Env) (a : Nat) : Decidable (isUser e a) := inferInstanceAs (Decidable (_ = _))

/-- Height of a call; coins arriving have none. -/
def Ev.height {C : Type} : Ev C → Option Nat
  | .recv _ _ => none
  | .call e _ => some e.height

/-- Calls happen at non-decreasing heights, the first at `h` or later. -/
def Timed {C : Type} : Nat → List (Ev C) → Prop
  | _, [] => True
  | h, .recv _ _ :: l => Timed h l
  | h, .call e _ :: l => h ≤ e.height ∧ Timed e.height l

/-- Total of one currency paid out. -/
def paid (l : List Pay) (cur : Nat) : Nat :=
  ((l.filter fun p => p.cur = cur).map (·.amount)).sum

/-- Total minted. -/
def minted (l : List Mint) : Nat := (l.map (·.amount)).sum

end Verif.Contract
