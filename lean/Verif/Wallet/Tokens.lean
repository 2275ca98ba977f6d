/-
  The list of tokens a wallet knows: src/Wallet.cpp:58, 1095-1146.

  The settings are read by a framework that is not in the repository: at start the list `token_whitelist` that comes with the network (e.g.
  config/mainnet-rc/Wallet.json) is taken to be extended by `token_whitelist+` of the local settings (config/local_init/Wallet.json). That
  addresses survive being written as text is C76. A failure to read or write the settings is a flag.
-/
import Verif.Base

namespace Verif.Wallet.Tokens

/-- The native coin, `addr_t()`. -/
abbrev mmx : Nat := 0

/-- The list of the network, the list of the user in the settings file, and the list in memory. -/
structure St where
  given : List Nat
  file : List Nat
  mem : List Nat
  deriving DecidableEq, Repr

/-- `std::set::insert`; the order is left out. -/
def put (a : Nat) (l : List Nat) : List Nat := if a ∈ l then l else a :: l

/-- `std::set::erase`. -/
def del (a : Nat) (l : List Nat) : List Nat := l.filter (fun b => decide (b ≠ a))

/-- Reading the settings, and `Wallet::main`, line 58. -/
def start (given file : List Nat) : St := ⟨given, file, put mmx (given ++ file)⟩

/-- What can happen: the calls, with whether the settings could be written and whether the program ended before memory was changed, and a restart. -/
inductive Ev where
  | add (a : Nat) (writes dies : Bool)
  | rem (a : Nat) (writes dies : Bool)
  | restart
  deriving DecidableEq, Repr

/-- The program ended: what is in memory is gone, and read again. -/
def reload (s : St) : St := start s.given s.file

/-- `Wallet::add_token`, lines 1109-1124. -/
def addToken (s : St) (a : Nat) (writes dies : Bool) : Res St :=
  if writes = false then .throw
  else
    let s := { s with file := put a s.file }
    if dies then .ok (reload s) else .ok { s with mem := put a s.mem }

/-- `Wallet::rem_token`, lines 1126-1146. -/
def remToken (s : St) (a : Nat) (writes dies : Bool) : Res St :=
  if a ∈ s.file then
    if writes = false then .throw
    else
      let s := { s with file := del a s.file }
      if dies then .ok (reload s)
      else if a ≠ mmx then .ok { s with mem := del a s.mem } else .ok s
  else .throw

def exec (s : St) : Ev → Res St
  | .add a w d => addToken s a w d
  | .rem a w d => remToken s a w d
  | .restart => .ok (reload s)

/-- A call that throws leaves everything as it was. -/
def step (s : St) (e : Ev) : St :=
  match exec s e with
  | .ok s' => s'
  | _ => s

def run (s : St) (l : List Ev) : St := l.foldl step s

/-- The insertions of `Wallet::get_token_list`, lines 1100-1105, for what the chain has at each address. -/
def collect (isToken : Nat → Bool) : List Nat → List Nat → List Nat
  | [], out => out
  | a :: l, out => collect isToken l (if isToken a then put a out else out)

/-- `Wallet::get_token_list`, lines 1095-1107. -/
def tokenList (isToken : Nat → Bool) (s : St) : List Nat := collect isToken s.mem [mmx]

end Verif.Wallet.Tokens
