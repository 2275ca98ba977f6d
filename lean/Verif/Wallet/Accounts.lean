/-
  The accounts of a wallet: `Wallet::main`, `add_account`, `create_account`, `import_wallet`, `remove_account` and
  `set_address_count`, src/Wallet.cpp:42-91, 917-1032, 1044-1093.

  Key files are read and written whole.  Passphrases decide how the addresses of a wallet are found, not which wallet it
  is; they are left out, as are the files with addresses.  Whatever can throw on the way (setting permissions, reading or
  writing the settings) is a flag of the event.
-/
namespace Verif.Wallet.Acc

/-- `account_t`, interface/account_t.vni; `index`, the name and the fingerprint are one number here. -/
structure Acc where
  key : Nat
  num : Nat
  tag : Nat
  hidden : Bool
  deriving DecidableEq

structure Conf where
  /-- `max_key_files`, modules/Wallet.vni:14 -/
  maxKey : Nat
  /-- `max_addresses`, line 16 -/
  maxAddr : Nat
  /-- `key_files`, line 5 -/
  keyFiles : List Nat

structure Sys where
  /-- the key files on disk with the seed in them -/
  files : Nat → Option Nat
  /-- `accounts` -/
  accounts : List Acc
  /-- `wallets`, each with its `config` and the seed -/
  wallets : List (Option (Acc × Nat))
  /-- `num_addresses` -/
  num : Nat
  /-- the settings file: `accounts+` -/
  stored : List Acc
  /-- the settings file: `num_addresses` -/
  storedNum : Nat

/-- How a call ends. -/
inductive Out
  | ok (s : Sys)
  | fail (s : Sys)
  | ub

/-- `wallets.resize(n)` for a larger `n`. -/
def grow (l : List (Option (Acc × Nat))) (n : Nat) : List (Option (Acc × Nat)) := l ++ List.replicate (n - l.length) none

/-- Lines 919-923: `none` if there is an account already.  An index of 2^32 - 1 is left out: `index + 1` is 0 then. -/
def room (l : List (Option (Acc × Nat))) (i : Nat) : Option (List (Option (Acc × Nat))) :=
  if i ≥ l.length then some (grow l (i + 1)) else
  match l[i]? with
  | some (some _) => none
  | _ => some l

/-- `add_account`, lines 917-956; `perm` is whether line 955 succeeds. -/
def add (i : Nat) (cfg : Acc) (perm : Bool) (s : Sys) : Out :=
  match room s.wallets i with
  | none => .fail s
  | some w =>
    match s.files cfg.key with
    | none => .fail { s with wallets := w }
    | some seed =>
      if perm then .ok { s with wallets := w.set i (some (cfg, seed)) }
      else .fail { s with wallets := w.set i (some (cfg, seed)) }

/-- The state after a call that may have failed. -/
def Out.st (s : Sys) : Out → Sys
  | .ok s' => s'
  | .fail s' => s'
  | .ub => s

/-- The loop of lines 70-79; a failure is logged. -/
def bootKeys (num : Nat) : Nat → List Nat → Sys → Sys
  | _, [], s => s
  | i, k :: l, s => bootKeys num (i + 1) l ((add i ⟨k, num, 0, false⟩ true s).st s)

/-- The loop of lines 80-89. -/
def bootAccs (maxKey : Nat) : Nat → List Acc → Sys → Sys
  | _, [], s => s
  | i, a :: l, s => bootAccs maxKey (i + 1) l (if a.hidden then s else (add (maxKey + i) a true s).st s)

/-- A start of the program with the settings on disk, `main`.  (`wallet.dat` is one of the key files or not, lines 47-53.) -/
def boot (c : Conf) (s : Sys) : Sys :=
  bootAccs c.maxKey 0 s.stored
    (bootKeys s.storedNum 0 c.keyFiles { s with accounts := s.stored, num := s.storedNum, wallets := [] })

/-- `create_account`, lines 958-976; `write` is whether the settings can be written. -/
def create (c : Conf) (cfg : Acc) (perm write : Bool) (s : Sys) : Out :=
  if cfg.num < 1 ∨ cfg.num > c.maxAddr then .fail s else
  match add (max c.maxKey s.wallets.length) cfg perm s with
  | .ok s1 =>
    if write then .ok { s1 with accounts := s1.accounts ++ [cfg], stored := s1.accounts ++ [cfg] }
    else .fail { s1 with accounts := s1.accounts ++ [cfg] }
  | r => r

/-- A file with a seed. -/
def put (f : Nat → Option Nat) (k : Nat) (v : Option Nat) : Nat → Option Nat := fun x => if x = k then v else f x

/-- Lines 1005-1007. -/
def withNum (cfg : Acc) (n : Nat) : Acc := if cfg.num = 0 then { cfg with num := n } else cfg

/-- `import_wallet`, lines 992-1032, with the name of the file given, after the checks of the fingerprint. -/
def importW (c : Conf) (cfg : Acc) (seed : Nat) (perm write : Bool) (s : Sys) : Out :=
  let old := s.files cfg.key
  if old.isSome ∧ old ≠ some seed then .fail s else
  match create c (withNum cfg s.num) perm write { s with files := put s.files cfg.key (some seed) } with
  | .fail s2 => .fail (if old.isNone then { s2 with files := put s2.files cfg.key none } else s2)
  | r => r

/-- `get_wallet`, lines 93-102. -/
def view (s : Sys) (i : Nat) : Option (Acc × Nat) := s.wallets[i]?.join

/-- `remove_account`, lines 1044-1064. -/
def remove (c : Conf) (i : Nat) (write : Bool) (s : Sys) : Out :=
  if i < c.maxKey then .fail s else
  if (view s i).isNone then .fail s else
  match s.accounts[i - c.maxKey]? with
  | none => .fail s
  | some a =>
    let l := s.accounts.set (i - c.maxKey) { a with hidden := true }
    if write then .ok { s with accounts := l, stored := l, wallets := s.wallets.set i none }
    else .fail { s with accounts := l }

/-- `set_address_count`, lines 1066-1093.  The restart that is asked for in line 1089 comes at once here. -/
def setCount (c : Conf) (i n : Nat) (perm write : Bool) (s : Sys) : Out :=
  if n < 1 ∨ n > c.maxAddr then .fail s else
  if i ≥ c.maxKey then
    match s.accounts[i - c.maxKey]? with
    | none => .fail s
    | some a =>
      let a' := { a with num := n }
      let l := s.accounts.set (i - c.maxKey) a'
      if i ≥ s.wallets.length then .ub else
      match add i a' perm { s with accounts := l, wallets := s.wallets.set i none } with
      | .ok s1 => if write then .ok { s1 with stored := l } else .fail s1
      | r => r
  else if write then .ok (boot c { s with storedNum := n })
  else .fail { s with num := n, wallets := [] }

inductive Ev
  | create (cfg : Acc) (perm write : Bool)
  | importW (cfg : Acc) (seed : Nat) (perm write : Bool)
  | remove (i : Nat) (write : Bool)
  | setCount (i n : Nat) (perm write : Bool)
  | restart

def step (c : Conf) (s : Sys) : Ev → Out
  | .create cfg p w => create c cfg p w s
  | .importW cfg x p w => importW c cfg x p w s
  | .remove i w => remove c i w s
  | .setCount i n p w => setCount c i n p w s
  | .restart => .ok (boot c s)

/-- Some calls one after another; failures are reported and the program goes on. -/
def run (c : Conf) : Sys → List Ev → Out
  | s, [] => .ok s
  | s, e :: l =>
    match step c s e with
    | .ok s' => run c s' l
    | .fail s' => run c s' l
    | .ub => .ub

end Verif.Wallet.Acc
