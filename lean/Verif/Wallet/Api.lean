import Verif.Wallet.CompleteLemmas2
/-
  Wallet calls that build a transaction and complete it: src/Wallet.cpp.

  The wallet index, the refresh of the balances at the start (`update_cache`, see `W.updateCache`), sending
  the result to the node and marking it as spent (see `Ev.submit`) are left out.  `memoOk` is the length
  check of `Transaction::add_output`; the method and arguments of an operation and the contract to deploy
  are numbers.
-/
namespace Verif.Wallet
open Verif

/-- `Wallet::send`, src/Wallet.cpp:104-135; `add_output`, src/Transaction.cpp:183-194. -/
def W.send (E : Env) (memoOk : Option Nat → Bool) (w : W) (amount : Nat) (dst currency : Addr) (o : Opts) : W × Res Tx :=
  if amount = 0 then (w, .throw)
  else if dst = 0 then (w, .throw)
  else if memoOk o.memo = false then (w, .throw)
  else w.complete E o [] { note := 1, outputs := [⟨dst, currency, amount, o.memo⟩] }

/-- The loop of `Wallet::send_many`, src/Wallet.cpp:147-155. -/
def manyOuts (memoOk : Option Nat → Bool) (currency : Addr) (memo : Option Nat) : List (Addr × Nat) → Res (List TxOut)
  | [] => .ok []
  | e :: l =>
    if e.1 = 0 then .throw
    else if e.2 = 0 then .throw
    else if memoOk memo = false then .throw
    else (manyOuts memoOk currency memo l).bind fun outs => .ok (⟨e.1, currency, e.2, memo⟩ :: outs)

/-- `Wallet::send_many`, src/Wallet.cpp:137-170. -/
def W.sendMany (E : Env) (memoOk : Option Nat → Bool) (w : W) (amounts : List (Addr × Nat)) (currency : Addr) (o : Opts) :
    W × Res Tx :=
  match manyOuts memoOk currency o.memo amounts with
  | .ok outs => w.complete E o [] { note := 1, outputs := outs }
  | .throw => (w, .throw)
  | .ub => (w, .ub)

/-- `owner_map.emplace(src, owner)`: an entry that is already there stays. -/
def emplaceOwner (m : AMap Addr Addr) (src owner : Addr) : AMap Addr Addr :=
  match m.find src with
  | some _ => m
  | none => m.put addrLt src owner

/-- `Wallet::send_from`, src/Wallet.cpp:172-214.  `contract` is the owner of the contract at the source
address: `none` if there is no contract, `some none` if it has no owner. -/
def W.sendFrom (E : Env) (memoOk : Option Nat → Bool) (contract : Option (Option Addr)) (w : W) (amount : Nat)
    (dst src currency : Addr) (o : Opts) : W × Res Tx :=
  match contract with
  | some none => (w, .throw)
  | c =>
    let o' : Opts := match c with
      | some (some owner) => { o with ownerMap := emplaceOwner o.ownerMap src owner }
      | _ => o
    if amount = 0 then (w, .throw)
    else if dst = 0 then (w, .throw)
    else if memoOk o.memo = false then (w, .throw)
    else w.complete E o' []
      { note := 2, inputs := [{ address := src, contract := currency, amount := amount }],
        outputs := [⟨dst, currency, amount, o.memo⟩] }

/-- `Wallet::execute`, src/Wallet.cpp:248-279, with the user already looked up. -/
def W.execute (E : Env) (w : W) (address : Addr) (call : Nat) (user : Option Addr) (o : Opts) : W × Res Tx :=
  w.complete E o [] { note := 3, ops := [{ address := address, kind := .execute user call }] }

/-- `Wallet::deposit`, src/Wallet.cpp:281-314. -/
def W.deposit (E : Env) (w : W) (address : Addr) (call amount : Nat) (currency : Addr) (user : Option Addr) (o : Opts) :
    W × Res Tx :=
  w.complete E o [] { note := 4, ops := [{ address := address, kind := .deposit user call currency amount }] }

/-- `Wallet::make_offer`, src/Wallet.cpp:316-363.  The offer contract is `offer price` with the inverse
price. -/
def W.makeOffer (E : Env) (offer : Nat → Nat) (w : W) (bid : Nat) (bidCurrency : Addr) (ask : Nat) (o : Opts) : W × Res Tx :=
  if bid = 0 ∨ ask = 0 then (w, .throw)
  else
    let price := ((bid <<< 64) % 2 ^ 256) / ask
    if price >>> 128 ≠ 0 then (w, .throw)
    else w.complete E o [(bidCurrency, bid)] { note := 5, deploy := some (offer price) }

end Verif.Wallet
