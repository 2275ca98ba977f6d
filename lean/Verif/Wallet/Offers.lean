/-
  What the wallet asks of an offer: `Wallet::offer_trade`, `accept_offer`, `cancel_offer` and `offer_withdraw` (src/Wallet.cpp:365-415).

  The offer is looked at by `Node::get_offer` (C183) when the user asks; the call is executed later, at some height, and other things may
  have happened to the offer in between. Left out: how the transaction is funded (C72), signed and sent; that the address goes to the
  contract as a string (C76), and the price as a hexadecimal number.
-/
import Verif.Contract.Shown

namespace Verif.Wallet.Offers

open Verif.Contract

/-- A call as the contract sees it once it is executed. -/
abbrev Req := Env × OfferCall

/-- `Wallet::deposit`, src/Wallet.cpp:281-314. `user` is that of the options. -/
def deposit (user : Option Nat) (height : Nat) (call : OfferCall) (amount currency : Nat) : Req :=
  (⟨user, height, some (currency, amount)⟩, call)

/-- `Wallet::execute` without an index of a user, src/Wallet.cpp:248-279. -/
def execute (user : Option Nat) (height : Nat) (call : OfferCall) : Req := (⟨user, height, none⟩, call)

/-- `Wallet::offer_trade`, src/Wallet.cpp:365-379. `dst` is the address of the wallet that was chosen. -/
def offerTrade (seen : W Offer) (user : Option Nat) (height amount dst price : Nat) : Res Req := do
  let d ← getOffer seen
  .ok (deposit user height (.trade dst price) amount d.ask)

/-- `Wallet::accept_offer`, src/Wallet.cpp:381-395. -/
def acceptOffer (seen : W Offer) (user : Option Nat) (height dst price : Nat) : Res Req := do
  let d ← getOffer seen
  .ok (deposit user height (.accept dst price) d.askAmount d.ask)

/-- `Wallet::cancel_offer`, src/Wallet.cpp:397-405. -/
def cancelOffer (seen : W Offer) (height : Nat) : Res Req := do
  let d ← getOffer seen
  .ok (execute (some d.owner) height .cancel)

/-- `Wallet::offer_withdraw`, src/Wallet.cpp:407-415. -/
def offerWithdraw (seen : W Offer) (height : Nat) : Res Req := do
  let d ← getOffer seen
  .ok (execute (some d.owner) height .withdraw)

/-- The call is executed (Node_validate.cpp:421-436); the deposit is credited first. -/
def run (r : Req) (w : W Offer) : Res (W Offer) := offerExec r.1 r.2 (arriveDep r.1 w)

end Verif.Wallet.Offers
