/-
  What a node tells about offers and plot NFTs: src/Node_api.cpp:941-1048, 1127-1140.

  The contracts are those of Contract/Small.lean. Reading the storage of a contract is C178, its balance is C182. Addresses of contracts, heights
  and time stamps of their deployment, and prices as floating point numbers are left out.
-/
import Verif.Contract.Small
import Verif.Codec.Fixed

namespace Verif.Contract

open Verif.Codec (getAskAmount getBidAmount)

/-- `offer_data_t`, as far as it is about the contract. -/
structure OfferData where
  owner : Nat
  partner : Option Nat
  bid : Nat
  ask : Nat
  bidBalance : Nat
  askBalance : Nat
  askAmount : Nat
  inv : Nat
  lastUpdate : Nat
  deriving DecidableEq, Repr

/-- `uint128(const uint256_t&)`, include/mmx/uint128.hpp:35-40. -/
def toU128 (n : Nat) : Res Nat := if n / 2 ^ 128 ≠ 0 then .throw else .ok n

/-- `Node::get_offer`, src/Node_api.cpp:992-1022; `last_update` has 32 bits. -/
def getOffer (w : W Offer) : Res OfferData := do
  let inv ← toU128 w.st.inv
  let ask ← getAskAmount (w.bal w.st.bid) inv
  .ok ⟨w.st.owner, w.st.partner, w.st.bid, w.st.ask, w.bal w.st.bid, w.bal w.st.ask, ask, inv, w.st.last % 2 ^ 32⟩

/-- `Node::get_offer_state`, src/Node_api.cpp:1024-1033. -/
def getOfferState (w : W Offer) : Nat := if w.bal w.st.bid ≠ 0 then 1 else if w.bal w.st.ask ≠ 0 then 2 else 0

/-- `offer_data_t::is_scam`, src/offer_data_t.cpp:41-44. -/
def OfferData.isScam (d : OfferData) : Bool := decide (d.bid = d.ask) && decide (d.inv < 2 ^ 64)

/-- The condition at src/Node_api.cpp:1039-1040. -/
def looksAt (state closed : Bool) (w : W Offer) : Bool :=
  !state || decide (getOfferState w = 1) || (closed && decide (getOfferState w = 2))

/-- `Node::fetch_offers`, src/Node_api.cpp:1035-1048. -/
def fetchOffers (state closed : Bool) : List (W Offer) → Res (List OfferData)
  | [] => .ok []
  | w :: l =>
    if looksAt state closed w then do
      let d ← getOffer w
      let r ← fetchOffers state closed l
      .ok (if d.partner.isNone && !d.isScam then d :: r else r)
    else fetchOffers state closed l

/-- Amounts of an entry of the trade history, asked and bid: src/Node.cpp:1265-1272 and `Node::make_trade_entry`, src/Node_api.cpp:1127-1140;
    the price is the second argument of the call. Simplified: an argument that is no number of 128 bits is not modelled. -/
def tradeEntry (deposit price : Nat) : Res (Nat × Nat) := do
  let bid ← getBidAmount deposit price
  .ok (deposit, bid)

/-- `plot_nft_info_t`, as far as it is about the state of the contract. -/
structure PlotInfo where
  owner : Nat
  isLocked : Bool
  unlockHeight : Option Nat
  target : Option Nat
  deriving DecidableEq, Repr

/-- `to_addr(data["target"])`, var_t.cpp:447-455: the zero address for nothing. -/
def toAddr (a : Option Nat) : Nat := a.getD zeroAddr

/-- `info.target`, src/Node_api.cpp:958-960. -/
def plotTarget (s : PlotNft) (locked : Bool) : Option Nat := if locked then some (toAddr s.target) else none

/-- `Node::get_plot_nft_info`, src/Node_api.cpp:941-969; name, address and server URL are left out. `unlock_at` has 32 bits. -/
def getPlotNftInfo (s : PlotNft) (height : Nat) : PlotInfo :=
  match s.unlock with
  | some u => ⟨s.owner, decide (height < u % 2 ^ 32), some (u % 2 ^ 32), plotTarget s (decide (height < u % 2 ^ 32))⟩
  | none => ⟨s.owner, true, none, plotTarget s true⟩

end Verif.Contract
