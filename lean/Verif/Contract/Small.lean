import Verif.Contract.Kit
/-
  The small contracts of src/contract/*.js, method by method. See Contract/Kit.lean for the conventions.
-/
namespace Verif.Contract

open Res

/-- An argument that the contract uses without converting it: a number, null, or any other value.
    Ordered comparison, addition and `send` abort unless it is a number
    (src/vm/Engine.cpp:1602-1605, 1101, `read_fail<uint_t>`). -/
inductive Arg where
  | num (n : Nat)
  | null
  | other
  deriving DecidableEq, Repr

def Arg.uint : Arg → Res Nat
  | .num n => .ok n
  | _ => .throw

/-- `if(!currency) currency = bech32(); else currency = bech32(currency)`. An argument left out is null. -/
def curOr (c : Option Nat) : Nat := c.getD zeroAddr

/-! ### src/contract/time_lock.js -/

structure TimeLock where
  owner : Nat
  unlock : Nat
  deriving DecidableEq, Repr

inductive TimeLockCall where
  | deposit
  | withdraw (address : Nat) (amount : Arg) (currency : Nat)
  | setUnlockHeight (height : Arg)
  deriving DecidableEq, Repr

/-- time_lock.js:16-19. -/
def TimeLock.isLocked (s : TimeLock) (e : Env) : Prop := e.height < s.unlock
instance (s : TimeLock) (e : Env) : Decidable (s.isLocked e) := inferInstanceAs (Decidable (_ < _))

/-- time_lock.js:21-39. -/
def timeLockExec (e : Env) (c : TimeLockCall) (w : W TimeLock) : Res (W TimeLock) :=
  match c with
  | .deposit => .ok w
  | .withdraw address amount currency => do
    chk (isUser e w.st.owner)
    chk (¬ w.st.isLocked e)
    let amount ← amount.uint
    send e address amount currency w
  | .setUnlockHeight height => do
    chk (isUser e w.st.owner)
    let height ← height.uint
    chk (w.st.unlock ≤ height)
    .ok { w with st := { w.st with unlock := height } }

/-- time_lock.js:5-9. -/
def timeLockInit (owner unlock : Nat) : W TimeLock := fresh ⟨owner, unlock⟩

/-! ### src/contract/escrow.js, transfer.js, relay.js -/

structure Escrow where
  source : Nat
  target : Nat
  agent : Nat
  deriving DecidableEq, Repr

inductive EscrowCall where
  | deposit
  | unlock (currency : Option Nat)
  | cancel (currency : Option Nat)
  deriving DecidableEq, Repr

/-- escrow.js:13-37. -/
def escrowExec (e : Env) (c : EscrowCall) (w : W Escrow) : Res (W Escrow) :=
  match c with
  | .deposit => .ok w
  | .unlock currency => do
    chk (isUser e w.st.agent)
    send e w.st.target (w.bal (curOr currency)) (curOr currency) w
  | .cancel currency => do
    chk (isUser e w.st.agent)
    send e w.st.source (w.bal (curOr currency)) (curOr currency) w

/-- escrow.js:6-11: `init(source_, agent_, target_)`. -/
def escrowInit (source agent target : Nat) : W Escrow := fresh ⟨source, target, agent⟩

structure Transfer where
  source : Nat
  target : Nat
  deriving DecidableEq, Repr

inductive TransferCall where
  | receive (currency : Nat)
  | cancel (currency : Nat)
  deriving DecidableEq, Repr

/-- transfer.js:11-27. -/
def transferExec (e : Env) (c : TransferCall) (w : W Transfer) : Res (W Transfer) :=
  match c with
  | .receive currency => do
    chk (isUser e w.st.target)
    send e w.st.target (w.bal currency) currency w
  | .cancel currency => do
    chk (isUser e w.st.source)
    send e w.st.source (w.bal currency) currency w

/-- transfer.js:5-9. -/
def transferInit (source target : Nat) : W Transfer := fresh ⟨source, target⟩

structure Relay where
  owner : Nat
  pending : Option Nat
  deriving DecidableEq, Repr

inductive RelayCall where
  | claimAll (currency : Option Nat)
  | transfer (newOwner : Nat)
  | complete
  deriving DecidableEq, Repr

/-- relay.js:10-37. -/
def relayExec (e : Env) (c : RelayCall) (w : W Relay) : Res (W Relay) :=
  match c with
  | .claimAll currency => do
    chk (isUser e w.st.owner)
    send e w.st.owner (w.bal (curOr currency)) (curOr currency) w
  | .transfer n => do
    chk (isUser e w.st.owner)
    .ok { w with st := { w.st with pending := some n } }
  | .complete =>
    match w.st.pending with
    | none => .throw
    | some t => do
      chk (isUser e t)
      .ok { w with st := ⟨t, none⟩ }

/-- relay.js:5-8. -/
def relayInit (owner : Nat) : W Relay := fresh ⟨owner, none⟩

/-! ### src/contract/virtual_plot.js -/

inductive VirtualPlotCall where
  | deposit
  | withdraw (amount currency : Nat)
  deriving DecidableEq, Repr

/-- virtual_plot.js:21-25. -/
def vplotReturn (amount currency : Nat) : Res Nat :=
  if currency = zeroAddr then do
    let n ← cmul amount 90
    cdiv n 100
  else .ok amount

/-- virtual_plot.js:11-28. The storage is the owner. -/
def virtualPlotExec (e : Env) (c : VirtualPlotCall) (w : W Nat) : Res (W Nat) :=
  match c with
  | .deposit => .ok w
  | .withdraw amount currency => do
    chk (isUser e w.st)
    let ret ← vplotReturn amount currency
    let w ← send e w.st ret currency w
    let burn ← csub amount ret
    send e zeroAddr burn currency w

/-- virtual_plot.js:6-9. -/
def virtualPlotInit (owner : Nat) : W Nat := fresh owner

/-! ### src/contract/offer.js -/

structure Offer where
  owner : Nat
  partner : Option Nat
  bid : Nat
  ask : Nat
  inv : Nat
  last : Nat
  deriving DecidableEq, Repr

inductive OfferCall where
  | deposit
  | cancel
  | withdraw
  | recover (amount currency : Nat)
  | setPrice (new : Nat)
  | trade (dst price : Nat)
  | accept (dst price : Nat)
  deriving DecidableEq, Repr

/-- offer.js:33-38 (and nft_offer.js:33-38). -/
def checkPartner (e : Env) (partner : Option Nat) : Res Unit :=
  match partner with
  | none => .ok ()
  | some p => chk (isUser e p)

/-- `this.deposit.currency == ask`, then `this.deposit.amount`; aborts without a deposit. -/
def depositIn (e : Env) (currency : Nat) : Res Nat :=
  match e.dep with
  | none => .throw
  | some (c, a) => if c = currency then .ok a else .throw

/-- offer.js:66-80: price and time of the last change after `set_price(new)`. -/
def nextPrice (e : Env) (cur last new : Nat) : Res (Nat × Nat) := do
  let d ← csub e.height last
  chk (1080 ≤ d)
  chk (0 < new)
  .ok (if new ≠ cur then (new, e.height) else (cur, last))

/-- offer.js:90, 105: `(this.deposit.amount * inv_price) >> FRACT_BITS`. -/
def bidFor (amount inv : Nat) : Res Nat := do
  let n ← cmul amount inv
  .ok (n / 2 ^ 64)

/-- offer.js:108: `((bid_amount << FRACT_BITS) + inv_price - 1) / inv_price`; the shift drops high bits. -/
def askFor (bid inv : Nat) : Res Nat := do
  let n ← cadd (u256 (bid * 2 ^ 64)) inv
  let n ← csub n 1
  cdiv n inv

/-- offer.js:82-94. -/
def offerTrade (e : Env) (dst price : Nat) (w : W Offer) : Res (W Offer) := do
  checkPartner e w.st.partner
  chk (price = w.st.inv)
  let amount ← depositIn e w.st.ask
  let bid ← bidFor amount w.st.inv
  chk (0 < bid)
  send e dst bid w.st.bid w

/-- offer.js:96-114. -/
def offerAccept (e : Env) (dst price : Nat) (w : W Offer) : Res (W Offer) := do
  checkPartner e w.st.partner
  chk (price = w.st.inv)
  let amount ← depositIn e w.st.ask
  let b ← bidFor amount w.st.inv
  let bid := min b (w.bal w.st.bid)
  chk (0 < bid)
  let ask ← askFor bid w.st.inv
  let ret ← csub amount ask
  let w ← send e dst bid w.st.bid w
  send e dst ret w.st.ask w

/-- offer.js:40-114. -/
def offerExec (e : Env) (c : OfferCall) (w : W Offer) : Res (W Offer) :=
  match c with
  | .deposit => do
    chk (isUser e w.st.owner)
    .ok w
  | .cancel => do
    chk (isUser e w.st.owner)
    send e w.st.owner (w.bal w.st.bid) w.st.bid w
  | .withdraw => do
    chk (isUser e w.st.owner)
    send e w.st.owner (w.bal w.st.ask) w.st.ask w
  | .recover amount currency => do
    chk (isUser e w.st.owner)
    send e w.st.owner amount currency w
  | .setPrice new => do
    chk (isUser e w.st.owner)
    let p ← nextPrice e w.st.inv w.st.last new
    .ok { w with st := { w.st with inv := p.1, last := p.2 } }
  | .trade dst price => offerTrade e dst price w
  | .accept dst price => offerAccept e dst price w

/-- offer.js:12-26. -/
def offerInit (e : Env) (owner bid ask inv : Nat) (partner : Option Nat) : Res (W Offer) := do
  chk (0 < inv)
  chk (bid ≠ ask)
  .ok (fresh ⟨owner, partner, bid, ask, inv, e.height⟩)

/-! ### src/contract/nft_offer.js -/

structure NftOffer where
  owner : Nat
  partner : Option Nat
  nft : Nat
  ask : Nat
  price : Nat
  last : Nat
  deriving DecidableEq, Repr

inductive NftOfferCall where
  | deposit
  | cancel
  | recover (amount currency : Nat)
  | setPrice (new : Nat)
  | accept (dst price : Nat)
  deriving DecidableEq, Repr

/-- nft_offer.js:75-87. -/
def nftAccept (e : Env) (dst price : Nat) (w : W NftOffer) : Res (W NftOffer) := do
  checkPartner e w.st.partner
  chk (price = w.st.price)
  chk (1 ≤ w.bal w.st.nft)
  let amount ← depositIn e w.st.ask
  chk (amount = w.st.price)
  let w ← send e w.st.owner w.st.price w.st.ask w
  send e dst 1 w.st.nft w

/-- nft_offer.js:40-87. -/
def nftOfferExec (e : Env) (c : NftOfferCall) (w : W NftOffer) : Res (W NftOffer) :=
  match c with
  | .deposit => do
    chk (isUser e w.st.owner)
    .ok w
  | .cancel => do
    chk (isUser e w.st.owner)
    send e w.st.owner (w.bal w.st.nft) w.st.nft w
  | .recover amount currency => do
    chk (isUser e w.st.owner)
    send e w.st.owner amount currency w
  | .setPrice new => do
    chk (isUser e w.st.owner)
    let p ← nextPrice e w.st.price w.st.last new
    .ok { w with st := { w.st with price := p.1, last := p.2 } }
  | .accept dst price => nftAccept e dst price w

/-- nft_offer.js:12-26. -/
def nftOfferInit (e : Env) (owner nft ask price : Nat) (partner : Option Nat) : Res (W NftOffer) := do
  chk (0 < price)
  chk (nft ≠ ask)
  .ok (fresh ⟨owner, partner, nft, ask, price, e.height⟩)

/-! ### src/contract/plot_nft.js -/

structure PlotNft where
  owner : Nat
  target : Option Nat
  unlock : Option Nat
  url : Arg
  deriving DecidableEq, Repr

inductive PlotNftCall where
  | lock (target : Nat) (url : Arg)
  | unlock
  | claimAll (currency : Option Nat)
  | transfer (owner : Nat)
  | setServerUrl (url : Arg)
  deriving DecidableEq, Repr

/-- plot_nft.js:19-26. -/
def PlotNft.isLocked (s : PlotNft) (height : Nat) : Bool :=
  match s.unlock with
  | none => true
  | some u => decide (height < u)

/-- plot_nft.js:28-37; `none` is a call that aborts (`string_bech32(null)`). -/
def PlotNft.rewardTarget (s : PlotNft) (height : Nat) (farmer : Option Nat) : Option Nat :=
  if s.isLocked height then s.target
  else match farmer with
    | some f => some f
    | none => some s.owner

/-- plot_nft.js:61-65: the only address `claim_all` serves. -/
def PlotNft.claimer (s : PlotNft) (height : Nat) : Option Nat :=
  if s.isLocked height then s.target else some s.owner

/-- plot_nft.js:39-86. A null `target` equals only a null user (61-62), and then `send` to the null user
    aborts unless there is nothing to send. -/
def plotNftExec (e : Env) (c : PlotNftCall) (w : W PlotNft) : Res (W PlotNft) :=
  match c with
  | .lock target url => do
    chk (isUser e w.st.owner)
    chk (w.st.isLocked e.height = false)
    .ok { w with st := { w.st with target := some target, url := url, unlock := none } }
  | .unlock => do
    chk (isUser e w.st.owner)
    match w.st.unlock with
    | some _ => .ok w
    | none => do
      let u ← cadd e.height 256
      .ok { w with st := { w.st with unlock := some u } }
  | .claimAll currency => do
    chk (e.user = w.st.claimer e.height)
    sendOpt e e.user (w.bal (curOr currency)) (curOr currency) w
  | .transfer owner => do
    chk (isUser e w.st.owner)
    .ok { w with st := { w.st with owner := owner } }
  | .setServerUrl url => do
    chk (isUser e w.st.owner)
    .ok { w with st := { w.st with url := url } }

/-- plot_nft.js:4-12. -/
def plotNftInit (owner : Nat) : W PlotNft := fresh ⟨owner, none, some 0, .null⟩

/-! ### src/contract/smart_wallet.js -/

structure Plan where
  amount : Arg
  currency : Nat
  target : Nat
  interval : Arg
  next : Arg
  active : Bool
  deriving DecidableEq, Repr

structure SmartWallet where
  owner : Nat
  plans : List (Nat × Plan)
  deriving DecidableEq, Repr

inductive SmartWalletCall where
  | transfer (address amount currency : Nat)
  | addPlan (name : Nat) (amount : Arg) (currency target : Nat) (interval start : Arg)
  | cancelPlan (name : Nat)
  | planPayment (name : Nat)
  deriving DecidableEq, Repr

def findPlan : List (Nat × Plan) → Nat → Option Plan
  | [], _ => none
  | (n, p) :: l, k => if n = k then some p else findPlan l k

def setPlan : List (Nat × Plan) → Nat → Plan → List (Nat × Plan)
  | [], k, p => [(k, p)]
  | (n, q) :: l, k, p => if n = k then (n, p) :: l else (n, q) :: setPlan l k p

/-- smart_wallet.js:26-29. -/
def canAdd (w : W SmartWallet) (name : Nat) : Bool :=
  match findPlan w.st.plans name with
  | none => true
  | some p => !p.active

/-- smart_wallet.js:33-35. -/
def startOr (e : Env) (start : Arg) : Arg := if start = .null then .num e.height else start

/-- smart_wallet.js:61-68, the plan given. -/
def payPlan (e : Env) (name : Nat) (p : Plan) (w : W SmartWallet) : Res (W SmartWallet) := do
  chk (p.active = true)
  let next ← p.next.uint
  chk (next ≤ e.height)
  let interval ← p.interval.uint
  let n ← cadd next interval
  let amount ← p.amount.uint
  send e p.target amount p.currency
    { w with st := { w.st with plans := setPlan w.st.plans name { p with next := .num n } } }

/-- smart_wallet.js:15-69. -/
def smartWalletExec (e : Env) (c : SmartWalletCall) (w : W SmartWallet) : Res (W SmartWallet) :=
  match c with
  | .transfer address amount currency => do
    chk (isUser e w.st.owner)
    send e address amount currency w
  | .addPlan name amount currency target interval start => do
    chk (isUser e w.st.owner)
    chk (canAdd w name = true)
    let p : Plan := ⟨amount, currency, target, interval, startOr e start, true⟩
    .ok { w with st := { w.st with plans := setPlan w.st.plans name p } }
  | .cancelPlan name => do
    chk (isUser e w.st.owner)
    match findPlan w.st.plans name with
    | none => .throw
    | some p => .ok { w with st := { w.st with plans := setPlan w.st.plans name { p with active := false } } }
  | .planPayment name =>
    match findPlan w.st.plans name with
    | none => .throw
    | some p => payPlan e name p w

/-- smart_wallet.js:5-8. -/
def smartWalletInit (owner : Nat) : W SmartWallet := fresh ⟨owner, []⟩

/-! ### src/contract/token.js, nft.js -/

inductive TokenCall where
  | mintTo (address amount : Nat)
  | transfer (owner : Nat)
  | recover (amount currency : Nat)
  deriving DecidableEq, Repr

/-- token.js:14-38. The storage is the owner. -/
def tokenExec (e : Env) (c : TokenCall) (w : W Nat) : Res (W Nat) :=
  match c with
  | .mintTo address amount => do
    chk (isUser e w.st)
    mint e (some address) amount w
  | .transfer owner => do
    chk (isUser e w.st)
    .ok { w with st := owner }
  | .recover amount currency => do
    chk (isUser e w.st)
    send e w.st amount currency w

/-- token.js:4-7. -/
def tokenInit (owner : Nat) : W Nat := fresh owner

structure Nft where
  creator : Nat
  mintHeight : Option Nat
  deriving DecidableEq, Repr

inductive NftCall where
  | mintTo (address : Nat)
  deriving DecidableEq, Repr

/-- nft.js:27-41. -/
def nftExec (e : Env) (c : NftCall) (w : W Nft) : Res (W Nft) :=
  match c with
  | .mintTo address => do
    chk (isUser e w.st.creator)
    chk (w.st.mintHeight = none)
    mint e (some address) 1 { w with st := { w.st with mintHeight := some e.height } }

/-- nft.js:8-13. -/
def nftInit (creator : Nat) : W Nft := fresh ⟨creator, none⟩

/-! ### src/contract/template.js -/

/-- The template: creator and which contract took which serial. -/
structure Template where
  creator : Nat
  nfts : List (Nat × Nat)
  deriving DecidableEq, Repr

inductive TemplateCall where
  | add (serial : Arg) (key sig : Nat)
  deriving DecidableEq, Repr

def findNft : List (Nat × Nat) → Nat → Option Nat
  | [], _ => none
  | (n, a) :: l, k => if n = k then some a else findNft l k

/-- template.js:10-25. `sha` hashes a key; `verify key serial sig` is `ecdsa_verify` of the message made of
    this template's address and the serial number. -/
def templateExec (sha : Nat → Nat) (verify : Nat → Nat → Nat → Bool)
    (e : Env) (c : TemplateCall) (w : W Template) : Res (W Template) :=
  match c with
  | .add serial key sig => do
    match e.user with
    | none => .throw
    | some u => do
      let n ← serial.uint
      chk (0 < n)
      chk (findNft w.st.nfts n = none)
      chk (sha key = w.st.creator)
      chk (verify key n sig = true)
      .ok { w with st := { w.st with nfts := w.st.nfts ++ [(n, u)] } }

/-- template.js:5-8. -/
def templateInit (creator : Nat) : W Template := fresh ⟨creator, []⟩

/-! ### src/contract/fixed_price_token.js, fixed_price_liquid_token.js -/

structure FixedToken where
  owner : Nat
  price : Nat
  currency : Nat
  deriving DecidableEq, Repr

inductive FixedTokenCall where
  | buy
  | withdraw (amount : Option Nat)
  | recover (amount currency : Nat)
  | transfer (owner : Nat)
  deriving DecidableEq, Repr

/-- `if(!amount) amount = dflt`: null and zero are both replaced. -/
def amountOr (a : Option Nat) (dflt : Nat) : Nat :=
  match a with
  | none => dflt
  | some n => if n = 0 then dflt else n

/-- fixed_price_token.js:20-51. -/
def fixedTokenExec (e : Env) (c : FixedTokenCall) (w : W FixedToken) : Res (W FixedToken) :=
  match c with
  | .buy => do
    let amount ← depositIn e w.st.currency
    let n ← cmul amount w.st.price
    mint e e.user (n / 2 ^ 64) w
  | .withdraw amount => do
    chk (isUser e w.st.owner)
    send e w.st.owner (amountOr amount (w.bal w.st.currency)) w.st.currency w
  | .recover amount currency => do
    chk (isUser e w.st.owner)
    send e w.st.owner amount currency w
  | .transfer owner => do
    chk (isUser e w.st.owner)
    .ok { w with st := { w.st with owner := owner } }

/-- fixed_price_token.js:8-13. -/
def fixedTokenInit (owner price currency : Nat) : W FixedToken := fresh ⟨owner, price, currency⟩

structure Liquid where
  self : Nat
  owner : Nat
  price : Nat
  ratio : Nat
  currency : Nat
  ownerBal : Nat
  deriving DecidableEq, Repr

inductive LiquidCall where
  | buy
  | sell
  | withdraw (amount : Option Nat)
  | recover (amount currency : Nat)
  | transfer (owner : Nat)
  deriving DecidableEq, Repr

/-- fixed_price_liquid_token.js:40-42; the shift drops high bits. -/
def liquidAsk (amount price ratio : Nat) : Res Nat := do
  let a ← cdiv (u256 (amount * 2 ^ 64)) price
  let r ← csub 1000 ratio
  let n ← cmul a r
  cdiv n 1000

/-- fixed_price_liquid_token.js:27-76. -/
def liquidExec (e : Env) (c : LiquidCall) (w : W Liquid) : Res (W Liquid) :=
  match c with
  | .buy => do
    let amount ← depositIn e w.st.currency
    let n ← cmul amount w.st.ratio
    let share ← cdiv n 1000
    let ob ← cadd w.st.ownerBal share
    let m ← cmul amount w.st.price
    mint e e.user (m / 2 ^ 64) { w with st := { w.st with ownerBal := ob } }
  | .sell => do
    let amount ← depositIn e w.st.self
    let ask ← liquidAsk amount w.st.price w.st.ratio
    let w ← sendOpt e e.user ask w.st.currency w
    send e zeroAddr amount w.st.self w
  | .withdraw amount => do
    chk (isUser e w.st.owner)
    let a := amountOr amount w.st.ownerBal
    chk (a ≤ w.st.ownerBal)
    send e w.st.owner a w.st.currency { w with st := { w.st with ownerBal := w.st.ownerBal - a } }
  | .recover amount currency => do
    chk (isUser e w.st.owner)
    send e w.st.owner amount currency w
  | .transfer owner => do
    chk (isUser e w.st.owner)
    .ok { w with st := { w.st with owner := owner } }

/-- fixed_price_liquid_token.js:11-20. -/
def liquidInit (self owner price currency ratio : Nat) : Res (W Liquid) := do
  chk (0 < price)
  chk (ratio < 1000)
  .ok (fresh ⟨self, owner, price, ratio, currency, 0⟩)

end Verif.Contract
