import Verif.Contract.HorseRace
import Verif.Contract.Std
/-
  src/contract/poker.js.  See Contract/Kit.lean for the conventions and Contract/Std.lean for the library it imports.
  Simplified:
  * A player object is shared by `player_list`, `winning_players` and local variables; here the list of players holds
    the objects and `winners` their positions.
  * `deadline`, `final_pot` are 0 for null (both are only tested for being truthy, and 0 is not);
    `winning_players` is the empty list for null (it is never an empty array).
  * Counters (`round`, `sequence`, `num_actions`, `num_reveals`) do not overflow 2^256.
  * `commit` and `private_commit` of `join`, `next_commit` of `reveal` are the bytes that `binary_hex` gives.  A seed keeps
    its type: a call can pass a string or a binary (src/vm_interface.cpp:211-217).
  * SHA-256 is a parameter.
-/
namespace Verif.Contract.Poker

open Res
open Verif.Codec (Bytes)
open Verif.Contract.Std (sort reverse gtNat cmp)

/-! ### Hands, poker.js:423-524 -/

/-- A card: the number of the rank (0 for "2" up to 12 for "A", `RANK_MAP`) and of the suit ("H", "D", "C", "S"). -/
structure Card where
  num : Nat
  suit : Nat
  deriving DecidableEq, Repr

/-- What `get_rank` returns. -/
structure Rank where
  cat : Nat
  vals : List Nat
  deriving DecidableEq, Repr

/-- The values passed as a hand: an array of cards, or what `get_rank` returned. -/
inductive Hand where
  | cards (l : List Card)
  | rank (r : Rank)
  deriving DecidableEq, Repr

/-- `size(hand)`. -/
def Hand.size : Hand → Nat
  | .cards l => l.length
  | .rank _ => 2

/-- The loop poker.js:435-441 (without the counts of suits). -/
def values : List Card → Res (List Nat)
  | [] => .ok []
  | c :: l => do
    chk (c.num < 13)
    chk (c.suit < 4)
    let t ← values l
    .ok (c.num :: t)

/-- poker.js:444-453: drop repetitions that follow each other. -/
def uniq : Option Nat → List Nat → List Nat
  | _, [] => []
  | prev, v :: l => if some v ≠ prev then v :: uniq (some v) l else uniq prev l

/-- poker.js:455-458. -/
def isStraight : List Nat → Bool
  | [a, _, _, _, e] => a - e == 4
  | _ => false

/-- poker.js:461-466. -/
def isFlush (l : List Card) : Bool := [0, 1, 2, 3].any fun s => (l.filter fun c => c.suit = s).length == 5

/-- poker.js:468-483: how many values occur `n` times. -/
def howMany (vals uniq : List Nat) (n : Nat) : Nat := (uniq.filter fun v => vals.count v = n).length

/-- poker.js:485-495. -/
def category (l : List Card) (vals u : List Nat) : Nat :=
  if isFlush l ∧ isStraight u then 10
  else if isFlush l ∧ u = [12, 3, 2, 1, 0] then 9
  else if howMany vals u 4 ≠ 0 then 8
  else if howMany vals u 3 ≠ 0 ∧ howMany vals u 2 ≠ 0 then 7
  else if isFlush l then 6
  else if isStraight u then 5
  else if u = [12, 3, 2, 1, 0] then 4
  else if howMany vals u 3 ≠ 0 then 3
  else if howMany vals u 2 = 2 then 2
  else if howMany vals u 2 = 1 then 1
  else 0

/-- `get_rank`, poker.js:423-496. -/
def getRank (h : Hand) : Res Rank := do
  chk (h.size = 5)
  match h with
  | .rank _ => .throw
  | .cards l => do
    let v ← values l
    let t ← sort gtNat v
    let d ← reverse t
    .ok ⟨category l d (uniq none d), d⟩

def nums (l : List Nat) : Std.V := .arr (l.map fun n => .leaf (.uint n))

/-- `check_win`, poker.js:503-513. -/
def checkWin (hand other : Hand) : Res Ordering := do
  let L ← getRank hand
  let R ← getRank other
  let res ← cmp (.leaf (.uint L.cat)) (.leaf (.uint R.cat))
  if res = .eq then cmp (nums L.vals) (nums R.vals) else .ok res

/-- `uint(memcpy(source, 8, offset))`: eight bytes, most significant first. -/
def word (source : Bytes) (offset : Nat) : Res Nat := do
  chk (offset + 8 ≤ source.length)
  .ok (((source.drop offset).take 8).foldl (fun n b => 256 * n + b) 0)

/-- `get_card`, poker.js:518-524. -/
def getCard (n : Nat) : Card := ⟨n % 13, (n / 13) % 4⟩

def cardAt (source : Bytes) (offset : Nat) : Res Card := do
  let n ← word source offset
  .ok (getCard n)

/-! ### The game -/

/-- A string or binary. -/
inductive Blob where
  | str (b : Bytes)
  | bin (b : Bytes)
  deriving DecidableEq, Repr

def Blob.bytes : Blob → Bytes
  | .str b => b
  | .bin b => b

/-- poker.js:77-85; `fold`, `claim` and `private_seed` are absent at first. -/
structure Player where
  addr : Nat
  step : Nat
  bet : Nat
  seeds : List Blob
  commit : Bytes
  priv : Bytes
  shown : Option Blob
  fold : Bool
  claim : Bool
  deriving DecidableEq, Repr

/-- poker.js:22-44. -/
structure Poker where
  currency : Nat
  blindBet : Nat
  betLimit : Nat
  maxPlayers : Nat
  interval : Nat
  numReveals : Nat
  numActions : Nat
  deadline : Nat
  round : Nat
  state : Nat
  sequence : Nat
  betAmount : Nat
  isRaise : Bool
  index : Nat → Option Nat
  players : List Player
  board : Option (List Card)
  finalPot : Nat
  globalSeed : Bytes
  winHand : Option Rank
  winners : List Nat

/-- `is_timeout`, poker.js:281-287. -/
def isTimeout (s : Poker) (h : Nat) : Bool := s.deadline ≠ 0 ∧ s.deadline ≤ h

/-- `extend_deadline`, poker.js:289-292. -/
def extend (h factor : Nat) (s : Poker) : Res Poker := do
  let m ← cmul factor s.interval
  let d ← cadd h m
  .ok { s with deadline := d }

/-- `is_active`, poker.js:306-316. -/
def isActive (s : Poker) (h : Nat) (p : Player) : Bool :=
  if p.fold then false
  else decide ((if s.state = 1 ∧ isTimeout s h then s.round + 1 else s.round) ≤ p.seeds.length)

/-- `get_num_active`, poker.js:329-338. -/
def numActive (s : Poker) (h : Nat) : Nat := (s.players.filter (isActive s h)).length

/-- `get_player`, poker.js:294-304: the position and the player. -/
def getPlayer (s : Poker) (h : Nat) (user : Option Nat) (activeOnly : Bool) : Res (Nat × Player) :=
  match user with
  | none => .throw
  | some u =>
    match s.index u with
    | none => .throw
    | some i =>
      match s.players[i]? with
      | none => .throw
      | some p => if activeOnly ∧ ¬ isActive s h p then .throw else .ok (i, p)

def setPlayer (s : Poker) (i : Nat) (p : Player) : Poker := { s with players := s.players.set i p }

/-- `check_start`, poker.js:96-107. -/
def checkStart (h : Nat) (s : Poker) : Res Poker :=
  if s.state = 0 ∧ 1 < s.players.length ∧ (s.maxPlayers ≤ s.players.length ∨ isTimeout s h) then
    extend h 1 { s with state := 1 }
  else .ok s

/-- `check_reveal`, poker.js:340-350. -/
def checkReveal (h : Nat) (s : Poker) : Res Poker :=
  if s.state = 1 ∧ (s.numReveals = numActive s h ∨ isTimeout s h) then
    extend h 1 { s with round := s.round + 1, state := 2, numReveals := 0 }
  else .ok s

/-- The loop poker.js:533-538 for one `i`: `concat` aborts if the types differ (src/vm/Engine.cpp:734-736), and the list
    starts with strings. -/
def seedCat (i : Nat) : List Player → Res Bytes
  | [] => .ok []
  | p :: l =>
    match p.seeds[i]? with
    | none => seedCat i l
    | some (.str b) => do
      let r ← seedCat i l
      .ok (b ++ r)
    | some (.bin _) => .throw

variable (sha : Bytes → Bytes)

/-- `compute`, poker.js:526-557. -/
def compute (s : Poker) : Res Poker :=
  if s.board.isSome then .ok s
  else do
    chk (s.state = 3)
    let s0 ← seedCat 0 s.players
    let s1 ← seedCat 1 s.players
    let s2 ← seedCat 2 s.players
    let s3 ← seedCat 3 s.players
    let h0 := sha s0
    let h1 := sha (h0 ++ sha s1)
    let h2 := sha (h1 ++ sha s2)
    let h3 := sha (h2 ++ sha s3)
    let a ← cardAt h1 0
    let b ← cardAt h1 8
    let c ← cardAt h1 16
    let d ← cardAt h2 0
    let e ← cardAt h3 0
    .ok { s with globalSeed := h0, board := some [a, b, c, d, e] }

/-- An active player who has bet less than the highest bet, poker.js:358-359. -/
def behind (s : Poker) (h : Nat) (p : Player) : Bool := isActive s h p && decide (p.bet < s.betAmount)

/-- poker.js:357-367: without a raise those behind are out. -/
def settle (s : Poker) (h : Nat) : Poker :=
  if s.isRaise then s
  else { s with players := s.players.map fun p => if behind s h p then { p with fold := true } else p }

/-- poker.js:356-367: `done`. -/
def roundDone (s : Poker) (h : Nat) : Bool := !(s.isRaise && s.players.any (behind s h))

/-- poker.js:368-376. -/
def nextStage (s : Poker) : Res Poker :=
  if s.round < 4 then .ok { s with betAmount := 0, state := 1 }
  else compute sha { s with betAmount := 0, state := 3 }

/-- poker.js:357-377. -/
def settled (h : Nat) (s : Poker) : Res Poker :=
  if roundDone s h then nextStage sha (settle s h) else .ok (settle s h)

/-- `check_action`, poker.js:352-383. -/
def checkAction (h : Nat) (s : Poker) : Res Poker :=
  if s.state = 2 ∧ (s.numActions = numActive s h ∨ isTimeout s h) then do
    let t ← settled sha h s
    extend h 1 { t with isRaise := false, sequence := t.sequence + 1, numActions := 0 }
  else .ok s

/-- `check_finish`, poker.js:385-397; `pot`: the balance of the contract. -/
def checkFinish (h pot : Nat) (s : Poker) : Poker :=
  if s.state = 0 ∨ s.finalPot ≠ 0 then s
  else if (s.state = 3 ∨ numActive s h = 0) ∧ (s.numReveals = numActive s h ∨ isTimeout s h) then
    { s with finalPot := pot, state := 4 }
  else s

inductive Call where
  | join (name : Option Nat) (commit priv : Bytes)
  | reveal (seed : Blob) (next : Bytes)
  | bet
  | check (autoFold : Bool)
  | fold
  | show (hand : List Nat) (seed : Blob)
  | claim
  | leave
  | compute
  deriving DecidableEq, Repr

/-- The last position of a list of positions whose player has the address: the loops poker.js:250-254, 261-265. -/
def lastOf (s : Poker) (user : Option Nat) : List Nat → Option Nat
  | [] => none
  | i :: l =>
    match lastOf s user l with
    | some j => some j
    | none => if (s.players[i]?.map fun p => p.addr) = user ∧ user.isSome then some i else none

/-- `get_active`, poker.js:318-327: positions. -/
def activeIdx (s : Poker) (h : Nat) : List Nat :=
  (List.range s.players.length).filter fun i => (s.players[i]?.map (isActive s h)) = some true

/-- Who claims and how much, poker.js:246-274. -/
def claimant (s : Poker) (h : Nat) (user : Option Nat) : Res (Nat × Nat) :=
  if s.winners ≠ [] then
    match lastOf s user s.winners with
    | some i => .ok (i, s.finalPot / s.winners.length)
    | none => .throw
  else if 0 < numActive s h then
    match lastOf s user (activeIdx s h) with
    | some i => .ok (i, s.finalPot / numActive s h)
    | none => .throw
  else do
    let (i, p) ← getPlayer s h user false
    .ok (i, p.bet)

/-- The beginning of `bet`, `check` and `fold`, poker.js:137-140. -/
def turn (e : Env) (s : Poker) : Res Poker := do
  let s ← checkReveal e.height s
  chk (s.state = 2)
  chk (¬ isTimeout s e.height)
  .ok s

/-- `player.step = sequence; num_actions++; check_action()`, poker.js:153-156. -/
def acted (e : Env) (s : Poker) (i : Nat) (p : Player) : Res Poker :=
  checkAction sha e.height { setPlayer s i { p with step := s.sequence } with numActions := s.numActions + 1 }

/-- poker.js:149-152: a raise. -/
def raise (b : Nat) (s : Poker) : Poker :=
  if s.betAmount < b then { s with isRaise := true, betAmount := b } else s

/-- `bet` after `this.deposit`, poker.js:143-152. -/
def doBet (e : Env) (amount : Nat) (s : Poker) : Res Poker := do
  let (i, p) ← getPlayer s e.height e.user true
  chk (p.step < s.sequence)
  let b ← cadd p.bet amount
  chk (b ≤ s.betLimit)
  acted sha e (raise b s) i { p with bet := b }

/-- `check` and `fold` after the first lines, poker.js:166-175, 185-192; `out`: whether the player is out. -/
def doAct (e : Env) (out : Poker → Bool) (s : Poker) : Res Poker := do
  let (i, p) ← getPlayer s e.height e.user true
  chk (p.step < s.sequence)
  acted sha e s i (if out s then { p with fold := true } else p)

/-- The cards with these numbers, poker.js:217-221. -/
def pick (all : List Card) : List Nat → Res (List Card)
  | [] => .ok []
  | i :: l => do
    chk (i < 7)
    match all[i]? with
    | none => .throw
    | some c => do
      let t ← pick all l
      .ok (c :: t)

/-- poker.js:224-235. -/
def place (s : Poker) (i : Nat) (rank : Rank) : Res Poker :=
  match s.winHand with
  | some w => do
    let res ← checkWin (.rank rank) (.rank w)
    if res = .gt then .ok { s with winHand := some rank, winners := [i] }
    else if res = .eq then .ok { s with winners := s.winners ++ [i] }
    else .ok s
  | none => .ok { s with winHand := some rank, winners := [i] }

/-- The binary content; `concat(global_seed, private_seed)` aborts for a string. -/
def binOf : Blob → Res Bytes
  | .bin b => .ok b
  | .str _ => .throw

/-- The cards on the table; without them indexing `null` aborts. -/
def boardOf (s : Poker) : Res (List Card) :=
  match s.board with
  | some l => .ok l
  | none => .throw

/-- `show` after `check_action`, poker.js:199-236. -/
def doShow (e : Env) (hand : List Nat) (seed : Blob) (s : Poker) : Res Poker := do
  chk (s.state = 3)
  chk (¬ isTimeout s e.height)
  chk (hand.length = 5)
  chk (seed.bytes.length = 32)
  let (i, p) ← getPlayer s e.height e.user true
  chk (p.shown = none)
  chk (sha seed.bytes = p.priv)
  let b ← binOf seed
  let source := sha (s.globalSeed ++ b)
  let c0 ← cardAt source 0
  let c1 ← cardAt source 8
  let board ← boardOf s
  let cards ← pick (board ++ [c0, c1]) hand
  let rank ← getRank (.cards cards)
  let s ← place (setPlayer s i { p with shown := some seed }) i rank
  .ok { s with numReveals := s.numReveals + 1 }

/-- `reveal` after `check_start` and `check_action`, poker.js:114-132. -/
def doReveal (e : Env) (seed : Blob) (next : Bytes) (s : Poker) : Res Poker := do
  chk (s.state = 1)
  chk (¬ isTimeout s e.height)
  chk (seed.bytes.length = 32)
  let (i, p) ← getPlayer s e.height e.user true
  chk (p.seeds.length = s.round)
  chk (sha seed.bytes = p.commit)
  chk (4 ≤ s.round ∨ next.length = 32)
  let s := setPlayer s i { p with commit := if s.round < 4 then next else [], seeds := p.seeds ++ [seed] }
  checkReveal e.height { s with numReveals := s.numReveals + 1 }

/-- poker.js:87-89: the second player sets the time to start. -/
def joinTime (h : Nat) (s : Poker) : Res Poker :=
  if s.players.length = 1 then extend h 3 s else .ok s

/-- `join`, poker.js:57-94. -/
def doJoin (e : Env) (name : Option Nat) (commit priv : Bytes) (s : Poker) : Res Poker := do
  chk (s.state = 0)
  chk (¬ isTimeout s e.height)
  chk (s.players.length < s.maxPlayers)
  let u ← theUser e
  let amount ← depositIn e s.currency
  chk (amount = s.blindBet)
  chk (commit.length = 32)
  chk (priv.length = 32)
  match name with
  | none => .throw
  | some n => do
    chk (1 < n ∧ n ≤ 24)
    chk (s.index u = none ∨ s.index u = some 0)
    let n := s.players.length
    let s ← joinTime e.height s
    checkStart e.height { s with
      index := fun x => if x = u then some n else s.index x
      players := s.players ++ [⟨u, 0, s.blindBet, [], commit, priv, none, false, false⟩] }

/-- `claim`, poker.js:239-279. -/
def doClaim (e : Env) (w : W Poker) : Res (W Poker) := do
  let s ← checkStart e.height w.st
  let s := checkFinish e.height (w.bal s.currency) s
  chk (s.state = 4)
  let (i, amount) ← claimant s e.height e.user
  match s.players[i]? with
  | none => .throw
  | some p => do
    chk (p.claim = false)
    let u ← theUser e
    send e u amount s.currency { w with st := setPlayer s i { p with claim := true } }

/-- `leave`, poker.js:401-413. -/
def doLeave (e : Env) (w : W Poker) : Res (W Poker) := do
  chk (w.st.state = 0)
  chk (isTimeout w.st e.height)
  chk (w.st.players.length = 1)
  let (_, p) ← getPlayer w.st e.height e.user false
  let u ← theUser e
  send e u p.bet w.st.currency { w with st := { w.st with index := fun _ => none, players := [] } }

/-- A method that only changes the storage. -/
def keep (w : W Poker) (r : Res Poker) : Res (W Poker) := do
  let s ← r
  .ok { w with st := s }

/-- The public methods of poker.js that can change something. -/
def exec (e : Env) (c : Call) (w : W Poker) : Res (W Poker) :=
  match c with
  | .join name commit priv => keep w (doJoin e name commit priv w.st)
  | .reveal seed next => keep w (do
      let s ← checkStart e.height w.st
      let s ← checkAction sha e.height s
      doReveal sha e seed next s)
  | .bet => keep w (do
      let s ← turn e w.st
      let amount ← depositIn e s.currency
      doBet sha e amount s)
  | .check autoFold => keep w (do
      let s ← turn e w.st
      doAct sha e (fun s => s.isRaise && autoFold) s)
  | .fold => keep w (do
      let s ← turn e w.st
      doAct sha e (fun _ => true) s)
  | .show hand seed => keep w (do
      let s ← checkAction sha e.height w.st
      doShow sha e hand seed s)
  | .claim => doClaim e w
  | .leave => doLeave e w
  | .compute => keep w (compute sha w.st)

/-- `init`, poker.js:46-55. -/
def init (currency blindBet limit maxPlayers interval : Nat) : Res (W Poker) := do
  let l ← cmul limit blindBet
  chk (2 ≤ maxPlayers)
  chk (6 ≤ interval)
  .ok (fresh
    { currency, blindBet, betLimit := l, maxPlayers, interval, numReveals := 0, numActions := 0, deadline := 0, round := 0,
      state := 0, sequence := 1, betAmount := 0, isRaise := false, index := fun _ => none, players := [], board := none,
      finalPot := 0, globalSeed := [], winHand := none, winners := [] })

end Verif.Contract.Poker
