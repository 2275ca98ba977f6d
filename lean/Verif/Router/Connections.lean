/-!
# The router's lists of connections

`src/Router.cpp:773-910, 1000-1011, 264-269, 1440-1532, 1629-1699`: which addresses are dialled, what is noted when a connection
comes up and when it ends, and which addresses are banned.

Host names and addresses are both strings in the code; here they are numbers. What a name resolves to can change from one call
to the next (`connect_to` asks again each time, line 793), so each event brings the address along. `connect_client` and `disconnect` are
part of `vnx::MsgServer` (not in the repository): a client is a new number; each ends with one call of `on_disconnect`, made by
`disconnect` itself when the router ends the connection.
-/

namespace Verif.Router.Connections

/-- `Router::peer_t`, include/mmx/Router.h:86-106: what is used here. -/
structure Conn where
  client : Nat
  host : Nat
  addr : Nat
  outbound : Bool
  /-- `info.type == FULL_NODE`; assumed at first, Router.cpp:1641. -/
  full : Bool := true
  /-- `is_valid`: cleared when the connection ends, Router.cpp:1670-1672. -/
  valid : Bool := true
  deriving DecidableEq, Repr

/-- The settings: modules/Router.vni:34, 53. -/
structure Conf where
  numOut : Nat
  fixed : List Nat

structure State where
  /-- `peer_map`. -/
  peers : List Conn
  /-- `peer_addr_map`: addresses with clients, here in the order of insertion. -/
  byAddr : List (Nat × Nat)
  /-- `connect_tasks`: host names with clients. -/
  tasks : List (Nat × Nat)
  /-- `synced_peers`. -/
  synced : List Nat
  /-- `block_peers`, in increasing order. -/
  banned : List Nat
  /-- `self_addrs`. -/
  self : List Nat
  /-- `peer_set`. -/
  known : List Nat
  /-- The keys of `peer_retry_map`; the times are left out. -/
  retry : List Nat
  /-- Clients that are being connected, with their host names (part of `MsgServer`). -/
  dialing : List (Nat × Nat)
  /-- Tasks posted by `on_disconnect` that have not run, Router.cpp:1674. -/
  closing : List (Nat × Nat)
  nextClient : Nat
  deriving DecidableEq, Repr

/-- A router that has just started, with a list of banned addresses from its settings and one of known addresses. -/
def start (banned known : List Nat) : State :=
  { peers := [], byAddr := [], tasks := [], synced := [], banned := banned, self := [], known := known, retry := [],
    dialing := [], closing := [], nextClient := 0 }

/-- `find_peer`, Router.cpp:1714-1721. -/
def State.peer (s : State) (c : Nat) : Option Conn := s.peers.find? fun p => decide (p.client = c)

/-- `connect_tasks.find`. -/
def State.task (s : State) (h : Nat) : Option Nat := (s.tasks.find? fun t => decide (t.1 = h)).map (·.2)

def setInsert (l : List Nat) (a : Nat) : List Nat := if a ∈ l then l else l ++ [a]

/-- Insertion in order. -/
def setInsertSorted (a : Nat) : List Nat → List Nat
  | [] => [a]
  | b :: l => if a < b then a :: b :: l else if a = b then b :: l else b :: setInsertSorted a l

/-- A list as a set: each element once. -/
def uniq {α : Type} [DecidableEq α] : List α → List α
  | [] => []
  | a :: l => if a ∈ l then uniq l else a :: uniq l

def setErase (l : List Nat) (a : Nat) : List Nat := l.filter fun b => decide (b ≠ a)

/-- `connect_to`, Router.cpp:786-811, when the name can be resolved; otherwise nothing is done. -/
def connectTo (s : State) (h : Nat) : State :=
  if (s.task h).isSome then s
  else { s with tasks := s.tasks ++ [(h, s.nextClient)], dialing := s.dialing ++ [(s.nextClient, h)], nextClient := s.nextClient + 1 }

/-- Lines 819-823, for one fixed peer and the address it resolves to. -/
def dialFixed (conf : Conf) (s : State) (ha : Nat × Nat) : State :=
  if ha.1 ∈ conf.fixed ∧ ¬ ha.2 ∈ s.byAddr.map (·.1) then connectTo s ha.1 else s

/-- The test on lines 867-869. -/
def eligible (s : State) (ha : Nat × Nat) : Bool :=
  decide (¬ ha.2 ∈ s.byAddr.map (·.1)) && (s.task ha.1).isNone
    && decide (¬ ha.2 ∈ s.banned) && decide (¬ ha.1 ∈ s.banned) && decide (¬ ha.2 ∈ s.self) && decide (¬ ha.1 ∈ s.self)

/-- Lines 875-882. -/
def dialNew (conf : Conf) : List Nat → State → State
  | [], s => s
  | a :: l, s =>
    if 2 * conf.numOut ≤ s.tasks.length then s
    else dialNew conf l { connectTo s a with retry := setErase (connectTo s a).retry a }

/-- `connect`, Router.cpp:813-883. `fixed` has the fixed peers, `try_` the names that pass the waiting times and the
    random choice, each with its address; both are arbitrary. Ending surplus connections (885-909) is event `lost`. -/
def connect (conf : Conf) (s : State) (fixed try_ : List (Nat × Nat)) : State :=
  dialNew conf (uniq ((try_.filter (eligible (fixed.foldl (dialFixed conf) s))).map (·.2))) (fixed.foldl (dialFixed conf) s)

/-- `on_disconnect` for a connection of `peer_map`: lines 1668-1674. -/
def closePeers (s : State) (sel : Conn → Bool) : State :=
  { s with
    peers := s.peers.map fun p => if sel p then { p with valid := false } else p
    closing := s.closing ++ (s.peers.filter fun p => sel p && p.valid).map fun p => (p.client, p.host) }

/-- `on_connect`, Router.cpp:1629-1666. -/
def onConnect (s : State) (c h a : Nat) : State :=
  if a ∈ s.banned then { s with closing := s.closing ++ [(c, h)] }
  else if s.task h = some c then
    { s with
      known := setInsert s.known a
      tasks := s.tasks.filter fun t => decide (t.1 ≠ h)
      peers := s.peers ++ [{ client := c, host := h, addr := a, outbound := true }]
      byAddr := s.byAddr ++ [(a, c)] }
  else
    { s with
      peers := s.peers ++ [{ client := c, host := h, addr := a, outbound := false }]
      byAddr := s.byAddr ++ [(a, c)] }

/-- Lines 1675-1684: the entry of this peer. -/
def eraseAddr (s : State) (c : Nat) : List (Nat × Nat) :=
  match s.peer c with
  | some p => s.byAddr.filter fun e => decide (e ≠ (p.addr, c))
  | none => s.byAddr

/-- The task of `on_disconnect`, Router.cpp:1674-1698. -/
def onClosed (s : State) (c h a : Nat) : State :=
  if s.task h = some c then
    { s with
      byAddr := eraseAddr s c
      known := setErase (setErase s.known h) a
      tasks := s.tasks.filter fun t => decide (t.1 ≠ h)
      peers := s.peers.filter fun p => decide (p.client ≠ c)
      synced := setErase s.synced c
      retry := setInsert s.retry a }
  else
    { s with
      byAddr := eraseAddr s c
      peers := s.peers.filter fun p => decide (p.client ≠ c)
      synced := setErase s.synced c
      retry := setInsert s.retry a }

/-- `ban_peer`, Router.cpp:1000-1011, on the list of banned addresses, `limit` being 1000000; once for each peer. -/
def banLoop (limit a : Nat) : Nat → List Nat → List Nat
  | 0, b => b
  | n + 1, b => banLoop limit a n (setInsertSorted a (if limit ≤ b.length then b.tail else b))

/-- `kick_peer`, Router.cpp:264-269, with `find_peers` (1723-1731): all peers at the address are banned and disconnected. -/
def kick (limit : Nat) (s : State) (a : Nat) : State :=
  closePeers { s with banned := banLoop limit a ((s.byAddr.filter fun e => decide (e.1 = a)).length) s.banned }
    fun p => decide ((a, p.client) ∈ s.byAddr)

/-- The return of `get_peers`, Router.cpp:1489-1500: at most ten addresses; `ok` tells which are valid. No check that it was asked for. -/
def onPeers (ok : Nat → Bool) (s : State) (l : List Nat) : State :=
  { s with retry := ((l.take 10).filter ok).foldl setInsert s.retry }

/-- The return of `get_synced_height`, Router.cpp:1509-1532. -/
def onSynced (s : State) (c : Nat) (yes : Bool) : State :=
  match s.peer c with
  | none => s
  | some p =>
    if yes then (if p.full then { s with synced := setInsert s.synced c } else s)
    else { s with synced := setErase s.synced c }

/-- The return of `get_info`, Router.cpp:1454-1466. -/
def onInfo (s : State) (c : Nat) (full : Bool) : State :=
  { s with peers := s.peers.map fun p => if p.client = c then { p with full := full } else p }

/-- The return of `get_id` with our own id, Router.cpp:1442-1453. -/
def onOwnId (s : State) (c : Nat) : State :=
  match s.peer c with
  | none => s
  | some p => closePeers { s with self := setInsert s.self p.addr } fun q => decide (q.client = c)

inductive Event
  /-- `connect`, from a timer. -/
  | connect (fixed try_ : List (Nat × Nat))
  /-- A connection we asked for is up; its name resolves to the address. -/
  | up (c h a : Nat)
  /-- It could not be made. -/
  | failed (c h : Nat)
  /-- Someone has connected to us. -/
  | accept (h a : Nat)
  /-- A connection has ended, by either side. -/
  | lost (c : Nat)
  /-- The next task of `on_disconnect` runs; the name resolves to the address. -/
  | task (a : Nat)
  | kick (a : Nat)
  | peers (l : List Nat)
  | synced (c : Nat) (yes : Bool)
  | info (c : Nat) (full : Bool)
  | ownId (c : Nat)
  /-- `synced_peers.erase` for a peer that did not answer in time, Router.cpp:485. -/
  | slow (c : Nat)

def runTask (s : State) (a : Nat) : State :=
  match s.closing with
  | [] => s
  | (c, h) :: rest => onClosed { s with closing := rest } c h a

def endDial (s : State) (c h : Nat) : State := { s with dialing := s.dialing.filter fun d => decide (d ≠ (c, h)) }

def step (conf : Conf) (ok : Nat → Bool) (limit : Nat) (s : State) : Event → State
  | .connect fixed try_ => Connections.connect conf s fixed try_
  | .up c h a => if (c, h) ∈ s.dialing then onConnect (endDial s c h) c h a else s
  | .failed c h => if (c, h) ∈ s.dialing then { endDial s c h with closing := s.closing ++ [(c, h)] } else s
  | .accept h a => onConnect { s with nextClient := s.nextClient + 1 } s.nextClient h a
  | .lost c => closePeers s fun p => decide (p.client = c)
  | .task a => runTask s a
  | .kick a => Connections.kick limit s a
  | .peers l => onPeers ok s l
  | .synced c yes => onSynced s c yes
  | .info c full => onInfo s c full
  | .ownId c => onOwnId s c
  | .slow c => { s with synced := setErase s.synced c }

def run (conf : Conf) (ok : Nat → Bool) (limit : Nat) (s : State) (evs : List Event) : State := evs.foldl (step conf ok limit) s

/-! ### Addresses handed out -/

/-- `is_valid_address`, Router.cpp:173-180. -/
def isValidAddress (a : List Char) : Bool :=
  !(a.isEmpty || decide (a.take 4 = ['1', '2', '7', '.']) || decide (a = ['0', '.', '0', '.', '0', '.', '0']))

/-- `is_public_address`, Router.cpp:182-189. -/
def isPublicAddress (a : List Char) : Bool :=
  isValidAddress a && !(decide (a.take 3 = ['1', '0', '.']) || decide (a.take 8 = ['1', '9', '2', '.', '1', '6', '8', '.']))

/-- `get_subset`, Router.cpp:191-200; `shuffle` is the random order. -/
def getSubset (shuffle : List (List Char) → List (List Char)) (l : List (List Char)) (n : Nat) : List (List Char) :=
  if n < l.length then (shuffle l).take n else l

/-- `get_peers`, Router.cpp:202-215; the set has each address once. -/
def getPeers (shuffle : List (List Char) → List (List Char)) (known connected : List (List Char)) (n : Nat) : List (List Char) :=
  getSubset shuffle (uniq ((known ++ connected).filter isPublicAddress)) n

end Verif.Router.Connections
