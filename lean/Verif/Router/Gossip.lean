/-
  The relaying of messages between peers by the Router module (src/Router.cpp,
  include/mmx/Router.h): what a node does with a block, VDF, vote, proof, VDF point or
  transaction received from a peer or verified by its own node.

  The Router runs in one thread: every callback runs to its end before the next.  A state is what
  the module keeps between callbacks, an operation is one callback, and the log of a state lists
  the outputs of all callbacks so far, the newest first.
-/
import Verif.Base

namespace Verif.Router

/-- `content_hash` of a message; messages are told apart by it. -/
abbrev Hash := Nat
/-- `peer_t::client`, the number the TCP server gives to a connection. -/
abbrev Client := Nat
/-- `pubkey_t` of a farmer or of a timelord. -/
abbrev Key := Nat

/-- The message types dispatched by `on_msg` (Router.cpp:1556-1609), without requests, returns and
    receive notes. -/
inductive Kind
  | vdf | point | proof | block | vote | tx
  deriving DecidableEq, Repr

/-- What the Router looks at in a message.  `valid` stands for `is_valid()` (and for a transaction
    `is_valid(params) && !exec_result`, Router.cpp:1117; for a proof response that it has a
    proof), `checked` for `validate()` returning instead of throwing (Router.cpp:1024-1029,
    1058-1063), `short` for `segments.size() < max_vdf_segments` (Router.cpp:1030), `key` for the
    farmer key of a block or proof and for the timelord key of a VDF. -/
structure Msg where
  kind : Kind
  hash : Hash
  height : Nat := 0
  vdfHeight : Nat := 0
  key : Key := 0
  valid : Bool := true
  checked : Bool := true
  short : Bool := true
  deriving DecidableEq, Repr

/-- `send_item_t` (Router.h:80-84). -/
structure Item where
  reliable : Bool
  hash : Hash
  msg : Msg
  deriving DecidableEq, Repr

/-- The part of `peer_t` (Router.h:86-106) that decides on relaying.  `sent` is the set
    `sent_hashes`, `queue` the FIFO `hash_queue` (oldest first), `out` the map `send_queue` in the
    order of its keys.  `light` says whether `info.type` is LIGHT_NODE (otherwise FULL_NODE; other
    types are in no filter and are left out), `master` whether the host is in `master_nodes`. -/
structure Peer where
  client : Client
  isValid : Bool := true
  isSynced : Bool := false
  light : Bool := false
  master : Bool := false
  sent : List Hash := []
  queue : List Hash := []
  out : List (Nat × Item) := []
  deriving DecidableEq, Repr

/-- Outputs.  `conn`: a connection is set up; `recv`: a message was taken from a peer; `noted`: a
    receive note came from a peer; `sent`: a message went out to a peer; `told`: a receive note went
    out to a peer; `hello`: a VDF went out to a new peer; `bcast`: a message was put up for sending
    to peers; `publish`: a message was handed to the node; `early`: a message was put up for sending
    before the node verified it; `earned`: the node verified a message that gives credit;
    `handled`: the node handed a message to the Router; `banned`: `disconnect` was called. -/
inductive Event
  | conn (c : Client)
  | recv (c : Client) (h : Hash)
  | noted (c : Client) (h : Hash)
  | sent (c : Client) (h : Hash)
  | told (c : Client) (h : Hash)
  | hello (c : Client) (h : Hash)
  | bcast (h : Hash)
  | publish (m : Msg)
  | early (m : Msg)
  | earned (m : Msg)
  | handled (h : Hash)
  | banned (c : Client)
  deriving DecidableEq, Repr

/-- Configuration: `max_sent_cache`, `max_hash_cache`, `relay_target_ms`, `do_relay`
    (modules/Router.vni) and `params->commit_delay`. -/
structure Cfg where
  maxSent : Nat
  maxHash : Nat
  relayTargetMs : Nat
  doRelay : Bool
  commitDelay : Nat

/-- State of the module (Router.h:231-268).  `info` is the map `hash_info` from hashes to
    `did_relay`, `seen` the FIFO `hash_queue`, `farmers` is `farmer_credit`, `timelords` is
    `timelord_credit`, `history` is `vdf_history`. -/
structure St where
  peers : List Peer := []
  info : List (Hash × Bool) := []
  seen : List Hash := []
  farmers : List (Nat × Key) := []
  timelords : List (Key × Nat) := []
  history : List (Nat × Msg) := []
  ours : List Key := []
  verifiedVdf : Nat := 0
  verifiedPeak : Nat := 0
  log : List Event := []
  deriving DecidableEq, Repr

/-- Before any callback. -/
def init : St := {}

/-- Add an output. -/
def emit (e : Event) (s : St) : St := { s with log := e :: s.log }

/-- `find_peer(client)` with an update of the peer found (Router.cpp:1714-1721). -/
def modify (c : Client) (f : Peer → Peer) (s : St) : St :=
  { s with peers := s.peers.map fun p => if p.client = c then f p else p }

/-- `if(peer->sent_hashes.insert(hash).second) peer->hash_queue.push(hash)`
    (Router.cpp:1129-1131, 1162-1164, 1756-1758). -/
def Peer.learn (h : Hash) (p : Peer) : Peer :=
  if h ∈ p.sent then p else { p with sent := h :: p.sent, queue := p.queue ++ [h] }

/-- The receive notes of `recv_notify` (Router.cpp:1140-1148), to all peers whose connection is up
    (`send_to`, Router.cpp:1218-1222; notes are reliable). -/
def notes (h : Hash) (ps : List Peer) : List Event :=
  (ps.filter (·.isValid)).map fun p => .told p.client h

def recvNotify (h : Hash) (s : St) : St := { s with log := notes h s.peers ++ s.log }

/-- `hash_info.emplace(hash, hash_info_t())` with the note and the queue of a new hash
    (Router.cpp:1735-1739, 1750-1754). -/
def note (h : Hash) (s : St) : St :=
  let s' := recvNotify h s
  { s' with info := (h, false) :: s'.info, seen := s'.seen ++ [h] }

/-- Whether `hash_info` has the hash. -/
def knows (h : Hash) (s : St) : Bool := s.info.any (·.1 == h)

/-- `did_relay` of a hash (Router.cpp:1740). -/
def didRelay (h : Hash) (s : St) : Bool := s.info.any fun x => x.1 == h && x.2

/-- `did_relay = true` (Router.cpp:1742). -/
def setRelay (h : Hash) (s : St) : St :=
  { s with info := s.info.map fun x => if x.1 = h then (h, true) else x }

/-- The emplace of the two functions below. -/
def see (h : Hash) (s : St) : St := if knows h s then s else note h s

/-- `Router::relay_msg_hash` (Router.cpp:1733-1746): whether to send the message on, and the new
    state. -/
def relayMsgHash (h : Hash) (s : St) : Bool × St :=
  let s1 := see h s
  if didRelay h s1 then (false, s1) else (true, setRelay h s1)

/-- `Router::receive_msg_hash` (Router.cpp:1748-1761): whether the message is new. -/
def receiveMsgHash (h : Hash) (c : Client) (s : St) : Bool × St :=
  (!knows h s, emit (.recv c h) (modify c (Peer.learn h) (see h s)))

/-- `send_queue.emplace(time, item)`: the queue is a `std::map`, so an item whose time is already
    taken is not added (Router.cpp:1184; Router.h:104). -/
def emplace (t : Nat) (i : Item) : List (Nat × Item) → List (Nat × Item)
  | [] => [(t, i)]
  | (t', j) :: l =>
    if t < t' then (t, i) :: (t', j) :: l
    else if t = t' then (t', j) :: l
    else (t', j) :: emplace t i l

/-- The loop of `Router::send_to(peers, …)` (Router.cpp:1179-1185): the `k`-th peer is served at
    `now + interval * k`. -/
def schedule (now interval : Nat) (i : Item) : Nat → List Client → St → St
  | _, [], s => s
  | k, c :: cs, s =>
    schedule now interval i (k + 1) cs
      (modify c (fun p => { p with out := emplace (now + interval * k) i p.out }) s)

/-- Who a message is meant for: `filter` and `synced_only` of `Router::broadcast`
    (Router.cpp:1195-1208).  `toLight` says whether LIGHT_NODE is in the filter; FULL_NODE always
    is. -/
def wants (toLight syncedOnly : Bool) (p : Peer) : Bool :=
  (!syncedOnly || p.isSynced) && (!p.light || toLight)

/-- The surroundings of a callback: the time in microseconds, the random order of
    `std::shuffle` (Router.cpp:1175), and whether the transport takes a message for a peer
    (`send_to`, Router.cpp:1223-1269: the peer is not blocked, costs allow it, the socket is
    open). -/
structure World where
  now : Nat
  shuffle : List Client → List Client
  takes : Client → Item → Bool

/-- `Router::broadcast` and `Router::send_to(peers, …)` (Router.cpp:1172-1186, 1195-1208). -/
def broadcast (cfg : Cfg) (w : World) (m : Msg) (toLight reliable syncedOnly : Bool) (s : St) : St :=
  let order := w.shuffle ((s.peers.filter (wants toLight syncedOnly)).map (·.client))
  schedule w.now (cfg.relayTargetMs * 1000 / (1 + order.length))
    { reliable := reliable, hash := m.hash, msg := m } 0 order (emit (.bcast m.hash) s)

/-- `Router::relay` (Router.cpp:1188-1193). -/
def relay (cfg : Cfg) (w : World) (m : Msg) (toLight : Bool) (s : St) : St :=
  if cfg.doRelay then broadcast cfg w m toLight false false s else s

/-- `disconnect(client)` with the first part of `on_disconnect` (Router.cpp:1670-1672). -/
def disconnect (c : Client) (s : St) : St :=
  emit (.banned c) (modify c (fun p => { p with isValid := false }) s)

/-- `timelord_credit[key]`, zero when absent. -/
def credit (k : Key) (s : St) : Nat := (s.timelords.lookup k).getD 0

/-- `timelord_credit[key] = n`. -/
def setCredit (k : Key) (n : Nat) (s : St) : St :=
  { s with timelords := (k, n) :: s.timelords.filter (·.1 != k) }

/-- `Router::on_vdf` (Router.cpp:1013-1044). -/
def onVdf (cfg : Cfg) (w : World) (c : Client) (m : Msg) (s : St) : St :=
  if u32 (m.vdfHeight + cfg.commitDelay) < s.verifiedVdf then s
  else if !m.valid then disconnect c s
  else
    let r := receiveMsgHash m.hash c s
    if !r.1 then r.2
    else if !m.checked then disconnect c r.2
    else
      let s2 :=
        if m.short && 0 < credit m.key r.2 then
          let q := relayMsgHash m.hash r.2
          if q.1 then
            relay cfg w m true (emit (.early m) (setCredit m.key (credit m.key q.2 - 1) q.2))
          else q.2
        else r.2
      emit (.publish m) s2

/-- `Router::on_block` (Router.cpp:1046-1076). -/
def onBlock (cfg : Cfg) (w : World) (c : Client) (m : Msg) (s : St) : St :=
  if u32 (m.height + cfg.commitDelay) < s.verifiedPeak then s
  else if !m.valid then disconnect c s
  else
    let r := receiveMsgHash m.hash c s
    if !r.1 then r.2
    else if !m.checked then disconnect c r.2
    else
      let s2 :=
        if (m.vdfHeight, m.key) ∈ r.2.farmers then
          let s1 := { r.2 with farmers := r.2.farmers.filter (· != (m.vdfHeight, m.key)) }
          let q := relayMsgHash m.hash s1
          if q.1 then relay cfg w m true (emit (.early m) q.2) else q.2
        else r.2
      emit (.publish m) s2

/-- `Router::on_vote`, `on_proof` and `on_transaction` (Router.cpp:1078-1098, 1115-1124). -/
def onPlain (c : Client) (m : Msg) (s : St) : St :=
  if !m.valid then disconnect c s
  else
    let r := receiveMsgHash m.hash c s
    if r.1 then emit (.publish m) r.2 else r.2

/-- `Router::on_vdf_point` (Router.cpp:1100-1113): only from master nodes, and an invalid one is
    ignored. -/
def onPoint (c : Client) (m : Msg) (s : St) : St :=
  if s.peers.any (fun p => p.client == c && p.master) && m.valid then
    let r := receiveMsgHash m.hash c s
    if r.1 then emit (.publish m) r.2 else r.2
  else s

/-- `Router::on_msg` (Router.cpp:1556-1609). -/
def onMsg (cfg : Cfg) (w : World) (c : Client) (m : Msg) (s : St) : St :=
  match m.kind with
  | .vdf => onVdf cfg w c m s
  | .block => onBlock cfg w c m s
  | .point => onPoint c m s
  | .vote => onPlain c m s
  | .proof => onPlain c m s
  | .tx => onPlain c m s

/-- `Router::on_recv_note` (Router.cpp:1126-1138), without the pending cost of transactions, which
    only plays a part in `World.takes`. -/
def onNote (c : Client) (h : Hash) (s : St) : St :=
  emit (.noted c h) (modify c (Peer.learn h) s)

/-- `relay_msg_hash` in the `handle` functions, with an output that says that a message of the node
    came so far. -/
def accept (h : Hash) (s : St) : Bool × St := relayMsgHash h (emit (.handled h) s)

/-- `Router::handle(Block)` (Router.cpp:302-320). -/
def handleBlock (cfg : Cfg) (w : World) (m : Msg) (s : St) : St :=
  let isOurs := !knows m.hash s
  let q := accept m.hash s
  let s1 := if q.1 then broadcast cfg w m true isOurs false q.2 else q.2
  { s1 with
    history := s1.history.filter (fun x => s1.verifiedVdf < x.1)
    farmers := s1.farmers.filter (fun x => s1.verifiedVdf < x.1)
    verifiedVdf := m.vdfHeight
    verifiedPeak := m.height }

/-- The first lines of `Router::handle(ProofOfTime)` (Router.cpp:337-345); `own` says whether the
    VDF comes from our own timelord (topic `input_vdfs`). -/
def noteOurs (own : Bool) (m : Msg) (s : St) : St :=
  if own then { s with ours := m.key :: s.ours } else s

/-- `Router::handle(ProofOfTime)` (Router.cpp:335-361). -/
def handleVdf (cfg : Cfg) (w : World) (own : Bool) (m : Msg) (s : St) : St :=
  let s0 := noteOurs own m s
  if own && m.vdfHeight ≤ s0.verifiedVdf then s0
  else
    let q := accept m.hash s0
    let s1 :=
      if q.1 then
        let b := broadcast cfg w m true (q.2.ours.contains m.key) false q.2
        { b with history := b.history ++ [(m.vdfHeight, m)] }
      else q.2
    let s2 := emit (.earned m) (setCredit m.key 1 s1)
    { s2 with verifiedVdf := max s2.verifiedVdf m.vdfHeight }

/-- `Router::handle(ProofResponse)` (Router.cpp:376-396); `own` says whether the farmer is a local
    one. -/
def handleProof (cfg : Cfg) (w : World) (own : Bool) (m : Msg) (s : St) : St :=
  if !m.valid then s
  else
    let q := accept m.hash s
    if q.1 then
      let b := broadcast cfg w m false own false q.2
      emit (.earned m) { b with farmers := (m.vdfHeight, m.key) :: b.farmers }
    else q.2

/-- `Router::handle(Transaction)` (Router.cpp:322-333); `own` says whether the topic is
    `input_transactions`. -/
def handleTx (cfg : Cfg) (w : World) (own : Bool) (m : Msg) (s : St) : St :=
  let q := accept m.hash s
  if q.1 then
    if own then broadcast cfg w m false true true q.2 else relay cfg w m false q.2
  else q.2

/-- `Router::handle(VDF_Point)` and `handle(ValidatorVote)` (Router.cpp:363-374, 398-405). -/
def handlePlain (cfg : Cfg) (w : World) (reliable : Bool) (m : Msg) (s : St) : St :=
  let q := accept m.hash s
  if q.1 then broadcast cfg w m true reliable false q.2 else q.2

/-- The `handle` functions: a message verified by the node, or made by it. -/
def handle (cfg : Cfg) (w : World) (own : Bool) (m : Msg) (s : St) : St :=
  match m.kind with
  | .block => handleBlock cfg w m s
  | .vdf => handleVdf cfg w own m s
  | .proof => handleProof cfg w own m s
  | .tx => handleTx cfg w own m s
  | .point => handlePlain cfg w true m s
  | .vote => handlePlain cfg w false m s

/-- The inner loop of `Router::send` over one peer (Router.cpp:1158-1168): the peer and the outputs,
    the newest first. -/
def sendItems (w : World) : List (Nat × Item) → Peer × List Event → Peer × List Event
  | [], r => r
  | (_, i) :: l, (p, ev) =>
    sendItems w l
      (if i.hash ∈ p.sent then (p, ev)
       else if p.isValid && w.takes p.client i then
         (p.learn i.hash, .sent p.client i.hash :: ev)
       else (p, ev))

/-- One peer of `Router::send`: what is due goes out and leaves the queue. -/
def sendPeer (w : World) (p : Peer) : Peer × List Event :=
  let due := p.out.takeWhile fun x => x.1 < w.now
  sendItems w due ({ p with out := p.out.dropWhile fun x => x.1 < w.now }, [])

/-- The outer loop of `Router::send` (Router.cpp:1150-1170): peers one after the other. -/
def sendPeers (w : World) : List Peer → List Peer × List Event
  | [] => ([], [])
  | p :: ps =>
    let r := sendPeer w p
    let q := sendPeers w ps
    (r.1 :: q.1, q.2 ++ r.2)

/-- `Router::send` (Router.cpp:1150-1170). -/
def send (w : World) (s : St) : St :=
  let r := sendPeers w s.peers
  { s with peers := r.1, log := r.2 ++ s.log }

/-- "clear old hashes" (Router.cpp:433-436): the oldest go while there are more than the limit. -/
def evict (max : Nat) : List Hash → List Hash → List Hash × List Hash
  | [], sent => ([], sent)
  | h :: q, sent =>
    if max < (h :: q).length then evict max q (sent.filter (· != h)) else (h :: q, sent)

def Peer.evict (max : Nat) (p : Peer) : Peer :=
  let r := Router.evict max p.queue p.sent
  { p with queue := r.1, sent := r.2 }

/-- "clear seen hashes" (Router.cpp:449-453). -/
def forget (max : Nat) : List Hash → List (Hash × Bool) → List Hash × List (Hash × Bool)
  | [], info => ([], info)
  | h :: q, info =>
    if max < (h :: q).length then forget max q (info.filter (·.1 != h)) else (h :: q, info)

/-- `Router::update` (Router.cpp:425-453) without the timeouts, which are the operation `drop`. -/
def update (cfg : Cfg) (s : St) : St :=
  let r := forget cfg.maxHash s.seen s.info
  { s with peers := s.peers.map (Peer.evict cfg.maxSent), seen := r.1, info := r.2 }

/-- The VDFs sent to a new peer (Router.cpp:1662-1664). -/
def greet (c : Client) (l : List (Nat × Msg)) : List Event :=
  (l.map fun x => Event.hello c x.2.hash).reverse

/-- `Router::on_connect` (Router.cpp:1629-1666) for an address that is not banned. -/
def connect (c : Client) (master : Bool) (s : St) : St :=
  { s with
    peers := { client := c, master := master } :: s.peers.filter (·.client != c)
    log := greet c s.history ++ .conn c :: s.log }

/-- The second part of `on_disconnect` (Router.cpp:1674-1698). -/
def gone (c : Client) (s : St) : St := { s with peers := s.peers.filter (·.client != c) }

/-- One callback of the module.  `drop` is a lost or ended connection, `state` what a peer's replies
    change in its entry (its type and whether it is synced, Router.cpp:1454-1465, 1513-1540). -/
inductive Op
  | msg (w : World) (c : Client) (m : Msg)
  | note (c : Client) (h : Hash)
  | verified (w : World) (own : Bool) (m : Msg)
  | send (w : World)
  | update
  | connect (c : Client) (master : Bool)
  | drop (c : Client)
  | gone (c : Client)
  | state (c : Client) (synced light : Bool)

def step (cfg : Cfg) (s : St) : Op → St
  | .msg w c m => onMsg cfg w c m s
  | .note c h => onNote c h s
  | .verified w own m => handle cfg w own m s
  | .send w => send w s
  | .update => update cfg s
  | .connect c master => connect c master s
  | .drop c => disconnect c s
  | .gone c => gone c s
  | .state c synced light => modify c (fun p => { p with isSynced := synced, light := light }) s

/-- The state after a sequence of callbacks. -/
def run (cfg : Cfg) (ops : List Op) : St := ops.foldl (step cfg) init

end Verif.Router
