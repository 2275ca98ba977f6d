/-
  Requests from peers: src/Router.cpp:1210-1223, 1269, 1282-1429, 1611-1627, and the start and end of connections as far as needed.

  Types are given by their names, taken to have different hashes. Numbers of connections are given out by a framework that is not in the
  repository, and are taken to be never used again. The node answers each call once, with a value or an error, at any time and in any order. The
  framework tells when a connection is blocked and when it is not any longer, and writes what is queued for a peer, at any time; that it goes on
  reading while it cannot write is what it does unless it is told to pause. What is asked and answered is left out.
-/
import Verif.Base

namespace Verif.Router.Requests

/-- What is in a `Return`. -/
inductive Result where
  | value (method : String)
  | error
  | overflow
  | noSuchMethod
  deriving DecidableEq, Repr

/-- `Router::peer_t`, include/mmx/Router.h:86-106: what is used here, and what waits to be written. -/
structure Peer where
  valid : Bool := true
  blocked : Bool := false
  paused : Bool := false
  queue : List (Nat × Result) := []
  deriving DecidableEq, Repr

/-- A call at the node that is not answered yet. -/
structure Call where
  client : Nat
  id : Nat
  method : String
  deriving DecidableEq, Repr

/-- A `Return` handed over for a connection. -/
structure Sent where
  client : Nat
  id : Nat
  result : Result
  deriving DecidableEq, Repr

/-- `peers` is `peer_map`, `calls` what the node works on, `asked` all it was ever asked, `sent` all that was ever handed over for a peer, and
    `resumed` the connections that are told to be read again. -/
structure St where
  peers : Nat → Option Peer
  next : Nat
  calls : List Call
  asked : List Call
  sent : List Sent
  resumed : List Nat

def start : St := ⟨fun _ => none, 0, [], [], [], []⟩

def set (f : Nat → Option Peer) (c : Nat) (p : Option Peer) : Nat → Option Peer := fun d => if d = c then p else f d

/-- `Router::send_to`, lines 1210-1223 and 1269, for a message that is reliable, which is the default (include/mmx/Router.h:181-183). -/
def sendTo (s : St) (c id : Nat) (r : Result) : St :=
  match s.peers c with
  | none => s
  | some p =>
    if p.valid = false then s
    else { s with peers := set s.peers c (some { p with queue := p.queue ++ [(id, r)] }), sent := s.sent ++ [⟨c, id, r⟩] }

/-- What the router answers itself, lines 1319-1338. -/
def ownMethods : List String := ["mmx.Router.get_id", "mmx.Router.get_info", "mmx.Router.sign_msg", "mmx.Router.get_peers"]

/-- What is passed to the node, lines 1339-1421. -/
def nodeMethods : List String :=
  ["mmx.Node.get_height", "mmx.Node.get_synced_height", "mmx.Node.get_block", "mmx.Node.get_block_at", "mmx.Node.get_block_hash",
   "mmx.Node.get_block_hash_ex", "mmx.Node.get_header", "mmx.Node.get_header_at", "mmx.Node.get_tx_ids_at"]

/-- The call at the node, e.g. lines 1341-1345. -/
def ask (s : St) (c id : Nat) (m : String) : St := { s with calls := s.calls ++ [⟨c, id, m⟩], asked := s.asked ++ [⟨c, id, m⟩] }

/-- The switch of `Router::on_request`, lines 1317-1428. -/
def dispatch (s : St) (c id : Nat) (m : String) : St :=
  if m ∈ ownMethods then sendTo s c id (.value m)
  else if m ∈ nodeMethods then ask s c id m
  else sendTo s c id .noSuchMethod

/-- `peer->is_paused = true`, line 1313. -/
def setPaused (s : St) (c : Nat) : St :=
  match s.peers c with
  | none => s
  | some p => { s with peers := set s.peers c (some { p with paused := true }) }

/-- Whether there is a peer and it is blocked, lines 1307-1308. -/
def isBlocked (s : St) (c : Nat) : Bool :=
  match s.peers c with
  | none => false
  | some p => p.blocked

/-- `Router::on_request`, lines 1301-1429. -/
def onRequest (s : St) (c id : Nat) (method : Option String) : St :=
  match method with
  | none => s
  | some m => if isBlocked s c then setPaused (sendTo s c id .overflow) c else dispatch s c id m

/-- `Router::on_pause`, lines 1611-1616. -/
def onPause (s : St) (c : Nat) : St :=
  match s.peers c with
  | none => s
  | some p => { s with peers := set s.peers c (some { p with blocked := true }) }

/-- `Router::on_resume`, lines 1618-1627. -/
def onResume (s : St) (c : Nat) : St :=
  match s.peers c with
  | none => s
  | some p =>
    { s with
      peers := set s.peers c (some { p with paused := false, blocked := false })
      resumed := if p.paused then s.resumed ++ [c] else s.resumed }

/-- The answer to one of the calls at the node: `send_result`, lines 1282-1291, or `on_error`, lines 1293-1299. -/
def onAnswer (s : St) (k : Nat) (ok : Bool) : St :=
  match s.calls[k]? with
  | none => s
  | some x => sendTo { s with calls := s.calls.eraseIdx k } x.client x.id (if ok then .value x.method else .error)

/-- The framework has written some of what waits. -/
def onWritten (s : St) (c n : Nat) : St :=
  match s.peers c with
  | none => s
  | some p => { s with peers := set s.peers c (some { p with queue := p.queue.drop n }) }

inductive Ev where
  | connect
  | close (c : Nat)
  | gone (c : Nat)
  | pause (c : Nat)
  | resume (c : Nat)
  | request (c id : Nat) (method : Option String)
  | answer (k : Nat) (ok : Bool)
  | written (c n : Nat)
  deriving DecidableEq, Repr

/-- One event. `close`: `is_valid` is cleared on the way out, lines 1668-1672; `gone`: the peer is taken from the map, line 1695. Nothing comes
    over a connection that has not begun. -/
def step (s : St) : Ev → St
  | .connect => { s with peers := set s.peers s.next (some {}), next := s.next + 1 }
  | .close c => match s.peers c with
    | none => s
    | some p => { s with peers := set s.peers c (some { p with valid := false }) }
  | .gone c => { s with peers := set s.peers c none }
  | .pause c => onPause s c
  | .resume c => onResume s c
  | .request c id m => if c < s.next then onRequest s c id m else s
  | .answer k ok => onAnswer s k ok
  | .written c n => onWritten s c n

def run (s : St) (l : List Ev) : St := l.foldl step s

end Verif.Router.Requests
