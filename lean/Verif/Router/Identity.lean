/-!
# Who is at the other end of a connection

`src/Router.cpp:1440-1487, 1629-1666, 1329-1333, 168-171`: a router asks each peer for the id of its node, and has it
sign a random challenge with the key that belongs to the id. Of several connections to a node it keeps the newest.

Several nodes run this code and have connections with each other and with an outsider, who sends what he
likes. Signatures are symbols: one is given by its key and its message; whoever has seen it can send it on, nobody else can
make it. A node's id is the address of its key (line 105); here both are the number of the node. Challenges are random
hashes; here they are numbered, so none is used twice.
-/

namespace Verif.Router.Identity

/-- The other end of a connection. -/
inductive End
  | node (m : Nat)
  | outside
  deriving DecidableEq, Repr

/-- `Router::peer_t`, include/mmx/Router.h:86-106: what is used here. `far` is what the code cannot see. -/
structure Peer where
  client : Nat
  far : End
  challenge : Nat
  /-- `info.id`; `none` before the return of `get_info`. -/
  info : Option Nat := none
  nodeId : Option Nat := none
  /-- Cleared on the way out, Router.cpp:1670-1672. -/
  valid : Bool := true
  deriving DecidableEq, Repr

structure Net where
  peers : Nat → List Peer
  nextClient : Nat
  /-- Signatures of nodes that the outsider has seen. -/
  known : List (Nat × Nat)
  /-- Signatures that nodes have made. -/
  signed : List (Nat × Nat)

def start : Net := { peers := fun _ => [], nextClient := 0, known := [], signed := [] }

def update (f : Nat → List Peer) (n : Nat) (l : List Peer) : Nat → List Peer := fun m => if m = n then l else f m

/-- `on_connect`, Router.cpp:1629-1666, without the list of banned addresses. -/
def onConnect (s : Net) (n : Nat) (far : End) : Net :=
  { s with
    peers := update s.peers n (s.peers n ++ [{ client := s.nextClient, far := far, challenge := s.nextClient }])
    nextClient := s.nextClient + 1 }

/-- The return of `get_info`, Router.cpp:1454-1466. The request for a signature is made here; the answer is an
    event of its own. -/
def onInfo (l : List Peer) (c id : Nat) : List Peer := l.map fun p => if p.client = c then { p with info := some id } else p

def close (l : List Peer) (c : Nat) : List Peer := l.map fun p => if p.client = c then { p with valid := false } else p

/-- `if(existing->node_id && id == *existing->node_id)`, lines 1474-1480, for one peer, and `peer->node_id = id`, line 1481. -/
def replaceOne (c id : Nat) (p : Peer) : Peer :=
  { p with
    valid := p.valid && decide (p.nodeId ≠ some id)
    nodeId := if p.client = c then some id else p.nodeId }

/-- The return of `sign_msg` on connection `c` with this key and signature, Router.cpp:1467-1487. -/
def onSign (l : List Peer) (c key : Nat) (sig : Nat × Nat) : List Peer :=
  match l.find? fun p => p.client = c with
  | none => l
  | some p =>
    if p.info = some key ∧ sig = (key, p.challenge) then l.map (replaceOne c key)
    else close l c

inductive Event
  /-- Node `n` has a new connection. -/
  | connect (n : Nat) (far : End)
  /-- The peer of this connection of `n` tells its id. -/
  | info (n c id : Nat)
  /-- It returns a signature. -/
  | sign (n c key : Nat) (sig : Nat × Nat)
  /-- The outsider asks node `m` over this connection to sign a message, Router.cpp:1329-1333. -/
  | ask (m c msg : Nat)
  /-- Node `n` closes the connection for another reason. -/
  | drop (n c : Nat)
  deriving DecidableEq, Repr

/-- What can come over a connection: a node tells its own id (line 162) and signs with its own key the challenge it
    was asked to sign; the outsider tells any id, and returns signatures that he has seen or made with keys of his own. -/
def infoOk (far : End) (id : Nat) : Bool :=
  match far with
  | .node m => decide (id = m)
  | .outside => true

def signOk (honest : Nat → Bool) (s : Net) (p : Peer) (key : Nat) (sig : Nat × Nat) : Bool :=
  match p.far with
  | .node m => decide (key = m ∧ sig = (m, p.challenge))
  | .outside => !honest sig.1 || decide (sig ∈ s.known)

def peerOf (s : Net) (n c : Nat) : Option Peer := (s.peers n).find? fun p => p.client = c

/-- One event; what cannot happen does nothing. `honest` tells which numbers are nodes that run this code. -/
def step (honest : Nat → Bool) (s : Net) : Event → Net
  | .connect n far => if honest n then onConnect s n far else s
  | .info n c id => match peerOf s n c with
    | some p => if p.valid && infoOk p.far id then { s with peers := update s.peers n (onInfo (s.peers n) c id) } else s
    | none => s
  | .sign n c key sig => match peerOf s n c with
    | some p =>
      if p.valid && signOk honest s p key sig then
        { s with
          peers := update s.peers n (onSign (s.peers n) c key sig)
          signed := if honest sig.1 then sig :: s.signed else s.signed }
      else s
    | none => s
  | .ask m c msg => match peerOf s m c with
    | some p =>
      if p.valid && decide (p.far = .outside) then { s with known := (m, msg) :: s.known, signed := (m, msg) :: s.signed } else s
    | none => s
  | .drop n c => { s with peers := update s.peers n (close (s.peers n) c) }

def run (honest : Nat → Bool) (s : Net) (evs : List Event) : Net := evs.foldl (step honest) s

end Verif.Router.Identity
