/-
  The queue of proofs a node has received: `Node::handle(ProofResponse)`, src/Node.cpp:473-476, and `Node::verify_proofs`,
  src/Node_update.cpp:160-193.  See Rules/Proofs.lean for `add_proof`.
-/
import Verif.Rules.Proofs

namespace Verif.Rules

/-- What is used of a `ProofResponse`. -/
structure Resp where
  challenge : Nat
  height : Nat
  d : PData

/-- `proof_queue` (include/mmx/Node.h:568) with the times of receipt in ms, and what is known. -/
structure PQ where
  queue : List (Resp × Int)
  known : Known

/-- What happens.  A pass is given the time, `get_vdf_height()`, which responses pass `verify` (the chain does not change
    during a pass), and the responses in the order in which the threads add their proofs. -/
inductive PEv
  | recv (r : Resp) (now : Int)
  | pass (now : Int) (vdf : Nat) (ok : Resp → Bool) (order : List Resp)
  | commit (vdf : Nat)

/-- `params`: `block_interval_ms` and `challenge_delay`. -/
structure PConf where
  interval : Nat
  delay : Nat

/-- Line 171. -/
def PConf.late (p : PConf) (now : Int) (t : Int) : Bool := now - t > 10 * p.interval

/-- Line 174; `vdf_height + challenge_delay` does not overflow. -/
def PConf.early (p : PConf) (vdf : Nat) (r : Resp) : Bool := r.height ≥ vdf + p.delay

/-- The responses for which a task is made, lines 169-178. -/
def due (p : PConf) (now : Int) (vdf : Nat) (q : List (Resp × Int)) : List Resp :=
  (q.filter fun e => !p.late now e.2 && !p.early vdf e.1).map (·.1)

/-- Line 182. -/
def addResp (k : Known) (r : Resp) : Known := addProof r.challenge r.height r.d k

def pstep (p : PConf) (s : PQ) : PEv → PQ
  | .recv r now => { s with queue := s.queue ++ [(r, now)] }
  | .pass now vdf _ order =>
    { queue := s.queue.filter fun e => !p.late now e.2 && p.early vdf e.1
      known := order.foldl addResp s.known }
  | .commit v => { s with known := forget v s.known }

/-- The order in which the threads add is one of those that pass. -/
def PEv.Ok (p : PConf) (s : PQ) : PEv → Prop
  | .pass now vdf ok order => order.Perm ((due p now vdf s.queue).filter ok)
  | _ => True

/-- Running some events. -/
inductive PRuns (p : PConf) : PQ → List PEv → PQ → Prop
  | nil (s : PQ) : PRuns p s [] s
  | cons {s s' : PQ} {e : PEv} {evs : List PEv} : e.Ok p s → PRuns p (pstep p s e) evs s' → PRuns p s (e :: evs) s'

end Verif.Rules
