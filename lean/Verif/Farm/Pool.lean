/-
  What a farmer keeps about its harvesters and pools: `Farmer::get_farm_info`, `update`, `update_difficulty`,
  `query_difficulty` and the handlers of `FarmInfo` and `Partial`, src/Farmer.cpp:69-136, 170-247, 265-328; and what a
  harvester keeps about plot NFTs: `Harvester::update_nfts`, src/Harvester.cpp:663-696.

  Requests to pools and to the node are answered at any time and in any order, or never.
-/
import Verif.Base

namespace Verif.Farm.Pool

/-- What is used of a `FarmInfo`.  `hid` is `harvester_id`, or the hash of the name if there is none; `pools` are the
    contract and the address of the pool for the entries of `pool_info`, 0 if there is none or it is empty. -/
structure Info where
  hid : Option Nat
  bytes : Nat
  count : Nat → Nat
  pools : List (Nat × Nat)

/-- A partial that is sent: its contract and the difficulty of its proof. -/
structure Part where
  contract : Nat
  diff : Nat
  deriving DecidableEq

/-- What comes back for a partial (Farmer.cpp:285-326): accepted with these points, refused with a code, something else,
    or an exception. -/
inductive Answer
  | valid (points : Int)
  | refused (code : Nat)
  | other
  | failed
  deriving DecidableEq

/-- `pooling_error_e::SERVER_ERROR`, interface/pooling_error_e.vni. -/
def SERVER_ERROR : Nat := 16

/-- `pooling_stats_t`, interface/pooling_stats_t.vni, without the times. -/
structure Stats where
  url : Nat := 0
  diff : Nat := 0
  validPoints : Nat := 0
  failedPoints : Nat := 0
  total : Nat := 0
  errors : Nat → Nat := fun _ => 0

/-- The state.  `stats` is `nft_stats`, where a contract that is not in the map is as one with all zero; `known` are the
    contracts for which an address was set.  `queries` and `parts` are the requests that are not answered.  Records that
    the program does not have: `sent` and `done`, all partials that were sent and answered, and `source`, which pool
    the difficulty is from. -/
structure F where
  infos : List (Nat × Info × Int)
  stats : Nat → Stats
  known : List Nat
  queries : List (Nat × Nat)
  parts : List Part
  sent : List Part
  done : List (Part × Answer)
  source : Nat → Option Nat

def F.init : F :=
  { infos := [], stats := fun _ => {}, known := [], queries := [], parts := [], sent := [], done := [], source := fun _ => none }

inductive Ev
  | info (v : Info) (recv : Int)
  | update (now : Int)
  | difficulty
  | diffAnswer (i : Nat) (d : Option Nat)
  | part (p : Part) (known : Bool)
  | partAnswer (i : Nat) (a : Answer)

/-- `nft_stats[c]` is written. -/
def setStats (f : Nat → Stats) (c : Nat) (s : Stats) : Nat → Stats := fun x => if x = c then s else f x

/-- `info_map[hid] = sample`, Farmer.cpp:228-234. -/
def putInfo (l : List (Nat × Info × Int)) (h : Nat) (v : Info) (recv : Int) : List (Nat × Info × Int) :=
  (h, v, recv) :: l.filter fun x => x.1 ≠ h

/-- `Farmer::query_difficulty`, Farmer.cpp:194-203. -/
def query (c url : Nat) (s : F) : F := if url = 0 then s else { s with queries := s.queries ++ [(c, url)] }

/-- Farmer.cpp:236-245 for one entry of `pool_info`. -/
def setPool (s : F) (e : Nat × Nat) : F :=
  if e.2 = 0 then s
  else if (s.stats e.1).url = e.2 then s
  else query e.1 e.2 { s with stats := setStats s.stats e.1 { s.stats e.1 with url := e.2 }
                              known := if e.1 ∈ s.known then s.known else s.known ++ [e.1] }

/-- Farmer.cpp:228-234; the sample is there for anything received. -/
def noteInfo (v : Info) (recv : Int) (s : F) : F :=
  match v.hid with
  | none => s
  | some h => { s with infos := putInfo s.infos h v recv }

/-- `Farmer::update`, Farmer.cpp:177-184, the rest is about keys and the reward address. -/
def prune (timeout : Nat) (now : Int) (s : F) : F :=
  { s with infos := s.infos.filter fun x => ¬ ((now - x.2.2).tdiv 1000000 > timeout) }

/-- The answer of a pool about the difficulty, Farmer.cpp:204-220. -/
def gotDiff (c url : Nat) (d : Option Nat) (s : F) : F :=
  match d with
  | none => s
  | some d => if d > 0 then { s with stats := setStats s.stats c { s.stats c with diff := d }
                                     source := fun x => if x = c then some url else s.source x }
    else s

/-- `error_count[code]++`. -/
def addError (st : Stats) (code : Nat) : Stats :=
  { st with errors := fun k => if k = code then (st.errors k + 1) % 2 ^ 32 else st.errors k }

def addFailed (st : Stats) (d : Nat) : Stats := { st with failedPoints := (st.failedPoints + d) % 2 ^ 64 }

/-- The answer of a pool to a partial, Farmer.cpp:283-327. -/
def count (st : Stats) (p : Part) : Answer → Stats
  | .valid points =>
    { st with validPoints := (st.validPoints + (if points > 0 then points.toNat else p.diff)) % 2 ^ 64
              total := (st.total + 1) % 2 ^ 32 }
  | .refused code => addFailed (addError st (if code ≠ 0 then code else SERVER_ERROR)) p.diff
  | .other => addFailed (addError st SERVER_ERROR) p.diff
  | .failed => addFailed (addError st SERVER_ERROR) p.diff

/-- One event. -/
def step (timeout : Nat) (s : F) : Ev → F
  | .info v recv => v.pools.foldl setPool (noteInfo v recv s)
  | .update now => prune timeout now s
  | .difficulty => s.known.foldl (fun t c => query c (s.stats c).url t) s
  | .diffAnswer i d =>
    match s.queries[i]? with
    | none => s
    | some q => gotDiff q.1 q.2 d { s with queries := s.queries.eraseIdx i }
  | .part p known => if known then { s with parts := s.parts ++ [p], sent := s.sent ++ [p] } else s
  | .partAnswer i a =>
    match s.parts[i]? with
    | none => s
    | some p => { s with parts := s.parts.eraseIdx i
                         done := s.done ++ [(p, a)]
                         stats := setStats s.stats p.contract (count (s.stats p.contract) p a) }

def run (timeout : Nat) (evs : List Ev) (s : F) : F := evs.foldl (step timeout) s

/-- `total_bytes` of `get_farm_info`, Farmer.cpp:125. -/
def totalBytes (s : F) : Nat := s.infos.foldl (fun n x => (n + x.2.1.bytes) % 2 ^ 64) 0

/-- `plot_count[k]` of `get_farm_info`, Farmer.cpp:113-115. -/
def plotCount (s : F) (k : Nat) : Nat := s.infos.foldl (fun n x => (n + x.2.1.count k) % 2 ^ 32) 0

/-- `Farmer::get_partial_diff`, Farmer.cpp:69-79. -/
def partialDiff (s : F) (c : Nat) : Nat := if (s.stats c).diff > 0 then (s.stats c).diff else 0

/-! ### plot NFTs of a harvester -/

/-- `plot_contract_set` (the contracts of the plots), `plot_nfts` and the queries to the node that are not answered. -/
structure N where
  contracts : List Nat
  nfts : List (Nat × Nat)
  queries : List Nat

inductive NEv
  | reload (contracts : List Nat)
  | update
  | answer (i : Nat) (info : Option Nat)
  | failed (i : Nat)

/-- `Harvester::update_nfts`, Harvester.cpp:663-696: what is no longer a contract of a plot is dropped, the node is asked
    about the others.  `job` (which only leads to an additional update) is not modelled. -/
def updateNfts (s : N) : N :=
  { s with nfts := s.nfts.filter (fun x => x.1 ∈ s.contracts), queries := s.queries ++ s.contracts }

/-- `plot_nfts[address] = *info`. -/
def putNft (l : List (Nat × Nat)) (c v : Nat) : List (Nat × Nat) := (c, v) :: l.filter fun x => x.1 ≠ c

/-- One event; a reload (Harvester.cpp:574-583) sets the contracts and updates. -/
def nstep (s : N) : NEv → N
  | .reload cs => updateNfts { s with contracts := cs }
  | .update => updateNfts s
  | .answer i info =>
    match s.queries[i]? with
    | none => s
    | some c =>
      match info with
      | none => { s with queries := s.queries.eraseIdx i }
      | some v => { s with queries := s.queries.eraseIdx i, nfts := putNft s.nfts c v }
  | .failed i => { s with queries := s.queries.eraseIdx i }

end Verif.Farm.Pool
