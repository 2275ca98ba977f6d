/-
  The cache of contracts of the node and who may touch it: src/Node_api.cpp (get_contract_ex, lines 591-621; async_api_call, lines 1613-1630),
  src/Node.cpp (apply, revert, reset, revert_sync), src/Node_update.cpp (update, which holds `db_mutex` from line 262 on).

  The module's own thread changes the tables. Calls of the API run in other threads, each under a shared lock of `db_mutex` (lines 1613-1630).
  Validation runs in further threads, for which the own thread waits. A step of this model is one access to the tables or to the cache; steps of
  all threads may mix in any way that the lock allows. Accesses to the cache are guarded by `mutex`, lines 605 and 613; the three places that
  clear it do not take this, so with `revert_sync` there is a data race as well, which is not modelled. That `db->revert` does not throw is assumed.
-/
namespace Verif.Node.Cache

/-- A contract: whether it is a `contract::Binary`, and what it is. -/
structure Contract where
  binary : Bool
  code : Nat
  deriving DecidableEq, Repr

/-- Where a thread is in `get_contract_ex`: about to look into the cache (line 606), not found there (line 608), read from `contract_map`
    (line 609), or returned (line 620). -/
inductive Pc where
  | start
  | missed
  | loaded (c : Option Contract)
  | done (c : Option Contract)
  deriving DecidableEq, Repr

/-- A thread that reads: `api` if it is a call of the API, otherwise one that the own thread waits for, or the own thread. -/
structure Thread where
  api : Bool
  addr : Nat
  pc : Pc
  deriving DecidableEq, Repr

/-- `chain` is `contract_map`; `writer`: the own thread holds `db_mutex`; `dirty`: it has changed the tables and not cleared the cache yet. -/
structure St where
  chain : Nat → Option Contract
  cache : List (Nat × Contract) := []
  threads : List Thread := []
  writer : Bool := false
  dirty : Bool := false

/-- `find_value(contract_cache, address, nullptr)`, line 606. -/
def lookup (l : List (Nat × Contract)) (a : Nat) : Option Contract := (l.find? (fun x => decide (x.1 = a))).map (·.2)

/-- The cache is emptied when it is about to get too large, lines 614-616. -/
def room (l : List (Nat × Contract)) : List (Nat × Contract) := if (l.length + 1) / 2 ^ 16 ≠ 0 then [] else l

/-- `contract_cache[address] = contract`, line 617. -/
def put (l : List (Nat × Contract)) (a : Nat) (c : Contract) : List (Nat × Contract) :=
  (a, c) :: (room l).filter (fun x => decide (x.1 ≠ a))

/-- Only binaries are kept, lines 611-618. -/
def keep (l : List (Nat × Contract)) (a : Nat) : Option Contract → List (Nat × Contract)
  | some c => if c.binary then put l a c else l
  | none => l

/-- One step of `get_contract_ex`, lines 603-620: what becomes of the cache, and where the thread is then. -/
def advance (s : St) (a : Nat) : Pc → List (Nat × Contract) × Pc
  | .start => match lookup s.cache a with
    | some c => (s.cache, .done (some c))
    | none => (s.cache, .missed)
  | .missed => (s.cache, .loaded (s.chain a))
  | .loaded c => (keep s.cache a c, .done c)
  | .done c => (s.cache, .done c)

/-- Whether a call of the API is under way, or a thread that the own thread waits for. -/
def anyApi (s : St) : Bool := s.threads.any (·.api)
def anyOwn (s : St) : Bool := s.threads.any (fun t => !t.api)

/-- `enter`: a thread begins to read a contract, under the lock if it is a call of the API (Node_api.cpp:1618); `again`: the thread reads another
    contract; `leave`: it ends. `lock`: `update` begins (Node_update.cpp:262). `change`: `apply` or `revert` changes the tables (Node.cpp:1082,
    1173, 1326). `clear`: `contract_cache.clear()` (Node.cpp:1148, 1332, 1362). `revertSync`: `revert` changes the tables, called from
    `revert_sync`, which does not take the lock (Node.cpp:538-546). -/
inductive Ev where
  | enter (api : Bool) (a : Nat)
  | advance (k : Nat)
  | again (k a : Nat)
  | leave (k : Nat)
  | lock
  | unlock
  | change (m : Nat → Option Contract)
  | clear
  | revertSync (m : Nat → Option Contract)

/-- A step of the thread in place `k`. -/
def onAdvance (s : St) (k : Nat) : St :=
  match s.threads[k]? with
  | none => s
  | some t => { s with cache := (Cache.advance s t.addr t.pc).1, threads := s.threads.set k { t with pc := (Cache.advance s t.addr t.pc).2 } }

/-- The thread in place `k` goes on to another contract. -/
def onAgain (s : St) (k a : Nat) : St :=
  match s.threads[k]? with
  | none => s
  | some t => { s with threads := s.threads.set k { t with addr := a, pc := .start } }

/-- One event; nothing happens if it cannot. The own thread waits for its threads before it does anything else, and for the calls of the API before
    it has the lock. It lets go of the lock only after the cache was cleared: `apply` and `revert` end with this. -/
def step (s : St) : Ev → St
  | .enter api a => if api && s.writer then s else { s with threads := s.threads ++ [⟨api, a, .start⟩] }
  | .advance k => onAdvance s k
  | .again k a => onAgain s k a
  | .leave k => { s with threads := s.threads.eraseIdx k }
  | .lock => if s.writer || anyApi s || anyOwn s then s else { s with writer := true }
  | .unlock => if s.dirty || anyOwn s then s else { s with writer := false }
  | .change m => if !s.writer || anyOwn s then s else { s with chain := m, dirty := true }
  | .clear => if anyOwn s then s else { s with cache := [], dirty := false }
  | .revertSync m => if s.writer || anyOwn s then s else { s with chain := m, dirty := true }

def run (s : St) (l : List Ev) : St := l.foldl step s

end Verif.Node.Cache
