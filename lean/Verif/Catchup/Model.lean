/-
  How a node catches up with the network (src/Node.cpp, src/Node_update.cpp): which heights it asks
  its router for, when it takes itself to be in sync, and which blocks it commits meanwhile.

  A state is what the node keeps between callbacks, an operation is one callback (all run on the one
  thread of the module), and the log lists what happened so far, the newest first.
-/

namespace Verif.Catchup

/-- `commit_delay + max_sync_ahead`, `num_sync_retries`, `block_interval_ms / 2`, `max_sync_jobs`
    (modules/Node.vni:37-39; 0 for `max_sync_jobs` is a division by zero in Node.cpp:628) and
    `max_future_sync * block_interval_ms` (modules/Node.vni:47). -/
structure Cfg where
  ahead : Nat
  retries : Nat
  pause : Nat
  jobs : Nat
  future : Nat

/-- What is outside of the modelled part during one callback: the time in milliseconds, the height of
    the root at the call of `sync_more`, and the limit of pending requests, which depends on the sizes
    of the blocks by floating point numbers (Node.cpp:563, 618-621). -/
structure World where
  now : Nat
  root : Nat
  slots : Nat

/-- What `update` finds before it comes to the modelled part (Node_update.cpp:300-323): the heights of
    the fork line, the height of the peak and the commit delay chosen.  `none` stands for no peak. -/
structure View where
  line : List Nat
  peak : Nat
  delay : Nat

/-- A block in an answer: its time stamp, and whether its predecessor is known (`find_prev`). -/
structure Block where
  time : Nat
  linked : Bool
  deriving DecidableEq, Repr

/-- What happened.  `start`: `start_sync` is called, and not ignored; `began h`: a sync starts at height
    `h`; `asked h`: the router is asked for the blocks at `h`, at the given height of the root;
    `got h n`: the router gave `n` blocks that are not too far in the future; `failed h`: the call failed; `reached h now`: another pass starts below the peak `h`;
    `done h`: the node is in sync, with the peak at `h`; `commit h`: a block at `h` is committed before
    that, `late h`: afterwards. -/
inductive Ev
  | start
  | began (h : Nat)
  | asked (h root : Nat)
  | got (h n : Nat)
  | failed (h : Nat)
  | reached (h now : Nat)
  | done (h : Nat)
  | commit (h : Nat)
  | late (h : Nat)
  deriving DecidableEq, Repr

/-- `is_synced`, `sync_pos`, `sync_start`, `sync_retry`, `sync_finish_ms`, `sync_pending`, `sync_peak`
    (Node.h:540, 558-565); `open` are the heights of the calls of `get_blocks_at` that did not return.
    Heights are natural numbers: no wrap at 2^32. -/
structure St where
  synced : Bool := false
  pos : Nat := 0
  start : Nat := 0
  retry : Nat := 0
  finish : Nat := 0
  peak : Option Nat := none
  pending : List Nat := []
  open_ : List Nat := []
  log : List Ev := []
  deriving DecidableEq, Repr

/-- `std::set::insert`. -/
def ins (h : Nat) (l : List Nat) : List Nat := if h ∈ l then l else h :: l

/-- `std::set::erase`. -/
def del (h : Nat) (l : List Nat) : List Nat := l.filter (· != h)

/-- `Node::sync_height` (Node.cpp:570-580). -/
def ask (root h : Nat) (s : St) : St :=
  { s with pending := ins h s.pending, open_ := h :: s.open_, log := .asked h root :: s.log }

/-- Whether `sync_pos` is below the peak, if there is one (Node.cpp:565). -/
def below (s : St) : Bool :=
  match s.peak with
  | none => true
  | some p => decide (s.pos < p)

/-- The loop of `sync_more` (Node.cpp:565-567), with a bound on the number of rounds. -/
def loop (w : World) : Nat → St → St
  | 0, s => s
  | n + 1, s =>
    if s.pending.length < w.slots && below s then
      loop w n { ask w.root s.pos s with pos := s.pos + 1 }
    else s

/-- The start of a sync (Node.cpp:555-559). -/
def begin_ (w : World) (s : St) : St :=
  if s.pos = 0 then
    { s with pos := w.root + 1, start := w.root + 1, log := .began (w.root + 1) :: s.log }
  else s

/-- "limit blocks in memory during sync" (Node.cpp:560). -/
def held (cfg : Cfg) (w : World) (s : St) : Bool := decide (w.root + cfg.ahead < s.pos)

/-- `Node::sync_more` (Node.cpp:548-568).  Each round of the loop adds a height to those pending, or
    passes one of them: `C130_loop` shows that the bound on the rounds is never reached. -/
def more (cfg : Cfg) (w : World) (s : St) : St :=
  if s.synced then s
  else
    let s1 := begin_ w s
    if held cfg w s1 then s1 else loop w (w.slots + s1.pending.length) s1

/-- `Node::start_sync` (Node.cpp:523-536). -/
def startSync (cfg : Cfg) (w : World) (doSync force : Bool) (s : St) : St :=
  if (!s.synced || !doSync) && !force then s
  else more cfg w { s with synced := false, pos := 0, peak := none, retry := 0, log := .start :: s.log }

/-- Whether a block of the fork line is committed (Node_update.cpp:327-329). -/
def commits (v : View) (s : St) (h : Nat) : Bool :=
  decide (h + v.delay ≤ v.peak) && !s.pending.contains h && (s.synced || decide (h < s.pos))

/-- The record of a commit. -/
def record (synced : Bool) (h : Nat) : Ev := if synced then .late h else .commit h

/-- "commit to disk" (Node_update.cpp:325-335). -/
def commit (v : View) (s : St) : St :=
  { s with log := ((v.line.takeWhile (commits v s)).map (record s.synced)).reverse ++ s.log }

/-- The end of a pass (Node_update.cpp:376-390).  `sync_peak - 1` is at least 0 as no call is made for
    height 0 (`C130_positive`). -/
def finish (cfg : Cfg) (w : World) (v : View) (s : St) : St :=
  match s.peak with
  | none => s
  | some p =>
    if !s.synced && s.pending.isEmpty then
      if s.retry < cfg.retries then
        if s.finish + cfg.pause < w.now then
          { s with
            pos := p - 1, peak := none, finish := w.now, retry := s.retry + 1
            log := .reached p w.now :: s.log }
        else s
      else { s with synced := true, log := .done v.peak :: s.log }
    else s

/-- The part of `Node::update` on syncing (Node_update.cpp:300-395). -/
def update (cfg : Cfg) (w : World) (v : Option View) (s : St) : St :=
  match v with
  | none => s
  | some v => more cfg w (finish cfg w v (commit v s))

/-- One block of an answer at the start of a sync (Node.cpp:607-616). -/
def back (w : World) (s : St) (b : Block) : St :=
  if !b.linked && decide (1 < s.start) then ask w.root (s.start - 1) { s with start := s.start - 1 }
  else s

/-- "walk back in case we missed blocks before" (Node.cpp:606-617). -/
def walk (w : World) (h : Nat) (bs : List Block) (s : St) : St :=
  if h = s.start then bs.foldl (back w) s else s

/-- The lowest height without blocks is the peak (Node.cpp:623-627). -/
def lower (h : Nat) (bs : List Block) (s : St) : St :=
  match bs, s.peak with
  | [], none => { s with peak := some h }
  | [], some p => if h < p then { s with peak := some h } else s
  | _ :: _, _ => s

/-- What follows an answer (Node.cpp:622-633). -/
def next (cfg : Cfg) (w : World) (v : Option View) (h : Nat) (bs : List Block) (s : St) : St :=
  if s.synced then s
  else
    let s1 := lower h bs s
    if (h % cfg.jobs == 0 || s1.pending.isEmpty) && s1.retry == 0 then update cfg w v s1
    else more cfg w s1

/-- The blocks that are not too far in the future (Node.cpp:586-598). -/
def timely (cfg : Cfg) (w : World) (bs : List Block) : List Block :=
  bs.filter fun b => decide (b.time < w.now + cfg.future)

/-- The call is over. -/
def close (h : Nat) (s : St) : St := { s with pending := del h s.pending, open_ := s.open_.erase h }

/-- `Node::sync_result` (Node.cpp:582-634) for a call that did not return before.  `add_block` is not
    modelled, except that it decides what `find_prev` finds. -/
def result (cfg : Cfg) (w : World) (v : Option View) (h : Nat) (bs : List Block) (s : St) : St :=
  if h ∈ s.open_ then
    let bs := timely cfg w bs
    let s1 := close h s
    next cfg w v h bs (walk w h bs { s1 with log := .got h bs.length :: s1.log })
  else s

/-- The error case of `get_blocks_at` (Node.cpp:575-579). -/
def fail (h : Nat) (s : St) : St :=
  if h ∈ s.open_ then
    let s1 := close h s
    { s1 with pos := min s1.pos h, log := .failed h :: s1.log }
  else s

/-- One callback. -/
inductive Op
  | start (w : World) (doSync force : Bool)
  | result (w : World) (v : Option View) (h : Nat) (bs : List Block)
  | fail (h : Nat)
  | update (w : World) (v : Option View)

def step (cfg : Cfg) (s : St) : Op → St
  | .start w d f => startSync cfg w d f s
  | .result w v h bs => result cfg w v h bs s
  | .fail h => fail h s
  | .update w v => update cfg w v s

/-- The state after a sequence of callbacks.  `b` says that the node starts without syncing
    (Node.cpp:265-269). -/
def run (cfg : Cfg) (b : Bool) (ops : List Op) : St := ops.foldl (step cfg) { synced := b }

end Verif.Catchup
