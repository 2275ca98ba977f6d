/-
  Properties of catching up with the network: C128 to C131.
-/
import Verif.Catchup.Found

namespace Verif.Catchup

/-! ### Example worlds -/

/-- The defaults, with less of everything. -/
def exCfg : Cfg := { ahead := 6, retries := 2, pause := 10, jobs := 4, future := 100 }

def wld (now root slots : Nat) : World := { now := now, root := root, slots := slots }

def good : List Block := [{ time := 1, linked := true }]
def orphan : List Block := [{ time := 1, linked := false }]

/-- A sync from root 100 with blocks at 101 to 103 only; 3 calls at a time, the answers in any order. -/
def exOps : List Op :=
  [.start (wld 0 100 3) false true, .result (wld 1 100 3) none 102 good, .result (wld 2 100 3) none 101 good,
    .result (wld 3 100 3) none 104 [], .result (wld 4 100 3) none 105 [], .result (wld 5 100 3) none 103 good,
    .update (wld 20 100 3) (some ⟨[101, 102, 103], 103, 1⟩), .result (wld 21 102 3) none 104 [],
    .result (wld 22 102 3) none 105 [], .result (wld 23 102 3) none 103 good,
    .update (wld 40 102 3) (some ⟨[103], 103, 1⟩), .result (wld 41 102 3) none 104 [], .result (wld 42 102 3) none 103 good,
    .result (wld 43 102 3) none 105 [], .update (wld 60 102 3) (some ⟨[103], 103, 1⟩)]

/-- The call for 101 fails after a height without blocks was found. -/
def badOps : List Op :=
  [.start (wld 0 100 3) false true, .result (wld 1 100 3) none 103 [], .result (wld 2 100 3) none 102 good,
    .fail 101, .update (wld 20 100 3) (some ⟨[], 100, 1⟩), .result (wld 21 100 3) none 103 [],
    .result (wld 22 100 3) none 102 good, .result (wld 22 100 3) none 104 [],
    .update (wld 40 100 3) (some ⟨[101], 102, 1⟩), .result (wld 41 100 3) none 103 [],
    .result (wld 42 100 3) none 102 good, .result (wld 42 100 3) none 104 [], .update (wld 60 102 3) (some ⟨[], 102, 1⟩)]

/-- A sync starts over at root 50 while calls of the one before are open. -/
def staleOps : List Op :=
  [.start (wld 0 100 3) false true, .start (wld 1 50 3) false true, .result (wld 2 50 3) none 103 [],
    .result (wld 3 50 3) none 102 good, .result (wld 4 50 3) none 101 good]
  ++ [51, 52, 53, 54, 55, 56, 57].map (fun h => .result (wld 5 50 3) none h good)
  ++ [.update (wld 20 50 3) (some ⟨[], 57, 1⟩), .update (wld 21 97 3) (some ⟨[], 57, 1⟩)]

/-! ### C128 -/

/-- C128: the heights asked for since the sync began have no gap: all from the start of the sync up to the
    highest, and all below the start down to the lowest.  Partial: only as long as no call fails and none
    is open from before (`C128_gap`). -/
theorem C128_no_gap_partial (cfg : Cfg) (b : Bool) (ops : List Op) (f : Nat) (l : List Ev)
    (hl : (run cfg b ops).log = l) (hf : origin l = some f) (hc : Clean l) (g : Nat) (hg : Asked g (since l)) (h : Nat)
    (hh : f ≤ h ∧ h ≤ g ∨ g ≤ h ∧ h < f) : Asked h (since l) := by
  obtain ⟨M, hM⟩ := run_bound ops
  subst hl
  have c := (run_inv cfg M b ops hM).during f hf hc
  rcases hh with k | k
  · exact c.up g hg h k.1 k.2
  · exact c.down g hg h k.1 k.2

/-- C128: an answer for a height is heard only if there was a call for it: there are never more answers
    and failures than calls. -/
theorem C128_calls (cfg : Cfg) (b : Bool) (ops : List Op) (l1 l2 : List Ev) (h : Nat)
    (hl : (∃ n, (run cfg b ops).log = l1 ++ .got h n :: l2) ∨ (run cfg b ops).log = l1 ++ .failed h :: l2) :
    0 < calls h l2 := by
  have e := run_right cfg b ops
  rcases hl with ⟨n, hl⟩ | hl
  · rw [hl] at e; exact Each.split e
  · rw [hl] at e; exact Each.split e

/-- C128: with calls open from an earlier sync, and the limit on blocks in memory, a pass ends early and
    the next starts above heights that nobody asked for: 103 is asked for, 58 never is. -/
theorem C128_gap : ∃ ops : List Op, origin (run exCfg false ops).log = some 51 ∧
    (.asked 103 97 ∈ since (run exCfg false ops).log) ∧ ∀ r, .asked 58 r ∉ (run exCfg false ops).log := by
  refine ⟨staleOps, by decide +kernel, by decide +kernel, fun r h => ?_⟩
  have : ∀ e ∈ (run exCfg false staleOps).log, (match e with | .asked h _ => h != 58 | _ => true) = true := by
    decide +kernel
  exact absurd (show (58 != 58) = true from this _ h) (by decide)

/-! ### C129 -/

/-- C129: while the node syncs, a block at or above the start of the sync is committed only after an answer
    for its height.  Partial: only as long as no call fails and none is open from before (`C129_unanswered`). -/
theorem C129_commit_partial (cfg : Cfg) (b : Bool) (ops : List Op) (l1 l2 : List Ev) (h f : Nat)
    (hl : (run cfg b ops).log = l1 ++ .commit h :: l2) (hf : origin l2 = some f) (hc : Clean l2) (hh : f ≤ h) :
    Got h (since l2) := by
  obtain ⟨M, hM⟩ := run_bound ops
  have e := (run_inv cfg M b ops hM).gi.each
  rw [hl] at e
  exact Each.split e f hf hc hh

/-- C129: a commit is recorded as one during a sync exactly if the node is not in sync. -/
theorem C129_when (cfg : Cfg) (b : Bool) (ops : List Op) (l1 l2 : List Ev) (h : Nat) :
    ((run cfg b ops).log = l1 ++ .commit h :: l2 → inSync b l2 = false) ∧
    ((run cfg b ops).log = l1 ++ .late h :: l2 → inSync b l2 = true) := by
  have e := run_right cfg b ops
  constructor
  · intro hl
    rw [hl] at e
    exact Each.split e
  · intro hl
    rw [hl] at e
    exact Each.split e

/-- C129: after the call for 101 failed its block is committed although there was never an answer. -/
theorem C129_unanswered : ∃ (ops : List Op) (l1 l2 : List Ev),
    (run exCfg false ops).log = l1 ++ .commit 101 :: l2 ∧ origin l2 = some 101 ∧ ∀ n, .got 101 n ∉ l2 := by
  let l := (run exCfg false badOps).log
  refine ⟨badOps, l.takeWhile (fun e => e != .commit 101), (l.dropWhile (fun e => e != .commit 101)).drop 1,
    by decide +kernel, by decide +kernel, fun n h => ?_⟩
  have : ∀ e ∈ (l.dropWhile (fun e => e != .commit 101)).drop 1, (match e with | .got h _ => h != 101 | _ => true) = true := by
    decide +kernel
  exact absurd (show (101 != 101) = true from this _ h) (by decide)

/-! ### C130 -/

/-- C130: the node takes itself to be in sync only after the configured number of passes since the sync was
    started, and a height for which the network has no blocks in the latest of them. -/
theorem C130_done (cfg : Cfg) (b : Bool) (ops : List Op) (l1 l2 : List Ev) (h : Nat)
    (hl : (run cfg b ops).log = l1 ++ .done h :: l2) :
    cfg.retries ≤ passes l2 ∧ ∃ p, .got p 0 ∈ pass l2 := by
  obtain ⟨M, hM⟩ := run_bound ops
  have e := (run_inv cfg M b ops hM).gi.each
  rw [hl] at e
  obtain ⟨h1, p, h2, _⟩ := Each.split e
  exact ⟨h1, p, h2⟩

/-- C130: when the node takes itself to be in sync, all heights from the start of the sync to one without
    blocks were answered.  Partial: only as long as no call fails and none is open from before
    (`C130_hole`). -/
theorem C130_complete_partial (cfg : Cfg) (b : Bool) (ops : List Op) (l1 l2 : List Ev) (h f : Nat)
    (hl : (run cfg b ops).log = l1 ++ .done h :: l2) (hf : origin l2 = some f) (hc : Clean l2) :
    ∃ p, .got p 0 ∈ pass l2 ∧ ∀ g, f ≤ g → g ≤ p → Got g (since l2) := by
  obtain ⟨M, hM⟩ := run_bound ops
  have e := (run_inv cfg M b ops hM).gi.each
  rw [hl] at e
  obtain ⟨_, p, h2, h3⟩ := Each.split e
  exact ⟨p, h2, h3 f hf hc⟩

/-- C130: a pass ends at a height without blocks, more than the pause after the one before. -/
theorem C130_pause (cfg : Cfg) (b : Bool) (ops : List Op) (l1 l2 : List Ev) (p t : Nat)
    (hl : (run cfg b ops).log = l1 ++ .reached p t :: l2) :
    lastPass l2 + cfg.pause < t ∧ .got p 0 ∈ pass l2 := by
  obtain ⟨M, hM⟩ := run_bound ops
  have e := (run_inv cfg M b ops hM).gi.each
  rw [hl] at e
  exact Each.split e

/-- C130: the flag is what the log says, so the node is in sync only after one of these events, or if
    it started without syncing. -/
theorem C130_flag (cfg : Cfg) (b : Bool) (ops : List Op) :
    (run cfg b ops).synced = inSync b (run cfg b ops).log := by
  obtain ⟨M, hM⟩ := run_bound ops
  exact (run_inv cfg M b ops hM).gi.sync

/-- C130: height 0 is never asked for. -/
theorem C130_positive (cfg : Cfg) (b : Bool) (ops : List Op) (h r : Nat) (hl : .asked h r ∈ (run cfg b ops).log) :
    0 < h := by
  obtain ⟨M, hM⟩ := run_bound ops
  obtain ⟨l1, l2, e2⟩ := List.append_of_mem hl
  have e := (run_inv cfg M b ops hM).gi.each
  rw [e2] at e
  exact (Each.split e).1

/-- C130: the loop of `sync_more` ends by itself within the bound on its rounds: when it is over, the
    condition to go on does not hold. -/
theorem C130_loop (cfg : Cfg) (w : World) (s : St) (hs : s.synced = false) (hh : held cfg w (begin_ w s) = false) :
    ¬ ((more cfg w s).pending.length < w.slots ∧ ∀ p, (more cfg w s).peak = some p → (more cfg w s).pos < p) := by
  unfold more
  rw [if_neg (by rw [hs]; decide)]
  dsimp only
  rw [if_neg (by rw [hh]; decide)]
  intro k
  refine loop_ends (w := w) _ (left_le w (begin_ w s)) ?_
  rw [Bool.and_eq_true]
  refine ⟨decide_eq_true k.1, ?_⟩
  unfold below
  cases hp : (loop w _ _).peak with
  | none => rfl
  | some p => exact decide_eq_true (k.2 p hp)

/-- C130: with a failed call the node takes itself to be in sync, after all its passes, although there was
    never an answer for 101. -/
theorem C130_hole : ∃ (ops : List Op), inSync false (run exCfg false ops).log = true ∧
    origin (run exCfg false ops).log = some 101 ∧ ∀ n, .got 101 n ∉ (run exCfg false ops).log := by
  refine ⟨badOps, by decide +kernel, by decide +kernel, fun n h => ?_⟩
  have : ∀ e ∈ (run exCfg false badOps).log, (match e with | .got h _ => h != 101 | _ => true) = true := by
    decide +kernel
  exact absurd (show (101 != 101) = true from this _ h) (by decide)

/-! ### C131 -/

/-- C131: no height is asked for that is further ahead of the root than the limit and the calls that may be
    open at once.  Partial: only as long as no call fails and none is open from before, and not for the
    heights below the start of the sync. -/
theorem C131_ahead_partial (cfg : Cfg) (b : Bool) (ops : List Op) (M : Nat) (hM : ∀ op ∈ ops, op.slots ≤ M)
    (l1 l2 : List Ev) (h r f : Nat) (hl : (run cfg b ops).log = l1 ++ .asked h r :: l2) (hf : origin l2 = some f)
    (hc : Clean l2) (hh : f ≤ h) : h < r + cfg.ahead + M := by
  have e := (run_inv cfg M b ops hM).gi.each
  rw [hl] at e
  exact (Each.split e).2 f hf hc hh

/-- C131: syncing goes on: after every update the node is in sync, or waits for an answer, or has reached
    the limit ahead of the root, or has found a height without blocks in this pass. -/
theorem C131_goes_on (cfg : Cfg) (b : Bool) (ops : List Op) (w : World) (v : View) (hw : 0 < w.slots) (l : List Ev)
    (hl : (run cfg b (ops ++ [.update w (some v)])).log = l) :
    inSync b l = true ∨ (∃ h, 0 < calls h l) ∨ (∃ h, w.root + cfg.ahead ≤ h ∧ (Asked h l ∨ Got h l ∨ .began (h + 1) ∈ l)) ∨
      ∃ p, .got p 0 ∈ pass l := by
  subst hl
  obtain ⟨M, hM⟩ := run_bound (ops ++ [.update w (some v)])
  have i := (run_inv cfg M b _ hM).gi
  have pl := run_placed cfg b (ops ++ [.update w (some v)])
  have e : run cfg b (ops ++ [.update w (some v)]) = more cfg w (finish cfg w v (commit v (run cfg b ops))) := by
    unfold run
    rw [List.foldl_append]
    rfl
  rw [e] at i pl ⊢
  generalize finish cfg w v (commit v (run cfg b ops)) = t at i pl
  by_cases hs : t.synced = true
  · left
    rw [← i.sync]
    unfold more
    rw [if_pos hs, hs]
  · have hs : t.synced = false := by cases q : t.synced <;> simp_all
    rcases more_goes (cfg := cfg) (w := w) hs hw with k | k | ⟨p, k⟩
    · right; left
      cases hp : (more cfg w t).pending with
      | nil => exact absurd hp k
      | cons x _ =>
        refine ⟨x, ?_⟩
        rw [i.open_ x]
        exact List.count_pos_iff.2 (i.sub x (by rw [hp]; exact List.mem_cons_self))
    · right; right; left
      rcases pl with z | ⟨f, z1, z2⟩ | ⟨x, z1, z2⟩
      · omega
      · exact ⟨f - 1, by omega, .inr (.inr (by rw [show f - 1 + 1 = f from by omega]; exact z1))⟩
      · exact ⟨x, by omega, z1.elim .inl fun q => .inr (.inl q)⟩
    · right; right; right
      exact ⟨p, (i.peak p k).1⟩

/-- C131: a pass ends: once all calls returned, a height without blocks was found and the pause is over,
    the next update starts another pass, or puts the node in sync if there were enough of them. -/
theorem C131_ends (cfg : Cfg) (b : Bool) (ops : List Op) (w : World) (v : View) (l : List Ev)
    (hl : (run cfg b ops).log = l) (hs : inSync b l = false) (hq : Still l) (hp : ∃ p, .got p 0 ∈ pass l) :
    ∃ l', (run cfg b (ops ++ [.update w (some v)])).log = l' ++ l ∧
      (cfg.retries ≤ passes l → .done v.peak ∈ l') ∧
      (passes l < cfg.retries → lastPass l + cfg.pause < w.now → ∃ p, .reached p w.now ∈ l') := by
  subst hl
  obtain ⟨M, hM⟩ := run_bound ops
  have i := (run_inv cfg M b _ hM).gi
  have hs : (run cfg b ops).synced = false := by rw [i.sync]; exact hs
  have e : run cfg b (ops ++ [.update w (some v)]) = more cfg w (finish cfg w v (commit v (run cfg b ops))) := by
    unfold run
    rw [List.foldl_append]
    rfl
  rw [e]
  obtain ⟨p0, hp0⟩ := hp
  have hk := run_finds cfg b ops hs p0 hp0
  generalize run cfg b ops = s at i hs hk hq
  have hpe : s.pending = [] := by
    rw [List.eq_nil_iff_forall_not_mem]
    intro x hx
    have h1 := List.count_pos_iff.2 (i.sub x hx)
    rw [← i.open_ x, hq x] at h1
    omega
  obtain ⟨p, hpk⟩ : ∃ p, s.peak = some p := by
    cases z : s.peak with
    | none => exact absurd z hk
    | some p => exact ⟨p, rfl⟩
  obtain ⟨lm, hm⟩ := more_adds cfg w (finish cfg w v (commit v s))
  rw [hm]
  unfold finish
  have c1 : (commit v s).peak = some p := hpk
  rw [c1]
  dsimp only
  rw [if_pos (by show (!s.synced && s.pending.isEmpty) = true; rw [hs, hpe]; rfl)]
  have hr := i.retry
  have hfi := i.finish
  by_cases k : (commit v s).retry < cfg.retries
  · rw [if_pos k]
    have k : s.retry < cfg.retries := k
    by_cases k2 : (commit v s).finish + cfg.pause < w.now
    · rw [if_pos k2]
      refine ⟨lm ++ .reached p w.now :: ((v.line.takeWhile (commits v s)).map (record s.synced)).reverse, ?_, ?_, ?_⟩
      · show lm ++ .reached p w.now :: (_ ++ s.log) = _
        simp only [List.append_assoc, List.cons_append]
      · intro z; rw [hr] at k; omega
      · exact fun _ _ => ⟨p, List.mem_append_right _ List.mem_cons_self⟩
    · rw [if_neg k2]
      have k2 : ¬ s.finish + cfg.pause < w.now := k2
      refine ⟨lm ++ ((v.line.takeWhile (commits v s)).map (record s.synced)).reverse, ?_, ?_, ?_⟩
      · show lm ++ (_ ++ s.log) = _
        simp only [List.append_assoc]
      · intro z; rw [hr] at k; omega
      · intro _ z; rw [hfi] at k2; exact absurd z k2
  · rw [if_neg k]
    have k : ¬ s.retry < cfg.retries := k
    refine ⟨lm ++ .done v.peak :: ((v.line.takeWhile (commits v s)).map (record s.synced)).reverse, ?_, ?_, ?_⟩
    · show lm ++ .done v.peak :: (_ ++ s.log) = _
      simp only [List.append_assoc, List.cons_append]
    · exact fun _ => List.mem_append_right _ List.mem_cons_self
    · intro z; rw [hr] at k; omega

/-! ### Examples -/

/-- A whole sync: two passes, heights from 101 to 105 asked for, 101 to 103 committed on the way. -/
example : (run exCfg false exOps).log =
    [.done 103, .got 105 0, .got 103 1, .got 104 0, .asked 105 102, .asked 104 102, .asked 103 102, .reached 104 40,
      .got 103 1, .got 105 0, .got 104 0, .asked 105 100, .asked 104 100, .asked 103 100, .reached 104 20,
      .commit 102, .commit 101, .got 103 1, .got 105 0, .got 104 0,
      .asked 105 100, .got 101 1, .asked 104 100, .got 102 1, .asked 103 100, .asked 102 100, .asked 101 100,
      .began 101, .start] := by
  decide +kernel

/-- The hypotheses of the theorems are met by that log: when 101 is committed, and at the end. -/
example : ∃ l1 l2, (run exCfg false exOps).log = l1 ++ .commit 101 :: l2 ∧ origin l2 = some 101 ∧ Clean l2 :=
  ⟨(run exCfg false exOps).log.take 16, (run exCfg false exOps).log.drop 17, by decide +kernel, by decide +kernel,
    clean_of (by decide +kernel)⟩

example : ∃ l, (run exCfg false exOps).log = .done 103 :: l ∧ origin l = some 101 ∧ Clean l ∧ Still l ∧
    passes l = 2 ∧ inSync false l = false ∧ .got 104 0 ∈ pass l :=
  ⟨(run exCfg false exOps).log.drop 1, by decide +kernel, by decide +kernel, clean_of (by decide +kernel),
    still_of (by decide +kernel), by decide +kernel, by decide +kernel, by decide +kernel⟩

/-- The first block does not fit what the node has: heights below the start are asked for, one by one. -/
example : (run exCfg false [.start (wld 0 100 1) false true, .result (wld 1 100 1) (some ⟨[], 100, 1⟩) 101 orphan,
    .result (wld 2 100 1) (some ⟨[], 100, 1⟩) 100 orphan, .result (wld 3 100 1) (some ⟨[], 100, 1⟩) 99 good]).log =
    [.asked 102 100, .got 99 1, .asked 99 100, .got 100 1, .asked 100 100, .got 101 1, .asked 101 100, .began 101, .start] := by
  decide +kernel

/-- Blocks too far in the future do not count. -/
example : (run exCfg false [.start (wld 0 100 1) false true,
    .result (wld 1 100 1) (some ⟨[], 100, 1⟩) 101 [{ time := 101, linked := true }, { time := 100, linked := true }]]).log =
    [.asked 102 100, .got 101 1, .asked 101 100, .began 101, .start] := by
  decide +kernel

/-- The limit ahead of the root: with 6 ahead of 100 and one call at a time, 106 is the last height. -/
example : (run exCfg false (.start (wld 0 100 1) false true ::
    [101, 102, 103, 104, 105, 106].map fun h => .result (wld 1 100 1) (some ⟨[], 100, 1⟩) h good)).log.head? = some (.got 106 1) := by
  decide +kernel

end Verif.Catchup
