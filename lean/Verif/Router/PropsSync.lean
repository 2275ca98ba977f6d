/-
  Properties of the requests for blocks: C124 to C127.
-/
import Verif.Router.SyncStall

namespace Verif.Router.Sync

/-! ### C124: what `get_blocks_at` gives is valid and agreed on by enough peers -/

/-- Every block given is valid and came in a return to a request made for it, and no two have the
    same content hash. -/
theorem C124_valid (cfg : Cfg) (ops : List Op) (l1 l2 : List Ev) (rid : Nat) (bs : List Block)
    (h : (run cfg ops).log = l1 ++ .blocks rid bs :: l2) :
    (∀ b ∈ bs, b.valid = true ∧ ∃ c, Answered rid c (.block (some b)) l2) ∧ (bs.map (·.hash)).Nodup := by
  have k : Backed cfg rid bs l2 := Each.split (h ▸ (si_run cfg ops).each)
  exact ⟨k.valid, k.nodup⟩

/-- Missing for the full property: `min_sync_peers` different peers, and that the returns came from
    the peers that were asked (`C124_one_peer`, `C124_counted_twice`).

    At least half of `min_sync_peers` different peers were asked and their requests were answered,
    and what was said is in the result: none, or the block named, or the block sent if valid. -/
theorem C124_agreed_partial (cfg : Cfg) (ops : List Op) (l1 l2 : List Ev) (rid : Nat) (bs : List Block)
    (h : (run cfg ops).log = l1 ++ .blocks rid bs :: l2) :
    ∃ d : List Client, d.Nodup ∧ cfg.minPeers ≤ 2 * d.length ∧
      ∀ c ∈ d, ∃ r, Answered rid c r l2 ∧ Covers bs r := by
  have k : Backed cfg rid bs l2 := Each.split (h ▸ (si_run cfg ops).each)
  exact k.peers

/-- If every return came from the peer that was asked, those peers said it themselves. -/
theorem C124_themselves_partial (cfg : Cfg) (ops : List Op) (l1 l2 : List Ev) (rid : Nat) (bs : List Block)
    (h : (run cfg ops).log = l1 ++ .blocks rid bs :: l2) (ht : Tied (run cfg ops).log) :
    ∃ d : List Client, d.Nodup ∧ cfg.minPeers ≤ 2 * d.length ∧
      ∀ c ∈ d, ∃ a r, Answer c rid c a r l2 ∧ Covers bs r := by
  obtain ⟨d, h1, h2, h3⟩ := C124_agreed_partial cfg ops l1 l2 rid bs h
  refine ⟨d, h1, h2, ?_⟩
  intro c hc
  obtain ⟨r, ⟨src, a, q1, q2, now, id, e, hm⟩, hr⟩ := h3 c hc
  have : src = c := by
    refine ht (l1 ++ .blocks rid bs :: q1) q2 now src id r ?_ rid c a hm
    rw [h, e, List.append_assoc]; rfl
  subst this
  exact ⟨a, r, ⟨q1, q2, now, id, e, hm⟩, hr⟩

/-! ### C125: `get_blocks_at` comes to an end -/

/-- Missing for the full property: that the requests are answered with something that counts
    (`C125_stalled`).

    As long as a request for the blocks at a height is not answered and there are enough synced
    peers, an `update` leaves a request to a peer under way.  The update has to be later than the time
    for which a second request for the same block is held back. -/
theorem C125_goes_on_partial (cfg : Cfg) (ops : List Op) (w : World) (hw : Proper w) (T : Nat)
    (hT : ∀ op ∈ ops, op.time ≤ T) (hnow : T + cfg.timeout / 8 < w.now) (rid n t : Nat)
    (ho : .opened rid (.blocksAt n) t ∈ (run cfg (ops ++ [.update w])).log)
    (ha : answers rid (run cfg (ops ++ [.update w])).log = 0)
    (d : List Client) (hd : d.Nodup) (hl : ∀ c ∈ d, live c (run cfg (ops ++ [.update w])).log = true)
    (hm : cfg.minPeers ≤ d.length) :
    ∃ c, UnderWay rid c (run cfg (ops ++ [.update w])).log := by
  have e : run cfg (ops ++ [.update w]) = update cfg w (run cfg ops) := by
    unfold run; rw [List.foldl_append]; rfl
  have hs : SI cfg (run cfg (ops ++ [.update w])) := si_run cfg _
  obtain ⟨j, hj⟩ := open_job hs ho ha
  have hd' : ∀ c ∈ d, c ∈ (run cfg (ops ++ [.update w])).synced := fun c hc => (hs.live c).1 (hl c hc)
  rw [e] at hj hd' ⊢
  have k := si_run cfg ops
  have k1 := si_expireFetches (si_expireJobs k w.now) w.now
  have k2 := ks_expire (ks_run (cfg := cfg) ops hT) w.now
  have hT' : T ≤ w.now := by omega
  have k3 : KS cfg w.now (expireFetches cfg w.now (expireJobs cfg w.now (run cfg ops))) := fun e he =>
    (k2 e he).mono (.refl _) (Nat.le_refl _) hT'
  have k4 := ks_process k1 w (Nat.le_refl _) none (fun _ _ _ _ _ k => (nomatch k))
    (fun _ _ _ _ _ k => (nomatch k)) k3
  have hp := k4.2 T hw hnow rfl k2 d hd hd' hm (rid, j) hj
  have hki := k4.1 (rid, j) hj
  cases hc : j.pending with
  | nil => exact absurd hc hp
  | cons c l =>
    obtain ⟨id, hid⟩ := hki.pend c (by rw [hc]; exact List.mem_cons_self)
    obtain ⟨l1, l2, a, h1, h2⟩ := hki.out id c hid
    exact ⟨c, l1, l2, id, a, h1, h2⟩

/-- The full property is false: once `min_sync_peers + 3` synced peers named a hash and are not
    counted, and from then on all returns are exceptions, the request is never answered and no
    further peer is counted, however many other peers are synced, and with the timeout never reached. -/
theorem C125_stalled (cfg : Cfg) (ops ops' : List Op) (rid : Nat) (j : Job)
    (hj : (rid, j) ∈ (run cfg ops).jobs) (hf : Full cfg (run cfg ops).synced j)
    (hc : calm cfg (run cfg ops) ops' = true) :
    answers rid (run cfg (ops ++ ops')).log = 0 ∧
    ∃ j', (rid, j') ∈ (run cfg (ops ++ ops')).jobs ∧ j'.returns = j.returns := by
  obtain ⟨j', h1, h2⟩ := calm_run ops' hc hj hf
  have e : run cfg (ops ++ ops') = ops'.foldl (step cfg) (run cfg ops) := by
    unfold run; rw [List.foldl_append]
  rw [← e] at h1
  refine ⟨?_, j', h1, ?_⟩
  · have hs := (si_run cfg (ops ++ ops')).count rid
    have : opens rid (run cfg (ops ++ ops')).jobs ≠ 0 := by
      intro z
      have : ∀ (l : List (Nat × Job)), (rid, j') ∈ l → opens rid l ≠ 0 := by
        intro l
        induction l with
        | nil => exact fun k => (nomatch k)
        | cons e l ih =>
          intro k
          rw [opens_cons]
          rcases List.mem_cons.1 k with q | q
          · rw [← q, if_pos rfl]; omega
          · have := ih q; omega
      exact this _ h1 z
    by_cases z : rid < (run cfg (ops ++ ops')).rid
    · rw [if_pos z] at hs; omega
    · rw [if_neg z] at hs; omega
  · unfold Job.returns; rw [h2.failed, h2.succeeded]

/-! ### C126: every request of the node is answered once -/

/-- No request gets two answers. -/
theorem C126_once (cfg : Cfg) (ops : List Op) (rid : Nat) : answers rid (run cfg ops).log ≤ 1 := by
  have h := (si_run cfg ops).count rid
  by_cases k : rid < (run cfg ops).rid
  · rw [if_pos k] at h; omega
  · rw [if_neg k] at h; omega

/-- Only requests that were made are answered. -/
theorem C126_made (cfg : Cfg) (ops : List Op) (rid : Nat) (h : answers rid (run cfg ops).log ≠ 0) :
    ∃ q t, .opened rid q t ∈ (run cfg ops).log := by
  have k := (si_run cfg ops).count rid
  by_cases q : rid < (run cfg ops).rid
  · exact made_run cfg ops rid q
  · rw [if_neg q] at k; omega

/-- A fetch that is not answered after an `update` was made, or got a return, within the last
    `fetch_timeout_ms`. -/
theorem C126_in_time (cfg : Cfg) (ops : List Op) (w : World) (rid t : Nat) (q : Query)
    (hq : ∀ n, q ≠ .blocksAt n) (ho : .opened rid q t ∈ (run cfg ops).log)
    (ha : answers rid (run cfg (ops ++ [.update w])).log = 0) :
    w.now ≤ t + cfg.timeout ∨ ∃ t' src id r c a, .reply t' src id r ∈ (run cfg ops).log ∧
      .asked rid id c a ∈ (run cfg ops).log ∧ w.now ≤ t' + cfg.timeout := by
  have e : run cfg (ops ++ [.update w]) = update cfg w (run cfg ops) := by
    unfold run; rw [List.foldl_append]; rfl
  rw [e] at ha
  have hs := si_run cfg ops
  obtain ⟨h1, h2⟩ := update_suffix hs w
  have ha' : answers rid (expireFetches cfg w.now (expireJobs cfg w.now (run cfg ops))).log = 0 := by
    obtain ⟨g, hg⟩ := h2
    have := answers_suffix rid g (expireFetches cfg w.now (expireJobs cfg w.now (run cfg ops))).log
    rw [hg] at this; omega
  obtain ⟨f, hf, hfq, hft⟩ := open_fetch (si_expireFetches (si_expireJobs hs w.now) w.now)
    (h1.subset ho) hq ha'
  have hf' : (rid, f) ∈ (expireJobs cfg w.now (run cfg ops)).fetches.filter
    fun e => !e.2.late cfg w.now := hf
  rw [expireJobs_fetches, List.mem_filter] at hf'
  have hl : max f.start f.last + cfg.timeout ≥ w.now := by
    have := hf'.2
    simp [Fetch.late] at this
    omega
  by_cases k : w.now ≤ t + cfg.timeout
  · exact .inl k
  · right
    rcases (hs.fetches _ hf'.1).last with z | ⟨src, id, r, c, a, z1, z2⟩
    · rw [z, hft] at hl; omega
    · refine ⟨f.last, src, id, r, c, a, z1, z2, ?_⟩
      rw [hft] at hl; omega

/-! ### C127: `fetch_block` gives the block that was asked for -/

/-- A block given for a hash came in a return to a request for that hash. -/
theorem C127_block_partial (cfg : Cfg) (ops : List Op) (l1 l2 : List Ev) (rid : Nat) (b : Block)
    (h : (run cfg ops).log = l1 ++ .block rid (some b) :: l2) (k : Hash) (p : Bool) (t : Nat)
    (ho : .opened rid (.block k p) t ∈ (run cfg ops).log) :
    ∃ src c, Answer src rid c (.block k) (.block (some b)) l2 := by
  have hs := (si_run cfg ops).each
  obtain ⟨q, t', h1, h2⟩ : Known cfg (.block rid (some b)) l2 := Each.split (h ▸ hs)
  have h1' : .opened rid q t' ∈ (run cfg ops).log := by
    rw [h]; exact List.mem_append_right _ (List.mem_cons_of_mem _ h1)
  have := (opened_once hs ho h1').1
  subst this
  exact h2

/-- None is given, when no address was given, only if the requests to every synced peer were
    answered, each with something other than a block. -/
theorem C127_none_partial (cfg : Cfg) (ops : List Op) (l1 l2 : List Ev) (rid : Nat)
    (h : (run cfg ops).log = l1 ++ .block rid none :: l2) (k : Hash) (t : Nat)
    (ho : .opened rid (.block k false) t ∈ (run cfg ops).log) (c : Client) (hc : live c l2 = true) :
    ∃ r, Answered rid c r l2 ∧ ∀ b, r ≠ .block (some b) := by
  have hs := (si_run cfg ops).each
  obtain ⟨q, t', h1, h2⟩ : Known cfg (.block rid none) l2 := Each.split (h ▸ hs)
  have h1' : .opened rid q t' ∈ (run cfg ops).log := by
    rw [h]; exact List.mem_append_right _ (List.mem_cons_of_mem _ h1)
  have := (opened_once hs ho h1').1
  subst this
  exact h2 c hc

/-- What is given for an address and a height came in a return to a request for that height. -/
theorem C127_at_partial (cfg : Cfg) (ops : List Op) (l1 l2 : List Ev) (rid : Nat) (b : Option Block)
    (h : (run cfg ops).log = l1 ++ .block rid b :: l2) (n t : Nat)
    (ho : .opened rid (.blockAt n) t ∈ (run cfg ops).log) :
    ∃ src c, Answer src rid c (.blockAt n) (.blockAt b) l2 := by
  have hs := (si_run cfg ops).each
  obtain ⟨q, t', h1, h2⟩ : Known cfg (.block rid b) l2 := Each.split (h ▸ hs)
  have h1' : .opened rid q t' ∈ (run cfg ops).log := by
    rw [h]; exact List.mem_append_right _ (List.mem_cons_of_mem _ h1)
  have := (opened_once hs ho h1').1
  subst this
  cases b <;> exact h2

/-! ### Cases -/

/-- Time `now`; the first candidates are chosen; the address given is that of peer 1. -/
def at_ (now : Nat) : World := ⟨now, fun n l => l.take n, id, fun _ => some 1⟩

theorem at_proper (now : Nat) : Proper (at_ now) where
  sub := fun _ _ _ h => List.mem_of_mem_take h
  some := fun n l h k => by
    cases l with
    | nil => exact absurd rfl k
    | cons a l =>
      cases n with
      | zero => omega
      | succ n => exact fun z => (nomatch z)
  all := fun l => List.Perm.refl l

def two : Cfg := ⟨2, 10000⟩

def blk : Block := ⟨50, 7, true⟩

/-- Two peers name the same block and one sends it. -/
def plain : List Op :=
  [.synced 1, .synced 2, .start (at_ 100) (.blocksAt 7), .reply (at_ 110) 2 0 (.hash (some (5, 50))),
    .reply (at_ 120) 1 1 (.hash (some (5, 50))), .reply (at_ 130) 2 2 (.block (some blk))]

/-- `C124`: the case of `plain` gives the block, and every return came from the peer asked. -/
example : ∃ l, (run two plain).log = .blocks 0 [blk] :: l ∧ Tied (run two plain).log :=
  ⟨(run two plain).log.tail, by decide +kernel, tied_sound (by decide +kernel)⟩

/-- Peer 2 answers the requests to peers 1, 3 and 4 too. -/
def forged : List Op :=
  [.synced 1, .synced 2, .synced 3, .synced 4, .start (at_ 100) (.blocksAt 7),
    .reply (at_ 110) 2 0 (.hash none), .reply (at_ 110) 2 1 (.hash none),
    .reply (at_ 110) 2 2 (.hash none), .reply (at_ 110) 2 3 (.hash none)]

def sentBy2 : Ev → Bool
  | .reply _ src _ _ => src == 2
  | _ => true

def askedOf2 : Ev → Bool
  | .asked _ _ c _ => c == 2
  | _ => true

theorem one_of {d : List Client} (hd : d.Nodup) (h : ∀ c ∈ d, c = 2) : d.length ≤ 1 := by
  cases d with
  | nil => exact Nat.zero_le _
  | cons a d =>
    cases d with
    | nil => exact Nat.le_refl _
    | cons b d =>
      have ha := h a List.mem_cons_self
      have hb := h b (List.mem_cons_of_mem _ List.mem_cons_self)
      rw [ha, hb] at hd
      exact absurd List.mem_cons_self (List.nodup_cons.1 hd).1

/-- Why `C124_agreed_partial` does not say that the peers asked gave the returns: a return is matched
    by its id alone, so that one peer can speak for all and end a request with no block. -/
theorem C124_one_peer : ¬ ∀ (cfg : Cfg) (ops : List Op) (l1 l2 : List Ev) (rid : Nat) (bs : List Block),
    (run cfg ops).log = l1 ++ .blocks rid bs :: l2 →
    ∃ d : List Client, d.Nodup ∧ cfg.minPeers ≤ 2 * d.length ∧
      ∀ src ∈ d, ∃ c a r, Answer src rid c a r l2 ∧ Covers bs r := by
  intro h
  obtain ⟨d, h1, h2, h3⟩ := h ⟨4, 10000⟩ forged [] (run ⟨4, 10000⟩ forged).log.tail 0 [] (by decide +kernel)
  have k : ∀ e ∈ (run ⟨4, 10000⟩ forged).log.tail, sentBy2 e = true := by decide +kernel
  have := one_of h1 (by
    intro c hc
    obtain ⟨_, _, _, ⟨q1, q2, now, id, e, _⟩, _⟩ := h3 c hc
    have := k _ (by rw [e]; exact List.mem_append_right _ List.mem_cons_self)
    simpa [sentBy2] using this)
  have h2 : 4 ≤ 2 * d.length := h2
  omega

/-- Peer 2 is asked, taken as lost, asked again, and answers both requests: it has no block, and
    then it sends one. -/
def twice : List Op :=
  [.synced 2, .start (at_ 100) (.blocksAt 7), .unsynced 2, .update (at_ 200), .synced 2,
    .update (at_ 300), .reply (at_ 310) 2 0 (.hash none), .reply (at_ 320) 2 1 (.block (some blk))]

/-- Why half of `min_sync_peers`: a peer can be counted both as failed and as succeeded, even if every
    return came from the peer asked. -/
theorem C124_counted_twice : ¬ ∀ (cfg : Cfg) (ops : List Op) (l1 l2 : List Ev) (rid : Nat)
    (bs : List Block), (run cfg ops).log = l1 ++ .blocks rid bs :: l2 → Tied (run cfg ops).log →
    ∃ d : List Client, d.Nodup ∧ cfg.minPeers ≤ d.length ∧ ∀ c ∈ d, ∃ r, Answered rid c r l2 := by
  intro h
  obtain ⟨d, h1, h2, h3⟩ := h two twice [] (run two twice).log.tail 0 [blk] (by decide +kernel)
    (tied_sound (by decide +kernel))
  have k : ∀ e ∈ (run two twice).log.tail, askedOf2 e = true := by decide +kernel
  have := one_of h1 (by
    intro c hc
    obtain ⟨_, _, _, q1, q2, now, id, e, hm⟩ := h3 c hc
    have := k _ (by rw [e]; exact List.mem_append_right _ (List.mem_cons_of_mem _ hm))
    simpa [askedOf2] using this)
  have h2 : 2 ≤ d.length := h2
  omega

/-- The blocks given need not be at the height asked for, even if every return came from the peer
    asked. -/
theorem C124_other_height : ¬ ∀ (cfg : Cfg) (ops : List Op) (l1 l2 : List Ev) (rid : Nat)
    (bs : List Block) (n t : Nat), (run cfg ops).log = l1 ++ .blocks rid bs :: l2 →
    Tied (run cfg ops).log → .opened rid (.blocksAt n) t ∈ l2 → ∀ b ∈ bs, b.height = n := by
  intro h
  have := h two (plain.take 2 ++ [.start (at_ 100) (.blocksAt 8)] ++ plain.drop 3) []
    (run two (plain.take 2 ++ [.start (at_ 100) (.blocksAt 8)] ++ plain.drop 3)).log.tail 0 [blk] 8 100
    (by decide +kernel) (tied_sound (by decide +kernel)) (by decide +kernel) blk List.mem_cons_self
  exact absurd this (by decide)

/-- `C125`: after the first return of `plain` and two seconds the next `update` has requests under
    way. -/
example : ∃ c, UnderWay 0 c (run two (plain.take 4 ++ [.update (at_ 3000)])).log :=
  C125_goes_on_partial two (plain.take 4) (at_ 3000) (at_proper _) 110 (by decide +kernel) (by decide) 0 7 100
    (by decide +kernel) (by decide +kernel) [1, 2] (by decide) (by decide +kernel) (by decide)

/-- Five peers name a block each; peers 6 and 7 are there too. -/
def crowd : List Op :=
  [.synced 6, .synced 7, .synced 5, .synced 4, .synced 3, .synced 2, .synced 1,
    .start (at_ 100) (.blocksAt 7), .reply (at_ 110) 1 0 (.hash (some (1, 10))),
    .reply (at_ 110) 2 1 (.hash (some (2, 20))), .reply (at_ 110) 3 2 (.hash (some (3, 30))),
    .reply (at_ 110) 4 3 (.hash (some (4, 40))), .reply (at_ 110) 5 4 (.hash (some (5, 50)))]

/-- From then on peer 1 answers each request for its block with an exception. -/
def round (i : Nat) : List Op :=
  [.reply (at_ (110 + 8000 * (i + 1))) 1 (if i = 0 then 5 else 9 + i) .exception, .update (at_ (111 + 8000 * (i + 1)))]

/-- `C125_stalled`: five rounds go on for four times the timeout, with peers 6 and 7 never asked. -/
example : answers 0 (run two (crowd ++ (List.range 5).flatMap round)).log = 0 :=
  (C125_stalled two crowd ((List.range 5).flatMap round) 0
    ((run two crowd).jobs.head (by decide +kernel)).2 (by decide +kernel)
    ⟨by decide +kernel, by decide +kernel, by decide +kernel⟩ (by decide +kernel)).1

example : ∀ i < 5, ∃ a, .asked 0 (10 + i) 1 a ∈ (run two (crowd ++ (List.range 5).flatMap round)).log :=
  fun i _ => ⟨.block 1, by revert i; decide +kernel⟩

/-- `C126_in_time`: no return comes, and after the timeout the fetch is refused. -/
def quiet : List Op := [.synced 1, .start (at_ 100) (.block 5 true)]

example : answers 0 (run two (quiet ++ [.update (at_ 10100)])).log = 0 ∧
    answers 0 (run two (quiet ++ [.update (at_ 10101)])).log = 1 := by decide +kernel

/-- `C127`: a block asked for by its hash, none from either peer, a block at a height. -/
example : (run two (quiet ++ [.reply (at_ 110) 1 0 (.block (some blk))])).log.head? =
    some (.block 0 (some blk)) := by decide +kernel

example : (run two [.synced 1, .synced 2, .start (at_ 100) (.block 5 false),
    .reply (at_ 110) 1 1 (.block none), .reply (at_ 120) 2 0 .exception]).log.head? =
    some (.block 0 none) := by decide +kernel

example : (run two [.start (at_ 100) (.blockAt 7), .reply (at_ 110) 1 0 (.blockAt (some blk))]).log.head? =
    some (.block 0 (some blk)) := by decide +kernel

/-- Why `C127_block_partial` speaks of the request and not of the block: what comes is given as it is.
    Here two blocks with different hashes are given for one hash, and the sender was not asked. -/
theorem C127_unchecked : ¬ ∀ (cfg : Cfg) (ops ops' : List Op) (k : Hash) (t t' : Nat) (p : Bool) (b b' : Block),
    .opened 0 (.block k p) t ∈ (run cfg ops).log → .block 0 (some b) ∈ (run cfg ops).log →
    .opened 0 (.block k p) t' ∈ (run cfg ops').log → .block 0 (some b') ∈ (run cfg ops').log →
    b.hash = b'.hash := by
  intro h
  have := h two (quiet ++ [.reply (at_ 110) 1 0 (.block (some blk))])
    (quiet ++ [.reply (at_ 110) 9 0 (.block (some ⟨51, 7, false⟩))]) 5 100 100 true blk ⟨51, 7, false⟩
    (by decide +kernel) (by decide +kernel) (by decide +kernel) (by decide +kernel)
  exact absurd this (by decide)

end Verif.Router.Sync
