/-
  Helper lemmas on the requests for blocks: how a job can be kept from coming to an end.
-/
import Verif.Router.SyncGo

namespace Verif.Router.Sync

/-- Same counted peers, same named hashes. -/
structure Same (j j' : Job) : Prop where
  got : j'.got = j.got
  failed : j'.failed = j.failed
  succeeded : j'.succeeded = j.succeeded

theorem Same.refl (j : Job) : Same j j := ⟨rfl, rfl, rfl⟩

theorem Same.trans {a b c : Job} (h : Same a b) (k : Same b c) : Same a c :=
  ⟨k.got.trans h.got, k.failed.trans h.failed, k.succeeded.trans h.succeeded⟩

/-- Enough synced peers named a hash to take all places, and not enough are counted. -/
structure Full (cfg : Cfg) (synced : List Client) (j : Job) : Prop where
  few : j.returns < cfg.minPeers
  places : cfg.minPeers + 3 ≤ j.got.length
  synced : ∀ e ∈ j.got, e.1 ∈ synced

theorem Full.same {cfg : Cfg} {synced : List Client} {j j' : Job} (h : Full cfg synced j) (s : Same j j') :
    Full cfg synced j' := by
  refine ⟨?_, by rw [s.got]; exact h.places, by rw [s.got]; exact h.synced⟩
  have := h.few
  unfold Job.returns at this ⊢
  rw [s.failed, s.succeeded]; exact this

theorem same_error (j : Job) (now id : Nat) (c : Client) : Same j (j.settle now id c .exception) := by
  have : Same j (j.takeError c) := by
    unfold Job.takeError
    cases j.got.lookup c with
    | none => exact .refl _
    | some e => exact ⟨rfl, rfl, rfl⟩
  exact ⟨this.got, this.failed, this.succeeded⟩

theorem same_prune {synced : List Client} {j : Job} (h : ∀ e ∈ j.got, e.1 ∈ synced) :
    Same j (j.prune synced) := by
  unfold Job.prune
  have hl : ∀ c ∈ j.pending.filter (fun c => !synced.contains c), c ∉ synced := by
    intro c hc
    simpa using (List.mem_filter.1 hc).2
  generalize j.pending.filter _ = l at hl
  induction l generalizing j with
  | nil => exact .refl _
  | cons c l ih =>
    have h1 : Same j (j.lose c) := by
      unfold Job.lose
      cases e : j.got.lookup c with
      | none => exact ⟨rfl, rfl, rfl⟩
      | some k => exact absurd (h _ (lookup_mem e)) (hl c List.mem_cons_self)
    refine h1.trans (ih ?_ fun x hx => hl x (List.mem_cons_of_mem _ hx))
    rw [h1.got]; exact h

theorem same_askBlock {cfg : Cfg} {w : World} {rid : Nat} : ∀ (l : List (Client × Hash × Hash)) (r : Job × Acc),
    Same r.1 (l.foldl (askBlock cfg w rid) r).1
  | [], r => .refl _
  | e :: l, r => by
    refine Same.trans ?_ (same_askBlock l (askBlock cfg w rid r e))
    unfold askBlock
    by_cases k : r.1.waits w.now e.2.2 = true
    · rw [if_pos k]; exact .refl _
    · rw [if_neg k]; exact ⟨rfl, rfl, rfl⟩

theorem same_go {cfg : Cfg} {w : World} {synced : List Client} {rid : Nat} {j : Job} {x : Acc}
    (h : Full cfg synced j) : ∃ j', (j.go cfg w synced rid x).1 = some j' ∧ Same j j' := by
  have h1 := same_prune h.synced
  have h2 := h.same h1
  unfold Job.go
  dsimp only
  rw [if_pos h2.few]
  refine ⟨_, rfl, h1.trans ?_⟩
  have h3 : askHashes cfg w synced rid (j.prune synced, x) = (j.prune synced, x) := by
    unfold askHashes
    dsimp only
    rw [if_neg (by have := h2.places; omega)]
  rw [h3]
  exact same_askBlock _ (j.prune synced, x)

theorem same_process {cfg : Cfg} {w : World} {synced : List Client} {ret : Option (Nat × Result)}
    (hr : ∀ id r, ret = some (id, r) → r = .exception) {rid : Nat} {j : Job} {x : Acc}
    (h : Full cfg synced j) : ∃ j', (j.process cfg w synced ret rid x).1 = some j' ∧ Same j j' := by
  unfold Job.process
  cases ret with
  | none => exact same_go h
  | some p =>
    obtain ⟨id, r⟩ := p
    have := hr id r rfl
    subst this
    dsimp only
    cases j.reqs.lookup id with
    | none => exact ⟨j, rfl, .refl _⟩
    | some c =>
      have h1 := same_error j w.now id c
      obtain ⟨j', h2, h3⟩ := same_go (w := w) (rid := rid) (x := x) (h.same h1)
      exact ⟨j', h2, h1.trans h3⟩

theorem same_processJobs {cfg : Cfg} {w : World} {synced : List Client} {ret : Option (Nat × Result)}
    (hr : ∀ id r, ret = some (id, r) → r = .exception) {rid : Nat} {j : Job} (h : Full cfg synced j) :
    ∀ {js : List (Nat × Job)} {x : Acc}, (rid, j) ∈ js →
      ∃ j', (rid, j') ∈ (processJobs cfg w synced ret js x).1 ∧ Same j j'
  | [], _, k => (nomatch k)
  | (i, k) :: l, x, hm => by
    unfold processJobs
    dsimp only
    rcases List.mem_cons.1 hm with e | e
    · cases e
      obtain ⟨j', h1, h2⟩ := same_process (w := w) hr (rid := rid) (x := x) h
      rw [h1]
      exact ⟨j', List.mem_cons_self, h2⟩
    · obtain ⟨j', h1, h2⟩ := same_processJobs (w := w) hr h (js := l)
        (x := (k.process cfg w synced ret i x).2) e
      cases (k.process cfg w synced ret i x).1 with
      | none => exact ⟨j', h1, h2⟩
      | some k' => exact ⟨j', List.mem_cons_of_mem _ h1, h2⟩

/-- A callback with nothing new: returns are exceptions, no job is late, no peer is lost.  Peers may
    become synced and requests of the node may come. -/
def still (cfg : Cfg) (s : St) : Op → Bool
  | .reply _ _ _ r => decide (r = .exception)
  | .update w => s.jobs.all fun e => !e.2.late cfg w.now
  | .unsynced _ => false
  | _ => true

def calm (cfg : Cfg) : St → List Op → Bool
  | _, [] => true
  | s, op :: ops => still cfg s op && calm cfg (step cfg s op) ops

theorem expireJobs_calm {cfg : Cfg} {s : St} {now : Nat} (h : ∀ e ∈ s.jobs, e.2.late cfg now = false) :
    (expireJobs cfg now s).jobs = s.jobs ∧ (expireJobs cfg now s).synced = s.synced := by
  have h1 : s.jobs.filter (·.2.late cfg now) = [] := by
    rw [List.filter_eq_nil_iff]
    intro e he
    rw [h e he]; decide
  unfold expireJobs
  by_cases k : cfg.minPeers ≤ s.synced.length
  · rw [if_pos k, h1]
    refine ⟨?_, ?_⟩
    · show s.jobs.map _ = s.jobs
      conv => rhs; rw [← List.map_id s.jobs]
      apply List.map_congr_left
      intro e he
      rw [h e he]; rfl
    · show s.synced.filter _ = s.synced
      rw [List.filter_eq_self]
      intro c _; rfl
  · rw [if_neg k]; exact ⟨rfl, rfl⟩

theorem calm_step {cfg : Cfg} {s : St} {op : Op} (hc : still cfg s op = true) {rid : Nat} {j : Job}
    (hm : (rid, j) ∈ s.jobs) (h : Full cfg s.synced j) :
    ∃ j', (rid, j') ∈ (step cfg s op).jobs ∧ Same j j' ∧ Full cfg (step cfg s op).synced j' := by
  cases op with
  | reply w src id r =>
    have hr : r = .exception := of_decide_eq_true hc
    subst hr
    obtain ⟨j', h1, h2⟩ := same_processJobs (w := w) (ret := some (id, .exception))
      (fun _ _ e => by cases e; rfl) h (x := ⟨s.next, .reply w.now src id .exception :: s.log⟩) hm
    exact ⟨j', h1, h2, h.same h2⟩
  | update w =>
    have hl := expireJobs_calm (cfg := cfg) (s := s) (now := w.now) (by
      intro e he
      simpa using List.all_eq_true.1 hc e he)
    have hm' : (rid, j) ∈ (expireFetches cfg w.now (expireJobs cfg w.now s)).jobs := by
      show (rid, j) ∈ (expireJobs cfg w.now s).jobs
      rw [hl.1]; exact hm
    have hf : Full cfg (expireFetches cfg w.now (expireJobs cfg w.now s)).synced j := by
      show Full cfg (expireJobs cfg w.now s).synced j
      rw [hl.2]; exact h
    obtain ⟨j', h1, h2⟩ := same_processJobs (w := w) (ret := none) (fun _ _ e => (nomatch e)) hf
      (x := ⟨(expireFetches cfg w.now (expireJobs cfg w.now s)).next,
        (expireFetches cfg w.now (expireJobs cfg w.now s)).log⟩) hm'
    exact ⟨j', h1, h2, hf.same h2⟩
  | synced c =>
    exact ⟨j, hm, .refl _, h.few, h.places, fun e he => mem_ins.2 (.inr (h.synced e he))⟩
  | unsynced c => exact (nomatch hc)
  | start w q =>
    show ∃ j', (rid, j') ∈ (start cfg w q s).jobs ∧ Same j j' ∧ Full cfg (start cfg w q s).synced j'
    rw [start_eq]
    have hm' : (rid, j) ∈ (enterQuery w q s).jobs := by
      unfold enterQuery
      cases q with
      | blocksAt n => exact List.mem_cons_of_mem _ hm
      | block hh p => exact hm
      | blockAt n => exact hm
    have hf : Full cfg (enterQuery w q s).synced j := by
      unfold enterQuery
      cases q with
      | blocksAt n => exact h
      | block hh p => exact h
      | blockAt n => exact h
    obtain ⟨j', h1, h2⟩ := same_processJobs (w := w) (ret := none) (fun _ _ e => (nomatch e)) hf
      (x := ⟨(enterQuery w q s).next, (enterQuery w q s).log⟩) hm'
    exact ⟨j', h1, h2, hf.same h2⟩

theorem calm_run {cfg : Cfg} : ∀ (ops : List Op) {s : St}, calm cfg s ops = true → ∀ {rid : Nat} {j : Job},
    (rid, j) ∈ s.jobs → Full cfg s.synced j → ∃ j', (rid, j') ∈ (ops.foldl (step cfg) s).jobs ∧ Same j j'
  | [], _, _, _, j, hm, _ => ⟨j, hm, .refl _⟩
  | op :: ops, s, hc, rid, j, hm, h => by
    have hc' : still cfg s op = true ∧ calm cfg (step cfg s op) ops = true := Bool.and_eq_true_iff.1 hc
    obtain ⟨j1, h1, h2, h3⟩ := calm_step (op := op) hc'.1 hm h
    obtain ⟨j2, h4, h5⟩ := calm_run ops hc'.2 h1 h3
    exact ⟨j2, h4, h2.trans h5⟩

/-! ### The log only grows -/

theorem answers_suffix (i : Nat) : ∀ (g : List Ev) (l : List Ev), answers i l ≤ answers i (g ++ l)
  | [], _ => Nat.le_refl _
  | e :: g, l => by
    have := answers_suffix i g l
    refine Nat.le_trans this ?_
    rw [List.cons_append]
    generalize g ++ l = m
    cases e <;> simp only [answers] <;> omega

theorem process_suffix {cfg : Cfg} {s : St} (h : SI cfg s) (w : World) (ret : Option (Nat × Result))
    (h1 : ∀ e ∈ s.jobs, ∀ id r c, ret = some (id, r) → (id, c) ∈ e.2.reqs → Answered e.1 c r s.log)
    (h2 : ∀ e ∈ s.fetches, ∀ id r c, ret = some (id, r) → (id, c) ∈ e.2.reqs →
      Came w.now e.1 e.2.query id c r s.log) : s.log <:+ (process cfg w ret s).log := by
  have a := processJobs_inv (cfg := cfg) (w := w) (synced := s.synced) (ret := ret) (js := s.jobs)
    (x := ⟨s.next, s.log⟩) h.jobs h1 h.each
  unfold process
  dsimp only
  generalize processJobs cfg w s.synced ret s.jobs ⟨s.next, s.log⟩ = r at a
  have hg : Grow s.log r.2.log := a.2.2.1
  have b := processFetches_inv (cfg := cfg) (w := w) (synced := s.synced) (ret := ret) (fs := s.fetches)
    (x := r.2) (fun e he => (h.fetches e he).mono hg.suffix)
    (fun c hc => (h.live c).1 (by rw [← hg.live c]; exact hc))
    (fun e he id q c k1 k2 => (h2 e he id q c k1 k2).mono hg.suffix) a.2.1
  exact (hg.trans b.2.2.1).suffix

theorem idle_suffix {cfg : Cfg} {s : St} (h : SI cfg s) (w : World) : s.log <:+ (process cfg w none s).log :=
  process_suffix h w none (fun _ _ _ _ _ k => (nomatch k)) (fun _ _ _ _ _ k => (nomatch k))

theorem update_suffix {cfg : Cfg} {s : St} (h : SI cfg s) (w : World) :
    s.log <:+ (expireFetches cfg w.now (expireJobs cfg w.now s)).log ∧
    (expireFetches cfg w.now (expireJobs cfg w.now s)).log <:+ (update cfg w s).log := by
  refine ⟨?_, idle_suffix (si_expireFetches (si_expireJobs h w.now) w.now) w⟩
  refine List.IsSuffix.trans ?_ (List.suffix_append _ _)
  unfold expireJobs
  by_cases k : cfg.minPeers ≤ s.synced.length
  · rw [if_pos k]; exact List.suffix_append _ _
  · rw [if_neg k]; exact List.suffix_refl _

theorem expireJobs_fetches (cfg : Cfg) (now : Nat) (s : St) : (expireJobs cfg now s).fetches = s.fetches := by
  unfold expireJobs
  by_cases k : cfg.minPeers ≤ s.synced.length
  · rw [if_pos k]
  · rw [if_neg k]

/-! ### Every number given out is that of a request -/

def Made (s : St) : Prop := ∀ i < s.rid, ∃ q t, .opened i q t ∈ s.log

theorem Made.mono {s s' : St} (h : Made s) (e : s'.rid = s.rid) (k : s.log <:+ s'.log) : Made s' := by
  intro i hi
  rw [e] at hi
  obtain ⟨q, t, hq⟩ := h i hi
  exact ⟨q, t, k.subset hq⟩

theorem made_step {cfg : Cfg} {s : St} (h : SI cfg s) (m : Made s) (op : Op) : Made (step cfg s op) := by
  cases op with
  | start w q =>
    show Made (start cfg w q s)
    rw [start_eq]
    have h1 := si_opened h w q
    have h2 : (enterQuery w q s).rid = s.rid + 1 ∧ (enterQuery w q s).log = .opened s.rid q w.now :: s.log := by
      cases q <;> exact ⟨rfl, rfl⟩
    refine Made.mono (s := enterQuery w q s) ?_ rfl (idle_suffix h1 w)
    intro i hi
    rw [h2.1] at hi
    rw [h2.2]
    by_cases e : i = s.rid
    · subst e; exact ⟨_, _, List.mem_cons_self⟩
    · obtain ⟨q', t, hq⟩ := m i (by omega)
      exact ⟨q', t, List.mem_cons_of_mem _ hq⟩
  | reply w src id r =>
    have hg := Grow.reply s.log w.now id src r
    have h0 : SI cfg { s with log := .reply w.now src id r :: s.log } :=
      ⟨⟨trivial, h.each⟩, fun e he => (h.jobs e he).mono hg.suffix,
        fun e he => (h.fetches e he).mono hg.suffix, h.live,
        fun rid q t hm => h.opened rid q t (hg.opened rid q t hm), h.count,
        fun e he => (h.kinds e he).imp fun _ k => k.imp fun _ k => hg.suffix.subset k⟩
    refine m.mono rfl (hg.suffix.trans (process_suffix h0 w (some (id, r)) ?_ ?_))
    · intro e he id' r' c k1 k2
      cases k1
      obtain ⟨a, ha⟩ := (h.jobs e he).reqs id c k2
      exact ⟨src, a, [], s.log, w.now, id, rfl, ha⟩
    · intro e he id' r' c k1 k2
      cases k1
      obtain ⟨a, ha, hc⟩ := (h.fetches e he).reqs id c k2
      exact ⟨src, a, hc, List.mem_cons_of_mem _ ha, ⟨[], s.log, w.now, id, rfl, ha⟩, List.mem_cons_self⟩
  | update w =>
    have hr : (expireJobs cfg w.now s).rid = s.rid := by
      unfold expireJobs
      by_cases k : cfg.minPeers ≤ s.synced.length
      · rw [if_pos k]
      · rw [if_neg k]
    exact m.mono hr ((update_suffix h w).1.trans (update_suffix h w).2)
  | synced c => exact m.mono rfl (List.suffix_cons _ _)
  | unsynced c => exact m.mono rfl (List.suffix_cons _ _)

theorem made_run (cfg : Cfg) (ops : List Op) : Made (run cfg ops) := by
  have : ∀ (ops : List Op) (s : St), SI cfg s → Made s → Made (ops.foldl (step cfg) s) := by
    intro ops
    induction ops with
    | nil => exact fun _ _ m => m
    | cons op ops ih => exact fun s h m => ih _ (si_step h op) (made_step h m op)
  exact this ops {} (si_init cfg) (fun i hi => absurd hi (Nat.not_lt_zero i))

/-! ### A check for concrete logs -/

def fits (src : Client) (id : Nat) : Ev → Bool
  | .asked _ id' c _ => id' != id || src == c
  | _ => true

def tied : List Ev → Bool
  | [] => true
  | .reply _ src id _ :: l => l.all (fits src id) && tied l
  | _ :: l => tied l

theorem tied_tail {e : Ev} {l : List Ev} (h : tied (e :: l) = true) : tied l = true := by
  cases e <;> simp only [tied, Bool.and_eq_true] at h <;> first | exact h | exact h.2

theorem tied_sound {log : List Ev} (h : tied log = true) : Tied log := by
  intro l1
  induction l1 generalizing log with
  | nil =>
    intro l2 now src id r e rid c a hm
    rw [e] at h
    have h1 : l2.all (fits src id) = true := (Bool.and_eq_true_iff.1 h).1
    have h2 := List.all_eq_true.1 h1 _ hm
    simpa [fits] using h2
  | cons x l1 ih =>
    intro l2 now src id r e
    rw [e] at h
    exact ih (log := l1 ++ .reply now src id r :: l2) (tied_tail h) l2 now src id r rfl

end Verif.Router.Sync
