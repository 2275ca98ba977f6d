/-
  Helper lemmas on the requests for blocks: requests under way, and what a job does next.
-/
import Verif.Router.SyncRun

namespace Verif.Router.Sync

/-! ### Requests under way -/

/-- A request went to a peer and no return with its id came since. -/
def UnderWay (rid : Nat) (c : Client) (log : List Ev) : Prop :=
  ∃ l1 l2 id a, log = l1 ++ .asked rid id c a :: l2 ∧ ∀ now src r, .reply now src id r ∉ l1

/-- The same for a known id. -/
def Out (rid id : Nat) (c : Client) (log : List Ev) : Prop :=
  ∃ l1 l2 a, log = l1 ++ .asked rid id c a :: l2 ∧ ∀ now src r, .reply now src id r ∉ l1

theorem Out.cons {rid id : Nat} {c : Client} {log : List Ev} (h : Out rid id c log) {e : Ev}
    (he : ∀ now src r, e ≠ .reply now src id r) : Out rid id c (e :: log) := by
  obtain ⟨l1, l2, a, rfl, h2⟩ := h
  refine ⟨e :: l1, l2, a, rfl, ?_⟩
  intro now src r hm
  rcases List.mem_cons.1 hm with k | k
  · exact he now src r k.symm
  · exact h2 now src r k

theorem Out.append {rid id : Nat} {c : Client} {log : List Ev} (h : Out rid id c log) :
    ∀ (g : List Ev), (∀ e ∈ g, ∀ now src i r, e ≠ .reply now src i r) → Out rid id c (g ++ log)
  | [], _ => h
  | e :: g, hg => Out.cons (h.append g fun e he => hg e (List.mem_cons_of_mem _ he))
      (fun now src r => hg e List.mem_cons_self now src id r)

theorem Out.mute {rid id : Nat} {c : Client} {x y : List Ev} (h : Out rid id c x) (m : Mute x y) :
    Out rid id c y := by
  obtain ⟨g, rfl, hg⟩ := m
  exact h.append g hg

/-- More on a job: what is pending is under way, and the peers that named a block that is there
    succeeded.  `n` is the counter of request ids, `T` a bound on the times so far. -/
structure KI (cfg : Cfg) (T : Nat) (rid n : Nat) (log : List Ev) (j : Job) : Prop where
  out : ∀ id c, (id, c) ∈ j.reqs → Out rid id c log
  below : ∀ id c, (id, c) ∈ j.reqs → id < n
  one : ∀ id c c', (id, c) ∈ j.reqs → (id, c') ∈ j.reqs → c' = c
  pend : ∀ c ∈ j.pending, ∃ id, (id, c) ∈ j.reqs
  named : ∀ c h, (c, h) ∈ j.got → has h.2 j.blocks = true → c ∈ j.succeeded
  keys : (j.got.map (·.1)).Nodup
  waits : ∀ h t, (h, t) ∈ j.waiting → t ≤ T + cfg.timeout / 8

theorem KI.mono {cfg : Cfg} {T T' rid n n' : Nat} {l l' : List Ev} {j : Job} (h : KI cfg T rid n l j)
    (m : Mute l l') (hn : n ≤ n') (hT : T ≤ T') : KI cfg T' rid n' l' j :=
  ⟨fun id c k => (h.out id c k).mute m, fun id c k => Nat.lt_of_lt_of_le (h.below id c k) hn, h.one,
    h.pend, h.named, h.keys, fun k t q => by have := h.waits k t q; omega⟩

theorem KI.new (cfg : Cfg) (T rid n : Nat) (log : List Ev) (h t : Nat) :
    KI cfg T rid n log { height := h, start := t } :=
  ⟨fun _ _ k => (nomatch k), fun _ _ k => (nomatch k), fun _ _ _ k => (nomatch k),
    fun _ k => (nomatch k), fun _ _ k => (nomatch k), List.nodup_nil, fun _ _ k => (nomatch k)⟩

/-! #### Replies -/

/-- What a reply leaves alone, and what it keeps. -/
structure Kept (j j' : Job) : Prop where
  reqs : j'.reqs = j.reqs
  pending : j'.pending = j.pending
  waiting : ∀ e ∈ j'.waiting, e ∈ j.waiting

theorem Kept.refl (j : Job) : Kept j j := ⟨rfl, rfl, fun _ k => k⟩

theorem Kept.trans {a b c : Job} (h : Kept a b) (k : Kept b c) : Kept a c :=
  ⟨k.reqs.trans h.reqs, k.pending.trans h.pending, fun e q => h.waiting e (k.waiting e q)⟩

/-- The invariant between named hashes, blocks and success. -/
structure NI (j : Job) : Prop where
  named : ∀ c h, (c, h) ∈ j.got → has h.2 j.blocks = true → c ∈ j.succeeded
  keys : (j.got.map (·.1)).Nodup

theorem named_mem {x : Client} {h : Hash × Hash} : ∀ {l : List (Client × Hash × Hash)} {a : List Client},
    ((x, h) ∈ l ∨ x ∈ a) → x ∈ l.foldl (fun l e => ins e.1 l) a
  | [], _, k => k.resolve_left fun q => (nomatch q)
  | e :: l, a, k => by
    refine named_mem (l := l) (h := h) ?_
    rcases k with k | k
    · rcases List.mem_cons.1 k with q | q
      · exact .inr (mem_ins.2 (.inl (by rw [← q])))
      · exact .inl q
    · exact .inr (mem_ins.2 (.inr k))

theorem enter_ni {j : Job} (h : NI j) (c : Client) (b : Block) : NI (j.enter c b) := by
  refine ⟨?_, h.keys⟩
  intro x e hm hb
  refine mem_ins.2 (.inr ?_)
  obtain ⟨v, hv⟩ := has_iff.1 hb
  rcases mem_put.1 hv with k | ⟨k, _⟩
  · refine named_mem (h := e) (.inl (List.mem_filter.2 ⟨hm, ?_⟩))
    have : e.2 = b.hash := (Prod.mk.inj k).1
    simp [this]
  · exact named_mem (h := e) (.inr (h.named x e hm (has_iff.2 ⟨v, k⟩)))

theorem accept_ni {j : Job} (h : NI j) (c : Client) (b : Block) :
    NI (j.accept c b) ∧ Kept j (j.accept c b) := by
  unfold Job.accept
  by_cases v : b.valid = true
  · rw [if_pos v]; exact ⟨enter_ni h c b, rfl, rfl, fun _ k => k⟩
  · rw [if_neg v]; exact ⟨h, .refl _⟩

theorem take_ni {j : Job} (h : NI j) (c : Client) (r : Result) : NI (j.take c r) ∧ Kept j (j.take c r) := by
  unfold Job.take
  cases r with
  | blockAt b => exact ⟨h, .refl _⟩
  | other => exact ⟨h, .refl _⟩
  | exception =>
    show NI (j.takeError c) ∧ Kept j (j.takeError c)
    unfold Job.takeError
    cases j.got.lookup c with
    | none => exact ⟨h, .refl _⟩
    | some e => exact ⟨⟨h.named, h.keys⟩, rfl, rfl, fun _ k => (mem_rm.1 k).1⟩
  | hash e =>
    show NI (j.takeHash c e) ∧ Kept j (j.takeHash c e)
    unfold Job.takeHash
    cases e with
    | none => exact ⟨⟨h.named, h.keys⟩, rfl, rfl, fun _ k => k⟩
    | some e =>
      dsimp only
      by_cases k : has e.2 j.blocks = true
      · have hp : j.praise c e.2 = { j with succeeded := ins c j.succeeded } := if_pos k
        rw [hp]
        refine ⟨⟨?_, nodup_put h.keys⟩, rfl, rfl, fun _ k => k⟩
        intro x q hm hb
        rcases mem_put.1 hm with z | ⟨z, _⟩
        · cases z; exact mem_ins.2 (.inl rfl)
        · exact mem_ins.2 (.inr (h.named x q z hb))
      · have hp : j.praise c e.2 = j := if_neg k
        rw [hp]
        refine ⟨⟨?_, nodup_put h.keys⟩, rfl, rfl, fun _ k => k⟩
        intro x q hm hb
        rcases mem_put.1 hm with z | ⟨z, _⟩
        · cases z; exact absurd hb k
        · exact h.named x q z hb
  | block b =>
    show NI (j.takeBlock c b) ∧ Kept j (j.takeBlock c b)
    have h1 : NI (j.receive c b) ∧ Kept j (j.receive c b) := by
      unfold Job.receive
      cases b with
      | none => exact ⟨h, .refl _⟩
      | some b =>
        have h2 := accept_ni h c b
        exact ⟨⟨h2.1.named, h2.1.keys⟩, h2.2.reqs, h2.2.pending,
          fun e k => h2.2.waiting e (mem_rm.1 k).1⟩
    unfold Job.takeBlock Job.blame
    by_cases k : c ∈ (j.receive c b).succeeded
    · rw [if_pos k]; exact h1
    · rw [if_neg k]
      exact ⟨⟨h1.1.named, h1.1.keys⟩, h1.2.reqs, h1.2.pending, h1.2.waiting⟩

/-- Before a reply is taken: the requests with other ids are under way. -/
theorem settle_ki {cfg : Cfg} {T rid n : Nat} {log : List Ev} {j : Job} (h : KI cfg T rid n log j)
    {id : Nat} {c : Client} (hid : (id, c) ∈ j.reqs) (now' now : Nat) (src : Client) (r : Result) :
    KI cfg T rid n (.reply now' src id r :: log) (j.settle now id c r) := by
  have h1 := take_ni ⟨h.named, h.keys⟩ c r
  unfold Job.settle
  dsimp only
  generalize j.take c r = j1 at h1
  obtain ⟨hn, hk⟩ := h1
  have hr : ∀ i x, (i, x) ∈ rm id j1.reqs → (i, x) ∈ j.reqs ∧ i ≠ id := by
    intro i x q
    rw [hk.reqs] at q
    exact mem_rm.1 q
  refine ⟨?_, fun i x q => h.below i x (hr i x q).1, fun i x y q q' => h.one i x y (hr i x q).1 (hr i y q').1,
    ?_, hn.named, hn.keys, fun k t q => h.waits k t (hk.waiting _ q)⟩
  · intro i x q
    refine (h.out i x (hr i x q).1).cons ?_
    intro _ _ _ e
    cases e
    exact (hr _ x q).2 rfl
  · intro x hx
    have hx' : x ∈ j1.pending ∧ x ≠ c := mem_del.1 hx
    rw [hk.pending] at hx'
    obtain ⟨i, hi⟩ := h.pend x hx'.1
    refine ⟨i, ?_⟩
    show (i, x) ∈ rm id j1.reqs
    rw [hk.reqs]
    refine mem_rm.2 ⟨hi, ?_⟩
    intro e
    have e : i = id := e
    subst e
    exact hx'.2 (h.one _ _ _ hid hi)

theorem lose_ki {cfg : Cfg} {T rid n : Nat} {log : List Ev} {j : Job} (h : KI cfg T rid n log j)
    (c : Client) : KI cfg T rid n log (j.lose c) := by
  unfold Job.lose
  cases j.got.lookup c with
  | none =>
    exact ⟨h.out, h.below, h.one, fun x hx => h.pend x (mem_del.1 hx).1, h.named, h.keys, h.waits⟩
  | some e =>
    exact ⟨h.out, h.below, h.one, fun x hx => h.pend x (mem_del.1 hx).1,
      fun x q hm => h.named x q (mem_rm.1 hm).1, h.keys.sublist (List.filter_sublist.map _),
      fun k t q => h.waits k t (mem_rm.1 q).1⟩

theorem prune_ki {cfg : Cfg} {T rid n : Nat} {log : List Ev} {j : Job} (h : KI cfg T rid n log j)
    (synced : List Client) : KI cfg T rid n log (j.prune synced) := by
  unfold Job.prune
  generalize j.pending.filter _ = l
  induction l generalizing j with
  | nil => exact h
  | cons c l ih => exact ih (lose_ki h c)

/-! #### Requests -/

theorem asked_ki {cfg : Cfg} {T rid : Nat} {x : Acc} {j : Job} (h : KI cfg T rid x.next x.log j) (a : Ask)
    (c : Client) (wt : List (Hash × Nat)) (hw : ∀ k t, (k, t) ∈ wt → t ≤ T + cfg.timeout / 8) :
    KI cfg T rid (ask rid a c x).next (ask rid a c x).log
      { j with reqs := (x.next, c) :: j.reqs, pending := ins c j.pending, waiting := wt } := by
  have h1 := h.mono (Mute.cons (e := .asked rid x.next c a) (fun _ _ _ _ k => (nomatch k)))
    (Nat.le_succ x.next) (Nat.le_refl T)
  refine ⟨?_, ?_, ?_, ?_, h1.named, h1.keys, hw⟩
  · intro i y q
    rcases List.mem_cons.1 q with k | k
    · cases k; exact ⟨[], x.log, a, rfl, fun _ _ _ k => (nomatch k)⟩
    · exact h1.out i y k
  · intro i y q
    rcases List.mem_cons.1 q with k | k
    · cases k; exact Nat.lt_succ_self _
    · exact h1.below i y k
  · intro i y z q q'
    rcases List.mem_cons.1 q with k | k
    · rcases List.mem_cons.1 q' with k' | k'
      · cases k; cases k'; rfl
      · cases k; exact absurd (h.below _ _ k') (Nat.lt_irrefl _)
    · rcases List.mem_cons.1 q' with k' | k'
      · cases k'; exact absurd (h.below _ _ k) (Nat.lt_irrefl _)
      · exact h.one i y z k k'
  · intro y hy
    rcases mem_ins.1 hy with rfl | hy
    · exact ⟨x.next, List.mem_cons_self⟩
    · obtain ⟨i, hi⟩ := h.pend y hy
      exact ⟨i, List.mem_cons_of_mem _ hi⟩

theorem askHash_ki {cfg : Cfg} {T rid : Nat} : ∀ (l : List Client) {r : Job × Acc},
    KI cfg T rid r.2.next r.2.log r.1 →
    KI cfg T rid (l.foldl (askHash rid) r).2.next (l.foldl (askHash rid) r).2.log (l.foldl (askHash rid) r).1
  | [], _, h => h
  | c :: l, r, h => askHash_ki l (r := askHash rid r c) (asked_ki h (.hash r.1.height) c r.1.waiting h.waits)

theorem askHashes_ki {cfg : Cfg} {T rid : Nat} (w : World) (synced : List Client) {r : Job × Acc}
    (h : KI cfg T rid r.2.next r.2.log r.1) :
    KI cfg T rid (askHashes cfg w synced rid r).2.next (askHashes cfg w synced rid r).2.log
      (askHashes cfg w synced rid r).1 := by
  unfold askHashes
  dsimp only
  by_cases k : r.1.pending.length + r.1.got.length < cfg.minPeers + 3
  · rw [if_pos k]; exact askHash_ki _ h
  · rw [if_neg k]; exact h

theorem askBlock_ki {cfg : Cfg} {T rid : Nat} {w : World} (hT : w.now ≤ T) :
    ∀ (l : List (Client × Hash × Hash)) {r : Job × Acc},
    KI cfg T rid r.2.next r.2.log r.1 →
    KI cfg T rid (l.foldl (askBlock cfg w rid) r).2.next (l.foldl (askBlock cfg w rid) r).2.log
      (l.foldl (askBlock cfg w rid) r).1
  | [], _, h => h
  | e :: l, r, h => by
    refine askBlock_ki hT l (r := askBlock cfg w rid r e) ?_
    unfold askBlock
    by_cases k : r.1.waits w.now e.2.2 = true
    · rw [if_pos k]; exact h
    · rw [if_neg k]
      refine asked_ki h (.block e.2.1) e.1 _ ?_
      intro q t hm
      rcases mem_put.1 hm with z | ⟨z, _⟩
      · cases z; omega
      · exact h.waits q t z

theorem go_ki {cfg : Cfg} {T rid : Nat} {w : World} (hT : w.now ≤ T) {synced : List Client} {j : Job}
    {x : Acc} (h : KI cfg T rid x.next x.log j) :
    ∀ j', (j.go cfg w synced rid x).1 = some j' →
      KI cfg T rid (j.go cfg w synced rid x).2.next (j.go cfg w synced rid x).2.log j' := by
  intro j' e
  unfold Job.go at e ⊢
  dsimp only at e ⊢
  by_cases k : (j.prune synced).returns < cfg.minPeers
  · rw [if_pos k] at e ⊢
    cases e
    exact askBlock_ki hT _ (askHashes_ki w synced (r := (j.prune synced, x)) (prune_ki h synced))
  · rw [if_neg k] at e; cases e

/-! ### A job always has a request under way -/

/-- `get_subset` chooses among the candidates, as many as asked for or all. -/
structure Proper (w : World) : Prop where
  sub : ∀ n l, ∀ c ∈ w.pick n l, c ∈ l
  some : ∀ n l, 0 < n → l ≠ [] → w.pick n l ≠ []
  all : ∀ l, (w.order l).Perm l

theorem askHash_pending : ∀ (l : List Client) {rid : Nat} {r : Job × Acc},
    (l.foldl (askHash rid) r).1.pending = [] → l = [] ∧ r.1.pending = []
  | [], _, _, h => ⟨rfl, h⟩
  | c :: l, rid, r, h => by
    have := (askHash_pending l (r := askHash rid r c) h).2
    have hc : c ∈ (askHash rid r c).1.pending := mem_ins.2 (.inl rfl)
    rw [this] at hc; cases hc

theorem askBlock_pending {cfg : Cfg} {w : World} : ∀ (l : List (Client × Hash × Hash)) {rid : Nat}
    {r : Job × Acc}, (∀ h, r.1.waits w.now h = false) →
    (l.foldl (askBlock cfg w rid) r).1.pending = [] → l = [] ∧ r.1.pending = []
  | [], _, _, _, h => ⟨rfl, h⟩
  | e :: l, rid, r, hw, h => by
    exfalso
    have mono : ∀ (l : List (Client × Hash × Hash)) (r : Job × Acc),
        (l.foldl (askBlock cfg w rid) r).1.pending = [] → r.1.pending = [] := by
      intro l
      induction l with
      | nil => exact fun _ k => k
      | cons e l ih =>
        intro r k
        have := ih _ k
        unfold askBlock at this
        by_cases q : r.1.waits w.now e.2.2 = true
        · rw [if_pos q] at this; exact this
        · rw [if_neg q] at this
          have hc : e.1 ∈ ins e.1 r.1.pending := mem_ins.2 (.inl rfl)
          have this : ins e.1 r.1.pending = [] := this
          rw [this] at hc; cases hc
    have := mono l _ h
    unfold askBlock at this
    rw [if_neg (by rw [hw]; decide)] at this
    have hc : e.1 ∈ ins e.1 r.1.pending := mem_ins.2 (.inl rfl)
    have this : ins e.1 r.1.pending = [] := this
    rw [this] at hc; cases hc

/-- A list without repetition that is longer than another has something the other has not. -/
theorem longer : ∀ (l m : List Nat), l.Nodup → m.length < l.length → ∃ c ∈ l, c ∉ m
  | [], _, _, h => by simp at h
  | a :: l, m, hn, h => by
    by_cases k : a ∈ m
    · have hn' := List.nodup_cons.1 hn
      have hl : (m.erase a).length = m.length - 1 := List.length_erase_of_mem k
      have hm : 0 < m.length := List.length_pos_of_mem k
      obtain ⟨c, h1, h2⟩ := longer l (m.erase a) hn'.2 (by rw [hl]; simp at h; omega)
      refine ⟨c, List.mem_cons_of_mem _ h1, ?_⟩
      intro hc
      by_cases e : c = a
      · subst e; exact hn'.1 h1
      · exact h2 ((List.mem_erase_of_ne e).2 hc)
    · exact ⟨a, List.mem_cons_self, k⟩

theorem go_pending {cfg : Cfg} {T rid : Nat} {w : World} (hw : Proper w) (hT : T + cfg.timeout / 8 < w.now)
    {synced : List Client} {j : Job} {x : Acc} (h : KI cfg T rid x.next x.log j)
    {d : List Client} (hd : d.Nodup) (hds : ∀ c ∈ d, c ∈ synced) (hdl : cfg.minPeers ≤ d.length) :
    ∀ j', (j.go cfg w synced rid x).1 = some j' → j'.pending ≠ [] := by
  intro j' e hp
  unfold Job.go at e
  dsimp only at e
  have h1 := prune_ki h synced
  by_cases k : (j.prune synced).returns < cfg.minPeers
  · rw [if_pos k] at e
    cases e
    have waits : ∀ (j : Job), (∀ k t, (k, t) ∈ j.waiting → t ≤ T + cfg.timeout / 8) →
        ∀ h, j.waits w.now h = false := by
      intro j hj h
      unfold Job.waits
      cases e : j.waiting.lookup h with
      | none => rfl
      | some t =>
        have := hj h t (lookup_mem e)
        simp; omega
    have h2 := askHashes_ki w synced (r := (j.prune synced, x)) h1
    have hb := askBlock_pending (cfg := cfg) (w := w) _ (waits _ h2.waits) hp
    generalize j.prune synced = j1 at *
    -- no peer was asked for a hash
    have hh : (askHashes cfg w synced rid (j1, x)).1 = j1 ∧ j1.pending = [] ∧
        (j1.got.length < cfg.minPeers + 3 → j1.fresh synced = []) := by
      have hb2 := hb.2
      unfold askHashes at hb2 ⊢
      dsimp only at hb2 ⊢
      by_cases q : j1.pending.length + j1.got.length < cfg.minPeers + 3
      · rw [if_pos q] at hb2 ⊢
        have h3 := askHash_pending _ hb2
        rw [h3.1]
        refine ⟨rfl, h3.2, fun _ => ?_⟩
        by_cases z : j1.fresh synced = []
        · exact z
        · exact absurd h3.1 (hw.some _ _ (by omega) z)
      · rw [if_neg q] at hb2 ⊢
        refine ⟨rfl, hb2, fun z => ?_⟩
        have hb2 : j1.pending = [] := hb2
        rw [hb2] at q
        simp at q
        omega
    have hopen : j1.open = [] := by
      have := hb.1
      rw [hh.1] at this
      have hperm := hw.all j1.open
      rw [this] at hperm
      exact (List.Perm.nil_eq hperm).symm
    -- who named a hash was counted
    have counted : ∀ c e, (c, e) ∈ j1.got → c ∈ j1.failed ++ j1.succeeded := by
      intro c e hm
      rw [List.mem_append]
      by_cases q : has e.2 j1.blocks = true
      · exact .inr (h1.named c e hm q)
      · by_cases f : c ∈ j1.failed
        · exact .inl f
        · by_cases s : c ∈ j1.succeeded
          · exact .inr s
          · exfalso
            have : (c, e) ∈ j1.open := by
              unfold Job.open
              rw [List.mem_filter]
              refine ⟨hm, ?_⟩
              simp [q, f, s, hh.2.1]
            rw [hopen] at this; cases this
    have kl : (j1.failed ++ j1.succeeded).length < cfg.minPeers := by
      rw [List.length_append]; exact k
    by_cases q : j1.got.length < cfg.minPeers + 3
    · have hf := hh.2.2 q
      obtain ⟨c, hc, hn⟩ := longer d (j1.failed ++ j1.succeeded) hd (by omega)
      have : c ∈ j1.fresh synced := by
        unfold Job.fresh
        rw [List.mem_filter]
        refine ⟨hds c hc, ?_⟩
        have hg : has c j1.got = false := by
          cases z : has c j1.got with
          | false => rfl
          | true =>
            obtain ⟨e, he⟩ := has_iff.1 z
            exact absurd (counted c e he) hn
        rw [List.mem_append] at hn
        have hn1 : c ∉ j1.failed := fun z => hn (.inl z)
        have hn2 : c ∉ j1.succeeded := fun z => hn (.inr z)
        simp [hg, hn1, hn2, hh.2.1]
      rw [hf] at this; cases this
    · obtain ⟨c, hc, hn⟩ := longer (j1.got.map (·.1)) (j1.failed ++ j1.succeeded) h1.keys
        (by rw [List.length_map]; omega)
      obtain ⟨e, he, rfl⟩ := List.mem_map.1 hc
      exact hn (counted e.1 e.2 he)
  · rw [if_neg k] at e; cases e

/-! ### All jobs -/

/-- A job after a return was taken. -/
def pre (ret : Option (Nat × Result)) (now : Nat) (j : Job) : Job :=
  match ret with
  | none => j
  | some (id, r) =>
    match j.reqs.lookup id with
    | none => j
    | some c => j.settle now id c r

/-- A job is left alone, or goes on after the return was taken. -/
theorem process_pre (cfg : Cfg) (w : World) (synced : List Client) (ret : Option (Nat × Result)) (rid : Nat)
    (j : Job) (x : Acc) : (j.process cfg w synced ret rid x = (some (pre ret w.now j), x) ∧ ret ≠ none) ∨
      j.process cfg w synced ret rid x = (pre ret w.now j).go cfg w synced rid x := by
  unfold Job.process pre
  cases ret with
  | none => exact .inr rfl
  | some p =>
    obtain ⟨id, r⟩ := p
    dsimp only
    cases j.reqs.lookup id with
    | none => exact .inl ⟨rfl, fun k => (nomatch k)⟩
    | some c => exact .inr rfl

theorem Went.mute {cfg : Cfg} {rid : Nat} {x : Acc} {r : Option Job × Acc} (h : Went cfg rid x r) :
    Mute x.log r.2.log ∧ x.next ≤ r.2.next ∧ x.log <:+ r.2.log := by
  cases e : r.1 with
  | some j => have := (h.on j e).2; exact ⟨this.mute, this.next, this.suffix⟩
  | none =>
    obtain ⟨bs, k1, k2, _⟩ := h.done e
    rw [k1, k2]
    exact ⟨.cons fun _ _ _ _ k => (nomatch k), Nat.le_refl _, suffix_cons _ _⟩

theorem processJobs_ki {cfg : Cfg} {T : Nat} {w : World} (hT : w.now ≤ T) {synced : List Client}
    {ret : Option (Nat × Result)} :
    ∀ {js : List (Nat × Job)} {x : Acc}, (∀ e ∈ js, JI e.1 x.log e.2) →
      (∀ e ∈ js, ∀ id r c, ret = some (id, r) → (id, c) ∈ e.2.reqs → Answered e.1 c r x.log) →
      (∀ e ∈ js, KI cfg T e.1 x.next x.log (pre ret w.now e.2)) →
      Mute x.log (processJobs cfg w synced ret js x).2.log ∧
      x.next ≤ (processJobs cfg w synced ret js x).2.next ∧
      (∀ e ∈ (processJobs cfg w synced ret js x).1, KI cfg T e.1 (processJobs cfg w synced ret js x).2.next
        (processJobs cfg w synced ret js x).2.log e.2) ∧
      ∀ (T' : Nat), Proper w → T' + cfg.timeout / 8 < w.now → ret = none →
        (∀ e ∈ js, KI cfg T' e.1 x.next x.log e.2) → ∀ d : List Client, d.Nodup → (∀ c ∈ d, c ∈ synced) →
        cfg.minPeers ≤ d.length → ∀ e ∈ (processJobs cfg w synced ret js x).1, e.2.pending ≠ []
  | [], x, _, _, _ => ⟨.refl _, Nat.le_refl _, fun _ k => (nomatch k),
      fun _ _ _ _ _ _ _ _ _ _ k => (nomatch k)⟩
  | (rid, j) :: l, x, h1, h2, h3 => by
    have hw := process_went (cfg := cfg) (w := w) (synced := synced) (ret := ret)
      (h1 (rid, j) List.mem_cons_self) (h2 (rid, j) List.mem_cons_self)
    have hp := process_pre cfg w synced ret rid j x
    have hm := hw.mute
    have h3j := h3 (rid, j) List.mem_cons_self
    unfold processJobs
    dsimp only
    generalize hr0 : j.process cfg w synced ret rid x = r at hw hp hm
    have ih := processJobs_ki (cfg := cfg) hT (synced := synced) (ret := ret) (js := l) (x := r.2)
      (fun e he => (h1 e (List.mem_cons_of_mem _ he)).mono hm.2.2)
      (fun e he id q c k1 k2 => (h2 e (List.mem_cons_of_mem _ he) id q c k1 k2).mono hm.2.2)
      (fun e he => (h3 e (List.mem_cons_of_mem _ he)).mono hm.1 hm.2.1 (Nat.le_refl _))
    have later : ∀ (T' : Nat), (∀ e ∈ (rid, j) :: l, KI cfg T' e.1 x.next x.log e.2) →
        ∀ e ∈ l, KI cfg T' e.1 r.2.next r.2.log e.2 := fun T' h e he =>
      (h e (List.mem_cons_of_mem _ he)).mono hm.1 hm.2.1 (Nat.le_refl _)
    cases hr : r.1 with
    | none =>
      refine ⟨hm.1.trans ih.1, Nat.le_trans hm.2.1 ih.2.1, ih.2.2.1, ?_⟩
      intro T' p1 p2 p3 p4
      exact ih.2.2.2 T' p1 p2 p3 (later T' p4)
    | some j' =>
      refine ⟨hm.1.trans ih.1, Nat.le_trans hm.2.1 ih.2.1, ?_, ?_⟩
      · intro e he
        rcases List.mem_cons.1 he with rfl | he
        · refine KI.mono ?_ ih.1 ih.2.1 (Nat.le_refl _)
          rcases hp with ⟨hp, _⟩ | hp
          · rw [hp] at hr ⊢
            cases hr
            exact h3j
          · rw [hp] at hr ⊢
            exact go_ki hT h3j j' hr
        · exact ih.2.2.1 e he
      · intro T' p1 p2 p3 p4 d d1 d2 d3 e he
        rcases List.mem_cons.1 he with rfl | he
        · rcases hp with ⟨_, hp⟩ | hp
          · exact absurd p3 hp
          · rw [hp] at hr
            subst p3
            exact go_pending p1 p2 (p4 (rid, j) List.mem_cons_self) d1 d2 d3 j' hr
        · exact ih.2.2.2 T' p1 p2 p3 (later T' p4) d d1 d2 d3 e he

/-- All jobs of a state. -/
def KS (cfg : Cfg) (T : Nat) (s : St) : Prop := ∀ e ∈ s.jobs, KI cfg T e.1 s.next s.log e.2

theorem ks_process {cfg : Cfg} {T : Nat} {s : St} (h : SI cfg s) (w : World) (hT : w.now ≤ T)
    (ret : Option (Nat × Result))
    (h1 : ∀ e ∈ s.jobs, ∀ id r c, ret = some (id, r) → (id, c) ∈ e.2.reqs → Answered e.1 c r s.log)
    (h2 : ∀ e ∈ s.fetches, ∀ id r c, ret = some (id, r) → (id, c) ∈ e.2.reqs →
      Came w.now e.1 e.2.query id c r s.log)
    (h3 : ∀ e ∈ s.jobs, KI cfg T e.1 s.next s.log (pre ret w.now e.2)) :
    KS cfg T (process cfg w ret s) ∧
    ∀ (T' : Nat), Proper w → T' + cfg.timeout / 8 < w.now → ret = none → KS cfg T' s →
      ∀ d : List Client, d.Nodup → (∀ c ∈ d, c ∈ s.synced) → cfg.minPeers ≤ d.length →
        ∀ e ∈ (process cfg w ret s).jobs, e.2.pending ≠ [] := by
  have a := processJobs_inv (cfg := cfg) (w := w) (synced := s.synced) (ret := ret) (js := s.jobs)
    (x := ⟨s.next, s.log⟩) h.jobs h1 h.each
  have a' := processJobs_ki (cfg := cfg) hT (synced := s.synced) (ret := ret) (js := s.jobs)
    (x := ⟨s.next, s.log⟩) h.jobs h1 h3
  unfold process KS
  dsimp only
  generalize processJobs cfg w s.synced ret s.jobs ⟨s.next, s.log⟩ = r at a a'
  have hg : Grow s.log r.2.log := a.2.2.1
  have b := processFetches_inv (cfg := cfg) (w := w) (synced := s.synced) (ret := ret) (fs := s.fetches)
    (x := r.2) (fun e he => (h.fetches e he).mono hg.suffix)
    (fun c hc => (h.live c).1 (by rw [← hg.live c]; exact hc))
    (fun e he id q c k1 k2 => (h2 e he id q c k1 k2).mono hg.suffix) a.2.1
  generalize processFetches cfg w s.synced ret s.fetches r.2 = q at b
  refine ⟨fun e he => (a'.2.2.1 e he).mono b.2.2.2.2.1 b.2.2.2.2.2 (Nat.le_refl _), ?_⟩
  intro T' p1 p2 p3 p4
  exact a'.2.2.2 T' p1 p2 p3 p4

theorem ks_idle {cfg : Cfg} {T : Nat} {s : St} (h : SI cfg s) (k : KS cfg T s) (w : World) (hT : w.now ≤ T) :
    KS cfg T (process cfg w none s) :=
  (ks_process h w hT none (fun _ _ _ _ _ k => (nomatch k)) (fun _ _ _ _ _ k => (nomatch k)) k).1

theorem ks_reply {cfg : Cfg} {T : Nat} {s : St} (h : SI cfg s) (k : KS cfg T s) (w : World)
    (hT : w.now ≤ T) (src : Client) (id : Nat) (r : Result) : KS cfg T (reply cfg w src id r s) := by
  unfold reply
  have hg := Grow.reply s.log w.now id src r
  have h0 : SI cfg { s with log := .reply w.now src id r :: s.log } := by
    refine ⟨⟨trivial, h.each⟩, fun e he => (h.jobs e he).mono hg.suffix,
      fun e he => (h.fetches e he).mono hg.suffix, ?_, ?_, h.count,
      fun e he => (h.kinds e he).imp fun _ k => k.imp fun _ k => hg.suffix.subset k⟩
    · intro c; exact h.live c
    · intro rid q t hm; exact h.opened rid q t (hg.opened rid q t hm)
  refine (ks_process h0 w hT _ ?_ ?_ ?_).1
  · intro e he id' r' c k1 k2
    cases k1
    obtain ⟨a, ha⟩ := (h.jobs e he).reqs id c k2
    exact ⟨src, a, [], s.log, w.now, id, rfl, ha⟩
  · intro e he id' r' c k1 k2
    cases k1
    obtain ⟨a, ha, hc⟩ := (h.fetches e he).reqs id c k2
    exact ⟨src, a, hc, List.mem_cons_of_mem _ ha, ⟨[], s.log, w.now, id, rfl, ha⟩, List.mem_cons_self⟩
  · intro e he
    have hk := k e he
    show KI cfg T e.1 s.next (.reply w.now src id r :: s.log) (pre (some (id, r)) w.now e.2)
    unfold pre
    dsimp only
    cases hl : e.2.reqs.lookup id with
    | some c => exact settle_ki hk (lookup_mem hl) _ _ _ _
    | none =>
      refine ⟨?_, hk.below, hk.one, hk.pend, hk.named, hk.keys, hk.waits⟩
      intro i c hm
      refine (hk.out i c hm).cons ?_
      intro _ _ _ q
      cases q
      exact lookup_none hl c hm

theorem ks_expire {cfg : Cfg} {T : Nat} {s : St} (k : KS cfg T s) (now : Nat) :
    KS cfg T (expireFetches cfg now (expireJobs cfg now s)) := by
  have h1 : KS cfg T (expireJobs cfg now s) := by
    unfold expireJobs
    by_cases q : cfg.minPeers ≤ s.synced.length
    · rw [if_pos q]
      dsimp only
      generalize (s.jobs.filter (·.2.late cfg now)).flatMap (·.2.pending) = g
      intro e he
      obtain ⟨e', he', rfl⟩ := List.mem_map.1 he
      by_cases z : e'.2.late cfg now = true
      · rw [if_pos z]; exact KI.new ..
      · rw [if_neg z]
        refine (k e' he').mono ⟨_, rfl, ?_⟩ (Nat.le_refl _) (Nat.le_refl _)
        intro e hm now src i r q
        obtain ⟨c, _, rfl⟩ := List.mem_map.1 hm
        cases q
    · rw [if_neg q]; exact k
  intro e he
  refine (h1 e he).mono ⟨_, rfl, ?_⟩ (Nat.le_refl _) (Nat.le_refl _)
  intro e hm now src i r q
  obtain ⟨c, _, rfl⟩ := List.mem_map.1 hm
  cases q

/-- The time of a callback. -/
def Op.time : Op → Nat
  | .start w _ => w.now
  | .reply w _ _ _ => w.now
  | .update w => w.now
  | .synced _ => 0
  | .unsynced _ => 0

theorem ks_step {cfg : Cfg} {T : Nat} {s : St} (h : SI cfg s) (k : KS cfg T s) (op : Op) (hT : op.time ≤ T) :
    KS cfg T (step cfg s op) := by
  cases op with
  | reply w src id r => exact ks_reply h k w hT src id r
  | update w =>
    exact ks_idle (si_expireFetches (si_expireJobs h w.now) w.now) (ks_expire k w.now) w hT
  | synced c =>
    intro e he
    exact (k e he).mono (.cons fun _ _ _ _ k => (nomatch k)) (Nat.le_refl _) (Nat.le_refl _)
  | unsynced c =>
    intro e he
    exact (k e he).mono (.cons fun _ _ _ _ k => (nomatch k)) (Nat.le_refl _) (Nat.le_refl _)
  | start w q =>
    have h1 := si_opened h w q
    show KS cfg T (start cfg w q s)
    rw [start_eq]
    refine ks_idle h1 ?_ w hT
    have old : ∀ e ∈ s.jobs, KI cfg T e.1 s.next (.opened s.rid q w.now :: s.log) e.2 := fun e he =>
      (k e he).mono (.cons fun _ _ _ _ k => (nomatch k)) (Nat.le_refl _) (Nat.le_refl _)
    cases q with
    | blocksAt n =>
      intro e he
      rcases List.mem_cons.1 he with rfl | he
      · exact KI.new ..
      · exact old e he
    | block hh p => exact old
    | blockAt n => exact old

theorem ks_run {cfg : Cfg} {T : Nat} (ops : List Op) (hT : ∀ op ∈ ops, op.time ≤ T) :
    KS cfg T (run cfg ops) := by
  unfold run
  suffices ∀ s, SI cfg s → KS cfg T s → KS cfg T (ops.foldl (step cfg) s) from
    this _ (si_init cfg) (fun _ k => (nomatch k))
  induction ops with
  | nil => exact fun _ _ h => h
  | cons op ops ih =>
    exact fun s h k => ih (fun o ho => hT o (List.mem_cons_of_mem _ ho)) _ (si_step h op)
      (ks_step h k op (hT op List.mem_cons_self))

/-- A request of the node is opened once. -/
theorem opened_once {cfg : Cfg} {rid : Nat} {q q' : Query} {t t' : Nat} : ∀ {l : List Ev},
    Each (Known cfg) l → .opened rid q t ∈ l → .opened rid q' t' ∈ l → q' = q ∧ t' = t
  | [], _, h, _ => (nomatch h)
  | e :: l, he, h, h' => by
    rcases List.mem_cons.1 h with k | k
    · rcases List.mem_cons.1 h' with k' | k'
      · rw [← k] at k'
        cases k'; exact ⟨rfl, rfl⟩
      · rw [← k] at he
        exact absurd k' (he.1 _ _)
    · rcases List.mem_cons.1 h' with k' | k'
      · rw [← k'] at he
        exact absurd k (he.1 _ _)
      · exact opened_once he.2 k k'

theorem opens_mem {α : Type} {i : Nat} : ∀ {l : List (Nat × α)}, opens i l ≠ 0 → ∃ v, (i, v) ∈ l
  | [], h => absurd rfl h
  | e :: l, h => by
    by_cases k : e.1 = i
    · exact ⟨e.2, by rw [← k]; exact List.mem_cons_self⟩
    · rw [opens_cons, if_neg k, Nat.zero_add] at h
      obtain ⟨v, hv⟩ := opens_mem h
      exact ⟨v, List.mem_cons_of_mem _ hv⟩

/-- A request of the node for the blocks at a height that is not answered is a job. -/
theorem open_job {cfg : Cfg} {s : St} (h : SI cfg s) {rid n t : Nat} (ho : .opened rid (.blocksAt n) t ∈ s.log)
    (ha : answers rid s.log = 0) : ∃ j, (rid, j) ∈ s.jobs := by
  have hc := h.count rid
  rw [if_pos (h.opened _ _ _ ho), ha] at hc
  by_cases k : opens rid s.jobs = 0
  · exfalso
    obtain ⟨f, hf⟩ := opens_mem (i := rid) (l := s.fetches) (by omega)
    have hfi := h.fetches _ hf
    exact hfi.kind n (opened_once h.each ho hfi.opened).1
  · exact opens_mem k

/-- The same for a fetch. -/
theorem open_fetch {cfg : Cfg} {s : St} (h : SI cfg s) {rid t : Nat} {q : Query}
    (ho : .opened rid q t ∈ s.log) (hq : ∀ n, q ≠ .blocksAt n)
    (ha : answers rid s.log = 0) : ∃ f, (rid, f) ∈ s.fetches ∧ f.query = q ∧ f.start = t := by
  have hc := h.count rid
  rw [if_pos (h.opened _ _ _ ho), ha] at hc
  by_cases k : opens rid s.fetches = 0
  · exfalso
    obtain ⟨j, hf⟩ := opens_mem (i := rid) (l := s.jobs) (by omega)
    obtain ⟨n, t', hfi⟩ := h.kinds _ hf
    exact hq n (opened_once h.each hfi ho).1
  · obtain ⟨f, hf⟩ := opens_mem k
    have := opened_once h.each ho (h.fetches _ hf).opened
    exact ⟨f, hf, this.1, this.2⟩

end Verif.Router.Sync
