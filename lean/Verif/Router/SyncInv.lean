/-
  Helper lemmas on the requests for blocks: what is behind the state of a job.
-/
import Verif.Router.SyncSpec

namespace Verif.Router.Sync

/-! ### Lists as sets and maps -/

theorem mem_ins {c x : Client} {l : List Client} : x ∈ ins c l ↔ x = c ∨ x ∈ l := by
  unfold ins
  by_cases h : c ∈ l
  · rw [if_pos h]
    constructor
    · exact Or.inr
    · rintro (rfl | k)
      · exact h
      · exact k
  · rw [if_neg h]; exact List.mem_cons

theorem nodup_ins {c : Client} {l : List Client} (h : l.Nodup) : (ins c l).Nodup := by
  unfold ins
  by_cases k : c ∈ l
  · rw [if_pos k]; exact h
  · rw [if_neg k]; exact List.nodup_cons.2 ⟨k, h⟩

theorem mem_del {c x : Client} {l : List Client} : x ∈ del c l ↔ x ∈ l ∧ x ≠ c := by
  unfold del; rw [List.mem_filter]; simp

theorem mem_put {α : Type} {k : Nat} {v : α} {l : List (Nat × α)} {e : Nat × α} :
    e ∈ put k v l ↔ e = (k, v) ∨ (e ∈ l ∧ e.1 ≠ k) := by
  unfold put; rw [List.mem_cons, List.mem_filter]; simp

theorem mem_rm {α : Type} {k : Nat} {l : List (Nat × α)} {e : Nat × α} :
    e ∈ rm k l ↔ e ∈ l ∧ e.1 ≠ k := by
  unfold rm; rw [List.mem_filter]; simp

theorem has_iff {α : Type} {k : Nat} {l : List (Nat × α)} : has k l = true ↔ ∃ v, (k, v) ∈ l := by
  unfold has
  rw [List.any_eq_true]
  constructor
  · rintro ⟨⟨a, b⟩, h, e⟩
    have : a = k := by simpa using e
    exact ⟨b, this ▸ h⟩
  · rintro ⟨v, h⟩
    exact ⟨_, h, by simp⟩

theorem has_put {α : Type} {k k' : Nat} {v : α} {l : List (Nat × α)} (h : has k' l = true ∨ k' = k) :
    has k' (put k v l) = true := by
  rw [has_iff]
  by_cases e : k' = k
  · subst e; exact ⟨v, mem_put.2 (.inl rfl)⟩
  · obtain ⟨u, hu⟩ := has_iff.1 (h.resolve_right e)
    exact ⟨u, mem_put.2 (.inr ⟨hu, e⟩)⟩

theorem nodup_put {α : Type} {k : Nat} {v : α} {l : List (Nat × α)} (h : (l.map (·.1)).Nodup) :
    ((put k v l).map (·.1)).Nodup := by
  unfold put
  rw [List.map_cons, List.nodup_cons]
  constructor
  · intro hm
    obtain ⟨e, he, rfl⟩ := List.mem_map.1 hm
    simp at he
  · exact h.sublist (List.filter_sublist.map _)

theorem lookup_mem {α : Type} {k : Nat} {v : α} : ∀ {l : List (Nat × α)}, l.lookup k = some v → (k, v) ∈ l
  | [], h => by simp at h
  | (a, b) :: l, h => by
    rw [List.lookup_cons] at h
    by_cases e : k = a
    · subst e
      simp at h
      subst h
      exact List.mem_cons_self
    · have : (k == a) = false := by simp [e]
      rw [this] at h
      exact List.mem_cons_of_mem _ (lookup_mem h)

theorem lookup_none {α : Type} {k : Nat} : ∀ {l : List (Nat × α)}, l.lookup k = none → ∀ v, (k, v) ∉ l
  | [], _, v => by simp
  | (a, b) :: l, h, v => by
    rw [List.lookup_cons] at h
    by_cases e : k = a
    · subst e; simp at h
    · have : (k == a) = false := by simp [e]
      rw [this] at h
      intro hm
      rcases List.mem_cons.1 hm with q | q
      · exact e (Prod.mk.inj q).1
      · exact lookup_none h v q

/-! ### Answers stay -/

theorem Answered.mono {rid : Nat} {c : Client} {r : Result} {l l' : List Ev}
    (h : Answered rid c r l) (s : l <:+ l') : Answered rid c r l' := by
  obtain ⟨src, a, l1, l2, now, id, rfl, h2⟩ := h
  obtain ⟨t, rfl⟩ := s
  exact ⟨src, a, t ++ l1, l2, now, id, by rw [List.append_assoc], h2⟩

theorem suffix_cons (e : Ev) (l : List Ev) : l <:+ e :: l := ⟨[e], rfl⟩

/-! ### What is behind a job -/

/-- A reply that makes a peer fail. -/
def Bad : Result → Prop
  | .hash none => True
  | .block none => True
  | .block (some b) => b.valid = false
  | _ => False

/-- A reply that makes a peer succeed. -/
def Fine (bl : List (Hash × Block)) : Result → Prop
  | .hash (some h) => has h.2 bl = true
  | .block (some b) => b.valid = true ∧ has b.hash bl = true
  | _ => False

theorem Fine.mono {bl bl' : List (Hash × Block)} (h : ∀ k, has k bl = true → has k bl' = true) :
    ∀ {r : Result}, Fine bl r → Fine bl' r
  | .hash (some _), k => h _ k
  | .block (some _), k => ⟨k.1, h _ k.2⟩
  | .hash none, k => k
  | .block none, k => k
  | .blockAt _, k => k
  | .exception, k => k
  | .other, k => k

structure JI (rid : Nat) (log : List Ev) (j : Job) : Prop where
  reqs : ∀ id c, (id, c) ∈ j.reqs → ∃ a, Ev.asked rid id c a ∈ log
  failed : ∀ c ∈ j.failed, ∃ r, Answered rid c r log ∧ Bad r
  got : ∀ c h, (c, h) ∈ j.got → Answered rid c (.hash (some h)) log
  succ : ∀ c ∈ j.succeeded, ∃ r, Answered rid c r log ∧ Fine j.blocks r
  blocks : ∀ k b, (k, b) ∈ j.blocks →
    b.hash = k ∧ b.valid = true ∧ ∃ c, Answered rid c (.block (some b)) log
  keys : (j.blocks.map (·.1)).Nodup
  nf : j.failed.Nodup
  ns : j.succeeded.Nodup

theorem JI.mono {rid : Nat} {l l' : List Ev} {j : Job} (h : JI rid l j) (s : l <:+ l') : JI rid l' j where
  reqs := fun id c k => (h.reqs id c k).imp fun _ q => s.subset q
  failed := fun c k => (h.failed c k).imp fun _ q => ⟨q.1.mono s, q.2⟩
  got := fun c e k => (h.got c e k).mono s
  succ := fun c k => (h.succ c k).imp fun _ q => ⟨q.1.mono s, q.2⟩
  blocks := fun k b q => ⟨(h.blocks k b q).1, (h.blocks k b q).2.1,
    (h.blocks k b q).2.2.imp fun _ p => p.mono s⟩
  keys := h.keys
  nf := h.nf
  ns := h.ns

/-- A job with nothing but its height and start time. -/
theorem JI.new (rid : Nat) (log : List Ev) (h t : Nat) : JI rid log { height := h, start := t } where
  reqs := fun _ _ k => (nomatch k)
  failed := fun _ k => (nomatch k)
  got := fun _ _ k => (nomatch k)
  succ := fun _ k => (nomatch k)
  blocks := fun _ _ k => (nomatch k)
  keys := List.nodup_nil
  nf := List.nodup_nil
  ns := List.nodup_nil

/-- Only requests, pending peers, waiting hashes and times differ, or named hashes were dropped. -/
theorem JI.less {rid : Nat} {log : List Ev} {j j' : Job} (h : JI rid log j)
    (h1 : ∀ id c, (id, c) ∈ j'.reqs → ∃ a, Ev.asked rid id c a ∈ log) (h2 : j'.failed = j.failed)
    (h3 : ∀ c e, (c, e) ∈ j'.got → (c, e) ∈ j.got) (h4 : j'.succeeded = j.succeeded)
    (h5 : j'.blocks = j.blocks) : JI rid log j' where
  reqs := h1
  failed := by rw [h2]; exact h.failed
  got := fun c e k => h.got c e (h3 c e k)
  succ := by rw [h4, h5]; exact h.succ
  blocks := by rw [h5]; exact h.blocks
  keys := by rw [h5]; exact h.keys
  nf := by rw [h2]; exact h.nf
  ns := by rw [h4]; exact h.ns

theorem JI.fail {rid : Nat} {log : List Ev} {j : Job} (h : JI rid log j) {c : Client} {r : Result}
    (a : Answered rid c r log) (b : Bad r) : JI rid log { j with failed := ins c j.failed } where
  reqs := h.reqs
  failed := by
    intro x hx
    rcases mem_ins.1 hx with rfl | k
    · exact ⟨r, a, b⟩
    · exact h.failed x k
  got := h.got
  succ := h.succ
  blocks := h.blocks
  keys := h.keys
  nf := nodup_ins h.nf
  ns := h.ns

theorem mem_named {x : Client} : ∀ {l : List (Client × Hash × Hash)} {a : List Client},
    x ∈ l.foldl (fun l e => ins e.1 l) a → x ∈ a ∨ ∃ h, (x, h) ∈ l
  | [], _, h => .inl h
  | e :: l, a, h => by
    rw [List.foldl_cons] at h
    rcases mem_named h with k | ⟨q, k⟩
    · rcases mem_ins.1 k with rfl | k
      · exact .inr ⟨e.2, List.mem_cons_self⟩
      · exact .inl k
    · exact .inr ⟨q, List.mem_cons_of_mem _ k⟩

theorem nodup_named : ∀ (l : List (Client × Hash × Hash)) (a : List Client), a.Nodup →
    (l.foldl (fun l e => ins e.1 l) a).Nodup
  | [], _, h => h
  | _ :: l, _, h => nodup_named l _ (nodup_ins h)

theorem JI.enter {rid : Nat} {log : List Ev} {j : Job} (h : JI rid log j) {c : Client} {b : Block}
    (a : Answered rid c (.block (some b)) log) (v : b.valid = true) : JI rid log (j.enter c b) where
  reqs := h.reqs
  failed := h.failed
  got := h.got
  succ := by
    intro x hx
    have hm : ∀ k, has k j.blocks = true → has k (j.enter c b).blocks = true :=
      fun k q => has_put (.inl q)
    rcases mem_ins.1 hx with rfl | k
    · exact ⟨_, a, v, has_put (.inr rfl)⟩
    · rcases mem_named k with k | ⟨q, k⟩
      · obtain ⟨r, h1, h2⟩ := h.succ x k
        exact ⟨r, h1, h2.mono hm⟩
      · rw [List.mem_filter] at k
        refine ⟨_, h.got x q k.1, ?_⟩
        exact has_put (.inr (by simpa using k.2))
  blocks := by
    intro k b' hm
    rcases mem_put.1 hm with e | ⟨e, _⟩
    · cases e; exact ⟨rfl, v, c, a⟩
    · exact h.blocks k b' e
  keys := nodup_put h.keys
  nf := h.nf
  ns := nodup_ins (nodup_named _ _ h.ns)

theorem JI.receive {rid : Nat} {log : List Ev} {j : Job} (h : JI rid log j) {c : Client}
    {b : Option Block} (a : Answered rid c (.block b) log) :
    JI rid log (j.receive c b) ∧ (c ∉ (j.receive c b).succeeded → Bad (.block b)) := by
  unfold Job.receive
  cases b with
  | none => exact ⟨h, fun _ => trivial⟩
  | some b =>
    have h1 : JI rid log (j.accept c b) ∧ (c ∉ (j.accept c b).succeeded → b.valid = false) := by
      unfold Job.accept
      by_cases v : b.valid = true
      · rw [if_pos v]
        exact ⟨h.enter a v, fun k => absurd (mem_ins.2 (.inl rfl)) k⟩
      · rw [if_neg v]
        exact ⟨h, fun _ => by simpa using v⟩
    exact ⟨h1.1.less h1.1.reqs rfl (fun _ _ q => q) rfl rfl, h1.2⟩

theorem JI.takeBlock {rid : Nat} {log : List Ev} {j : Job} (h : JI rid log j) {c : Client}
    {b : Option Block} (a : Answered rid c (.block b) log) : JI rid log (j.takeBlock c b) := by
  have h1 := h.receive a
  unfold Job.takeBlock Job.blame
  by_cases k : c ∈ (j.receive c b).succeeded
  · rw [if_pos k]; exact h1.1
  · rw [if_neg k]; exact h1.1.fail a (h1.2 k)

theorem JI.takeHash {rid : Nat} {log : List Ev} {j : Job} (h : JI rid log j) {c : Client}
    {e : Option (Hash × Hash)} (a : Answered rid c (.hash e) log) : JI rid log (j.takeHash c e) := by
  unfold Job.takeHash
  cases e with
  | none => exact h.fail a trivial
  | some e =>
    have h1 : JI rid log (j.praise c e.2) := by
      unfold Job.praise
      by_cases k : has e.2 j.blocks = true
      · rw [if_pos k]
        refine ⟨h.reqs, h.failed, h.got, ?_, h.blocks, h.keys, h.nf, nodup_ins h.ns⟩
        intro x hx
        rcases mem_ins.1 hx with rfl | q
        · exact ⟨_, a, k⟩
        · exact h.succ x q
      · rw [if_neg k]; exact h
    refine ⟨h1.reqs, h1.failed, ?_, h1.succ, h1.blocks, h1.keys, h1.nf, h1.ns⟩
    intro x q hm
    rcases mem_put.1 hm with k | ⟨k, _⟩
    · cases k; exact a
    · exact h1.got x q k

theorem JI.take {rid : Nat} {log : List Ev} {j : Job} (h : JI rid log j) {c : Client}
    {r : Result} (a : Answered rid c r log) : JI rid log (j.take c r) := by
  unfold Job.take
  cases r with
  | hash e => exact h.takeHash a
  | block b => exact h.takeBlock a
  | blockAt b => exact h
  | other => exact h
  | exception =>
    show JI rid log (j.takeError c)
    unfold Job.takeError
    cases j.got.lookup c with
    | none => exact h
    | some e => exact h.less h.reqs rfl (fun _ _ q => q) rfl rfl

theorem JI.settle {rid : Nat} {log : List Ev} {j : Job} (h : JI rid log j) {c : Client}
    {r : Result} (a : Answered rid c r log) (now id : Nat) : JI rid log (j.settle now id c r) := by
  have h1 := h.take a
  exact h1.less (fun i x q => h1.reqs i x (mem_rm.1 q).1) rfl (fun _ _ q => q) rfl rfl

theorem JI.lose {rid : Nat} {log : List Ev} {j : Job} (h : JI rid log j) (c : Client) :
    JI rid log (j.lose c) := by
  unfold Job.lose
  cases j.got.lookup c with
  | none => exact h.less h.reqs rfl (fun _ _ q => q) rfl rfl
  | some e => exact h.less h.reqs rfl (fun _ _ q => (mem_rm.1 q).1) rfl rfl

theorem JI.prune {rid : Nat} {log : List Ev} {j : Job} (h : JI rid log j) (synced : List Client) :
    JI rid log (j.prune synced) := by
  unfold Job.prune
  generalize j.pending.filter _ = l
  induction l generalizing j with
  | nil => exact h
  | cons c l ih => exact ih (h.lose c)

/-- A property of what is appended: it holds of each event with the log before it. -/
def Each (P : Ev → List Ev → Prop) : List Ev → Prop
  | [] => True
  | e :: l => P e l ∧ Each P l

theorem Each.split {P : Ev → List Ev → Prop} : ∀ {l1 : List Ev} {e : Ev} {l2 : List Ev},
    Each P (l1 ++ e :: l2) → P e l2
  | [], _, _, h => h.1
  | _ :: _, _, _, h => Each.split h.2

/-- The log grew by requests only. -/
inductive Asks (rid : Nat) : Acc → Acc → Prop
  | refl (x : Acc) : Asks rid x x
  | ask (x y : Acc) (a : Ask) (c : Client) : Asks rid x y → Asks rid x (Sync.ask rid a c y)

theorem Asks.suffix {rid : Nat} {x y : Acc} (h : Asks rid x y) : x.log <:+ y.log := by
  induction h with
  | refl => exact List.suffix_refl _
  | ask y a c _ ih => exact ih.trans (suffix_cons _ _)

theorem Asks.trans {rid : Nat} {x y z : Acc} (h : Asks rid x y) (k : Asks rid y z) : Asks rid x z := by
  induction k with
  | refl => exact h
  | ask y a c _ ih => exact .ask _ _ a c ih

theorem Asks.each {rid : Nat} {x y : Acc} (h : Asks rid x y) {P : Ev → List Ev → Prop}
    (hp : ∀ id c a l, P (.asked rid id c a) l) (hx : Each P x.log) : Each P y.log := by
  induction h with
  | refl => exact hx
  | ask y a c _ ih => exact ⟨hp _ _ _ _, ih⟩

/-- A request adds to the requests of the job what it adds to the log. -/
theorem JI.asked {rid : Nat} {x : Acc} {j : Job} (h : JI rid x.log j) (a : Ask) (c : Client)
    (p : List Client) (wt : List (Hash × Nat)) :
    JI rid (ask rid a c x).log { j with reqs := (x.next, c) :: j.reqs, pending := p, waiting := wt } := by
  have h1 := h.mono (suffix_cons (.asked rid x.next c a) x.log)
  refine h1.less ?_ rfl (fun _ _ q => q) rfl rfl
  intro i y q
  rcases List.mem_cons.1 q with k | k
  · cases k; exact ⟨a, List.mem_cons_self⟩
  · exact h1.reqs i y k

theorem askHash_inv {rid : Nat} {r : Job × Acc} (h : JI rid r.2.log r.1) (c : Client) :
    JI rid (askHash rid r c).2.log (askHash rid r c).1 ∧ Asks rid r.2 (askHash rid r c).2 :=
  ⟨h.asked (.hash r.1.height) c _ _, .ask _ _ _ _ (.refl _)⟩

theorem askHashes_inv {rid : Nat} (cfg : Cfg) (w : World) (synced : List Client) {r : Job × Acc}
    (h : JI rid r.2.log r.1) :
    JI rid (askHashes cfg w synced rid r).2.log (askHashes cfg w synced rid r).1 ∧
      Asks rid r.2 (askHashes cfg w synced rid r).2 := by
  unfold askHashes
  dsimp only
  by_cases k : r.1.pending.length + r.1.got.length < cfg.minPeers + 3
  · rw [if_pos k]
    generalize w.pick _ _ = l
    clear k
    induction l generalizing r with
    | nil => exact ⟨h, .refl _⟩
    | cons c l ih =>
      have h1 := askHash_inv h c
      have h2 := ih h1.1
      exact ⟨h2.1, h1.2.trans h2.2⟩
  · rw [if_neg k]; exact ⟨h, .refl _⟩

theorem askBlock_inv {rid : Nat} (cfg : Cfg) (w : World) {r : Job × Acc} (h : JI rid r.2.log r.1)
    (e : Client × Hash × Hash) :
    JI rid (askBlock cfg w rid r e).2.log (askBlock cfg w rid r e).1 ∧
      Asks rid r.2 (askBlock cfg w rid r e).2 := by
  unfold askBlock
  by_cases k : r.1.waits w.now e.2.2 = true
  · rw [if_pos k]; exact ⟨h, .refl _⟩
  · rw [if_neg k]; exact ⟨h.asked (.block e.2.1) e.1 _ _, .ask _ _ _ _ (.refl _)⟩

theorem askBlocks_inv {rid : Nat} (cfg : Cfg) (w : World) {r : Job × Acc} (h : JI rid r.2.log r.1) :
    JI rid (askBlocks cfg w rid r).2.log (askBlocks cfg w rid r).1 ∧
      Asks rid r.2 (askBlocks cfg w rid r).2 := by
  unfold askBlocks
  generalize w.order r.1.open = l
  induction l generalizing r with
  | nil => exact ⟨h, .refl _⟩
  | cons c l ih =>
    have h1 := askBlock_inv cfg w h c
    have h2 := ih h1.1
    exact ⟨h2.1, h1.2.trans h2.2⟩

/-- What a result of `get_blocks_at` is backed by. -/
structure Backed (cfg : Cfg) (rid : Nat) (bs : List Block) (l : List Ev) : Prop where
  peers : ∃ d : List Client, d.Nodup ∧ cfg.minPeers ≤ 2 * d.length ∧
    ∀ c ∈ d, ∃ r, Answered rid c r l ∧ Covers bs r
  valid : ∀ b ∈ bs, b.valid = true ∧ ∃ c, Answered rid c (.block (some b)) l
  nodup : (bs.map (·.hash)).Nodup

theorem has_covers {rid : Nat} {log : List Ev} {j : Job} (h : JI rid log j) {k : Hash}
    (q : has k j.blocks = true) : ∃ b ∈ j.blocks.map (·.2), b.hash = k := by
  obtain ⟨b, hb⟩ := has_iff.1 q
  exact ⟨b, List.mem_map.2 ⟨_, hb, rfl⟩, (h.blocks k b hb).1⟩

theorem bad_covers {bs : List Block} : ∀ {r : Result}, Bad r → Covers bs r
  | .hash none, _ => trivial
  | .block none, _ => trivial
  | .block (some b), h => fun v => by
    have h : b.valid = false := h
    rw [h] at v; cases v

theorem fine_covers {rid : Nat} {log : List Ev} {j : Job} (h : JI rid log j) :
    ∀ {r : Result}, Fine j.blocks r → Covers (j.blocks.map (·.2)) r
  | .hash (some _), q => has_covers h q
  | .block (some _), q => fun _ => has_covers h q.2

/-- The clients in one of two lists without repetition are at least half as many as both together. -/
theorem half : ∀ (a b : List Client), a.Nodup → b.Nodup →
    ∃ d : List Client, d.Nodup ∧ a.length + b.length ≤ 2 * d.length ∧ ∀ c ∈ d, c ∈ a ∨ c ∈ b := by
  intro a b ha hb
  by_cases h : a.length ≤ b.length
  · exact ⟨b, hb, by omega, fun c k => .inr k⟩
  · exact ⟨a, ha, by omega, fun c k => .inl k⟩

theorem JI.backed {cfg : Cfg} {rid : Nat} {log : List Ev} {j : Job} (h : JI rid log j)
    (hr : ¬ j.returns < cfg.minPeers) : Backed cfg rid (j.blocks.map (·.2)) log where
  peers := by
    obtain ⟨d, h1, h2, h3⟩ := half j.failed j.succeeded h.nf h.ns
    refine ⟨d, h1, ?_, ?_⟩
    · unfold Job.returns at hr; omega
    · intro c hc
      rcases h3 c hc with k | k
      · obtain ⟨r, q, q'⟩ := h.failed c k
        exact ⟨r, q, bad_covers q'⟩
      · obtain ⟨r, q, q'⟩ := h.succ c k
        exact ⟨r, q, fine_covers h q'⟩
  valid := by
    intro b hb
    obtain ⟨e, he, rfl⟩ := List.mem_map.1 hb
    exact (h.blocks e.1 e.2 he).2
  nodup := by
    have : (j.blocks.map (·.2)).map (·.hash) = j.blocks.map (·.1) := by
      rw [List.map_map]
      apply List.map_congr_left
      intro e he
      exact (h.blocks e.1 e.2 he).1
    rw [this]; exact h.keys

/-- What a step of a job does: it goes on, having sent requests, or it is done with a result. -/
structure Went (cfg : Cfg) (rid : Nat) (x : Acc) (r : Option Job × Acc) : Prop where
  on : ∀ j, r.1 = some j → JI rid r.2.log j ∧ Asks rid x r.2
  done : r.1 = none → ∃ bs, r.2.log = .blocks rid bs :: x.log ∧ r.2.next = x.next ∧
    Backed cfg rid bs x.log

theorem go_went {cfg : Cfg} {w : World} {synced : List Client} {rid : Nat} {j : Job} {x : Acc}
    (h : JI rid x.log j) : Went cfg rid x (j.go cfg w synced rid x) := by
  have h1 := h.prune synced
  unfold Job.go
  dsimp only
  by_cases k : (j.prune synced).returns < cfg.minPeers
  · rw [if_pos k]
    have h2 := askHashes_inv cfg w synced (r := (j.prune synced, x)) h1
    have h3 := askBlocks_inv cfg w h2.1
    refine ⟨?_, fun q => (nomatch q)⟩
    intro j' e
    cases e
    exact ⟨h3.1, h2.2.trans h3.2⟩
  · rw [if_neg k]
    exact ⟨fun _ q => (nomatch q), fun _ => ⟨_, rfl, rfl, h1.backed k⟩⟩

theorem process_went {cfg : Cfg} {w : World} {synced : List Client} {ret : Option (Nat × Result)}
    {rid : Nat} {j : Job} {x : Acc} (h : JI rid x.log j)
    (hr : ∀ id r c, ret = some (id, r) → (id, c) ∈ j.reqs → Answered rid c r x.log) :
    Went cfg rid x (j.process cfg w synced ret rid x) := by
  unfold Job.process
  cases ret with
  | none => exact go_went h
  | some p =>
    obtain ⟨id, r⟩ := p
    dsimp only
    cases e : j.reqs.lookup id with
    | none => exact ⟨fun j' q => by cases q; exact ⟨h, .refl _⟩, fun q => (nomatch q)⟩
    | some c => exact go_went (h.settle (hr id r c rfl (lookup_mem e)) _ _)

end Verif.Router.Sync
