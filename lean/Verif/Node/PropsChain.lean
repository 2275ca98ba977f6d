import Verif.Node.ProofLemmas
/-
  Properties C78 to C86: the chain of a node under every sequence of blocks, votes, fork switches and restarts.

  Common hypotheses.  `World R U`: among the blocks a node ever sees (`U`) no two have the same hash.
  `Honest U`: a block's height is one more than that of the block it names as predecessor (the code checks this
  only when the block is validated; C83_forged_height shows what happens otherwise).  `Total R`: applying a block
  that passed validation does not fail (C79_apply_fails shows what happens otherwise).  `Op.Safe`: restarts lose
  no stored block.  `st.astray = false`: no fork off the committed chain has failed halfway since the last start
  (C79_deep_switch_fails shows what happens otherwise).
-/
namespace Verif.Node

variable {S C : Type} {R : Rules S C} {U : Block → Prop}

/-! ## C78 -/

/-- In every state the node can get to, its tables are what applying the blocks of its chain one after the other
gives, each of them valid on top of the one before; and the chain it answers queries from lists exactly these
blocks by height. -/
theorem C78_chain_is_replay (hw : World R U) {os : List Op} {st : St S C} (h : Reached R U os st) :
    Replay R st.chain (st.tables R) ∧ ∀ n, hashAt st.db n = (st.chain.reverse[n]?).map (·.hash) := by
  have hi := reached_inv hw h
  refine ⟨hi.hist.replay hi.ne, ?_⟩
  have key : ∀ {db : List (Entry S)}, Hist R db → ∀ n,
      hashAt db n = ((db.map (·.block)).reverse[n]?).map (·.hash) := by
    intro db hh
    induction hh with
    | nil => intro n; simp [hashAt]
    | first _ =>
      intro n
      unfold hashAt
      rw [List.find?_cons]
      cases n with
      | zero => simp [hw.zero]
      | succ n => simp [hw.zero]
    | @next b s' e es c hh a1 a2 a3 a4 a5 ih =>
      intro n
      have hz := hist_zero hw hh e es rfl
      rw [List.map_cons, List.reverse_cons]
      unfold hashAt
      rw [List.find?_cons]
      dsimp only
      by_cases hn : b.height = n
      · have hlen : ((e :: es).map (·.block)).reverse.length = n := by simp; omega
        simp only [hn, beq_self_eq_true, Option.map_some]
        rw [List.getElem?_append_right (by omega), hlen]
        simp
      · have hf : (b.height == n) = false := by simpa using hn
        simp only [hf]
        rw [show ((e :: es).find? fun e => e.block.height == n).map (fun e => e.block.hash) = hashAt (e :: es) n from rfl,
          ih n]
        by_cases hlt : n < (e :: es).length
        · rw [List.getElem?_append_left (by simpa using hlt)]
        · have h1 : ((e :: es).map (·.block)).reverse[n]? = none := by
            rw [List.getElem?_eq_none_iff]; simp at hlt ⊢; omega
          have h2 : (((e :: es).map (·.block)).reverse ++ [b])[n]? = none := by
            rw [List.getElem?_eq_none_iff]; simp at hlt ⊢; omega
          rw [h1, h2]
  exact key hi.hist

/-- Two nodes with the same peak have the same chain and the same tables, whatever blocks, votes, forks and
restarts each of them has been through. -/
theorem C78_same_peak_same_tables (hw : World R U) {os1 os2 : List Op} {st1 st2 : St S C}
    (h1 : Reached R U os1 st1) (h2 : Reached R U os2 st2) (hp : tip st1.db = tip st2.db) :
    st1.chain = st2.chain ∧ st1.tables R = st2.tables R := by
  have i1 := reached_inv hw h1
  have i2 := reached_inv hw h2
  have := hist_unique hw i1.hist i2.hist i1.dbU i2.dbU i1.ne i2.ne hp
  unfold St.chain St.tables
  rw [this]
  exact ⟨rfl, rfl⟩

/-! ## C79, C80 -/

theorem line_on_root (hon : Honest U) {st : St S C} (hr : Ready R U st)
    {above : List (Entry S)} {re : Entry S} {below : List (Entry S)} (han : Anchored R U st above re below)
    {f : Fork C} (hf : f ∈ st.forks) {l : List (Fork C)}
    (hl : Ancestry st f l) (hroot : ∃ g, l.getLast? = some g ∧ g.block.prev = st.root.hash) :
    ∃ f0 rest, forkLine st f = some (f0 :: rest) ∧ f0 :: rest = (l.map (·.block)).reverse ∧ f0.prev = st.root.hash := by
  obtain ⟨g, g1, g2⟩ := hroot
  have hline := lineFrom_ancestry hl (st.forks.length + 1) []
    (Nat.le_succ_of_le (ancestry_length hon hr.inv.forkU hl hf)) ⟨g, g1, by rw [g2]; exact han.stored⟩
  rw [List.append_nil] at hline
  match hL : (l.map (·.block)).reverse with
  | [] =>
    simp at hL
    exact absurd hL hl.ne
  | f0 :: rest =>
    refine ⟨f0, rest, by unfold forkLine; rw [hline, hL], hL.symm, ?_⟩
    have : (l.map (·.block)).reverse.head? = some f0 := by rw [hL]; rfl
    rw [List.head?_reverse, List.getLast?_map, g1] at this
    simp at this
    rw [← this]; exact g2

/-- A switch to a fork off the uncommitted blocks that fails leaves chain, tables and root as they were, and one
of the fork's blocks is marked invalid that really is: no valid chain ends in it.  Missing: forks that leave the
committed chain (false, see C79_deep_switch_fails), and blocks that validate but cannot be applied (false, see
C79_apply_fails). -/
theorem C79_failed_switch_partial (hw : World R U) (hon : Honest U) (ht : Total R) {os : List Op} {st : St S C}
    (h : Reached R U os st) (hs : ∀ o ∈ os, o.Safe) (ha : st.astray = false) {f : Fork C} (hf : f ∈ st.forks)
    {l : List (Fork C)} (hl : Ancestry st f l) (hroot : ∃ g, l.getLast? = some g ∧ g.block.prev = st.root.hash)
    {st' : St S C} (he : forkTo R 3 st f = (st', .err)) :
    st'.chain = st.chain ∧ st'.tables R = st.tables R ∧ st'.root = st.root ∧
      ∃ g ∈ l, Marked st'.forks g.block.hash ∧ Dead R U g.block := by
  have hr := reached_ready hw hon h hs
  obtain ⟨above, re, below, han⟩ := hr.anchored ha
  obtain ⟨f0, rest, h1, h2, h3⟩ := line_on_root hon hr han hf hl hroot
  have hin : (findFork st.forks f.block.hash).isSome := by rw [find_self hr.tree hf]; rfl
  rcases forkTo_near hw ht hr.inv han hin (hr.inv.forkU f hf) h1 h3 1 with
    ⟨st1, o, new, keep, a1, _⟩ | ⟨st1, a1, a2, a3, a4, a5, x, a6, a7, a8⟩
  · rw [show (1 + 2) = 3 from rfl, he] at a1
    injection a1 with _ a1; cases a1
  · rw [show (1 + 2) = 3 from rfl, he] at a1
    injection a1 with a1 _; subst a1
    refine ⟨by unfold St.chain; rw [a2], by unfold St.tables; rw [a2], a3.root, ?_⟩
    rw [h2] at a6
    obtain ⟨g, g1, rfl⟩ := List.mem_map.1 (List.mem_reverse.1 a6)
    exact ⟨g, g1, a7, a8⟩

/-- A switch to a fork off the uncommitted blocks that succeeds ends at the requested block, keeps the chain up
to the last block both have in common, in particular everything committed, and returns that block. -/
theorem C80_switch (hw : World R U) (hon : Honest U) (ht : Total R) {os : List Op} {st : St S C}
    (h : Reached R U os st) (hs : ∀ o ∈ os, o.Safe) (ha : st.astray = false) {f : Fork C} (hf : f ∈ st.forks)
    {l : List (Fork C)} (hl : Ancestry st f l) (hroot : ∃ g, l.getLast? = some g ∧ g.block.prev = st.root.hash)
    {st' : St S C} {o : Option Block} (he : forkTo R 3 st f = (st', .ok o)) :
    st'.chain.head? = some f.block ∧ st'.root = st.root ∧ st'.committed = st.committed ∧
      ∃ new common, st'.chain = new ++ common ∧ common <:+ st.chain ∧
        (∀ b, new.getLast? = some b → b ∉ st.chain) ∧
        (∀ b, o = some b → common.head?.map (·.hash) = some b.hash) := by
  have hr := reached_ready hw hon h hs
  obtain ⟨above, re, below, han⟩ := hr.anchored ha
  obtain ⟨f0, rest, h1, h2, h3⟩ := line_on_root hon hr han hf hl hroot
  have hin : (findFork st.forks f.block.hash).isSome := by rw [find_self hr.tree hf]; rfl
  rcases forkTo_near hw ht hr.inv han hin (hr.inv.forkU f hf) h1 h3 1 with
    ⟨st1, o1, new, keep, a1, a2, a3, a4, a5, a6, a7, a8, a9, _⟩ | ⟨st1, a1, _⟩
  · rw [show (1 + 2) = 3 from rfl, he] at a1
    injection a1 with a1 a1'; subst a1
    injection a1' with a1'; subst a1'
    have han' : Anchored R U st' (new ++ keep) re below := by
      refine han.keeps a5 a9 (by rw [a2]; simp) ?_
      intro e hem
      have hb : e.block ∈ (keep.reverse ++ new.reverse).map (·.block) := by
        refine List.mem_map.2 ⟨e, ?_, rfl⟩
        rcases List.mem_append.1 hem with hem | hem
        · exact List.mem_append_right _ (List.mem_reverse.2 hem)
        · exact List.mem_append_left _ (List.mem_reverse.2 hem)
      rw [a6, h2] at hb
      obtain ⟨g, g1, g2⟩ := List.mem_map.1 (List.mem_reverse.1 hb)
      rw [← g2, find_self hr.tree (ancestry_mem hl hf g g1)]; rfl
    refine ⟨?_, a5.root, ?_, new.map (·.block), (keep ++ re :: below).map (·.block), ?_, ?_, ?_, ?_⟩
    · unfold St.chain
      match hd : st'.db, a9.ne with
      | e :: es, _ =>
        have : e.block = f.block := by
          refine hw.inj _ _ (a9.dbU e (by rw [hd]; simp)) (hr.inv.forkU f hf) ?_
          rw [← a4, hd]; rfl
        simp [this]
    · rw [committed_eq han', committed_eq han]
    · unfold St.chain; rw [a2, List.map_append]
    · obtain ⟨t, ht'⟩ := a3
      refine ⟨t.map (·.block), ?_⟩
      unfold St.chain
      rw [← List.map_append, ht']
    · intro b hb
      rw [List.getLast?_map] at hb
      match hx : new.getLast? with
      | none => rw [hx] at hb; cases hb
      | some x =>
        rw [hx] at hb
        simp at hb; subst hb
        exact a7 x hx
    · intro b hb
      rw [a8 b hb]
      match keep with
      | [] => rfl
      | k :: ks => rfl
  · rw [show (1 + 2) = 3 from rfl, he] at a1
    injection a1 with _ a1; cases a1

/-- Such a switch succeeds unless no valid chain ends in the requested block. -/
theorem C80_switch_succeeds (hw : World R U) (hon : Honest U) (ht : Total R) {os : List Op} {st : St S C}
    (h : Reached R U os st) (hs : ∀ o ∈ os, o.Safe) (ha : st.astray = false) {f : Fork C} (hf : f ∈ st.forks)
    {l : List (Fork C)} (hl : Ancestry st f l) (hroot : ∃ g, l.getLast? = some g ∧ g.block.prev = st.root.hash)
    {bs : List Block} {s : S} (hbs : ∀ b ∈ bs, U b) (hv : Replay R (f.block :: bs) s) :
    ∃ st' o, forkTo R 3 st f = (st', .ok o) := by
  have hr := reached_ready hw hon h hs
  match hres : forkTo R 3 st f with
  | (st', .ok o) => exact ⟨st', o, rfl⟩
  | (st', .err) =>
    exfalso
    obtain ⟨_, _, _, g, hg, _, hd⟩ := C79_failed_switch_partial hw hon ht h hs ha hf hl hroot hres
    have : ∀ {f : Fork C} {l : List (Fork C)}, Ancestry st f l → f ∈ st.forks → g ∈ l → Dead R U f.block := by
      intro f l hl
      induction hl with
      | base _ => intro _ hg; simp at hg; subst hg; exact hd
      | @step f p l hn hp _ ih =>
        intro hf hg
        rcases List.mem_cons.1 hg with rfl | hg
        · exact hd
        · obtain ⟨p1, p2⟩ := findFork_mem hp
          exact dead_child hw (hr.inv.forkU p p1) (ih p1 hg) p2.symm
    exact this hl hf hg bs s hbs hv

/-! ## C81 -/

/-- Among forks that start from blocks of equal weight, the fork chosen is one that may be chosen, and is preferred
to every other: more votes on its line, then height, then the smaller hash.  None is chosen only if none may be.
Missing: forks that start from blocks of different weight; there the comparison is not even transitive (see
C81_cycle). -/
theorem C81_best_fork_partial (hw : World R U) (hon : Honest U) {os : List Op} {st : St S C} (h : Reached R U os st)
    (hs : ∀ o ∈ os, o.Safe) (ha : st.astray = false) (wait : Bool) {w : Nat}
    (hsw : ∀ g l r, Candidate st wait g l r → r.weight = w) :
    ((findBest st wait).2 = none ∧ ∀ g l r, ¬ Candidate st wait g l r) ∨
    ∃ g l r b, Candidate st wait g l r ∧ (findBest st wait).2 = some b ∧ b.block = g.block ∧
      ∀ g2 l2 r2, Candidate st wait g2 l2 r2 →
        g2.block = g.block ∨ Preferred (votesOf l) g.block (votesOf l2) g2.block := by
  have hr := reached_ready hw hon h hs
  obtain ⟨above, re, below, han⟩ := hr.anchored ha
  rcases findBest_spec hsw hr.tree han.high hon hr.inv.forkU with ⟨h1, h2⟩ | ⟨g, hg, l, r, b, h1, h2, h3, h4⟩
  · exact .inl ⟨h1, fun g l r c => h2 g c.mem l r c⟩
  · exact .inr ⟨g, l, r, b, h2, h1, h3.block, fun g2 l2 r2 c => h4 g2 c.mem l2 r2 c⟩

/-- Two nodes on the same committed chain that know the same candidates with the same votes choose the same
block, in whatever order blocks and votes reached them. -/
theorem C81_arrival_order (hw : World R U) (hon : Honest U) {os1 os2 : List Op} {st1 st2 : St S C}
    (h1 : Reached R U os1 st1) (hs1 : ∀ o ∈ os1, o.Safe) (ha1 : st1.astray = false)
    (h2 : Reached R U os2 st2) (hs2 : ∀ o ∈ os2, o.Safe) (ha2 : st2.astray = false) (wait : Bool) {w : Nat}
    (hsw1 : ∀ g l r, Candidate st1 wait g l r → r.weight = w)
    (hsw2 : ∀ g l r, Candidate st2 wait g l r → r.weight = w)
    (hsame : ∀ (b : Block) (v : Nat), (∃ g l r, Candidate st1 wait g l r ∧ g.block = b ∧ votesOf l = v) ↔
      ∃ g l r, Candidate st2 wait g l r ∧ g.block = b ∧ votesOf l = v) :
    (findBest st1 wait).2.map (·.block) = (findBest st2 wait).2.map (·.block) := by
  rcases C81_best_fork_partial hw hon h1 hs1 ha1 wait hsw1 with ⟨e1, n1⟩ | ⟨g1, l1, r1, b1, c1, e1, k1, m1⟩
  · rcases C81_best_fork_partial hw hon h2 hs2 ha2 wait hsw2 with ⟨e2, n2⟩ | ⟨g2, l2, r2, b2, c2, e2, k2, m2⟩
    · rw [e1, e2]
    · obtain ⟨g, l, r, c, _, _⟩ := (hsame g2.block (votesOf l2)).2 ⟨g2, l2, r2, c2, rfl, rfl⟩
      exact absurd c (n1 g l r)
  · rcases C81_best_fork_partial hw hon h2 hs2 ha2 wait hsw2 with ⟨e2, n2⟩ | ⟨g2, l2, r2, b2, c2, e2, k2, m2⟩
    · obtain ⟨g, l, r, c, _, _⟩ := (hsame g1.block (votesOf l1)).1 ⟨g1, l1, r1, c1, rfl, rfl⟩
      exact absurd c (n2 g l r)
    · rw [e1, e2, Option.map_some, Option.map_some, k1, k2]
      congr 1
      obtain ⟨x, lx, rx, cx, ex, vx⟩ := (hsame g2.block (votesOf l2)).2 ⟨g2, l2, r2, c2, rfl, rfl⟩
      obtain ⟨y, ly, ry, cy, ey, vy⟩ := (hsame g1.block (votesOf l1)).1 ⟨g1, l1, r1, c1, rfl, rfl⟩
      rcases m1 x lx rx cx with h | h
      · rw [← h, ex]
      · rcases m2 y ly ry cy with h' | h'
        · rw [← h', ey]
        · rw [ex, vx] at h
          rw [ey, vy] at h'
          exact absurd h' h.asymm

/-! ## C82 -/

/-- The loop that picks a fork, tries to switch to it and picks again if that fails, always ends. -/
theorem C82_loop_ends (R : Rules S C) (wait : Bool) (st : St S C) :
    (choose R wait (st.forks.length + 2) st).2.isSome := choose_some wait st

/-- Where no fork leaves the committed chain, `update` ends at the preferred one of the forks that may be chosen
and are valid: any other is less preferred, or no valid chain ends in it.  If none is valid nothing changes. -/
theorem C82_follows_best (hw : World R U) (hon : Honest U) (ht : Total R) {os : List Op} {st : St S C}
    (h : Reached R U os st) (hs : ∀ o ∈ os, o.Safe) (ha : st.astray = false) (hnd : NoDeep st) (env : Env) :
    ((update R env st).1.chain = st.chain ∧
      ∀ g l r, Candidate (prepare R env st) env.wait g l r → Dead R U g.block) ∨
    ∃ g l r, Candidate (prepare R env st) env.wait g l r ∧
      (update R env st).1.chain.head? = some g.block ∧
      ∀ g2 l2 r2, Candidate (prepare R env st) env.wait g2 l2 r2 →
        g2.block = g.block ∨ Preferred (votesOf l) g.block (votesOf l2) g2.block ∨ Dead R U g2.block := by
  have hr := reached_ready hw hon h hs
  have k1 : Keeps (prepare R env st) st := keeps_prepare hw hr.inv env
  have h1 : Ready R U (prepare R env st) := ready_prepare hw hr env
  have hu := ready_update hw hon hr env
  rcases choose_best hw ht hon env.wait h1 (k1.astray.trans ha) (hnd.keeps k1) with
    ⟨a1, a2⟩ | ⟨g, l, r, a1, a2, a3⟩
  · left
    refine ⟨?_, a2⟩
    unfold St.chain
    rw [update_db, a1]
    rfl
  · right
    refine ⟨g, l, r, a1, ?_, a3⟩
    rw [← update_db] at a2
    unfold St.chain
    match hd : (update R env st).1.db, hu.inv.ne with
    | e :: es, _ =>
      have : e.block = g.block := by
        refine hw.inj _ _ (hu.inv.dbU e (by rw [hd]; simp)) (h1.inv.forkU g a1.mem) ?_
        rw [← a2, hd]; rfl
      simp [this]

/-! ## C83 -/

/-- Where no fork leaves the committed chain, `update` keeps every committed block, and commits further blocks
only once the peak is the required number of blocks above them. -/
theorem C83_finality_partial (hw : World R U) (hon : Honest U) (ht : Total R) {os : List Op} {st : St S C}
    (h : Reached R U os st) (hs : ∀ o ∈ os, o.Safe) (ha : st.astray = false) (hnd : NoDeep st) (env : Env) :
    st.committed <:+ (update R env st).1.committed ∧ st.committed.head? = some st.root ∧
      ∃ line : List Block, (update R env st).1.chain = line ++ st.committed ∧
        ((update R env st).1.root = st.root ∨
          ∃ pk, (update R env st).1.chain.head? = some pk ∧ env.ready (update R env st).1.root = true ∧
            (update R env st).1.root.height + waitTime R st.root line pk ≤ pk.height) := by
  have hr := reached_ready hw hon h hs
  obtain ⟨above, re, below, han⟩ := hr.anchored ha
  have hnear := update_near hw ht hon hr ha hnd env han
  generalize (update R env st).1 = st' at hnear ⊢
  obtain ⟨line, rest, re', below', a1, a2, a3, _, a4⟩ := hnear
  generalize hline : line.map (·.block) = lb at a4
  refine ⟨?_, ?_, lb, ?_, a4⟩
  · rw [committed_eq han, committed_eq a1]
    obtain ⟨t, ht'⟩ := a3
    exact ⟨t.map (·.block), by rw [← List.map_append, ht']⟩
  · rw [committed_eq han]
    simp [han.above.root]
  · unfold St.chain
    rw [a2, committed_eq han, List.map_append, hline]

/-- Histories of new blocks and updates during which no fork leaves the committed chain. -/
inductive Forward (R : Rules S C) (U : Block → Prop) : St S C → List Op → St S C → Prop where
  | nil {st : St S C} : Forward R U st [] st
  | add {st st' : St S C} {b : Block} {os : List Op} : U b → Forward R U (addBlock R st b) os st' →
      Forward R U st (.add b :: os) st'
  | update {st st' : St S C} {env : Env} {os : List Op} : NoDeep st → Forward R U (Node.update R env st).1 os st' →
      Forward R U st (.update env :: os) st'

/-- Over any number of new blocks and updates, committed blocks stay. -/
theorem C83_committed_stays (hw : World R U) (hon : Honest U) (ht : Total R) {os : List Op} {st : St S C}
    (h : Reached R U os st) (hs : ∀ o ∈ os, o.Safe) (ha : st.astray = false) {more : List Op} {st' : St S C}
    (hf : Forward R U st more st') : st.committed <:+ st'.committed := by
  have hr := reached_ready hw hon h hs
  clear h hs
  induction hf with
  | nil => exact List.suffix_refl _
  | @add st st' b os hb _ ih =>
    have h1 : (addBlock R st b).astray = st.astray ∧ (addBlock R st b).committed = st.committed := by
      unfold addBlock
      split
      · exact ⟨rfl, rfl⟩
      · split <;> exact ⟨rfl, rfl⟩
    rw [← h1.2]
    exact ih (h1.1.trans ha) (ready_addBlock hr hb)
  | @update st st' env os hnd _ ih =>
    obtain ⟨above, re, below, han⟩ := hr.anchored ha
    obtain ⟨line, rest, re', below', a1, a2, a3, a4, _⟩ := update_near hw ht hon hr ha hnd env han
    refine List.IsSuffix.trans ?_ (ih a4 (ready_update hw hon hr env))
    rw [committed_eq han, committed_eq a1]
    obtain ⟨t, ht'⟩ := a3
    exact ⟨t.map (·.block), by rw [← List.map_append, ht']⟩

/-! ## C84 -/

/-- A node that ends in any way and is started again comes back with the chain it had, up to the version the
database recovered to; the root is the block `commit_delay` below the peak, and the blocks above the root are
known as forks again. -/
theorem C84_restart (hw : World R U) (hon : Honest U) {os : List Op} {st : St S C} (h : Reached R U os st)
    (hs : ∀ o ∈ os, o.Safe) {keep : Nat} (hk : 0 < keep) :
    ∃ st', step R st (.restart keep fun _ => false) = some st' ∧
      st'.chain = st.chain.filter (fun b => b.height < keep) ∧ Replay R st'.chain (st'.tables R) ∧
      st'.root ∈ st'.chain ∧ (∀ pk, st'.chain.head? = some pk → st'.root.height = pk.height - min R.delay pk.height) ∧
      ∀ b ∈ st'.chain, st'.root.height < b.height → (findFork st'.forks b.hash).isSome := by
  have hr := reached_ready hw hon h hs
  obtain ⟨keep, rfl⟩ : ∃ k, keep = k + 1 := ⟨keep - 1, by omega⟩
  have hne := revertDb_ne hw hr.inv.hist hr.inv.ne keep
  have hfl : st.disk.filter (fun b => !(fun _ : Nat => false) b.hash) = st.disk := by
    rw [List.filter_eq_self]; intro b _; rfl
  have h0 : Inv0 R U { revert st (keep + 1) with disk := st.disk.filter fun b => !(fun _ => false) b.hash } :=
    ⟨revertDb_hist hr.inv.hist _, fun e he => hr.inv.dbU e (List.mem_filter.1 he).1,
      by rw [hfl]; exact hr.inv.diskU, hr.inv.rootU⟩
  have hst : Stored { revert st (keep + 1) with disk := st.disk.filter fun b => !(fun _ => false) b.hash } := by
    intro e he
    show e.block ∈ st.disk.filter _
    rw [hfl]
    exact hr.stored e (List.mem_filter.1 he).1
  obtain ⟨st', h1, h2⟩ := reset_total hw h0 hst hne
  obtain ⟨r1, r2, r3⟩ := ready_reset hw h0 hst h1
  have hdb : st'.db = revertDb (keep + 1) st.db := r2 hne
  have hch : st'.chain = st.chain.filter (fun b => b.height < keep + 1) := by
    unfold St.chain
    rw [hdb, filter_chain]
  obtain ⟨above, re, below, han⟩ := r1.anchored r3
  refine ⟨st', h1, hch, r1.inv.hist.replay r1.inv.ne, ?_, ?_, ?_⟩
  · unfold St.chain
    rw [han.above.eq, ← han.above.root]; simp
  · intro pk hpk
    refine h2 pk ?_
    unfold St.chain
    show ((revertDb (keep + 1) st.db).map (·.block)).head? = _
    rw [← hdb]; exact hpk
  · intro b hb hlt
    unfold St.chain at hb
    rw [han.above.eq, List.map_append] at hb
    rcases List.mem_append.1 hb with hb | hb
    · obtain ⟨e, he, rfl⟩ := List.mem_map.1 hb
      exact han.above.inTree e he
    · exfalso
      rw [← committed_eq han] at hb
      unfold St.committed at hb
      have := (List.mem_filter.1 hb).2
      simp at this; omega

/-- Even if stored blocks can no longer be read, a node that starts does so on the start of its old chain. -/
theorem C84_lost_blocks (hw : World R U) {os : List Op} {st st' : St S C} (h : Reached R U os st) {keep : Nat}
    (hk : 0 < keep) (lost : Nat → Bool) (hs : step R st (.restart keep lost) = some st') :
    st'.chain <:+ st.chain ∧ Replay R st'.chain (st'.tables R) := by
  have hi := reached_inv hw h
  obtain ⟨keep, rfl⟩ : ∃ k, keep = k + 1 := ⟨keep - 1, by omega⟩
  have hi' := inv_step hw hi (o := .restart (keep + 1) lost) trivial hs
  refine ⟨?_, hi'.hist.replay hi'.ne⟩
  have h0 : Inv0 R U { revert st (keep + 1) with disk := st.disk.filter fun b => !lost b.hash } :=
    ⟨revertDb_hist hi.hist _, fun e he => hi.dbU e (List.mem_filter.1 he).1,
      fun b hb => hi.diskU b (List.mem_filter.1 hb).1, hi.rootU⟩
  have := (reset_suffix hw h0 (revertDb_ne hw hi.hist hi.ne keep) hs).trans
    (revertDb_suffix (R := R) (keep + 1) hi.hist)
  obtain ⟨t, ht⟩ := this
  exact ⟨t.map (·.block), by unfold St.chain; rw [← List.map_append, ht]⟩

/-! ## C85 -/

/-- The votes counted for a block are those of distinct validators of that block who voted for it: their number
is the number of those keys, each a validator of the block, and for each a vote reached the node. -/
theorem C85_votes (R : Rules S C) (U : Block → Prop) {os : List Op} {st : St S C} (h : Reached R U os st) {f : Fork C} (hf : f ∈ st.forks) :
    ∃ keys : List Nat, keys.Nodup ∧ f.votes = keys.length ∧
      ∀ k ∈ keys, k ∈ R.validators f.block ∧ ∃ o ∈ os, ⟨f.block.hash, k⟩ ∈ o.votes := by
  obtain ⟨_, s0, h2, h3⟩ := h
  have h0 : All (VoteOk R (fun v => ∃ o ∈ os, v ∈ o.votes)) s0.forks := by
    unfold start at h2
    split at h2
    · cases h2
    · injection h2 with h2; subst h2; intro f hf; cases hf
  have hv := all_run (V := fun v => ∃ o ∈ os, v ∈ o.votes) vote_closed os h0 (fun o ho v hv => ⟨o, ho, hv⟩) h3 f hf
  refine ⟨(f.validators.filter (·.2)).map (·.1), ?_, ?_, ?_⟩
  · exact hv.nodup.sublist ((List.filter_sublist).map _)
  · rw [hv.count, List.countP_eq_length_filter, List.length_map]
  · intro k hk
    obtain ⟨x, hx, rfl⟩ := List.mem_map.1 hk
    obtain ⟨x1, x2⟩ := List.mem_filter.1 hx
    refine ⟨hv.sub x x1, hv.cast x.1 ?_⟩
    have : x = (x.1, true) := Prod.ext rfl x2
    rw [← this]; exact x1

/-! ## C86 -/

/-- Every block of the chain but the first has a valid proof, in every state the node gets to by updates, blocks
and votes received, restarts and, as `make_block` does (src/Node_update.cpp:484-519, 936), moves to blocks that
have been on the chain before. -/
theorem C86_proofs (hw : World R U) (hon : Honest U) {os : List Op} {st : St S C} (h : Reached R U os st)
    (hs : ∀ o ∈ os, o.Safe)
    (hback : ∀ pre n post, os = pre ++ .forkTo n :: post → ∃ pre' s, pre' <+: pre ∧ Reached R U pre' s ∧
      n ∈ s.chain.map (·.hash)) :
    ∀ b ∈ st.chain, b = R.genesis ∨ R.proof b = true :=
  Checked.blocks (reached_checked hw hon os.length os st (Nat.le_refl _) h hs hback)

end Verif.Node
