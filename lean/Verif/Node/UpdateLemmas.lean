import Verif.Node.JudgeLemmas
import Verif.Node.VoteLemmas
/-
  `update` as a whole, and starting again.
-/
namespace Verif.Node

variable {S C : Type} {R : Rules S C} {U : Block → Prop}

theorem reached_inv (hw : World R U) {os : List Op} {st : St S C} (h : Reached R U os st) : Inv R U st := by
  obtain ⟨h1, s0, h2, h3⟩ := h
  exact inv_run hw os (inv_start hw h2) h1 h3

theorem reached_ready (hw : World R U) (hon : Honest U) {os : List Op} {st : St S C} (h : Reached R U os st)
    (hs : ∀ o ∈ os, o.Safe) : Ready R U st := by
  obtain ⟨h1, s0, h2, h3⟩ := h
  exact ready_run hw hon os (ready_start hw h2) (fun o ho => ⟨h1 o ho, hs o ho⟩) h3

/-! ### The committed part -/

theorem committed_eq {st : St S C} {above : List (Entry S)} {re : Entry S} {below : List (Entry S)}
    (h : Anchored R U st above re below) : st.committed = (re :: below).map (·.block) := by
  unfold St.committed St.chain
  have hh := h.above.hist
  rw [h.above.eq] at hh ⊢
  rw [List.map_append, List.filter_append]
  have h1 : (above.map (·.block)).filter (fun b => decide (b.height ≤ st.root.height)) = [] := by
    rw [List.filter_eq_nil_iff]
    intro b hb
    obtain ⟨y, hy, rfl⟩ := List.mem_map.1 hb
    obtain ⟨l, r, rfl⟩ := List.append_of_mem hy
    rw [List.append_assoc] at hh
    have := (Hist.suffix hh).lt y (r ++ re :: below) rfl re (by simp)
    rw [h.above.root] at this
    simp; omega
  have h2 : ((re :: below).map (·.block)).filter (fun b => decide (b.height ≤ st.root.height)) =
      (re :: below).map (·.block) := by
    rw [List.filter_eq_self]
    intro b hb
    obtain ⟨y, hy, rfl⟩ := List.mem_map.1 hb
    rcases List.mem_cons.1 hy with rfl | hy
    · rw [h.above.root]; simp
    · have := (Hist.suffix hh).lt re below rfl y hy
      rw [h.above.root] at this
      simp; omega
  rw [h1, h2, List.nil_append]

/-! ### update -/

theorem update_db (env : Env) (st : St S C) : (update R env st).1.db =
    (choose R env.wait ((prepare R env st).forks.length + 2) (prepare R env st)).1.db := by
  unfold update
  dsimp only
  split
  · rfl
  · unfold commitPart
    dsimp only
    split
    · split
      · rfl
      · split
        · rfl
        · exact (commitLine_astray _ _ _ _ _).2.1
    · rfl

theorem update_near (hw : World R U) (ht : Total R) (hon : Honest U) {st : St S C} (hr : Ready R U st)
    (ha : st.astray = false) (hnd : NoDeep st) (env : Env) {above : List (Entry S)} {re : Entry S}
    {below : List (Entry S)} (han : Anchored R U st above re below) :
    ∃ line rest re' below', Anchored R U (update R env st).1 rest re' below' ∧
      (update R env st).1.db = line ++ re :: below ∧ (re :: below) <:+ (re' :: below') ∧
      (update R env st).1.astray = false ∧ ((update R env st).1.root = st.root ∨
        ∃ pk, (update R env st).1.chain.head? = some pk ∧ env.ready (update R env st).1.root = true ∧
          (update R env st).1.root.height +
            waitTime R st.root (line.map (·.block)) pk ≤ pk.height) := by
  have k1 := keeps_prepare hw hr.inv env
  have h1 := ready_prepare hw hr env
  have an1 := han.keeps k1 h1.inv han.above.eq han.above.inTree
  obtain ⟨above', an2, k2, _⟩ := choose_near hw ht hon env.wait
    ((castVotes env.best (verifyBlocks R st env.synced env.vdf env.far).forks env.votes).1.length + 2) _ h1
    (k1.astray.trans ha) an1 (hnd.keeps k1)
  have h2 := ready_choose hw hon env.wait
    ((castVotes env.best (verifyBlocks R st env.synced env.vdf env.far).forks env.votes).1.length + 2) _ h1
  unfold update
  dsimp only
  generalize hs3 : (choose R env.wait
    ((castVotes env.best (verifyBlocks R st env.synced env.vdf env.far).forks env.votes).1.length + 2)
    { verifyBlocks R st env.synced env.vdf env.far with
      forks := (castVotes env.best (verifyBlocks R st env.synced env.vdf env.far).forks env.votes).1 }).1 = s3 at *
  have hroot : s3.root = st.root := (k2.trans k1).root
  have hast : s3.astray = false := (k2.trans k1).astray.trans ha
  have stay : ∃ line rest re' below', Anchored R U s3 rest re' below' ∧ s3.db = line ++ re :: below ∧
      (re :: below) <:+ (re' :: below') ∧ s3.astray = false ∧ (s3.root = st.root ∨
        ∃ pk, s3.chain.head? = some pk ∧ env.ready s3.root = true ∧
          s3.root.height + waitTime R st.root (line.map (·.block)) pk ≤ pk.height) :=
    ⟨above', above', re, below, an2, an2.above.eq, List.suffix_refl _, hast, .inl hroot⟩
  split
  · exact stay
  · next peak hpk =>
    obtain ⟨pu, ph⟩ := getBlock_mem h2.inv hpk
    unfold commitPart
    dsimp only
    split
    · rw [ph, lineOf_peak hw h2.inv an2]
      dsimp only
      split
      · exact stay
      · next d hd =>
        obtain ⟨st', c, rest, re', below', i1, i2, i3, i4, i5, i6, i7, i8, i9, i10⟩ :=
          anchored_commitLine hw d peak.height env.ready above'.reverse s3 re below
            (by rw [List.reverse_reverse]; exact an2) h2.inv h2.stored
        rw [i1]
        dsimp only
        have hdb : st'.db = above' ++ re :: below := i6.trans an2.above.eq
        refine ⟨above', rest.reverse, re', below', i3, hdb, ?_, i7.trans hast, ?_⟩
        · have e1 := i3.above.eq
          rw [hdb, ← List.reverse_reverse above', i2, List.reverse_append, List.append_assoc] at e1
          have e2 := List.append_cancel_left e1
          exact ⟨c.reverse, e2⟩
        · match hc : c with
          | [] =>
            left
            simp at i9
            rw [← i8, ← i9, an2.above.root, hroot]
          | a :: c' =>
            right
            have hlast : (re :: a :: c').getLast (by simp) ∈ a :: c' := by
              rw [List.getLast_cons (by simp)]; exact List.getLast_mem _
            rw [i9] at hlast
            obtain ⟨j1, j2⟩ := i10 re' hlast
            have hhead : st'.chain.head? = some peak := by
              unfold St.chain
              rw [i6]
              match hdd : s3.db, h2.inv.ne with
              | e :: es, _ =>
                have : e.block = peak := by
                  refine hw.inj _ _ (h2.inv.dbU e (by rw [hdd]; simp)) pu ?_
                  rw [ph, hdd]; rfl
                simp [this]
            refine ⟨peak, hhead, by rw [← i8]; exact j2, ?_⟩
            unfold commitDelay at hd
            dsimp only at hd
            rw [hroot] at hd
            have hsum : ((above'.reverse.map (·.block)).map (·.proofs)).sum =
                ((above'.map (·.block)).map (·.proofs)).sum := by
              rw [List.map_reverse, List.map_reverse, List.sum_reverse]
            rw [hsum] at hd
            have hw1 : waitTime R st.root (above'.map (·.block)) peak = d := by
              unfold waitTime
              split at hd
              · cases hd
              · split at hd
                · next hge => injection hd with hd; rw [if_pos hge]; exact hd
                · next hge => injection hd with hd; rw [if_neg hge]; exact hd
            rw [hw1, ← i8]; exact j1
    · exact stay

/-! ### Starting again -/

theorem reset_total (hw : World R U) {st : St S C} (h : Inv0 R U st) (hs : Stored st) (hn : st.db ≠ []) :
    ∃ st', reset R st = some st' ∧ ∀ pk, st.chain.head? = some pk →
      st'.root.height = pk.height - min R.delay pk.height := by
  match hd : st.db, hn with
  | e :: es, _ =>
    have h0 : Inv R U { st with forks := [] } :=
      ⟨h.hist, by rw [hd]; simp, h.dbU, h.diskU, by simp, h.rootU, by simp⟩
    have hset := settle_stored (R := R) hw (st := { st with forks := [] }) h0 hs (e := e) (es := es) hd
    have hex : ∃ x ∈ st.db, x.block.height = e.block.height - min R.delay e.block.height := by
      have hall : ∀ {db : List (Entry S)}, Hist R db → ∀ n, n < db.length → ∃ x ∈ db, x.block.height = n := by
        intro db hh
        induction hh with
        | nil => intro n hn; simp at hn
        | first _ =>
          intro n hn
          simp at hn; subst hn
          exact ⟨_, List.mem_cons_self, hw.zero⟩
        | @next b s' e es c hh a1 a2 a3 a4 a5 ih =>
          intro n hn
          by_cases hlt : n < (e :: es).length
          · obtain ⟨x, x1, x2⟩ := ih n hlt
            exact ⟨x, List.mem_cons_of_mem _ x1, x2⟩
          · refine ⟨_, List.mem_cons_self, ?_⟩
            have := hist_zero hw hh e es rfl
            simp only [List.length_cons] at hn hlt
            show b.height = n
            omega
      have hz := hist_zero hw h.hist e es hd
      exact hall h.hist _ (by rw [hd]; simp; omega)
    obtain ⟨x, x1, x2⟩ := hex
    have hg := getBlockAt_stored hw h0 hs x1
    rw [x2] at hg
    rw [hd] at hset hg
    refine ⟨_, by
      unfold reset
      rw [hd]
      dsimp only
      rw [hset]
      dsimp only
      rw [hg], ?_⟩
    intro pk hpk
    unfold St.chain at hpk
    rw [hd] at hpk
    simp at hpk; subst hpk
    exact x2

theorem settle_suffix (hw : World R U) : ∀ (h : Nat) (st : St S C), Inv R U st → (settle R h st).1.db <:+ st.db := by
  intro h
  induction h with
  | zero => intro st _; exact List.suffix_refl _
  | succ h ih =>
    intro st hi
    have hrev : (settle R h (revert st (h + 1))).1.db <:+ st.db :=
      (ih _ (inv_revert hi (revertDb_ne hw hi.hist hi.ne h))).trans (revertDb_suffix (R := R) (h + 1) hi.hist)
    unfold settle
    split
    · split
      · exact List.suffix_refl _
      · exact hrev
    · exact hrev

theorem reset_suffix (hw : World R U) {st st' : St S C} (h : Inv0 R U st) (hn : st.db ≠ []) (hr : reset R st = some st') :
    st'.db <:+ st.db := by
  unfold reset at hr
  split at hr
  · next hd => exact absurd hd hn
  · next e es hd =>
    have h0 : Inv R U { st with forks := [] } :=
      ⟨h.hist, by rw [hd]; simp, h.dbU, h.diskU, by simp, h.rootU, by simp⟩
    dsimp only at hr
    split at hr
    · cases hr
    · injection hr with hr; subst hr
      exact settle_suffix hw e.block.height { st with forks := [] } h0

theorem filter_chain (keep : Nat) (db : List (Entry S)) :
    (revertDb keep db).map (·.block) = (db.map (·.block)).filter fun b => b.height < keep := by
  unfold revertDb
  rw [List.filter_map]
  congr 1

end Verif.Node
