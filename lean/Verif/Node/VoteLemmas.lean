import Verif.Node.LoopLemmas
/-
  What holds of every fork in the tree, at all times.
-/
namespace Verif.Node

variable {S C : Type} {R : Rules S C}

/-- A property of forks that every way of changing one preserves. -/
structure Closed (R : Rules S C) (V : Vote → Prop) (P : Fork C → Prop) : Prop where
  fresh : ∀ b v, P { block := b, vdfOk := v }
  flags : ∀ f g : Fork C, P f → g.block = f.block → g.proved = f.proved → g.votes = f.votes →
    g.validators = f.validators → P g
  prove : ∀ f : Fork C, P f → f.proved = false → R.proof f.block = true →
    P { f with proved := true, validators := (R.validators f.block).eraseDups.map fun k => (k, false) }
  vote : ∀ (f : Fork C) (k : Nat), P f → f.proved = true → (k, false) ∈ f.validators → V ⟨f.block.hash, k⟩ →
    P { f with
      validators := f.validators.map fun x => if x.1 = k then (x.1, true) else x
      votes := f.votes + 1 }

variable {V : Vote → Prop} {P : Fork C → Prop}

theorem all_set {fs : List (Fork C)} (h : All P fs) {f : Fork C} (hf : P f) : All P (setFork fs f) := by
  intro g hg
  obtain ⟨k, hk, rfl⟩ := List.mem_map.1 hg
  split
  · exact hf
  · exact h k hk

theorem all_mark (hc : Closed R V P) {fs : List (Fork C)} (h : All P fs) (n : Nat) : All P (markInvalid fs n) := by
  intro g hg
  obtain ⟨k, hk, rfl⟩ := List.mem_map.1 hg
  split
  · exact hc.flags k _ (h k hk) rfl rfl rfl rfl
  · exact h k hk

theorem all_marks (hc : Closed R V P) (line : List Block) : ∀ (fs : List (Fork C)), All P fs →
    All P (line.foldl (fun fs b => markInvalid fs b.hash) fs) := by
  induction line with
  | nil => intro fs h; exact h
  | cons b bs ih => intro fs h; exact ih _ (all_mark hc h b.hash)

theorem all_find {fs : List (Fork C)} (h : All P fs) {n : Nat} {f : Fork C} (hf : findFork fs n = some f) : P f :=
  h f (findFork_mem hf).1

theorem all_applyLine (hc : Closed R V P) {restore : St S C → St S C}
    (hr : ∀ s, All P s.forks → All P (restore s).forks) :
    ∀ (bs : List Block) (st : St S C), All P st.forks → All P (applyLine R restore st bs).1.forks := by
  intro bs
  induction bs with
  | nil => intro st h; exact h
  | cons b bs ih =>
    intro st h
    unfold applyLine
    split
    · exact ih st h
    · split
      · exact h
      · next f hf =>
        split
        · dsimp only
          have : All P (apply R st b f.ctx).1.forks := by rw [apply_forks]; exact h
          split
          · exact ih _ this
          · exact this
        · split
          · exact hr _ (all_mark hc h _)
          · next c hv =>
            dsimp only
            have : All P (apply R { st with forks := setFork st.forks { f with ctx := some c, validated := true } }
                b (some c)).1.forks := by
              rw [apply_forks]
              exact all_set h (hc.flags f _ (all_find h hf) rfl rfl rfl rfl)
            split
            · exact ih _ this
            · exact this

theorem all_reset (hc : Closed R V P) {st st' : St S C} (h : reset R st = some st') : All P st'.forks := by
  unfold reset at h
  split at h
  · unfold start at h
    split at h
    · cases h
    · injection h with h; subst h; intro f hf; cases hf
  · dsimp only at h
    split at h
    · cases h
    · injection h with h; subst h
      intro f hf
      rcases mem_load _ _ f hf with hf | ⟨b, _, rfl⟩
      · cases hf
      · exact hc.fresh b true

theorem all_restoreOld (hc : Closed R V P) {st : St S C} (h : All P st.forks) (prevState : Nat) (line : List Block) :
    All P (restoreOld R st prevState line).forks := by
  unfold restoreOld
  dsimp only
  have h1 : ∀ bs, All P ((applyOld R st bs).1.strand prevState).forks := by
    intro bs
    show All P (applyOld R st bs).1.forks
    rw [applyOld_forks]; exact h
  split
  · split
    · exact h1 _
    · next st1 hr => exact all_marks hc line _ (all_reset hc hr)
  · exact h1 _

theorem all_deepFork (hc : Closed R V P) {st : St S C} (h : All P st.forks) (line : List Block) (f0 : Block) :
    All P (deepFork R st line f0).1.forks := by
  unfold deepFork
  split
  · exact h
  · split
    · exact all_restoreOld hc h _ _
    · next at_ list _ =>
      have h1 : All P (applyAlt R (revert st (at_.height + 1)) list).1.forks := by
        rw [applyAlt_forks]; exact h
      dsimp only
      split
      · exact h1
      · exact all_restoreOld hc h1 _ _

theorem all_forkToHash {go : St S C → Fork C → St S C × Out}
    (hg : ∀ s f, All P s.forks → All P (go s f).1.forks) {st : St S C} (h : All P st.forks) (hash : Nat) :
    All P (forkToHash go st hash).1.forks := by
  unfold forkToHash
  split
  · exact h
  · split
    · exact hg _ _ h
    · split
      · exact h
      · exact h

theorem all_forkTo (hc : Closed R V P) : ∀ (n : Nat) (st : St S C) (f : Fork C), All P st.forks →
    All P (forkTo R n st f).1.forks := by
  intro n
  induction n with
  | zero => intro st f h; exact h
  | succ n ih =>
    intro st f h
    unfold forkTo
    split
    · exact h
    · exact h
    · next f0 rest hl =>
      have h1 : All P (if f0.prev ≠ st.root.hash then deepFork R st (f0 :: rest) f0
          else nearFork st (f0 :: rest)).1.forks := by
        split
        · exact all_deepFork hc h _ _
        · rw [nearFork_forks]; exact h
      dsimp only
      split
      · exact h1
      · exact all_applyLine hc (fun s hs => all_forkToHash (fun s f hs => ih s f hs) hs _) _ _ h1

theorem all_tally (hc : Closed R V P) (st : St S C) (fs : List (Fork C)) {g : Fork C} (h : P g) : P (tally st fs g) := by
  unfold tally
  split
  · exact hc.flags g _ h rfl rfl rfl rfl
  · split
    · exact hc.flags g _ h rfl rfl rfl rfl
    · exact hc.flags g _ h rfl rfl rfl rfl

theorem all_findBest (hc : Closed R V P) (st : St S C) (wait : Bool) (h : All P st.forks) : All P (findBest st wait).1 := by
  unfold findBest
  generalize st.forks.filter (fun f => decide (st.root.height < f.block.height)) = l
  have : ∀ (l : List (Fork C)) (acc : List (Fork C) × Option (Fork C)), All P acc.1 →
      All P (l.foldl (bestStep st wait) acc).1 := by
    intro l
    induction l with
    | nil => intro acc h; exact h
    | cons f l ih =>
      intro acc h
      apply ih
      rw [bestStep_forks]
      split
      · exact h
      · next g hg => exact all_set h (all_tally hc st _ (all_find h hg))
  exact this l (st.forks, none) h

theorem all_choose (hc : Closed R V P) (wait : Bool) : ∀ (n : Nat) (st : St S C), All P st.forks →
    All P (choose R wait n st).1.forks := by
  intro n
  induction n with
  | zero => intro st h; exact h
  | succ n ih =>
    intro st h
    unfold choose
    dsimp only
    have h1 := all_findBest hc st wait h
    split
    · exact h1
    · next f hf =>
      split
      · exact h1
      · have h2 : All P (forkTo R 3 { st with forks := (findBest st wait).1 } f).1.forks := all_forkTo hc 3 _ f h1
        split
        · exact h2
        · exact ih _ (all_mark hc h2 _)

theorem all_verifyFork (hc : Closed R V P) (st : St S C) (synced : Bool) (vdf far : Block → Bool)
    {fs : List (Fork C)} (h : All P fs) (f0 : Fork C) : All P (verifyFork R st synced vdf far fs f0) := by
  unfold verifyFork
  split
  · exact h
  · next f hf =>
    dsimp only
    have hlink : P (linkFork st far fs f) := by
      unfold linkFork
      split
      · exact hc.flags f _ (all_find h hf) rfl rfl rfl rfl
      · split
        · exact hc.flags f _ (all_find h hf) rfl rfl rfl rfl
        · exact hc.flags f _ (all_find h hf) rfl rfl rfl rfl
    apply all_set h
    split
    · exact hlink
    · next hn =>
      have hv : P (vdfFork synced vdf (linkFork st far fs f)) ∧
          (vdfFork synced vdf (linkFork st far fs f)).proved = false := by
        have hp : (linkFork st far fs f).proved = false := by
          simp only [Bool.or_eq_true, not_or, Bool.not_eq_true] at hn
          exact hn.2
        unfold vdfFork
        split
        · exact ⟨hlink, hp⟩
        · exact ⟨hc.flags _ _ hlink rfl rfl rfl rfl, hp⟩
      unfold proveFork
      split
      · split
        · next hpf => exact hc.prove _ hv.1 hv.2 hpf.2
        · exact hc.flags _ _ hv.1 rfl rfl rfl rfl
      · exact hv.1

theorem all_castVote (hc : Closed R V P) (best : Block → Bool) {fs : List (Fork C)} (h : All P fs) (v : Vote)
    (hv : V v) : All P (castVote best fs v).1 := by
  unfold castVote
  split
  · exact h
  · next f hf =>
    split
    · next hp =>
      split
      · exact h
      · split
        · exact h
        · next e he =>
          split
          · exact h
          · next hb =>
            have hk : e.1 = v.key := by simpa using List.find?_some he
            have hm : (v.key, false) ∈ f.validators := by
              have := List.mem_of_find?_eq_some he
              have he' : e = (v.key, false) := Prod.ext hk (by simpa using hb)
              exact he' ▸ this
            refine all_set h (hc.vote f v.key (all_find h hf) hp hm ?_)
            rw [(findFork_mem hf).2]; exact hv
    · exact h

theorem all_castVotes (hc : Closed R V P) (best : Block → Bool) : ∀ (vs : List Vote) (fs : List (Fork C)),
    (∀ v ∈ vs, V v) → All P fs → All P (castVotes best fs vs).1 := by
  intro vs
  induction vs with
  | nil => intro fs _ h; exact h
  | cons v vs ih =>
    intro fs hv h
    exact ih _ (fun x hx => hv x (List.mem_cons_of_mem _ hx)) (all_castVote hc best h v (hv v List.mem_cons_self))

theorem all_commitLine (delay peak : Nat) (ready : Block → Bool) : ∀ (bs : List Block) (st : St S C),
    All P st.forks → All P (commitLine delay peak ready st bs).1.forks := by
  intro bs
  induction bs with
  | nil => intro st h; exact h
  | cons b bs ih =>
    intro st h
    unfold commitLine
    split
    · split
      · exact h
      · next st1 hcm =>
        apply ih
        unfold commit at hcm
        split at hcm
        · cases hcm
        · injection hcm with hcm; subst hcm
          intro f hf
          exact h f (List.mem_filter.1 (List.mem_filter.1 hf).1).1
    · exact h

theorem all_verifyBlocks (hc : Closed R V P) {st : St S C} (h : All P st.forks) (synced : Bool)
    (vdf far : Block → Bool) : All P (verifyBlocks R st synced vdf far).forks := by
  have : ∀ (l fs : List (Fork C)), All P fs → All P (l.foldl (verifyFork R st synced vdf far) fs) := by
    intro l
    induction l with
    | nil => intro fs h; exact h
    | cons f l ih => intro fs h; exact ih _ (all_verifyFork hc st _ _ _ h f)
  exact this _ _ h

theorem all_update (hc : Closed R V P) {st : St S C} (h : All P st.forks) (env : Env) (hv : ∀ v ∈ env.votes, V v) :
    All P (update R env st).1.forks := by
  unfold update
  have h1 := all_verifyBlocks hc h env.synced env.vdf env.far
  have h2 := all_castVotes hc env.best env.votes _ hv h1
  have h3 := all_choose hc env.wait
    ((castVotes env.best (verifyBlocks R st env.synced env.vdf env.far).forks env.votes).1.length + 2)
    { verifyBlocks R st env.synced env.vdf env.far with
      forks := (castVotes env.best (verifyBlocks R st env.synced env.vdf env.far).forks env.votes).1 } h2
  dsimp only
  split
  · exact h3
  · next peak _ =>
    unfold commitPart
    dsimp only
    split
    · split
      · exact h3
      · split
        · exact h3
        · exact all_commitLine _ _ _ _ _ h3
    · exact h3

theorem all_step (hc : Closed R V P) {st st' : St S C} (h : All P st.forks) {o : Op} (hv : ∀ v ∈ o.votes, V v)
    (hs : step R st o = some st') : All P st'.forks := by
  cases o with
  | add b =>
    injection hs with hs; subst hs
    unfold addBlock
    split
    · exact h
    · split
      · exact h
      · intro f hf
        rcases mem_addFork hf with rfl | hf
        · exact hc.fresh b false
        · exact h f hf
  | update env => injection hs with hs; subst hs; exact all_update hc h env hv
  | forkTo hash => injection hs with hs; subst hs; exact all_forkToHash (fun s f hs => all_forkTo hc 3 s f hs) h hash
  | revertSync n =>
    unfold step at hs
    dsimp only at hs
    split at hs
    · exact all_reset hc hs
    · injection hs with hs; subst hs; exact h
  | restart keep lost => exact all_reset hc hs

theorem all_run (hc : Closed R V P) : ∀ (os : List Op) {st st' : St S C}, All P st.forks →
    (∀ o ∈ os, ∀ v ∈ o.votes, V v) → run R st os = some st' → All P st'.forks := by
  intro os
  induction os with
  | nil => intro st st' h _ hr; injection hr with hr; subst hr; exact h
  | cons o os ih =>
    intro st st' h hv hr
    unfold run at hr
    split at hr
    · cases hr
    · next st1 hs =>
      exact ih (all_step hc h (hv o List.mem_cons_self) hs) (fun x hx => hv x (List.mem_cons_of_mem _ hx)) hr

/-! ### Votes -/

theorem eraseDups_nodup : ∀ (n : Nat) (l : List Nat), l.length ≤ n → l.eraseDups.Nodup := by
  intro n
  induction n with
  | zero =>
    intro l h
    have : l = [] := List.length_eq_zero_iff.1 (by omega)
    subst this; simp
  | succ n ih =>
    intro l h
    match l with
    | [] => simp
    | a :: as =>
      rw [List.eraseDups_cons, List.nodup_cons]
      refine ⟨?_, ih _ ?_⟩
      · rw [List.mem_eraseDups, List.mem_filter]; simp
      · have := List.length_filter_le (fun b => !b == a) as
        simp at h; omega

/-- The votes of a fork are those of its validators, each counted once. -/
structure VoteOk (R : Rules S C) (V : Vote → Prop) (f : Fork C) : Prop where
  zero : f.proved = false → f.validators = []
  nodup : (f.validators.map (·.1)).Nodup
  count : f.votes = f.validators.countP (·.2)
  sub : ∀ x ∈ f.validators, x.1 ∈ R.validators f.block
  cast : ∀ k, (k, true) ∈ f.validators → V ⟨f.block.hash, k⟩

theorem map_keys (k : Nat) (l : List (Nat × Bool)) :
    (l.map fun x => if x.1 = k then (x.1, true) else x).map (·.1) = l.map (·.1) := by
  rw [List.map_map]
  apply List.map_congr_left
  intro x _
  simp only [Function.comp]
  split <;> rfl

theorem count_set (k : Nat) : ∀ (l : List (Nat × Bool)), (l.map (·.1)).Nodup → (k, false) ∈ l →
    (l.map fun x => if x.1 = k then (x.1, true) else x).countP (·.2) = l.countP (·.2) + 1 := by
  intro l
  induction l with
  | nil => intro _ h; cases h
  | cons x l ih =>
    intro hn hm
    rw [List.map_cons, List.nodup_cons] at hn
    rw [List.map_cons, List.countP_cons, List.countP_cons]
    rcases List.mem_cons.1 hm with hx | hm
    · subst hx
      have : (l.map fun x => if x.1 = k then (x.1, true) else x) = l := by
        conv => rhs; rw [← List.map_id l]
        apply List.map_congr_left
        intro y hy
        rw [if_neg]
        · rfl
        · intro he
          exact hn.1 (List.mem_map.2 ⟨y, hy, he⟩)
      rw [this]; simp
    · have hxk : x.1 ≠ k := by
        intro he
        exact hn.1 (List.mem_map.2 ⟨(k, false), hm, he.symm⟩)
      rw [if_neg hxk, ih hn.2 hm]; omega

theorem vote_closed : Closed R V (VoteOk R V) where
  fresh b v := ⟨fun _ => rfl, by simp, rfl, by simp, by simp⟩
  flags f g h h1 h2 h3 h4 := by
    refine ⟨?_, ?_, ?_, ?_, ?_⟩
    · rw [h2, h4]; exact h.zero
    · rw [h4]; exact h.nodup
    · rw [h3, h4]; exact h.count
    · rw [h4, h1]; exact h.sub
    · rw [h4, h1]; exact h.cast
  prove f h hp _ := by
    refine ⟨by simp, ?_, ?_, ?_, ?_⟩
    · rw [List.map_map]
      show ((R.validators f.block).eraseDups.map fun k => k).Nodup
      rw [List.map_id']
      exact eraseDups_nodup _ _ (Nat.le_refl _)
    · show f.votes = _
      rw [h.count, h.zero hp]
      symm
      rw [List.countP_nil, List.countP_eq_zero]
      intro x hx
      obtain ⟨k, _, rfl⟩ := List.mem_map.1 hx
      simp
    · intro x hx
      obtain ⟨k, hk, rfl⟩ := List.mem_map.1 hx
      exact List.mem_eraseDups.1 hk
    · intro k hk
      obtain ⟨x, _, he⟩ := List.mem_map.1 hk
      injection he with _ he
      cases he
  vote f k h hp hm hv := by
    refine ⟨?_, ?_, ?_, ?_, ?_⟩
    · intro hf
      rw [show f.proved = false from hf] at hp; cases hp
    · show (List.map _ (List.map _ _)).Nodup
      rw [map_keys]; exact h.nodup
    · show f.votes + 1 = _
      rw [count_set k _ h.nodup hm, h.count]
    · intro x hx
      obtain ⟨y, hy, rfl⟩ := List.mem_map.1 hx
      split
      · exact h.sub y hy
      · exact h.sub y hy
    · intro j hj
      obtain ⟨y, hy, he⟩ := List.mem_map.1 hj
      split at he
      · next hk =>
        injection he with he _
        show V ⟨f.block.hash, j⟩
        rw [← he, hk]; exact hv
      · subst he; exact h.cast j hy

end Verif.Node
