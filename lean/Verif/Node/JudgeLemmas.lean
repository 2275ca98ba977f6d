import Verif.Node.LoopLemmas
/-
  The loop of `update` ends at the best of the forks that are valid.
-/
namespace Verif.Node

variable {S C : Type} {R : Rules S C} {U : Block → Prop}

/-! ### Lines of forks whose flags changed -/

theorem find_map {fs' fs : List (Fork C)} (h : fs'.map (·.block) = fs.map (·.block)) {n : Nat} {p : Fork C}
    (hp : findFork fs n = some p) : ∃ p', findFork fs' n = some p' ∧ p'.block = p.block := by
  induction fs generalizing fs' with
  | nil => cases hp
  | cons f fs ih =>
    match fs', h with
    | f' :: fs', h =>
      rw [List.map_cons, List.map_cons] at h
      injection h with h1 h2
      unfold findFork at hp ⊢
      rw [List.find?_cons] at hp ⊢
      rw [h1]
      split at hp
      · injection hp with hp; subst hp; exact ⟨f', rfl, h1⟩
      · exact ih h2 hp

theorem Ancestry.moves {st' st : St S C} (hr : st'.root = st.root)
    (hf : st'.forks.map (·.block) = st.forks.map (·.block)) {f : Fork C} {l : List (Fork C)} (h : Ancestry st f l) :
    ∀ f' : Fork C, f'.block = f.block → ∃ l', Ancestry st' f' l' ∧ l'.map (·.block) = l.map (·.block) := by
  induction h with
  | @base f hb => intro f' e; exact ⟨[f'], .base (by rw [e, hr]; exact hb), by simp [e]⟩
  | @step f p l hn hp _ ih =>
    intro f' e
    obtain ⟨p', hp', e'⟩ := find_map hf hp
    obtain ⟨l', i1, i2⟩ := ih p' e'
    exact ⟨f' :: l', .step (by rw [e, hr]; exact hn) (by rw [e]; exact hp') i1, by simp [e, i2]⟩

theorem lineFrom_ancestry {st : St S C} {f : Fork C} {l : List (Fork C)} (h : Ancestry st f l) :
    ∀ (n : Nat) (acc : List Block), l.length ≤ n → (∃ g, l.getLast? = some g ∧ (getBlock st g.block.prev).isSome) →
    lineFrom st n f acc = some ((l.map (·.block)).reverse ++ acc) := by
  induction h with
  | @base f hb =>
    intro n acc hn hg
    match n, hn with
    | n + 1, _ =>
      obtain ⟨g, g1, g2⟩ := hg
      simp at g1; subst g1
      unfold lineFrom
      rw [if_pos ⟨hb, g2⟩]
      simp
  | @step f p l hn hp ha ih =>
    intro n acc hle hg
    match n, hle with
    | n + 1, hle =>
      unfold lineFrom
      rw [if_neg (fun hc => hn hc.1)]
      have : prevFork st.forks f = some p := hp
      rw [this]
      dsimp only
      rw [ih n (f.block :: acc) (by simpa using hle) (by
        obtain ⟨g, g1, g2⟩ := hg
        refine ⟨g, ?_, g2⟩
        match l, ha.ne with
        | a :: l, _ => rw [List.getLast?_cons_cons] at g1; exact g1)]
      simp

/-- Along a line heights fall, so no fork occurs twice. -/
theorem ancestry_length (hon : Honest U) {st : St S C} (hu : ∀ f ∈ st.forks, U f.block) {f : Fork C}
    {l : List (Fork C)} (h : Ancestry st f l) : f ∈ st.forks → l.length ≤ st.forks.length := by
  have key : ∀ {f : Fork C} {l : List (Fork C)}, Ancestry st f l → f ∈ st.forks →
      (∀ x ∈ l, x ∈ st.forks ∧ x.block.height ≤ f.block.height) ∧ (l.map (·.block.height)).Nodup := by
    intro f l h
    induction h with
    | @base f hb => intro hf; exact ⟨by simpa using hf, by simp⟩
    | @step f p l hn hp ha ih =>
      intro hf
      obtain ⟨p1, p2⟩ := findFork_mem hp
      obtain ⟨i1, i2⟩ := ih p1
      have hh := hon _ _ (hu f hf) (hu p p1) p2.symm
      refine ⟨?_, ?_⟩
      · intro x hx
        rcases List.mem_cons.1 hx with rfl | hx
        · exact ⟨hf, Nat.le_refl _⟩
        · exact ⟨(i1 x hx).1, by have := (i1 x hx).2; omega⟩
      · rw [List.map_cons, List.nodup_cons]
        refine ⟨?_, i2⟩
        intro hm
        obtain ⟨x, hx, e⟩ := List.mem_map.1 hm
        have := (i1 x hx).2
        omega
  intro hf
  obtain ⟨k1, k2⟩ := key h hf
  have hn : (l.map (·.block.height)).length ≤ (st.forks.map (·.block.height)).length :=
    List.Nodup.length_le_of_subset k2 (by
      intro n hn
      obtain ⟨x, hx, rfl⟩ := List.mem_map.1 hn
      exact List.mem_map.2 ⟨x, (k1 x hx).1, rfl⟩)
  simpa using hn

theorem forkLine_candidate (hon : Honest U) {st' st : St S C} (hr : st'.root = st.root)
    (hf : st'.forks.map (·.block) = st.forks.map (·.block)) (hget : ∀ h, (getBlock st h).isSome → (getBlock st' h).isSome)
    (hu : ∀ f ∈ st.forks, U f.block) {wait : Bool} {g : Fork C} {l : List (Fork C)} {r : Block}
    (c : Candidate st wait g l r) {f : Fork C} (he : f.block = g.block) :
    forkLine st' f = some (l.map (·.block)).reverse := by
  obtain ⟨l', a, e⟩ := c.line.moves hr hf f he
  have hlen := ancestry_length hon hu c.line c.mem
  have hl : l'.length = l.length := by
    have := congrArg List.length e
    simpa using this
  have hfl : st'.forks.length = st.forks.length := by
    have := congrArg List.length hf
    simpa using this
  unfold forkLine
  rw [lineFrom_ancestry a _ [] (by omega), List.append_nil, e]
  obtain ⟨x, hx, hxr⟩ := c.start
  have h1 : (l'.map (·.block)).getLast? = some x.block := by rw [e, List.getLast?_map, hx]; rfl
  rw [List.getLast?_map] at h1
  match hy : l'.getLast?, h1 with
  | some y, h1 =>
    injection h1 with h1
    have h1 : y.block = x.block := h1
    exact ⟨y, rfl, hget _ (by rw [h1, hxr]; rfl)⟩

theorem noDeep_root (hw : World R U) {st : St S C} (hi : Inv R U st) (hnd : NoDeep st) {wait : Bool} {g : Fork C}
    {l : List (Fork C)} {r : Block} (c : Candidate st wait g l r) : r = st.root := by
  obtain ⟨x, hx, hr⟩ := c.start
  have key : ∀ {f : Fork C} {l : List (Fork C)}, Ancestry st f l → f ∈ st.forks → ∀ x, l.getLast? = some x →
      x ∈ st.forks ∧ x.block.height = st.root.height + 1 := by
    intro f l h
    induction h with
    | @base f hb => intro hf x hx; simp at hx; subst hx; exact ⟨hf, hb⟩
    | @step f p l hn hp ha ih =>
      intro hf x hx
      refine ih (findFork_mem hp).1 x ?_
      match l, ha.ne with
      | a :: l, _ => rw [List.getLast?_cons_cons] at hx; exact hx
  obtain ⟨x1, x2⟩ := key c.line c.mem x hx
  have := hnd x.block (List.mem_map.2 ⟨x, x1, rfl⟩) x2
  rw [this] at hr
  obtain ⟨q1, q2⟩ := getBlock_mem hi hr
  exact hw.inj _ _ q1 hi.rootU q2

/-! ### Marks spread by the tally -/

/-- A property of forks that survives what `find_best_fork` does to a fork. -/
structure Heir (P : Fork C → Prop) : Prop where
  flags : ∀ f g : Fork C, P f → g.block = f.block → g.proved = f.proved → g.votes = f.votes →
    g.invalid = f.invalid → P g
  child : ∀ f p : Fork C, P f → P p → p.block.hash = f.block.prev → p.invalid = true → P { f with invalid := true }

theorem heir_tally {P : Fork C → Prop} (hp : Heir P) (st : St S C) {fs : List (Fork C)} (ha : All P fs) {g : Fork C}
    (hg : P g) : P (tally st fs g) := by
  unfold tally
  split
  · exact hp.flags g _ hg rfl rfl rfl rfl
  · split
    · next p hf =>
      obtain ⟨p1, p2⟩ := findFork_mem (show findFork fs g.block.prev = some p from hf)
      cases hi : p.invalid
      · exact hp.flags g _ hg rfl rfl rfl (by simp)
      · exact hp.flags _ _ (hp.child g p hg (ha p p1) p2 hi) rfl rfl rfl (by simp)
    · exact hp.flags g _ hg rfl rfl rfl rfl

theorem heir_findBest {P : Fork C → Prop} (hp : Heir P) (st : St S C) (wait : Bool) (h : All P st.forks) :
    All P (findBest st wait).1 := by
  unfold findBest
  generalize st.forks.filter (fun f => decide (st.root.height < f.block.height)) = l
  have : ∀ (l : List (Fork C)) (acc : List (Fork C) × Option (Fork C)), All P acc.1 →
      All P (l.foldl (bestStep st wait) acc).1 := by
    intro l
    induction l with
    | nil => intro acc h; exact h
    | cons f l ih =>
      intro acc h
      apply ih
      rw [bestStep_forks]
      split
      · exact h
      · next g hg =>
        intro x hx
        obtain ⟨k, hk, rfl⟩ := List.mem_map.1 hx
        split
        · exact heir_tally hp st h (h g (findFork_mem hg).1)
        · exact h k hk
  exact this l (st.forks, none) h

/-! ### The loop -/

/-- Where the loop ends: at the fork chosen in its last round, or where it was if there was none.  The tree of
that round differs from the first one by marks that are justified. -/
theorem choose_near (hw : World R U) (ht : Total R) (hon : Honest U) (wait : Bool) {above : List (Entry S)} {re : Entry S}
    {below : List (Entry S)} : ∀ (n : Nat) (st : St S C), Ready R U st → st.astray = false →
    Anchored R U st above re below → NoDeep st →
    ∃ above', Anchored R U (choose R wait n st).1 above' re below ∧ Keeps (choose R wait n st).1 st ∧
      ((choose R wait n st).2.isSome → ∃ s, Ready R U s ∧ Keeps s st ∧ s.db = st.db ∧
        (∀ P, Steady R U P → Heir P → All P st.forks → All P s.forks) ∧
        ((findBest s wait).2 = none ∧ (choose R wait n st).1.db = st.db ∨
          ∃ f, (findBest s wait).2 = some f ∧ tip (choose R wait n st).1.db = f.block.hash)) := by
  intro n
  induction n with
  | zero => intro st _ _ h _; exact ⟨above, h, Keeps.refl st, by simp [choose]⟩
  | succ n ih =>
    intro st hr ha h hnd
    have k1 := keeps_findBest hw hr.inv wait
    have hi1 := inv_sub hr.inv (sub_findBest st wait)
    have h1 : Anchored R U { st with forks := (findBest st wait).1 } above re below :=
      h.keeps k1 hi1 h.above.eq h.above.inTree
    unfold choose
    dsimp only
    split
    · next hb => exact ⟨above, h1, k1, fun _ => ⟨st, hr, Keeps.refl st, rfl, fun _ _ _ h => h, .inl ⟨hb, rfl⟩⟩⟩
    · next f hf =>
      have hfu := best_mem st wait hr.inv.forkU hf
      have hfin : (findFork (findBest st wait).1 f.block.hash).isSome := by
        rw [findFork_isSome, findBest_blocks hw hr.inv.forkU]
        exact ⟨f.block, best_mem st wait (P := fun b => b ∈ st.forks.map (·.block))
          (fun g hg => List.mem_map.2 ⟨g, hg, rfl⟩) hf, rfl⟩
      split
      · next he =>
        exact ⟨above, h1, k1, fun _ => ⟨st, hr, Keeps.refl st, rfl, fun _ _ _ h => h, .inr ⟨f, hf, he.symm⟩⟩⟩
      · rcases forkTo_cases hw ht hi1 h1 (hnd.keeps k1) hfin hfu 1 with
          ⟨st', o, above', a1, a2, a3, a4, a5⟩ | ⟨st', a1, a2, a3, a4, a5, a6⟩
        · rw [a1]
          exact ⟨above', a5, a3.trans k1, fun _ => ⟨st, hr, Keeps.refl st, rfl, fun _ _ _ h => h, .inr ⟨f, hf, a2⟩⟩⟩
        · rw [a1]
          dsimp only
          have k2 : Keeps { st' with forks := markInvalid st'.forks f.block.hash } st :=
            (keeps_mark st' f.block.hash).trans (a3.trans k1)
          have hi2 : Inv R U { st' with forks := markInvalid st'.forks f.block.hash } := inv_sub a4 (sub_mark _ _)
          have h2 : Anchored R U { st' with forks := markInvalid st'.forks f.block.hash } above re below :=
            h.keeps k2 hi2 (a2.trans h.above.eq) h.above.inTree
          have hdead : Dead R U f.block := by
            rcases a6 with hn | hd
            · exfalso
              have hc := findBest_spec (wait := wait) (w := st.root.weight)
                (fun g l r c => by rw [noDeep_root hw hr.inv hnd c]) hr.tree h.high hon hr.inv.forkU
              rcases hc with ⟨hc, _⟩ | ⟨g, hg, l, r, b, hb, c, t, _⟩
              · rw [hf] at hc; cases hc
              · rw [hf] at hb; injection hb with hb; subst hb
                rw [forkLine_candidate hon (st := st) (st' := { st with forks := (findBest st wait).1 }) rfl k1.forks
                  (fun _ hh => k1.get hh) hr.inv.forkU c t.block] at hn
                cases hn
            · exact hd
          obtain ⟨above', i1, i2, i3⟩ := ih _ (ready_keeps hr k2 hi2 a2) (k2.astray.trans ha) h2 (hnd.keeps k2)
          refine ⟨above', i1, i2.trans k2, ?_⟩
          intro hs
          obtain ⟨s, s1, s2, s3, s5, s4⟩ := i3 hs
          refine ⟨s, s1, s2.trans k2, s3.trans a2, ?_, ?_⟩
          · intro P hP hH hall
            refine s5 P hP hH ?_
            refine tame_mark hw a4.forkU hfu hdead P hP ?_
            exact a5 P hP (heir_findBest hH st wait hall)
          · rcases s4 with ⟨e1, e2⟩ | e
            · exact .inl ⟨e1, e2.trans a2⟩
            · exact .inr e

/-! ### What the marks mean -/

/-- Why a block of the tree may be marked: it was so before, or no valid chain ends in it, or its predecessor
is marked. -/
inductive Blame (R : Rules S C) (U : Block → Prop) (F : List (Fork C)) : Block → Prop where
  | before {f : Fork C} : f ∈ F → f.invalid = true → Blame R U F f.block
  | dead {b : Block} : Dead R U b → Blame R U F b
  | up {p b : Block} : U p → p.hash = b.prev → Blame R U F p → Blame R U F b

/-- As in the tree `F`, but for marks. -/
def Blamed (R : Rules S C) (U : Block → Prop) (F : List (Fork C)) (f : Fork C) : Prop :=
  (∃ f0 ∈ F, f0.block = f.block ∧ f0.proved = f.proved ∧ f0.votes = f.votes) ∧ U f.block ∧
    (f.invalid = true → Blame R U F f.block)

theorem same_steady (F : List (Fork C)) : Steady R U (Blamed R U F) where
  flags f g h h1 h2 h3 h4 := by
    obtain ⟨⟨f0, a1, a2, a3, a4⟩, a5, a6⟩ := h
    refine ⟨⟨f0, a1, by rw [h1]; exact a2, by rw [h2]; exact a3, by rw [h3]; exact a4⟩, by rw [h1]; exact a5, ?_⟩
    rw [h4, h1]; exact a6
  dead f h hd := ⟨h.1, h.2.1, fun _ => .dead hd⟩

theorem same_heir (F : List (Fork C)) : Heir (Blamed R U F) where
  flags := (same_steady F).flags
  child _ _ h hp he hi := ⟨h.1, h.2.1, fun _ => .up hp.2.1 he (hp.2.2 hi)⟩

theorem same_self {F : List (Fork C)} (hu : ∀ f ∈ F, U f.block) : All (Blamed R U F) F :=
  fun f hf => ⟨⟨f, hf, rfl, rfl, rfl⟩, hu f hf, fun hi => .before hf hi⟩

/-- Nothing at or below the root is marked. -/
theorem blame_low (hw : World R U) (hon : Honest U) {F : List (Fork C)} {n : Nat} (hh : ∀ f ∈ F, n < f.block.height)
    {b : Block} (h : Blame R U F b) : U b → b.height ≤ n → Dead R U b := by
  induction h with
  | before hf _ => intro _ hn; have := hh _ hf; omega
  | dead hd => intro _ _; exact hd
  | @up p b hp he _ ih =>
    intro hb hn
    have := hon _ _ hb hp he.symm
    exact dead_child hw hp (ih hp (by omega)) he.symm

/-- A line without marks whose end is to blame ends in a block no valid chain ends in. -/
theorem blame_dead (hw : World R U) (hon : Honest U) {st : St S C} (hu : ∀ f ∈ st.forks, U f.block)
    (hn : TreeOk (st.forks.map (·.block))) (hh : ∀ f ∈ st.forks, st.root.height < f.block.height)
    {b : Block} (h : Blame R U st.forks b) : ∀ (f : Fork C) (l : List (Fork C)), f ∈ st.forks → f.block = b →
    Ancestry st f l → (∀ x ∈ l, x.invalid = false) → Dead R U b := by
  induction h with
  | @before f0 hf hi =>
    intro f l hfm he ha hv
    have : f = f0 := by
      have h1 := find_self hn hfm
      have h2 := find_self hn hf
      rw [he] at h1
      rw [h1] at h2
      injection h2
    subst this
    have : f.invalid = false := hv f (by cases ha <;> simp)
    rw [hi] at this; cases this
  | dead hd => intro _ _ _ _ _ _; exact hd
  | @up p b hp he hb ih =>
    intro f l hfm hfb ha hv
    have hpb : b.prev = p.hash := he.symm
    cases ha with
    | base h1 =>
      have := hon b p (hfb ▸ hu f hfm) hp hpb
      rw [hfb] at h1
      exact dead_child hw hp (blame_low hw hon hh hb hp (by omega)) hpb
    | @step _ q l hne hq ha =>
      obtain ⟨q1, q2⟩ := findFork_mem hq
      have hqp : q.block = p := hw.inj _ _ (hu q q1) hp (by rw [q2, hfb, hpb])
      exact dead_child hw hp (ih q l q1 hqp ha (fun x hx => hv x (List.mem_cons_of_mem _ hx))) hpb

/-! ### Candidates before and after -/

theorem ancestry_head {st : St S C} {f : Fork C} {l : List (Fork C)} (h : Ancestry st f l) : f ∈ l := by
  cases h <;> simp

theorem ancestry_mem {st : St S C} {f : Fork C} {l : List (Fork C)} (h : Ancestry st f l) (hf : f ∈ st.forks) :
    ∀ x ∈ l, x ∈ st.forks := by
  induction h with
  | base _ => intro x hx; simp at hx; subst hx; exact hf
  | step _ hp _ ih =>
    intro x hx
    rcases List.mem_cons.1 hx with rfl | hx
    · exact hf
    · exact ih (findFork_mem hp).1 x hx

theorem ancestry_last {st : St S C} {f : Fork C} {l : List (Fork C)} (h : Ancestry st f l) (hf : f ∈ st.forks) :
    ∃ x, l.getLast? = some x ∧ x ∈ st.forks ∧ x.block.height = st.root.height + 1 := by
  induction h with
  | @base f hb => exact ⟨f, rfl, hf, hb⟩
  | @step f p l hn hp ha ih =>
    obtain ⟨x, i1, i2⟩ := ih (findFork_mem hp).1
    refine ⟨x, ?_, i2⟩
    match l, ha.ne with
    | a :: l, _ => rw [List.getLast?_cons_cons]; exact i1

/-- The same fork in both trees: what a `Blamed` fork says about the fork of the same block. -/
theorem blamed_find {st s : St S C} (ht : TreeOk (st.forks.map (·.block))) (hb : All (Blamed R U st.forks) s.forks)
    {f f' : Fork C} (hf : f ∈ st.forks) (hf' : f' ∈ s.forks) (he : f'.block = f.block) :
    f'.proved = f.proved ∧ f'.votes = f.votes ∧ (f'.invalid = true → Blame R U st.forks f.block) := by
  obtain ⟨⟨f0, a1, a2, a3, a4⟩, _, a5⟩ := hb f' hf'
  have h1 := find_self ht a1
  have h2 := find_self ht hf
  rw [a2, he, h2] at h1
  injection h1 with h1; subst h1
  exact ⟨a3.symm, a4.symm, he ▸ a5⟩

/-- A line without marks that ends in a block some valid chain ends in is still one. -/
theorem line_fwd (hw : World R U) (hon : Honest U) {st s : St S C} (hu : ∀ f ∈ st.forks, U f.block)
    (ht : TreeOk (st.forks.map (·.block))) (hh : ∀ f ∈ st.forks, st.root.height < f.block.height)
    (hr : s.root = st.root) (hk : s.forks.map (·.block) = st.forks.map (·.block))
    (hb : All (Blamed R U st.forks) s.forks) {f : Fork C} {l : List (Fork C)} (h : Ancestry st f l) :
    f ∈ st.forks → (∀ x ∈ l, x.proved = true) → (∀ x ∈ l, x.invalid = false) → ¬ Dead R U f.block →
    ∀ f' ∈ s.forks, f'.block = f.block → ∃ l', Ancestry s f' l' ∧ (∀ x ∈ l', x.proved = true) ∧
      (∀ x ∈ l', x.invalid = false) ∧ votesOf l' = votesOf l := by
  have head : ∀ (f : Fork C) (l : List (Fork C)), Ancestry st f l → f ∈ st.forks → (∀ x ∈ l, x.proved = true) →
      (∀ x ∈ l, x.invalid = false) → ¬ Dead R U f.block → ∀ f' ∈ s.forks, f'.block = f.block →
      f'.proved = true ∧ f'.votes = f.votes ∧ f'.invalid = false := by
    intro f l ha hf hp hv hd f' hf' he
    obtain ⟨b1, b2, b3⟩ := blamed_find ht hb hf hf' he
    refine ⟨b1.trans (hp f (ancestry_head ha)), b2, ?_⟩
    match hi : f'.invalid with
    | false => rfl
    | true => exact absurd (blame_dead hw hon hu ht hh (b3 hi) f l hf rfl ha hv) hd
  induction h with
  | @base f h1 =>
    intro hf hp hv hd f' hf' he
    obtain ⟨b1, b2, b3⟩ := head f [f] (.base h1) hf hp hv hd f' hf' he
    exact ⟨[f'], .base (by rw [he, hr]; exact h1), by simpa using b1, by simpa using b3, by simp [votesOf, b2]⟩
  | @step f p l hn hpf ha ih =>
    intro hf hp hv hd f' hf' he
    obtain ⟨b1, b2, b3⟩ := head f (f :: l) (.step hn hpf ha) hf hp hv hd f' hf' he
    obtain ⟨p1, p2⟩ := findFork_mem hpf
    obtain ⟨p', q1, q2⟩ := find_map hk hpf
    obtain ⟨l', i1, i2, i3, i4⟩ := ih p1 (fun x hx => hp x (List.mem_cons_of_mem _ hx))
      (fun x hx => hv x (List.mem_cons_of_mem _ hx))
      (fun hdp => hd (dead_child hw (hu p p1) hdp p2.symm)) p' (findFork_mem q1).1 q2
    refine ⟨f' :: l', .step (by rw [he, hr]; exact hn) (by rw [he]; exact q1) i1, ?_, ?_, ?_⟩
    · intro x hx
      rcases List.mem_cons.1 hx with rfl | hx
      · exact b1
      · exact i2 x hx
    · intro x hx
      rcases List.mem_cons.1 hx with rfl | hx
      · exact b3
      · exact i3 x hx
    · unfold votesOf at i4 ⊢
      rw [List.map_cons, List.map_cons, List.sum_cons, List.sum_cons, b2, i4]

/-- Marks are never taken back. -/
theorem line_back {st s : St S C} (ht : TreeOk (st.forks.map (·.block)))
    (hr : s.root = st.root) (hk : s.forks.map (·.block) = st.forks.map (·.block))
    (hts : TreeOk (s.forks.map (·.block))) (hm : ∀ h, Marked st.forks h → Marked s.forks h)
    (hb : All (Blamed R U st.forks) s.forks) {f' : Fork C} {l' : List (Fork C)} (h : Ancestry s f' l') :
    f' ∈ s.forks → (∀ x ∈ l', x.proved = true) → (∀ x ∈ l', x.invalid = false) →
    ∀ f ∈ st.forks, f'.block = f.block → ∃ l, Ancestry st f l ∧ (∀ x ∈ l, x.proved = true) ∧
      (∀ x ∈ l, x.invalid = false) ∧ votesOf l' = votesOf l := by
  have head : ∀ (f' : Fork C) (l' : List (Fork C)), Ancestry s f' l' → f' ∈ s.forks → (∀ x ∈ l', x.proved = true) →
      (∀ x ∈ l', x.invalid = false) → ∀ f ∈ st.forks, f'.block = f.block →
      f.proved = true ∧ f'.votes = f.votes ∧ f.invalid = false := by
    intro f' l' ha hf' hp hv f hf he
    obtain ⟨b1, b2, b3⟩ := blamed_find ht hb hf hf' he
    refine ⟨b1.symm.trans (hp f' (ancestry_head ha)), b2, ?_⟩
    match hi : f.invalid with
    | false => rfl
    | true =>
      obtain ⟨x, hx, hxi⟩ := hm f.block.hash ⟨f, find_self ht hf, hi⟩
      rw [← he, find_self hts hf'] at hx
      injection hx with hx; subst hx
      rw [hv f' (ancestry_head ha)] at hxi; cases hxi
  induction h with
  | @base f' h1 =>
    intro hf' hp hv f hf he
    obtain ⟨b1, b2, b3⟩ := head f' [f'] (.base h1) hf' hp hv f hf he
    exact ⟨[f], .base (by rw [← he, ← hr]; exact h1), by simpa using b1, by simpa using b3, by simp [votesOf, b2]⟩
  | @step f' p' l' hn hpf ha ih =>
    intro hf' hp hv f hf he
    obtain ⟨b1, b2, b3⟩ := head f' (f' :: l') (.step hn hpf ha) hf' hp hv f hf he
    obtain ⟨p1, p2⟩ := findFork_mem hpf
    obtain ⟨p, q1, q2⟩ := find_map hk.symm hpf
    obtain ⟨l, i1, i2, i3, i4⟩ := ih p1 (fun x hx => hp x (List.mem_cons_of_mem _ hx))
      (fun x hx => hv x (List.mem_cons_of_mem _ hx)) p (findFork_mem q1).1 q2.symm
    refine ⟨f :: l, .step (by rw [← he, ← hr]; exact hn) (by rw [← he]; exact q1) i1, ?_, ?_, ?_⟩
    · intro x hx
      rcases List.mem_cons.1 hx with rfl | hx
      · exact b1
      · exact i2 x hx
    · intro x hx
      rcases List.mem_cons.1 hx with rfl | hx
      · exact b3
      · exact i3 x hx
    · unfold votesOf at i4 ⊢
      rw [List.map_cons, List.map_cons, List.sum_cons, List.sum_cons, b2, i4]

theorem candidate_line (hw : World R U) {st : St S C} (hi : Inv R U st) (hnd : NoDeep st)
    (hst : (getBlock st st.root.hash).isSome) {wait : Bool} {g : Fork C} {l : List (Fork C)} (hg : g ∈ st.forks)
    (ha : Ancestry st g l) (hp : ∀ x ∈ l, x.proved = true) (hv : ∀ x ∈ l, x.invalid = false) :
    Candidate st wait g l st.root := by
  obtain ⟨x, x1, x2, x3⟩ := ancestry_last ha hg
  refine ⟨hg, ha, hp, hv, ⟨x, x1, ?_⟩, fun _ => rfl⟩
  rw [hnd x.block (List.mem_map.2 ⟨x, x2, rfl⟩) x3]
  obtain ⟨q, hq⟩ := Option.isSome_iff_exists.1 hst
  obtain ⟨q1, q2⟩ := getBlock_mem hi hq
  rw [hq, hw.inj _ _ q1 hi.rootU q2]

/-- The loop of `update`, started in a state without forks off the committed chain, ends at the preferred one of
the candidates that are valid; if there is none it changes nothing. -/
theorem choose_best (hw : World R U) (ht : Total R) (hon : Honest U) (wait : Bool) {st : St S C} (hr : Ready R U st)
    (ha : st.astray = false) (hnd : NoDeep st) :
    ((choose R wait (st.forks.length + 2) st).1.db = st.db ∧
      ∀ g l r, Candidate st wait g l r → Dead R U g.block) ∨
    ∃ g l r, Candidate st wait g l r ∧ tip (choose R wait (st.forks.length + 2) st).1.db = g.block.hash ∧
      ∀ g2 l2 r2, Candidate st wait g2 l2 r2 →
        g2.block = g.block ∨ Preferred (votesOf l) g.block (votesOf l2) g2.block ∨ Dead R U g2.block := by
  obtain ⟨above, re, below, han⟩ := hr.anchored ha
  obtain ⟨above', c1, c2, c3⟩ := choose_near hw ht hon wait (st.forks.length + 2) st hr ha han hnd
  obtain ⟨s, s1, s2, s3, s4, s5⟩ := c3 (choose_some wait st)
  have hb : All (Blamed R U st.forks) s.forks :=
    s4 _ (same_steady _) (same_heir _) (same_self hr.inv.forkU)
  have hhigh : ∀ f ∈ st.forks, st.root.height < f.block.height := fun f hf => han.high _ (List.mem_map.2 ⟨f, hf, rfl⟩)
  have hanS : Anchored R U s above re below := han.keeps s2 s1.inv (s3.trans han.above.eq) han.above.inTree
  have hndS := hnd.keeps s2
  have hspec := findBest_spec (wait := wait) (w := s.root.weight)
    (fun g l r c => by rw [noDeep_root hw s1.inv hndS c]) s1.tree hanS.high hon s1.inv.forkU
  -- candidates of `st` that are valid are candidates of `s`
  have fwd : ∀ g l r, Candidate st wait g l r → ¬ Dead R U g.block →
      ∃ g' l', Candidate s wait g' l' s.root ∧ g'.block = g.block ∧ votesOf l' = votesOf l := by
    intro g l r c hd
    obtain ⟨g', hg', he⟩ := find_map s2.forks (find_self hr.tree c.mem)
    obtain ⟨l', i1, i2, i3, i4⟩ := line_fwd hw hon hr.inv.forkU hr.tree hhigh s2.root s2.forks hb c.line c.mem
      c.proved c.valid hd g' (findFork_mem hg').1 he
    exact ⟨g', l', candidate_line hw s1.inv hndS hanS.stored (findFork_mem hg').1 i1 i2 i3, he, i4⟩
  rcases hspec with ⟨hn, hno⟩ | ⟨g', hg', l', r', b, hbest, c, tal, hmax⟩
  · rcases s5 with ⟨_, e⟩ | ⟨f, e, _⟩
    · left
      refine ⟨e, ?_⟩
      intro g l r c
      apply Classical.byContradiction
      intro hd
      obtain ⟨g', l', c', _, _⟩ := fwd g l r c hd
      exact hno g' c'.mem l' _ c'
    · rw [hn] at e; cases e
  · rcases s5 with ⟨e, _⟩ | ⟨f, e, etip⟩
    · rw [hbest] at e; cases e
    · right
      rw [hbest] at e; injection e with e; subst e
      obtain ⟨g, hg, he⟩ := find_map s2.forks.symm (find_self s1.tree hg')
      obtain ⟨l, i1, i2, i3, i4⟩ := line_back hr.tree s2.root s2.forks s1.tree s2.marks hb c.line c.mem
        c.proved c.valid g (findFork_mem hg).1 he.symm
      refine ⟨g, l, st.root, candidate_line hw hr.inv hnd han.stored (findFork_mem hg).1 i1 i2 i3, ?_, ?_⟩
      · rw [etip, tal.block, he]
      · intro g2 l2 r2 c2
        by_cases hd : Dead R U g2.block
        · exact .inr (.inr hd)
        · obtain ⟨g2', l2', c2', e2, v2⟩ := fwd g2 l2 r2 c2 hd
          rcases hmax g2' c2'.mem l2' _ c2' with h | h
          · exact .inl (by rw [← e2, h, he])
          · rw [i4, v2, ← he, e2] at h
            exact .inr (.inl h)

end Verif.Node
