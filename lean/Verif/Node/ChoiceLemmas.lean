import Verif.Node.AnchorLemmas
/-
  `find_best_fork` computes what the specification says; the loop around it ends.
-/
namespace Verif.Node

variable {S C : Type} {R : Rules S C} {U : Block → Prop}

/-! ### Ancestry -/

theorem Ancestry.unique {st : St S C} {f : Fork C} {l : List (Fork C)} (h : Ancestry st f l) :
    ∀ {l' : List (Fork C)}, Ancestry st f l' → l = l' := by
  induction h with
  | base hb =>
    intro l' h'
    cases h' with
    | base _ => rfl
    | step hn _ _ => exact absurd hb hn
  | step hn hp _ ih =>
    intro l' h'
    cases h' with
    | base hb => exact absurd hb hn
    | step _ hp' h' =>
      rw [hp] at hp'
      injection hp' with hp'
      subst hp'
      rw [ih h']

theorem Ancestry.ne {st : St S C} {f : Fork C} {l : List (Fork C)} (h : Ancestry st f l) : l ≠ [] := by
  cases h <;> simp

/-- The block the line of a fork starts from. -/
def startOf (st : St S C) (l : List (Fork C)) : Option Block := l.getLast?.bind fun g => getBlock st g.block.prev

/-- `g'` carries the values that belong to `g`. -/
structure Tallied (st : St S C) (g g' : Fork C) : Prop where
  block : g'.block = g.block
  value : (∃ l, Ancestry st g l ∧ g'.totalVotes = votesOf l ∧ g'.allProved = l.all (·.proved) ∧
      g'.invalid = l.any (·.invalid) ∧ g'.root = startOf st l) ∨
    ((¬ ∃ l, Ancestry st g l) ∧ g'.allProved = false)

theorem tallied_candidate {st : St S C} {wait : Bool} {g g' : Fork C} (hg : g ∈ st.forks) (h : Tallied st g g') :
    (skipped st wait g' = false ∧ eligible g' = true) ↔ ∃ l r, Candidate st wait g l r := by
  constructor
  · rintro ⟨h1, h2⟩
    unfold eligible at h2
    simp only [Bool.and_eq_true, Bool.not_eq_true'] at h2
    obtain ⟨⟨e1, e2⟩, e3⟩ := h2
    rcases h.value with ⟨l, a, v1, v2, v3, v4⟩ | ⟨_, hf⟩
    · obtain ⟨r, hr⟩ := Option.isSome_iff_exists.1 e2
      refine ⟨l, r, hg, a, ?_, ?_, ?_, ?_⟩
      · rw [v2] at e1; simpa using e1
      · rw [v3] at e3; simpa using e3
      · rw [v4] at hr
        unfold startOf at hr
        match hl : l.getLast? with
        | none => rw [hl] at hr; cases hr
        | some x => rw [hl] at hr; exact ⟨x, rfl, hr⟩
      · intro hw
        unfold skipped at h1
        rw [hw, hr] at h1
        simpa using h1
    · rw [hf] at e1; cases e1
  · rintro ⟨l, r, c⟩
    obtain ⟨x, hx, hr⟩ := c.start
    rcases h.value with ⟨l', a, v1, v2, v3, v4⟩ | ⟨hn, _⟩
    · have := a.unique c.line
      subst this
      have hroot : g'.root = some r := by
        rw [v4]; unfold startOf; rw [hx]; exact hr
      constructor
      · unfold skipped
        rw [hroot]
        cases hw : wait
        · rfl
        · simp [c.wait hw]
      · unfold eligible
        rw [v2, v3, hroot]
        have p1 : l'.all (·.proved) = true := by simpa using c.proved
        have p2 : l'.any (·.invalid) = false := by simpa using c.valid
        rw [p1, p2]; rfl
    · exact absurd ⟨l, c.line⟩ hn

/-! ### The order -/

theorem better_iff {f b : Fork C} (hr : rootWeight f = rootWeight b) :
    better f b = true ↔ Preferred f.totalVotes f.block b.totalVotes b.block := by
  unfold better Preferred
  have h1 : ¬ (f.block.weight ≥ b.block.weight ∧ rootWeight f > rootWeight b) := by omega
  have h2 : f.block.weight ≥ b.block.weight ∨ rootWeight f ≥ rootWeight b := by omega
  rw [if_neg h1, if_pos h2]
  by_cases c1 : f.totalVotes > b.totalVotes
  · simp [c1]
  · rw [if_neg c1]
    by_cases c2 : f.totalVotes = b.totalVotes
    · rw [if_pos c2]
      by_cases c3 : f.block.height > b.block.height
      · simp [c2, c3]
      · rw [if_neg c3]
        by_cases c4 : f.block.height = b.block.height
        · rw [if_pos c4]; simp [c2, c4]
        · rw [if_neg c4]; simp [c2, c4]; omega
    · rw [if_neg c2]; simp [c2]; omega

theorem Preferred.trans {a b c : Nat} {x y z : Block} (h1 : Preferred a x b y) (h2 : Preferred b y c z) :
    Preferred a x c z := by
  unfold Preferred at *; omega

theorem Preferred.total {a b : Nat} {x y : Block} (hn : x.hash ≠ y.hash) (h : ¬ Preferred a x b y) :
    Preferred b y a x := by
  unfold Preferred at *; omega

theorem Preferred.asymm {a b : Nat} {x y : Block} (h : Preferred a x b y) : ¬ Preferred b y a x := by
  unfold Preferred at *; omega

/-! ### The loop -/

/-- The tree during the loop: `P` has been visited. -/
structure Visited (st : St S C) (P : List (Fork C)) (fs : List (Fork C)) : Prop where
  sub : ∀ g ∈ P, findFork st.forks g.block.hash = some g
  done : ∀ g ∈ P, ∃ g', findFork fs g.block.hash = some g' ∧ Tallied st g g'
  todo : ∀ h, (∀ g ∈ P, g.block.hash ≠ h) → findFork fs h = findFork st.forks h

/-- The choice so far. -/
def Chosen (st : St S C) (wait : Bool) (P : List (Fork C)) (best : Option (Fork C)) : Prop :=
  (best = none ∧ ∀ g ∈ P, ∀ l r, ¬ Candidate st wait g l r) ∨
  ∃ g ∈ P, ∃ l r b, best = some b ∧ Candidate st wait g l r ∧ Tallied st g b ∧
    ∀ g2 ∈ P, ∀ l2 r2, Candidate st wait g2 l2 r2 →
      g2.block = g.block ∨ Preferred (votesOf l) g.block (votesOf l2) g2.block

theorem tallied_votes {st : St S C} {wait : Bool} {g b : Fork C} {l : List (Fork C)} {r : Block}
    (h : Tallied st g b) (c : Candidate st wait g l r) : b.totalVotes = votesOf l ∧ b.root = some r := by
  rcases h.value with ⟨l', a, v1, v2, v3, v4⟩ | ⟨hn, _⟩
  · have := a.unique c.line
    subst this
    obtain ⟨x, hx, hr⟩ := c.start
    exact ⟨v1, by rw [v4]; unfold startOf; rw [hx]; exact hr⟩
  · exact absurd ⟨l, c.line⟩ hn

theorem tally_tallied {st : St S C} {P : List (Fork C)} {fs : List (Fork C)} (hv : Visited st P fs) {g : Fork C}
    (hpar : ∀ p, g.block.height ≠ st.root.height + 1 → findFork st.forks g.block.prev = some p → p ∈ P) :
    Tallied st g (tally st fs g) := by
  refine ⟨tally_block st fs g, ?_⟩
  unfold tally
  split
  · next hb =>
    exact .inl ⟨[g], .base hb, by simp [votesOf], by simp, by simp, rfl⟩
  · next hb =>
    -- the predecessor's entry is the visited one
    match hp : findFork st.forks g.block.prev with
    | none =>
      have : prevFork fs g = none := by
        unfold prevFork
        rw [hv.todo, hp]
        intro p hpP he
        have := hv.sub p hpP
        rw [he, hp] at this
        cases this
      rw [this]
      refine .inr ⟨?_, rfl⟩
      rintro ⟨l, ha⟩
      cases ha with
      | base hb' => exact hb hb'
      | step _ hp' _ => rw [hp] at hp'; cases hp'
    | some p =>
      have hpP := hpar p hb hp
      obtain ⟨p', h1, h2⟩ := hv.done p hpP
      have : prevFork fs g = some p' := by
        unfold prevFork
        rw [← (findFork_mem hp).2]; exact h1
      rw [this]
      dsimp only
      rcases h2.value with ⟨l, a, v1, v2, v3, v4⟩ | ⟨hn, hf⟩
      · refine .inl ⟨g :: l, .step hb hp a, ?_, ?_, ?_, ?_⟩
        · rw [v1]; simp [votesOf]; omega
        · rw [v2]; simp [Bool.and_comm]
        · rw [v3]; simp [Bool.or_comm]
        · rw [v4]
          unfold startOf
          match l, a.ne with
          | x :: xs, _ => rw [List.getLast?_cons_cons]
      · refine .inr ⟨?_, by rw [hf]; rfl⟩
        rintro ⟨l, ha⟩
        cases ha with
        | base hb' => exact hb hb'
        | step _ hp' ha' =>
          rw [hp] at hp'
          injection hp' with hp'
          subst hp'
          exact hn ⟨_, ha'⟩

theorem find_self {fs : List (Fork C)} (ht : TreeOk (fs.map (·.block))) {g : Fork C} (hg : g ∈ fs) :
    findFork fs g.block.hash = some g := by
  have hn := ht.2
  clear ht
  induction fs with
  | nil => cases hg
  | cons x fs ih =>
    rw [List.map_cons, List.map_cons, List.nodup_cons] at hn
    unfold findFork
    rw [List.find?_cons]
    rcases List.mem_cons.1 hg with rfl | hg
    · simp
    · have hne : x.block.hash ≠ g.block.hash := by
        intro he
        exact hn.1 (List.mem_map.2 ⟨g.block, List.mem_map.2 ⟨g, hg, rfl⟩, he.symm⟩)
      have : (x.block.hash == g.block.hash) = false := by simpa using hne
      rw [this]
      exact ih hg hn.2

/-- Roots that are compared have the same weight. -/
def SameWeight (st : St S C) (wait : Bool) (w : Nat) : Prop :=
  ∀ g l r, Candidate st wait g l r → r.weight = w

/-- The choice after one more fork. -/
def nextBest (st : St S C) (wait : Bool) (best : Option (Fork C)) (f : Fork C) : Option (Fork C) :=
  if skipped st wait f then best
  else if eligible f then
    match best with
    | none => some f
    | some b => if better f b then some f else some b
  else best

theorem chosen_step {st : St S C} {wait : Bool} {w : Nat} (hsw : SameWeight st wait w) {P : List (Fork C)}
    {best : Option (Fork C)} (hc : Chosen st wait P best) {g f : Fork C} (hg : g ∈ st.forks) (ht : Tallied st g f)
    (hne : ∀ x ∈ P, x.block.hash ≠ g.block.hash)
    (hsub : ∀ x ∈ P, findFork st.forks x.block.hash = some x) :
    Chosen st wait (P ++ [g]) (nextBest st wait best f) := by
  unfold nextBest
  have hcand := tallied_candidate (wait := wait) hg ht
  by_cases hcg : ∃ l r, Candidate st wait g l r
  · obtain ⟨e1, e2⟩ := hcand.2 hcg
    obtain ⟨l, r, c⟩ := hcg
    obtain ⟨tv, tr⟩ := tallied_votes ht c
    rw [if_neg (by rw [e1]; simp), if_pos e2]
    rcases hc with ⟨hb, hall⟩ | ⟨g0, hg0, l0, r0, b, hb, c0, t0, hmax⟩
    · rw [hb]
      refine .inr ⟨g, by simp, l, r, f, rfl, c, ht, ?_⟩
      intro g2 h2 l2 r2 c2
      rcases List.mem_append.1 h2 with h2 | h2
      · exact absurd c2 (hall g2 h2 l2 r2)
      · simp at h2; exact .inl (by rw [h2])
    · rw [hb]
      dsimp only
      obtain ⟨tv0, tr0⟩ := tallied_votes t0 c0
      have hrw : rootWeight f = rootWeight b := by
        unfold rootWeight
        rw [tr, tr0]
        dsimp only
        rw [hsw g l r c, hsw g0 l0 r0 c0]
      have hbi := better_iff hrw
      rw [tv, tv0, ht.block, t0.block] at hbi
      by_cases hbt : better f b = true
      · rw [if_pos hbt]
        refine .inr ⟨g, by simp, l, r, f, rfl, c, ht, ?_⟩
        intro g2 h2 l2 r2 c2
        rcases List.mem_append.1 h2 with h2 | h2
        · rcases hmax g2 h2 l2 r2 c2 with he | he
          · right
            have hl : l2 = l0 := by
              -- same block, same fork
              have h3 := hsub g2 h2
              rw [he, hsub g0 hg0] at h3
              injection h3 with h3
              subst h3
              exact c2.line.unique c0.line
            rw [hl, he]; exact hbi.1 hbt
          · exact .inr ((hbi.1 hbt).trans he)
        · simp at h2; exact .inl (by rw [h2])
      · rw [if_neg hbt]
        refine .inr ⟨g0, by simp [hg0], l0, r0, b, rfl, c0, t0, ?_⟩
        intro g2 h2 l2 r2 c2
        rcases List.mem_append.1 h2 with h2 | h2
        · exact hmax g2 h2 l2 r2 c2
        · simp at h2
          subst h2
          right
          rw [c2.line.unique c.line]
          exact Preferred.total (fun e => hne g0 hg0 e.symm) (fun hp => hbt (hbi.2 hp))
  · have hbest : nextBest st wait best f = best := by
      unfold nextBest
      by_cases h1 : skipped st wait f = true
      · rw [if_pos h1]
      · rw [if_neg h1]
        by_cases h2 : eligible f = true
        · exact absurd (hcand.1 ⟨by simpa using h1, h2⟩) hcg
        · rw [if_neg h2]
    unfold nextBest at hbest
    rw [hbest]
    rcases hc with ⟨hb, hall⟩ | ⟨g0, hg0, l0, r0, b, hb, c0, t0, hmax⟩
    · refine .inl ⟨hb, ?_⟩
      intro g2 h2 l2 r2 c2
      rcases List.mem_append.1 h2 with h2 | h2
      · exact hall g2 h2 l2 r2 c2
      · simp at h2; subst h2; exact hcg ⟨l2, r2, c2⟩
    · refine .inr ⟨g0, by simp [hg0], l0, r0, b, hb, c0, t0, ?_⟩
      intro g2 h2 l2 r2 c2
      rcases List.mem_append.1 h2 with h2 | h2
      · exact hmax g2 h2 l2 r2 c2
      · simp at h2; subst h2; exact absurd ⟨l2, r2, c2⟩ hcg

theorem bestStep_snd {st : St S C} {wait : Bool} {acc : List (Fork C) × Option (Fork C)} {f0 g : Fork C}
    (h : findFork acc.1 f0.block.hash = some g) :
    (bestStep st wait acc f0).2 = nextBest st wait acc.2 (tally st acc.1 g) := by
  unfold bestStep nextBest
  rw [h]
  dsimp only
  split
  · rfl
  · split
    · cases acc.2 with
      | none => rfl
      | some b => dsimp only; split <;> rfl
    · rfl

theorem loop_spec {st : St S C} {wait : Bool} {w : Nat} (hsw : SameWeight st wait w)
    (ht : TreeOk (st.forks.map (·.block)))
    (hpar : ∀ g ∈ st.forks, ∀ p, g.block.height ≠ st.root.height + 1 → findFork st.forks g.block.prev = some p →
      p.block.height < g.block.height) :
    ∀ (Q P : List (Fork C)) (acc : List (Fork C) × Option (Fork C)), st.forks = P ++ Q → Visited st P acc.1 →
    Chosen st wait P acc.2 → Visited st st.forks (Q.foldl (bestStep st wait) acc).1 ∧
      Chosen st wait st.forks (Q.foldl (bestStep st wait) acc).2 := by
  intro Q
  induction Q with
  | nil =>
    intro P acc he hv hc
    rw [List.append_nil] at he
    rw [← he] at hv hc
    exact ⟨hv, hc⟩
  | cons g Q ih =>
    intro P acc he hv hc
    have hgm : g ∈ st.forks := by rw [he]; simp
    have hnd := ht.2
    rw [he] at hnd
    simp only [List.map_append, List.map_cons] at hnd
    have hne : ∀ x ∈ P, x.block.hash ≠ g.block.hash := by
      intro x hx e
      have := (List.nodup_append.1 hnd).2.2 x.block.hash (by
        exact List.mem_map.2 ⟨x.block, List.mem_map.2 ⟨x, hx, rfl⟩, rfl⟩) g.block.hash (by simp)
      exact this e
    have hgf : findFork acc.1 g.block.hash = some g := by
      rw [hv.todo _ hne]; exact find_self ht hgm
    have htal : Tallied st g (tally st acc.1 g) := by
      refine tally_tallied hv ?_
      intro p hb hp
      have hlt := hpar g hgm p hb hp
      have hpm := (findFork_mem hp).1
      rw [he] at hpm
      rcases List.mem_append.1 hpm with h | h
      · exact h
      · exfalso
        have hs := ht.1
        rw [he, List.map_append, List.pairwise_append] at hs
        have hs := hs.2.1
        rw [List.map_cons, List.pairwise_cons] at hs
        rcases List.mem_cons.1 h with h | h
        · rw [h] at hlt; omega
        · have := hs.1 p.block (List.mem_map.2 ⟨p, h, rfl⟩)
          omega
    rw [List.foldl_cons]
    refine ih (P ++ [g]) _ (by rw [he]; simp) ?_ ?_
    · rw [bestStep_forks, hgf]
      dsimp only
      refine ⟨?_, ?_, ?_⟩
      · intro x hx
        rcases List.mem_append.1 hx with hx | hx
        · exact hv.sub x hx
        · simp at hx; subst hx; exact find_self ht hgm
      · intro x hx
        rcases List.mem_append.1 hx with hx | hx
        · obtain ⟨x', h1, h2⟩ := hv.done x hx
          refine ⟨x', ?_, h2⟩
          rw [findFork_set, if_neg]
          · exact h1
          · rintro ⟨e, _⟩
            rw [tally_block] at e
            exact hne x hx e
        · simp at hx; subst hx
          refine ⟨tally st acc.1 x, ?_, htal⟩
          rw [findFork_set, if_pos]
          exact ⟨by rw [tally_block], by rw [hgf]; rfl⟩
      · intro h hall
        rw [findFork_set, if_neg]
        · exact hv.todo h (fun x hx => hall x (List.mem_append_left _ hx))
        · rintro ⟨e, _⟩
          rw [tally_block] at e
          exact hall g (by simp) e.symm
    · rw [bestStep_snd hgf]
      exact chosen_step hsw hc hgm htal hne hv.sub

theorem findBest_spec {st : St S C} {wait : Bool} {w : Nat} (hsw : SameWeight st wait w)
    (ht : TreeOk (st.forks.map (·.block))) (hhigh : ∀ b ∈ st.forks.map (·.block), st.root.height < b.height)
    (hon : Honest U) (hu : ∀ f ∈ st.forks, U f.block) :
    Chosen st wait st.forks (findBest st wait).2 := by
  unfold findBest
  have hf : st.forks.filter (fun f => decide (st.root.height < f.block.height)) = st.forks := by
    apply List.filter_eq_self.2
    intro f hf
    simpa using hhigh f.block (List.mem_map.2 ⟨f, hf, rfl⟩)
  rw [hf]
  refine (loop_spec hsw ht ?_ st.forks [] (st.forks, none) rfl ⟨by simp, by simp, fun h _ => rfl⟩
    (.inl ⟨rfl, by simp⟩)).2
  intro g hg p _ hp
  obtain ⟨h1, h2⟩ := findFork_mem hp
  have := hon g.block p.block (hu g hg) (hu p h1) h2.symm
  omega

end Verif.Node
