import Verif.Node.ChoiceLemmas
/-
  The loop that tries forks ends, and where it ends.
-/
namespace Verif.Node

variable {S C : Type} {R : Rules S C} {U : Block → Prop}

/-! ### Forks that can still be chosen -/

/-- The fork with this hash has a verified proof and is not known to be invalid. -/
def live (fs : List (Fork C)) (h : Nat) : Bool :=
  match findFork fs h with
  | some f => f.proved && !f.invalid
  | none => false

/-- No fork has become choosable. -/
def Less (fs' fs : List (Fork C)) : Prop := ∀ h, live fs' h = true → live fs h = true

theorem Less.refl (fs : List (Fork C)) : Less fs fs := fun _ h => h

theorem Less.trans {a b c : List (Fork C)} (h1 : Less a b) (h2 : Less b c) : Less a c := fun h x => h2 h (h1 h x)

theorem less_set {fs : List (Fork C)} {f g : Fork C} (hg : findFork fs f.block.hash = some g)
    (h1 : f.proved = true → g.proved = true) (h2 : g.invalid = true → f.invalid = true) : Less (setFork fs f) fs := by
  intro h hl
  unfold live at hl ⊢
  rw [findFork_set] at hl
  split at hl
  · next f' hf' =>
    split at hf'
    · next hc =>
      injection hf' with hf'
      subst hf'
      rw [hc.1, hg]
      simp only [Bool.and_eq_true, Bool.not_eq_true'] at hl ⊢
      refine ⟨h1 hl.1, ?_⟩
      match hi : g.invalid with
      | false => rfl
      | true => rw [h2 hi] at hl; exact absurd hl.2 (by simp)
    · rw [hf']; exact hl
  · cases hl

theorem less_mark (fs : List (Fork C)) (k : Nat) : Less (markInvalid fs k) fs := by
  intro h hl
  unfold live at hl ⊢
  rw [findFork_mark] at hl
  match hf : findFork fs h with
  | none => rw [hf] at hl; cases hl
  | some g =>
    rw [hf] at hl
    dsimp only [Option.map_some] at hl ⊢
    split at hl
    · simp at hl
    · exact hl

theorem live_mark (fs : List (Fork C)) (k : Nat) : live (markInvalid fs k) k = false := by
  unfold live
  rw [findFork_mark]
  match hf : findFork fs k with
  | none => rfl
  | some g =>
    dsimp only [Option.map_some]
    rw [if_pos (findFork_mem hf).2]
    simp

theorem less_marks (line : List Block) : ∀ (fs : List (Fork C)),
    Less (line.foldl (fun fs b => markInvalid fs b.hash) fs) fs := by
  induction line with
  | nil => intro fs; exact Less.refl fs
  | cons b bs ih => intro fs; exact (ih _).trans (less_mark fs b.hash)

theorem apply_forks (st : St S C) (b : Block) (c : Option C) : (apply R st b c).1.forks = st.forks := by
  unfold apply
  split
  · rfl
  · split
    · rfl
    · split <;> rfl

theorem less_applyLine {restore : St S C → St S C} {F : List (Fork C)} (hr : ∀ s, Less s.forks F → Less (restore s).forks F) :
    ∀ (bs : List Block) (st : St S C), Less st.forks F → Less (applyLine R restore st bs).1.forks F := by
  intro bs
  induction bs with
  | nil => intro st h; exact h
  | cons b bs ih =>
    intro st h
    unfold applyLine
    split
    · exact ih st h
    · split
      · exact h
      · next f hf =>
        split
        · dsimp only
          have : Less (apply R st b f.ctx).1.forks F := by rw [apply_forks]; exact h
          split
          · exact ih _ this
          · exact this
        · split
          · exact hr _ ((less_mark _ _).trans h)
          · next c hv =>
            dsimp only
            have : Less (apply R { st with forks := setFork st.forks { f with ctx := some c, validated := true } }
                b (some c)).1.forks F := by
              rw [apply_forks]
              refine (less_set (f := { f with ctx := some c, validated := true }) (g := f) ?_
                (fun h => h) (fun h => h)).trans h
              show findFork st.forks f.block.hash = some f
              rw [(findFork_mem hf).2]; exact hf
            split
            · exact ih _ this
            · exact this

theorem applyOld_forks : ∀ (bs : List Block) (st : St S C), (applyOld R st bs).1.forks = st.forks := by
  intro bs
  induction bs with
  | nil => intro st; rfl
  | cons b bs ih =>
    intro st
    unfold applyOld
    split
    · rfl
    · dsimp only
      split
      · rw [ih, apply_forks]
      · exact apply_forks _ _ _

theorem applyAlt_forks : ∀ (bs : List Block) (st : St S C), (applyAlt R st bs).1.forks = st.forks := by
  intro bs
  induction bs with
  | nil => intro st; rfl
  | cons b bs ih =>
    intro st
    unfold applyAlt
    split
    · rfl
    · split
      · split
        · rfl
        · dsimp only
          split
          · rw [ih, apply_forks]
          · exact apply_forks _ _ _
      · rfl

theorem reset_live {st st' : St S C} (h : reset R st = some st') (n : Nat) : live st'.forks n = false := by
  have hp : ∀ f ∈ st'.forks, f.proved = false := by
    unfold reset at h
    split at h
    · unfold start at h
      split at h
      · cases h
      · injection h with h; subst h; intro f hf; cases hf
    · dsimp only at h
      split at h
      · cases h
      · injection h with h; subst h
        intro f hf
        rcases mem_load _ _ f hf with hf | ⟨b, _, rfl⟩
        · cases hf
        · rfl
  unfold live
  match hf : findFork st'.forks n with
  | none => rfl
  | some f => simp [hp f (findFork_mem hf).1]

theorem less_restoreOld {F : List (Fork C)} {st : St S C} (h : Less st.forks F) (prevState : Nat) (line : List Block) :
    Less (restoreOld R st prevState line).forks F := by
  unfold restoreOld
  dsimp only
  have h1 : ∀ bs, Less ((applyOld R st bs).1.strand prevState).forks F := by
    intro bs
    show Less (applyOld R st bs).1.forks F
    rw [applyOld_forks]; exact h
  split
  · split
    · exact h1 _
    · next st1 hr =>
      intro n hl
      have := less_marks line st1.forks n hl
      rw [reset_live hr] at this
      cases this
  · exact h1 _

theorem less_deepFork {F : List (Fork C)} {st : St S C} (h : Less st.forks F) (line : List Block) (f0 : Block) :
    Less (deepFork R st line f0).1.forks F := by
  unfold deepFork
  split
  · exact h
  · split
    · exact less_restoreOld h _ _
    · next at_ list _ =>
      have h1 : Less (applyAlt R (revert st (at_.height + 1)) list).1.forks F := by
        rw [applyAlt_forks]; exact h
      dsimp only
      split
      · exact h1
      · exact less_restoreOld h1 _ _

theorem less_forkTo {F : List (Fork C)} : ∀ (n : Nat) (st : St S C) (f : Fork C), Less st.forks F →
    Less (forkTo R n st f).1.forks F := by
  intro n
  induction n with
  | zero => intro st f h; exact h
  | succ n ih =>
    intro st f h
    unfold forkTo
    split
    · exact h
    · exact h
    · next f0 rest hl =>
      have h1 : Less (if f0.prev ≠ st.root.hash then deepFork R st (f0 :: rest) f0
          else nearFork st (f0 :: rest)).1.forks F := by
        split
        · exact less_deepFork h _ _
        · rw [nearFork_forks]; exact h
      dsimp only
      split
      · exact h1
      · refine less_applyLine (F := F) ?_ _ _ h1
        intro s hs
        unfold forkToHash
        split
        · exact hs
        · split
          · exact ih _ _ hs
          · split
            · exact hs
            · exact hs

/-! ### `find_best_fork` only takes such forks -/

theorem tally_proved {st : St S C} {fs : List (Fork C)} {g : Fork C} (h : eligible (tally st fs g) = true) :
    g.proved = true ∧ g.invalid = false := by
  unfold eligible at h
  simp only [Bool.and_eq_true, Bool.not_eq_true'] at h
  obtain ⟨⟨h1, _⟩, h3⟩ := h
  unfold tally at h1 h3
  split at h1
  · next hb =>
    rw [if_pos hb] at h3
    exact ⟨h1, h3⟩
  · next hb =>
    rw [if_neg hb] at h3
    split at h1
    · next p hp =>
      rw [hp] at h3
      simp at h1 h3
      exact ⟨h1.2, h3.2⟩
    · cases h1

theorem tally_proved_eq (st : St S C) (fs : List (Fork C)) (g : Fork C) : (tally st fs g).proved = g.proved := by
  unfold tally
  split
  · rfl
  · split <;> rfl

theorem best_live (st : St S C) (wait : Bool) : Less (findBest st wait).1 st.forks ∧
    ∀ f, (findBest st wait).2 = some f → live st.forks f.block.hash = true := by
  unfold findBest
  generalize st.forks.filter (fun f => decide (st.root.height < f.block.height)) = l
  have : ∀ (l : List (Fork C)) (acc : List (Fork C) × Option (Fork C)), Less acc.1 st.forks →
      (∀ f, acc.2 = some f → live st.forks f.block.hash = true) →
      Less (l.foldl (bestStep st wait) acc).1 st.forks ∧
      ∀ f, (l.foldl (bestStep st wait) acc).2 = some f → live st.forks f.block.hash = true := by
    intro l
    induction l with
    | nil => intro acc h1 h2; exact ⟨h1, h2⟩
    | cons f0 l ih =>
      intro acc h1 h2
      rw [List.foldl_cons]
      match hg : findFork acc.1 f0.block.hash with
      | none =>
        have : bestStep st wait acc f0 = acc := by unfold bestStep; rw [hg]
        rw [this]; exact ih acc h1 h2
      | some g =>
        have hgg : findFork acc.1 g.block.hash = some g := by rw [(findFork_mem hg).2]; exact hg
        apply ih
        · rw [bestStep_forks, hg]
          dsimp only
          refine (less_set (g := g) (by rw [tally_block]; exact hgg) ?_ (tally_invalid st acc.1 g)).trans h1
          rw [tally_proved_eq]; exact fun h => h
        · intro f hf
          rw [bestStep_snd hg] at hf
          have hnew : eligible (tally st acc.1 g) = true → live st.forks (tally st acc.1 g).block.hash = true := by
            intro he
            obtain ⟨p1, p2⟩ := tally_proved he
            apply h1
            unfold live
            rw [tally_block, hgg]
            simp [p1, p2]
          unfold nextBest at hf
          split at hf
          · exact h2 f hf
          · split at hf
            · next he =>
              cases hb : acc.2 with
              | none =>
                rw [hb] at hf
                injection hf with hf; subst hf; exact hnew he
              | some b =>
                rw [hb] at hf
                dsimp only at hf
                split at hf
                · injection hf with hf; subst hf; exact hnew he
                · injection hf with hf; subst hf; exact h2 b hb
            · exact h2 f hf
  exact this l (st.forks, none) (Less.refl _) (by simp)

theorem countP_lt {α : Type} {p q : α → Bool} : ∀ {l : List α}, (∀ x, p x = true → q x = true) →
    ∀ x ∈ l, q x = true → p x = false → l.countP p < l.countP q := by
  intro l h
  have mono : ∀ m : List α, m.countP p ≤ m.countP q := fun m => List.countP_mono_left (fun x _ => h x)
  induction l with
  | nil => intro x hx; cases hx
  | cons a l ih =>
    intro x hx h1 h2
    rw [List.countP_cons, List.countP_cons]
    rcases List.mem_cons.1 hx with rfl | hx
    · have := mono l
      rw [h1, h2]; simp; omega
    · have := ih x hx h1 h2
      by_cases ha : p a = true
      · rw [ha, h a ha]; omega
      · simp [ha]; omega

theorem choose_ends (wait : Bool) (L : List Nat) : ∀ (n : Nat) (st : St S C),
    (∀ h, live st.forks h = true → h ∈ L) → L.countP (live st.forks) < n →
    (choose R wait n st).2.isSome := by
  intro n
  induction n with
  | zero => intro st _ h; omega
  | succ n ih =>
    intro st hL hn
    unfold choose
    dsimp only
    obtain ⟨b1, b2⟩ := best_live st wait
    split
    · rfl
    · next f hf =>
      split
      · rfl
      · split
        · rfl
        · have hq : Less (forkTo R 3 { st with forks := (findBest st wait).1 } f).1.forks st.forks :=
            less_forkTo 3 _ f b1
          have hless : Less (markInvalid (forkTo R 3 { st with forks := (findBest st wait).1 } f).1.forks f.block.hash)
              st.forks := (less_mark _ _).trans hq
          apply ih
          · intro h hl; exact hL h (hless h hl)
          · have := countP_lt (l := L) hless f.block.hash (hL _ (b2 f hf)) (b2 f hf) (live_mark _ _)
            show L.countP (live (markInvalid _ _)) < n
            omega

/-- The loop of `update` ends after at most as many failures as there are forks. -/
theorem choose_some (wait : Bool) (st : St S C) : (choose R wait (st.forks.length + 2) st).2.isSome := by
  refine choose_ends wait (st.forks.map (·.block.hash)) _ st ?_ ?_
  · intro h hl
    unfold live at hl
    split at hl
    · next f hf => exact List.mem_map.2 ⟨f, (findFork_mem hf).1, (findFork_mem hf).2⟩
    · cases hl
  · have := List.countP_le_length (p := live st.forks) (l := st.forks.map (·.block.hash))
    simp at this ⊢
    omega

/-! ### Without forks off the committed chain -/

theorem dead_child (hw : World R U) {p b : Block} (hp : U p) (hd : Dead R U p) (hb : b.prev = p.hash) : Dead R U b := by
  intro bs s hu hr
  cases hr with
  | genesis _ => exact hw.first p hp hb.symm
  | @block _ q bs s0 s' c h h1 h2 h3 h4 h5 =>
    have : q = p := hw.inj _ _ (hu q List.mem_cons_self) hp (by rw [← h1, hb])
    subst this
    exact hd bs s0 (fun x hx => hu x (List.mem_cons_of_mem _ hx)) h

theorem dead_line (hw : World R U) : ∀ {bs : List Block} {h : Nat} {x b : Block}, (∀ b ∈ bs, U b) → LinkedFrom h bs →
    x ∈ bs → Dead R U x → bs.getLast? = some b → Dead R U b := by
  intro bs
  induction bs with
  | nil => intro h x b _ _ hx; cases hx
  | cons a bs ih =>
    intro h x b hu hl hx hd hb
    cases hl with
    | cons hp hl =>
      match bs, hl with
      | [], _ =>
        simp at hx hb
        subst hx; subst hb; exact hd
      | a2 :: bs, hl =>
        rw [List.getLast?_cons_cons] at hb
        rcases List.mem_cons.1 hx with rfl | hx
        · have ha2 : a2.prev = x.hash := by cases hl with | cons hp _ => exact hp
          exact ih (fun y hy => hu y (List.mem_cons_of_mem _ hy)) hl List.mem_cons_self
            (dead_child hw (hu x List.mem_cons_self) hd ha2) hb
        · exact ih (fun y hy => hu y (List.mem_cons_of_mem _ hy)) hl hx hd hb

theorem NoDeep.keeps {st' st : St S C} (h : NoDeep st) (k : Keeps st' st) : NoDeep st' := by
  intro b hb
  rw [k.forks] at hb
  rw [k.root]
  exact h b hb

theorem forkTo_cases (hw : World R U) (ht : Total R) {st : St S C} (hi : Inv R U st) {above : List (Entry S)}
    {re : Entry S} {below : List (Entry S)} (h : Anchored R U st above re below) (hnd : NoDeep st) {f : Fork C}
    (hfin : (findFork st.forks f.block.hash).isSome) (hfU : U f.block) (n : Nat) :
    (∃ st' o above', forkTo R (n + 2) st f = (st', .ok o) ∧ tip st'.db = f.block.hash ∧ Keeps st' st ∧
      Inv R U st' ∧ Anchored R U st' above' re below) ∨
    (∃ st', forkTo R (n + 2) st f = (st', .err) ∧ st'.db = st.db ∧ Keeps st' st ∧ Inv R U st' ∧
      Tame R U st'.forks st.forks ∧ (forkLine st f = none ∨ Dead R U f.block)) := by
  match hl : forkLine st f with
  | none =>
    right
    refine ⟨st, ?_, rfl, Keeps.refl st, hi, Tame.refl _, .inl rfl⟩
    rw [forkTo, hl]
  | some line =>
    obtain ⟨b0, bs, l1, l2, l3, l4, l5, l6⟩ := forkLine_spec hl hfin
    subst l1
    have hb0 := l4 b0 List.mem_cons_self
    rw [findFork_isSome] at hb0
    obtain ⟨x, hx, hxe⟩ := hb0
    have hbU : U b0 := lineFrom_U hi _ f [] _ hfU (by simp) hl b0 List.mem_cons_self
    have hxU : U x := by
      obtain ⟨g, hg, rfl⟩ := List.mem_map.1 hx
      exact hi.forkU g hg
    have hxb : x = b0 := hw.inj _ _ hxU hbU hxe
    subst hxb
    have hp := hnd x hx l5
    rcases forkTo_near hw ht hi h hfin hfU hl hp n with
      ⟨st', o, new, keep, a1, a2, a3, a4, a5, a6, a7, a8, a9, _⟩ | ⟨st', a1, a2, a3, a4, a5, x2, a6, _, a7⟩
    · left
      refine ⟨st', o, new ++ keep, a1, a4, a5, a9, ?_⟩
      refine h.keeps a5 a9 (by rw [a2]; simp) ?_
      intro e he
      have : e.block ∈ (keep.reverse ++ new.reverse).map (·.block) := by
        refine List.mem_map.2 ⟨e, ?_, rfl⟩
        rcases List.mem_append.1 he with he | he
        · exact List.mem_append_right _ (List.mem_reverse.2 he)
        · exact List.mem_append_left _ (List.mem_reverse.2 he)
      rw [a6] at this
      exact l4 _ this
    · refine .inr ⟨st', a1, a2, a3, a4, a5, .inr ?_⟩
      refine dead_line hw (fun b hb => lineFrom_U hi _ f [] _ hfU (by simp) hl b hb) l2 a6 a7 ?_
      exact l3

end Verif.Node
