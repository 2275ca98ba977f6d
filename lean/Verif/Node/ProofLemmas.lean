import Verif.Node.UpdateLemmas
/-
  Every block of the chain has passed `verify_proof`.
-/
namespace Verif.Node

variable {S C : Type} {R : Rules S C} {U : Block → Prop}

/-- The block needs no proof or has a valid one. -/
def Sound (R : Rules S C) (b : Block) : Prop := b = R.genesis ∨ R.proof b = true

def Checked (R : Rules S C) (db : List (Entry S)) : Prop := ∀ e ∈ db, Sound R e.block

/-! ### Ancestors of a block of the chain are on the chain -/

theorem hist_parent (hw : World R U) : ∀ {db : List (Entry S)}, Hist R db → (∀ e ∈ db, U e.block) → ∀ b ∈ db.map (·.block),
    ∀ x, U x → b.prev = x.hash → x ∈ db.map (·.block) := by
  intro db h
  induction h with
  | nil => intro _ b hb; cases hb
  | first _ =>
    intro _ b hb x hx he
    simp at hb; subst hb
    exact absurd he.symm (hw.first x hx)
  | @next b0 s' e es c h a1 a2 a3 a4 a5 ih =>
    intro hu b hb x hx he
    rw [List.map_cons] at hb ⊢
    rcases List.mem_cons.1 hb with rfl | hb
    · have : x = e.block := hw.inj _ _ hx (hu e (by simp)) (by rw [← he]; exact a1)
      subst this; simp
    · exact List.mem_cons_of_mem _ (ih (fun y hy => hu y (List.mem_cons_of_mem _ hy)) b hb x hx he)

theorem tip_mem (hw : World R U) {db : List (Entry S)} (hn : db ≠ []) (hu : ∀ e ∈ db, U e.block) {b : Block} (hb : U b)
    (he : b.hash = tip db) : b ∈ db.map (·.block) := by
  match db, hn with
  | e :: es, _ =>
    have : b = e.block := hw.inj _ _ hb (hu e (by simp)) he
    subst this; simp

theorem lineFrom_in (hw : World R U) {st : St S C} (h : Inv R U st) {db : List (Entry S)} (hh : Hist R db)
    (hu : ∀ e ∈ db, U e.block) : ∀ (n : Nat) (f : Fork C) (acc line : List Block), f.block ∈ db.map (·.block) →
    (∀ b ∈ acc, b ∈ db.map (·.block)) → lineFrom st n f acc = some line → ∀ b ∈ line, b ∈ db.map (·.block) := by
  intro n
  induction n with
  | zero => intro f acc line _ _ hl; cases hl
  | succ n ih =>
    intro f acc line hf ha hl
    have : ∀ x ∈ f.block :: acc, x ∈ db.map (·.block) := by
      intro x hx
      rcases List.mem_cons.1 hx with rfl | hx
      · exact hf
      · exact ha x hx
    unfold lineFrom at hl
    split at hl
    · injection hl with hl; subst hl; exact this
    · split at hl
      · cases hl
      · next g hg =>
        obtain ⟨g1, g2⟩ := findFork_mem hg
        exact ih g _ _ (hist_parent hw hh hu _ hf _ (h.forkU g g1) g2.symm) this hl

theorem oldLine_in (hw : World R U) {st : St S C} (h : Inv R U st) {db : List (Entry S)} (hh : Hist R db)
    (hu : ∀ e ∈ db, U e.block) : ∀ (n : Nat) (hash : Nat) (acc : List Block),
    (∀ x, U x → x.hash = hash → x ∈ db.map (·.block)) →
    (∀ b ∈ acc, b ∈ db.map (·.block)) → ∀ b ∈ oldLine st n hash acc, b ∈ db.map (·.block) := by
  intro n
  induction n with
  | zero => intro hash acc _ ha; exact ha
  | succ n ih =>
    intro hash acc hx ha
    unfold oldLine
    split
    · exact ha
    · next b hb =>
      obtain ⟨b1, b2⟩ := getBlock_mem h hb
      have hbm := hx b b1 b2
      have : ∀ y ∈ b :: acc, y ∈ db.map (·.block) := by
        intro y hy
        rcases List.mem_cons.1 hy with rfl | hy
        · exact hbm
        · exact ha y hy
      split
      · exact this
      · exact ih _ _ (fun x hx he => hist_parent hw hh hu b hbm x hx he.symm) this

theorem Checked.blocks {db : List (Entry S)} (h : Checked R db) : ∀ b ∈ db.map (·.block), Sound R b := by
  intro b hb
  obtain ⟨e, he, rfl⟩ := List.mem_map.1 hb
  exact h e he

theorem Checked.suffix {db db' : List (Entry S)} (h : Checked R db) (hs : db' <:+ db) : Checked R db' :=
  fun e he => h e (hs.subset he)

theorem Checked.revert {db : List (Entry S)} (h : Checked R db) (n : Nat) : Checked R (revertDb n db) :=
  fun e he => h e (List.mem_filter.1 he).1

/-! ### Switching -/

theorem checked_apply {st : St S C} (h : Checked R st.db) {b : Block} (hb : Sound R b) (c : Option C) :
    Checked R (apply R st b c).1.db := by
  unfold apply
  split
  · exact h
  · split
    · exact h.revert _
    · split
      · exact h.revert _
      · intro e he
        rcases List.mem_cons.1 he with rfl | he
        · exact hb
        · exact h e he

theorem checked_applyLine {restore : St S C → St S C} (hw : World R U)
    (hr : ∀ s, Inv R U s → Checked R s.db → Checked R (restore s).db) : ∀ (bs : List Block) (st : St S C), Inv R U st →
    Checked R st.db → (∀ b ∈ bs, U b ∧ Sound R b) → Checked R (applyLine R restore st bs).1.db := by
  intro bs
  induction bs with
  | nil => intro st _ h _; exact h
  | cons b bs ih =>
    intro st hi h hu
    obtain ⟨hb, hs⟩ := hu b List.mem_cons_self
    have hu' : ∀ x ∈ bs, U x ∧ Sound R x := fun x hx => hu x (List.mem_cons_of_mem _ hx)
    unfold applyLine
    split
    · exact ih st hi h hu'
    · next hp =>
      have hp : b.prev = tip st.db := Decidable.of_not_not hp
      split
      · exact h
      · next f hf =>
        have hfb : f.block = b := hw.inj _ _ (hi.forkU f (findFork_mem hf).1) hb (findFork_mem hf).2
        split
        · next hv =>
          obtain ⟨db, c, du, fit, hc⟩ := hi.ctx f (findFork_mem hf).1 hv
          rw [hfb] at fit
          have fit' := fits_unique hw fit du hi.hist hi.dbU hi.ne hp
          have h1 := inv_apply hw hi hb (fun _ => fit')
          have h2 := checked_apply h hs (some c)
          dsimp only
          rw [hc]
          split
          · exact ih _ h1 h2 hu'
          · exact h2
        · split
          · exact hr _ (inv_sub hi (sub_mark _ _)) h
          · next c hv =>
            have h1 := inv_apply hw (inv_validated hw hi hf hb hv) hb (fun _ => validate_fits hw hi hv)
            have h2 := checked_apply (st := { st with forks := setFork st.forks { f with ctx := some c, validated := true } })
              h hs (some c)
            dsimp only
            split
            · exact ih _ h1 h2 hu'
            · exact h2

theorem checked_applyOld : ∀ (bs : List Block) (st : St S C), Checked R st.db →
    (∀ b ∈ bs, Sound R b) → Checked R (applyOld R st bs).1.db := by
  intro bs
  induction bs with
  | nil => intro st h _; exact h
  | cons b bs ih =>
    intro st h hu
    unfold applyOld
    split
    · exact h
    · next c _ =>
      have := checked_apply h (hu b List.mem_cons_self) (some c)
      dsimp only
      split
      · exact ih _ this (fun x hx => hu x (List.mem_cons_of_mem _ hx))
      · exact this

theorem checked_applyAlt : ∀ (bs : List Block) (st : St S C), Checked R st.db → Checked R (applyAlt R st bs).1.db := by
  intro bs
  induction bs with
  | nil => intro st h; exact h
  | cons b bs ih =>
    intro st h
    unfold applyAlt
    split
    · exact h
    · next b' _ =>
      split
      · next hp =>
        split
        · exact h
        · next c _ =>
          have := checked_apply h (b := b') (.inr hp.2) (some c)
          dsimp only
          split
          · exact ih _ this
          · exact this
      · exact h

theorem checked_reset (hw : World R U) {st st' : St S C} (h0 : Inv0 R U st) (h : Checked R st.db)
    (hr : reset R st = some st') : Checked R st'.db := by
  match hd : st.db with
  | [] =>
    unfold reset start at hr
    rw [hd] at hr
    dsimp only at hr
    split at hr
    · cases hr
    · injection hr with hr; subst hr
      intro e he
      simp at he; subst he; exact .inl rfl
  | e :: es => exact h.suffix (reset_suffix hw h0 (by rw [hd]; simp) hr)

theorem checked_restoreOld (hw : World R U) {st st0 : St S C} (hi : Inv R U st) (h : Checked R st.db)
    (hi0 : Inv R U st0) (h0 : Checked R st0.db) (line : List Block) :
    Checked R (restoreOld R st (tip st0.db) line).db := by
  unfold restoreOld
  have hold := oldLine_in hw hi hi0.hist hi0.dbU (st.forks.length + st.disk.length + 1) (tip st0.db) []
    (fun x hx he => tip_mem hw hi0.ne hi0.dbU hx he) (by simp)
  have h1 := checked_applyOld _ st h (fun b hb => h0.blocks b (hold b hb))
  have h2 := inv_applyOld hw (oldLine st (st.forks.length + st.disk.length + 1) (tip st0.db) []) st hi
    (oldLine_U hi _ _ _ (by simp))
  dsimp only
  split
  · split
    · exact h1
    · next st1 hr =>
      have := checked_reset hw h2.inv0 h1 hr
      exact this
  · exact h1

theorem checked_deepFork (hw : World R U) {st : St S C} (hi : Inv R U st) (h : Checked R st.db) (line : List Block)
    (f0 : Block) : Checked R (deepFork R st line f0).1.db := by
  unfold deepFork
  split
  · exact h
  · next newRoot hn =>
    split
    · exact checked_restoreOld hw hi h hi h line
    · next at_ list ha =>
      have h1 := inv_applyAlt hw list _ (inv_revert (n := at_.height + 1) hi (revertDb_ne hw hi.hist hi.ne _))
      have h2 := checked_applyAlt list (revert st (at_.height + 1)) (h.revert _)
      dsimp only
      split
      · exact h2
      · exact checked_restoreOld hw h1 h2 hi h line

theorem checked_nearFork {st : St S C} (h : Checked R st.db) (line : List Block) : Checked R (nearFork st line).1.db := by
  unfold nearFork
  split
  · exact h
  · dsimp only
    split
    · exact h.revert _
    · exact h

theorem checked_forkTo (hw : World R U) : ∀ (n : Nat) (st : St S C) (f : Fork C), Inv R U st → Checked R st.db →
    U f.block → (∀ line, forkLine st f = some line → ∀ b ∈ line, Sound R b) → Checked R (forkTo R n st f).1.db := by
  intro n
  induction n with
  | zero => intro st f _ h _ _; exact h
  | succ n ih =>
    intro st f hi h hf hs
    unfold forkTo
    split
    · exact h
    · exact h
    · next f0 rest hl =>
      have hu := lineFrom_U hi _ f [] _ hf (by simp) hl
      have hsl := hs _ hl
      have h1 : Inv R U (if f0.prev ≠ st.root.hash then deepFork R st (f0 :: rest) f0
          else nearFork st (f0 :: rest)).1 := by
        split
        · exact inv_deepFork hw hi _ _
        · exact inv_nearFork hw hi _
      have h2 : Checked R (if f0.prev ≠ st.root.hash then deepFork R st (f0 :: rest) f0
          else nearFork st (f0 :: rest)).1.db := by
        split
        · exact checked_deepFork hw hi h _ _
        · exact checked_nearFork h _
      dsimp only
      split
      · exact h2
      · refine checked_applyLine hw ?_ _ _ h1 h2 (fun b hb => ⟨hu b hb, hsl b hb⟩)
        intro s si sc
        unfold forkToHash
        split
        · exact sc
        · split
          · next g hg =>
            obtain ⟨g1, g2⟩ := findFork_mem hg
            have hgU := si.forkU g g1
            refine ih s g si sc hgU ?_
            intro line hline b hb
            exact h.blocks b (lineFrom_in hw si hi.hist hi.dbU _ g [] line (tip_mem hw hi.ne hi.dbU hgU g2) (by simp)
              hline b hb)
          · split
            · exact sc.revert _
            · exact sc

/-! ### The chosen fork -/

/-- What `is_all_proof_verified` stands for, for the forks of `P`. -/
def Vetted (st : St S C) (P fs : List (Fork C)) : Prop :=
  ∀ g ∈ P, ∀ g', findFork fs g.block.hash = some g' → g'.allProved = true → g'.proved = true ∧
    (g'.block.height = st.root.height + 1 ∨
      ∃ p ∈ P, p.block.hash = g'.block.prev ∧ ∃ p', findFork fs p.block.hash = some p' ∧ p'.allProved = true)

def VettedBest (P fs : List (Fork C)) (best : Option (Fork C)) : Prop :=
  ∀ b, best = some b → b.allProved = true ∧ findFork fs b.block.hash = some b ∧ ∃ g ∈ P, g.block.hash = b.block.hash

theorem vetted_step (hw : World R U) (hon : Honest U) {st : St S C} (wait : Bool) {P : List (Fork C)}
    {acc : List (Fork C) × Option (Fork C)} (hu : ∀ f ∈ acc.1, U f.block) {x : Fork C} (hxu : U x.block)
    (hx : ∀ g ∈ P, g.block.hash ≠ x.block.hash) (hxh : st.root.height < x.block.height)
    (hlow : ∀ f ∈ acc.1, st.root.height < f.block.height → f.block.height < x.block.height →
      ∃ g ∈ P, g.block.hash = f.block.hash)
    (hv : Vetted st P acc.1) (hb : VettedBest P acc.1 acc.2) :
    Vetted st (P ++ [x]) (bestStep st wait acc x).1 ∧
      VettedBest (P ++ [x]) (bestStep st wait acc x).1 (bestStep st wait acc x).2 := by
  match hf : findFork acc.1 x.block.hash with
  | none =>
    unfold bestStep
    rw [hf]
    dsimp only
    refine ⟨?_, ?_⟩
    · intro g hg g' hg'
      rcases List.mem_append.1 hg with hg | hg
      · intro ha
        obtain ⟨a1, a2⟩ := hv g hg g' hg' ha
        refine ⟨a1, a2.imp id ?_⟩
        rintro ⟨p, hp, h⟩
        exact ⟨p, List.mem_append_left _ hp, h⟩
      · simp at hg; subst hg; rw [hf] at hg'; cases hg'
    · intro b hb'
      obtain ⟨a1, a2, g, hg, a3⟩ := hb b hb'
      exact ⟨a1, a2, g, List.mem_append_left _ hg, a3⟩
  | some y =>
    obtain ⟨y1, y2⟩ := findFork_mem hf
    have hyx : y.block = x.block := hw.inj _ _ (hu y y1) hxu y2
    generalize hty : tally st acc.1 y = ty
    have htb : ty.block = x.block := by rw [← hty, tally_block, hyx]
    have hself : findFork (setFork acc.1 ty) x.block.hash = some ty := by
      rw [findFork_set, if_pos]
      exact ⟨htb.symm ▸ rfl, by rw [hf]; rfl⟩
    have hother : ∀ n, n ≠ x.block.hash → findFork (setFork acc.1 ty) n = findFork acc.1 n := by
      intro n hn
      rw [findFork_set, if_neg]
      rintro ⟨e, _⟩
      rw [htb] at e
      exact hn e
    have hvet : Vetted st (P ++ [x]) (setFork acc.1 ty) := by
      intro g hg g' hg' ha
      rcases List.mem_append.1 hg with hg | hg
      · rw [hother _ (hx g hg)] at hg'
        obtain ⟨a1, a2⟩ := hv g hg g' hg' ha
        refine ⟨a1, a2.imp id ?_⟩
        rintro ⟨p, hp, e, p', hp', h⟩
        exact ⟨p, List.mem_append_left _ hp, e, p', by rw [hother _ (hx p hp)]; exact hp', h⟩
      · simp at hg; subst hg
        rw [hself] at hg'
        injection hg' with hg'; subst hg'
        have hpr : ty.proved = y.proved ∧ ty.block = y.block := by
          rw [← hty]; unfold tally; split
          · exact ⟨rfl, rfl⟩
          · split <;> exact ⟨rfl, rfl⟩
        rw [hpr.1, hpr.2]
        have ha : (tally st acc.1 y).allProved = true := by rw [hty]; exact ha
        unfold tally at ha
        by_cases hh : y.block.height = st.root.height + 1
        · rw [if_pos hh] at ha
          exact ⟨ha, .inl hh⟩
        · rw [if_neg hh] at ha
          match hp : prevFork acc.1 y with
          | some p =>
            rw [hp] at ha
            simp only [Bool.and_eq_true] at ha
            refine ⟨ha.2, .inr ?_⟩
            obtain ⟨p1, p2⟩ := findFork_mem hp
            have hht := hon y.block p.block (hu y y1) (hu p p1) p2.symm
            rw [hyx] at hht hh
            obtain ⟨q, hq, e⟩ := hlow p p1 (by omega) (by omega)
            refine ⟨q, List.mem_append_left _ hq, e.trans p2, p, ?_, ha.1⟩
            rw [hother _ (hx q hq), e, p2]; exact hp
          | none => rw [hp] at ha; cases ha
    have hkeep : VettedBest (P ++ [x]) (setFork acc.1 ty) acc.2 := by
      intro b hb'
      obtain ⟨a1, a2, g, hg, a3⟩ := hb b hb'
      refine ⟨a1, ?_, g, List.mem_append_left _ hg, a3⟩
      rw [hother _ (by rw [← a3]; exact hx g hg)]; exact a2
    unfold bestStep
    rw [hf]
    dsimp only
    rw [hty]
    split
    · exact ⟨hvet, hkeep⟩
    · split
      · next hel =>
        have hnew : VettedBest (P ++ [x]) (setFork acc.1 ty) (some ty) := by
          intro b hb'
          injection hb' with hb'; subst hb'
          unfold eligible at hel
          simp only [Bool.and_eq_true] at hel
          refine ⟨hel.1.1, ?_, x, by simp, ?_⟩
          · rw [htb]; exact hself
          · rw [htb]
        split
        · exact ⟨hvet, hnew⟩
        · next b hb' =>
          rw [hb'] at hkeep
          split
          · exact ⟨hvet, hnew⟩
          · exact ⟨hvet, hkeep⟩
      · exact ⟨hvet, hkeep⟩

theorem vetted_loop (hw : World R U) (hon : Honest U) {st : St S C} (wait : Bool) (L : List (Fork C))
    (hsort : L.Pairwise fun a b => a.block.height ≤ b.block.height) (hnd : (L.map (·.block.hash)).Nodup)
    (hLu : ∀ f ∈ L, U f.block) (hLh : ∀ f ∈ L, st.root.height < f.block.height) :
    ∀ (Q P : List (Fork C)) (acc : List (Fork C) × Option (Fork C)), L = P ++ Q → (∀ f ∈ acc.1, U f.block) →
    (∀ f ∈ acc.1, st.root.height < f.block.height → ∃ g ∈ L, g.block = f.block) →
    Vetted st P acc.1 → VettedBest P acc.1 acc.2 →
    Vetted st L (Q.foldl (bestStep st wait) acc).1 ∧
      VettedBest L (Q.foldl (bestStep st wait) acc).1 (Q.foldl (bestStep st wait) acc).2 := by
  intro Q
  induction Q with
  | nil =>
    intro P acc he _ _ hv hb
    rw [List.append_nil] at he
    rw [he]; exact ⟨hv, hb⟩
  | cons x Q ih =>
    intro P acc he hu hin hv hb
    have hxL : x ∈ L := by rw [he]; simp
    have hne : ∀ g ∈ P, g.block.hash ≠ x.block.hash := by
      intro g hg e
      rw [he, List.map_append, List.map_cons] at hnd
      exact (List.nodup_append.1 hnd).2.2 g.block.hash (List.mem_map.2 ⟨g, hg, rfl⟩) x.block.hash (by simp) e
    have hlow : ∀ f ∈ acc.1, st.root.height < f.block.height → f.block.height < x.block.height →
        ∃ g ∈ P, g.block.hash = f.block.hash := by
      intro f hf h1 h2
      obtain ⟨g, hg, e⟩ := hin f hf h1
      rw [he] at hg
      rcases List.mem_append.1 hg with hg | hg
      · exact ⟨g, hg, by rw [e]⟩
      · exfalso
        rw [he, List.pairwise_append] at hsort
        have := (List.pairwise_cons.1 hsort.2.1).1
        rcases List.mem_cons.1 hg with rfl | hg
        · rw [e] at h2; omega
        · have := this g hg
          rw [e] at this; omega
    have hs := vetted_step hw hon wait hu (hLu x hxL) hne (hLh x hxL) hlow hv hb
    have hsub := sub_bestStep st wait acc x
    rw [List.foldl_cons]
    refine ih (P ++ [x]) _ (by rw [he]; simp) ?_ ?_ hs.1 hs.2
    · intro f hf
      obtain ⟨k, hk, e, _⟩ := hsub f hf
      rw [e]; exact hu k hk
    · intro f hf
      obtain ⟨k, hk, e, _⟩ := hsub f hf
      rw [e]; exact hin k hk

theorem proof_closed (R : Rules S C) :
    Closed R (fun _ => True) (fun f : Fork C => f.proved = true → R.proof f.block = true) where
  fresh b v h := by cases h
  flags f g h e1 e2 _ _ hg := by rw [e1]; exact h (by rw [← e2]; exact hg)
  prove f _ _ hpf _ := hpf
  vote f k h hp _ _ _ := h hp

theorem best_line (hw : World R U) (hon : Honest U) {st : St S C} (hr : Ready R U st)
    (hp : All (fun f => f.proved = true → R.proof f.block = true) st.forks) (wait : Bool) {f : Fork C}
    (hf : (findBest st wait).2 = some f) :
    ∀ line, forkLine { st with forks := (findBest st wait).1 } f = some line → ∀ b ∈ line, Sound R b := by
  have hp' := all_findBest (proof_closed R) st wait hp
  have hsubl : (st.forks.filter fun f => decide (st.root.height < f.block.height)).Sublist st.forks := List.filter_sublist
  have key := vetted_loop hw hon wait (st.forks.filter fun f => decide (st.root.height < f.block.height))
    (by
      have := hr.tree.1
      rw [List.pairwise_map] at this
      exact this.sublist hsubl)
    (by
      have := hr.tree.2
      rw [List.map_map] at this
      exact this.sublist (hsubl.map _))
    (fun f hf => hr.inv.forkU f (hsubl.subset hf)) (fun f hf => by simpa using (List.mem_filter.1 hf).2)
    _ [] (st.forks, none) rfl hr.inv.forkU
    (fun f hf hh => ⟨f, List.mem_filter.2 ⟨hf, by simpa using hh⟩, rfl⟩) (fun g hg => by cases hg)
    (fun b hb => by cases hb)
  change Vetted st _ (findBest st wait).1 ∧ VettedBest _ (findBest st wait).1 (findBest st wait).2 at key
  obtain ⟨hv, hb⟩ := key
  obtain ⟨b1, b2, g, hg, b3⟩ := hb f hf
  intro line hline
  have walk : ∀ (n : Nat) (f : Fork C) (acc line : List Block), findFork (findBest st wait).1 f.block.hash = some f →
      f.allProved = true →
      (∃ g ∈ st.forks.filter fun f => decide (st.root.height < f.block.height), g.block.hash = f.block.hash) →
      (∀ b ∈ acc, Sound R b) → lineFrom { st with forks := (findBest st wait).1 } n f acc = some line →
      ∀ b ∈ line, Sound R b := by
    intro n
    induction n with
    | zero => intro f acc line _ _ _ _ hl; cases hl
    | succ n ih =>
      intro f acc line h1 h2 h3 ha hl
      obtain ⟨g, hg, e⟩ := h3
      obtain ⟨c1, c2⟩ := hv g hg f (by rw [e]; exact h1) h2
      have hs : ∀ x ∈ f.block :: acc, Sound R x := by
        intro x hx
        rcases List.mem_cons.1 hx with rfl | hx
        · exact .inr (hp' f (findFork_mem h1).1 c1)
        · exact ha x hx
      unfold lineFrom at hl
      split at hl
      · injection hl with hl; subst hl; exact hs
      · next hstop =>
        split at hl
        · cases hl
        · next q hq =>
          rcases c2 with c2 | ⟨p, hpP, pe, p', hp', pa⟩
          · exfalso
            apply hstop
            refine ⟨c2, ?_⟩
            unfold findPrev getBlock
            have hq' : findFork (findBest st wait).1 f.block.prev = some q := hq
            dsimp only
            rw [hq']; rfl
          · have hq' : findFork (findBest st wait).1 f.block.prev = some q := hq
            rw [pe, hq'] at hp'
            injection hp' with hp'; subst hp'
            have hqh := (findFork_mem hq').2
            exact ih q _ _ (by rw [hqh]; exact hq') pa ⟨p, hpP, by rw [pe, hqh]⟩ hs hl
  exact walk _ f [] line b2 b1 ⟨g, hg, b3⟩ (by simp) hline

theorem checked_choose (hw : World R U) (hon : Honest U) (wait : Bool) : ∀ (n : Nat) (st : St S C), Ready R U st →
    All (fun f => f.proved = true → R.proof f.block = true) st.forks → Checked R st.db →
    Checked R (choose R wait n st).1.db := by
  intro n
  induction n with
  | zero => intro st _ _ h; exact h
  | succ n ih =>
    intro st h hp hc
    have h1 := ready_keeps h (keeps_findBest hw h.inv wait) (inv_sub h.inv (sub_findBest st wait)) rfl
    unfold choose
    dsimp only
    split
    · exact hc
    · next f hf =>
      have hfu := best_mem st wait h.inv.forkU hf
      have hfin : (findFork (findBest st wait).1 f.block.hash).isSome := by
        rw [findFork_isSome, findBest_blocks hw h.inv.forkU]
        exact ⟨f.block, best_mem st wait (P := fun b => b ∈ st.forks.map (·.block))
          (fun g hg => List.mem_map.2 ⟨g, hg, rfl⟩) hf, rfl⟩
      split
      · exact hc
      · have h2 := ready_forkTo hw hon 3 _ f h1 hfin hfu
        have h3 := checked_forkTo hw 3 { st with forks := (findBest st wait).1 } f h1.inv hc hfu
          (best_line hw hon h hp wait hf)
        have h4 : All (fun f => f.proved = true → R.proof f.block = true)
            (forkTo R 3 { st with forks := (findBest st wait).1 } f).1.forks :=
          all_forkTo (proof_closed R) 3 _ f (all_findBest (proof_closed R) st wait hp)
        split
        · exact h3
        · exact ih _ (ready_keeps h2 (keeps_mark _ _) (inv_sub h2.inv (sub_mark _ _)) rfl)
            (all_mark (proof_closed R) h4 _) h3

theorem checked_update (hw : World R U) (hon : Honest U) {st : St S C} (h : Ready R U st)
    (hp : All (fun f => f.proved = true → R.proof f.block = true) st.forks) (hc : Checked R st.db) (env : Env) :
    Checked R (update R env st).1.db := by
  rw [update_db]
  exact checked_choose hw hon env.wait _ _ (ready_prepare hw h env)
    (all_castVotes (proof_closed R) env.best env.votes _ (fun _ _ => trivial)
      (all_verifyBlocks (proof_closed R) hp env.synced env.vdf env.far)) hc

theorem checked_step (hw : World R U) (hon : Honest U) {st st' : St S C} (h : Ready R U st)
    (hp : All (fun f => f.proved = true → R.proof f.block = true) st.forks) (hc : Checked R st.db) {o : Op}
    (ho : ∀ n f, o = .forkTo n → findFork st.forks n = some f → ∀ line, forkLine st f = some line →
      ∀ b ∈ line, Sound R b) (hs : step R st o = some st') : Checked R st'.db := by
  cases o with
  | add b =>
    injection hs with hs; subst hs
    unfold addBlock
    split
    · exact hc
    · split
      · exact hc
      · exact hc
  | update env => injection hs with hs; subst hs; exact checked_update hw hon h hp hc env
  | forkTo n =>
    injection hs with hs; subst hs
    unfold forkToHash
    split
    · exact hc
    · split
      · next f hf => exact checked_forkTo hw 3 st f h.inv hc (h.inv.forkU f (findFork_mem hf).1) (ho n f rfl hf)
      · split
        · exact hc.revert _
        · exact hc
  | revertSync n =>
    change (if n ≤ st.root.height then reset R (revert st n) else some st) = some st' at hs
    split at hs
    · refine checked_reset hw ?_ (st := revert st n) (hc.revert n) hs
      exact ⟨revertDb_hist h.inv.hist n,
        fun e he => h.inv.dbU e (List.mem_filter.1 he).1, h.inv.diskU, h.inv.rootU⟩
    · injection hs with hs; subst hs; exact hc
  | restart keep lost =>
    refine checked_reset hw ?_ (st := { (revert st keep) with disk := st.disk.filter fun b => !lost b.hash })
      (hc.revert keep) hs
    exact ⟨revertDb_hist h.inv.hist keep, fun e he => h.inv.dbU e (List.mem_filter.1 he).1,
      fun b hb => h.inv.diskU b (List.mem_filter.1 hb).1, h.inv.rootU⟩

theorem run_append : ∀ (os os' : List Op) (st : St S C), run R st (os ++ os') =
    (run R st os).bind fun s => run R s os' := by
  intro os
  induction os with
  | nil => intro os' st; rfl
  | cons o os ih =>
    intro os' st
    show (match step R st o with | none => none | some st1 => run R st1 (os ++ os')) = _
    rw [show run R st (o :: os) = (match step R st o with | none => none | some st1 => run R st1 os) from rfl]
    cases step R st o with
    | none => rfl
    | some s => exact ih os' s

theorem reached_prefix {os os' : List Op} {st : St S C} (h : Reached R U (os ++ os') st) :
    ∃ s, Reached R U os s ∧ run R s os' = some st := by
  obtain ⟨h1, s0, h2, h3⟩ := h
  rw [run_append] at h3
  match hr : run R s0 os, h3 with
  | some s, h3 => exact ⟨s, ⟨fun o ho => h1 o (List.mem_append_left _ ho), s0, h2, hr⟩, h3⟩

theorem reached_checked (hw : World R U) (hon : Honest U) : ∀ (n : Nat) (os : List Op) (st : St S C), os.length ≤ n →
    Reached R U os st → (∀ o ∈ os, o.Safe) →
    (∀ pre h post, os = pre ++ .forkTo h :: post → ∃ pre' s, pre' <+: pre ∧ Reached R U pre' s ∧
      h ∈ s.chain.map (·.hash)) → Checked R st.db := by
  intro n
  induction n with
  | zero =>
    intro os st hn h _ _
    obtain ⟨_, s0, h2, h3⟩ := h
    have : os = [] := List.length_eq_zero_iff.1 (by omega)
    subst this
    injection h3 with h3; subst h3
    unfold start at h2
    split at h2
    · cases h2
    · injection h2 with h2; subst h2
      intro e he
      simp at he; subst he; exact .inl rfl
  | succ n ih =>
    intro os st hn h hsafe hback
    rcases List.eq_nil_or_concat os with rfl | ⟨os', o, rfl⟩
    · exact ih [] st (by simp) h hsafe hback
    · rw [List.concat_eq_append] at *
      obtain ⟨s, hs, hrun⟩ := reached_prefix h
      have hlen : os'.length ≤ n := by simp at hn; omega
      have hsafe' : ∀ o ∈ os', o.Safe := fun x hx => hsafe x (List.mem_append_left _ hx)
      have hback' : ∀ pre h post, os' = pre ++ .forkTo h :: post → ∃ pre' s, pre' <+: pre ∧ Reached R U pre' s ∧
          h ∈ s.chain.map (·.hash) := by
        intro pre x post he
        exact hback pre x (post ++ [o]) (by rw [he]; simp)
      have hc := ih os' s hlen hs hsafe' hback'
      have hr := reached_ready hw hon hs hsafe'
      have hp : All (fun f => f.proved = true → R.proof f.block = true) s.forks := by
        obtain ⟨_, s0, h2, h3⟩ := hs
        refine all_run (proof_closed R) os' ?_ (fun _ _ _ _ => trivial) h3
        unfold start at h2
        split at h2
        · cases h2
        · injection h2 with h2; subst h2
          intro f hf; cases hf
      have hstep : step R s o = some st := by
        unfold run at hrun
        split at hrun
        · cases hrun
        · next s1 hs1 => rw [hs1]; exact hrun
      refine checked_step hw hon hr hp hc ?_ hstep
      intro x f ho hf line hline b hb
      subst ho
      obtain ⟨pre', s1, hpre, hs1, hx⟩ := hback os' x [] rfl
      obtain ⟨t, rfl⟩ := hpre
      have hsafe1 : ∀ o ∈ pre', o.Safe := fun y hy => hsafe' y (List.mem_append_left _ hy)
      have hc1 := ih pre' s1 (by simp at hlen; omega) hs1 hsafe1
        (by
          intro pre y post he
          exact hback' pre y (post ++ t) (by rw [he]; simp))
      have hr1 := reached_ready hw hon hs1 hsafe1
      obtain ⟨c, hcm, hce⟩ := List.mem_map.1 hx
      have hcm : c ∈ s1.db.map (·.block) := hcm
      obtain ⟨e, he, rfl⟩ := List.mem_map.1 hcm
      obtain ⟨f1, f2⟩ := findFork_mem hf
      have : f.block = e.block := hw.inj _ _ (hr.inv.forkU f f1) (hr1.inv.dbU e he) (f2.trans hce.symm)
      exact hc1.blocks b (lineFrom_in hw hr.inv hr1.inv.hist hr1.inv.dbU _ f [] line (by rw [this]; exact hcm) (by simp)
        hline b hb)

end Verif.Node
