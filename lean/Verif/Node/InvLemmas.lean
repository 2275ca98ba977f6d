import Verif.Node.Spec
/-
  The database of a node holds a replay, and cached execution contexts are those a fresh validation gives.
-/
namespace Verif.Node

variable {S C : Type} {R : Rules S C} {U : Block → Prop}

/-- Every version in the database is the replay of the blocks up to it. -/
inductive Hist (R : Rules S C) : List (Entry S) → Prop where
  | nil : Hist R []
  | first {s : S} : R.exec R.init R.genesis none = some s → Hist R [⟨R.genesis, s⟩]
  | next {b : Block} {s' : S} {e : Entry S} {es : List (Entry S)} {c : C} :
      Hist R (e :: es) → b.prev = e.block.hash → b.height = e.block.height + 1 → R.static b = true →
      R.check e.state e.block b = some c → R.exec e.state b (some c) = some s' →
      Hist R (⟨b, s'⟩ :: e :: es)

theorem Hist.tail {e : Entry S} {es : List (Entry S)} (h : Hist R (e :: es)) : Hist R es := by
  cases h with
  | first _ => exact .nil
  | next h _ _ _ _ _ => exact h

theorem Hist.replay : ∀ {db : List (Entry S)}, Hist R db → db ≠ [] →
    Replay R (db.map (·.block)) (ledger R db) := by
  intro db h
  induction h with
  | nil => intro h; exact absurd rfl h
  | first h => intro _; exact .genesis h
  | next h h1 h2 h3 h4 h5 ih =>
    intro _
    exact .block (ih (by simp)) h1 h2 h3 h4 h5

/-- Heights below the newest are smaller. -/
theorem Hist.lt : ∀ {db : List (Entry S)}, Hist R db → ∀ e es, db = e :: es →
    ∀ x ∈ es, x.block.height < e.block.height := by
  intro db h
  induction h with
  | nil => intro e es h; cases h
  | first h => intro e es h; injection h with h1 h2; subst h2; simp
  | @next b s' e0 es0 c h h1 h2 h3 h4 h5 ih =>
    intro e es he x hx
    injection he with he1 he2
    subst he1; subst he2
    rcases List.mem_cons.1 hx with rfl | hx
    · show _ < b.height; omega
    · have := ih e0 es0 rfl x hx
      show _ < b.height; omega

theorem revertDb_hist : ∀ {db : List (Entry S)}, Hist R db → ∀ h, Hist R (revertDb h db) := by
  intro db
  induction db with
  | nil => intro h n; exact h
  | cons e es ih =>
    intro h n
    unfold revertDb
    by_cases hh : e.block.height + 1 ≤ n
    · rw [List.filter_cons_of_pos (by simpa using hh)]
      have : es.filter (fun e => decide (e.block.height + 1 ≤ n)) = es := by
        apply List.filter_eq_self.2
        intro x hx
        have := h.lt e es rfl x hx
        simp; omega
      rw [this]; exact h
    · rw [List.filter_cons_of_neg (by simpa using hh)]
      exact ih h.tail n

/-- Reverting drops the newest versions. -/
theorem revertDb_suffix (h : Nat) : ∀ {db : List (Entry S)}, Hist R db → revertDb h db <:+ db := by
  intro db
  induction db with
  | nil => intro _; exact ⟨[], rfl⟩
  | cons e es ih =>
    intro hh
    by_cases hc : e.block.height + 1 ≤ h
    · have : revertDb h (e :: es) = e :: es := by
        apply List.filter_eq_self.2
        intro x hx
        rcases List.mem_cons.1 hx with rfl | hx
        · simpa using hc
        · have := hh.lt e es rfl x hx
          simp; omega
      rw [this]; exact ⟨[], rfl⟩
    · have : revertDb h (e :: es) = revertDb h es := by
        unfold revertDb
        rw [List.filter_cons_of_neg (by simpa using hc)]
      rw [this]
      exact (ih hh.tail).trans (List.suffix_cons e es)

/-- The block is at the right place on top of `db` and validation gives `c`. -/
structure Fits (R : Rules S C) (db : List (Entry S)) (b : Block) (c : C) : Prop where
  hist : Hist R db
  ex : ∃ e es, db = e :: es ∧ b.prev = e.block.hash ∧ b.height = e.block.height + 1 ∧ R.static b = true ∧
    R.check e.state e.block b = some c

/-- A cached context is the one validation gives on top of the predecessor's chain. -/
def CtxOk (R : Rules S C) (U : Block → Prop) (f : Fork C) : Prop :=
  f.validated = true → ∃ db c, (∀ e ∈ db, U e.block) ∧ Fits R db f.block c ∧ f.ctx = some c

/-- What holds of a node at all times. -/
structure Inv (R : Rules S C) (U : Block → Prop) (st : St S C) : Prop where
  hist : Hist R st.db
  ne : st.db ≠ []
  dbU : ∀ e ∈ st.db, U e.block
  diskU : ∀ b ∈ st.disk, U b
  forkU : ∀ f ∈ st.forks, U f.block
  rootU : U st.root
  ctx : ∀ f ∈ st.forks, CtxOk R U f

theorem hist_zero (hw : World R U) : ∀ {db : List (Entry S)}, Hist R db → ∀ e es, db = e :: es →
    e.block.height = es.length := by
  intro db h
  induction h with
  | nil => intro e es h; cases h
  | first h => intro e es h; injection h with h1 h2; subst h1; subst h2; exact hw.zero
  | @next b s' e0 es0 c h h1 h2 h3 h4 h5 ih =>
    intro e es he
    injection he with he1 he2
    subst he1; subst he2
    rw [h2, ih e0 es0 rfl]; rfl

/-- A chain is determined by its newest block. -/
theorem hist_unique (hw : World R U) : ∀ {d1 d2 : List (Entry S)}, Hist R d1 → Hist R d2 →
    (∀ e ∈ d1, U e.block) → (∀ e ∈ d2, U e.block) → d1 ≠ [] → d2 ≠ [] → tip d1 = tip d2 → d1 = d2 := by
  intro d1 d2 h1
  induction h1 generalizing d2 with
  | nil => intro _ _ _ h; exact absurd rfl h
  | @first s hs =>
    intro h2 u1 u2 _ n2 ht
    cases h2 with
    | nil => exact absurd rfl n2
    | @first s2 hs2 => rw [hs] at hs2; injection hs2 with hs2; rw [hs2]
    | @next b s' e es c h a1 a2 a3 a4 a5 =>
      have : R.genesis = b := hw.inj _ _ hw.gen (u2 _ List.mem_cons_self) ht
      rw [← this, hw.zero] at a2; omega
  | @next b s' e es c h a1 a2 a3 a4 a5 ih =>
    intro h2 u1 u2 _ n2 ht
    cases h2 with
    | nil => exact absurd rfl n2
    | @first s2 hs2 =>
      have : b = R.genesis := hw.inj _ _ (u1 _ List.mem_cons_self) hw.gen ht
      rw [this, hw.zero] at a2; omega
    | @next b2 s2 e2 es2 c2 h2 b1 b2' b3 b4 b5 =>
      have hb : b = b2 := hw.inj _ _ (u1 _ List.mem_cons_self) (u2 _ List.mem_cons_self) ht
      subst hb
      have := ih h2 (fun x hx => u1 x (List.mem_cons_of_mem _ hx))
        (fun x hx => u2 x (List.mem_cons_of_mem _ hx)) (by simp) (by simp)
        (show e.block.hash = e2.block.hash by rw [← a1, ← b1])
      injection this with t1 t2
      subst t1; subst t2
      rw [a4] at b4; injection b4 with b4; subst b4
      rw [a5] at b5; injection b5 with b5; subst b5
      rfl

theorem fits_unique (hw : World R U) {d1 d2 : List (Entry S)} {b : Block} {c : C} (h : Fits R d1 b c)
    (u1 : ∀ e ∈ d1, U e.block) (h2 : Hist R d2) (u2 : ∀ e ∈ d2, U e.block) (n2 : d2 ≠ [])
    (ht : b.prev = tip d2) : Fits R d2 b c := by
  obtain ⟨hh, e, es, rfl, a1, a2, a3, a4⟩ := h
  have := hist_unique hw hh h2 u1 u2 (by simp) n2 (by show e.block.hash = _; rw [← a1, ht])
  subst this
  exact ⟨hh, e, es, rfl, a1, a2, a3, a4⟩

/-! ### Look-ups -/

theorem findFork_mem {forks : List (Fork C)} {h : Nat} {f : Fork C} (hf : findFork forks h = some f) :
    f ∈ forks ∧ f.block.hash = h := by
  unfold findFork at hf
  refine ⟨List.mem_of_find?_eq_some hf, ?_⟩
  have := List.find?_some hf
  simpa using this

theorem getBlock_mem {st : St S C} (hi : Inv R U st) {h : Nat} {b : Block} (hb : getBlock st h = some b) :
    U b ∧ b.hash = h := by
  unfold getBlock at hb
  split at hb
  · next f hf =>
    injection hb with hb; subst hb
    exact ⟨hi.forkU f (findFork_mem hf).1, (findFork_mem hf).2⟩
  · refine ⟨hi.diskU b (List.mem_of_find?_eq_some hb), ?_⟩
    have := List.find?_some hb
    simpa using this

/-! ### Changing forks -/

/-- Every fork of the new list is one of the old, with the same block and cached context. -/
def Sub (fs' fs : List (Fork C)) : Prop :=
  ∀ g ∈ fs', ∃ f ∈ fs, g.block = f.block ∧ g.validated = f.validated ∧ g.ctx = f.ctx

theorem Sub.refl (fs : List (Fork C)) : Sub fs fs := fun g hg => ⟨g, hg, rfl, rfl, rfl⟩

theorem Sub.trans {a b c : List (Fork C)} (h1 : Sub a b) (h2 : Sub b c) : Sub a c := by
  intro g hg
  obtain ⟨f, hf, a1, a2, a3⟩ := h1 g hg
  obtain ⟨k, hk, b1, b2, b3⟩ := h2 f hf
  exact ⟨k, hk, a1.trans b1, a2.trans b2, a3.trans b3⟩

theorem inv_sub {st : St S C} (h : Inv R U st) {fs : List (Fork C)} (hs : Sub fs st.forks) :
    Inv R U { st with forks := fs } := by
  refine ⟨h.hist, h.ne, h.dbU, h.diskU, ?_, h.rootU, ?_⟩
  · intro g hg
    obtain ⟨f, hf, a1, _, _⟩ := hs g hg
    rw [a1]; exact h.forkU f hf
  · intro g hg hv
    obtain ⟨f, hf, a1, a2, a3⟩ := hs g hg
    rw [a1, a3]
    exact h.ctx f hf (a2 ▸ hv)

theorem sub_mark (forks : List (Fork C)) (h : Nat) : Sub (markInvalid forks h) forks := by
  intro g hg
  unfold markInvalid at hg
  obtain ⟨f, hf, rfl⟩ := List.mem_map.1 hg
  refine ⟨f, hf, ?_⟩
  split <;> simp

theorem sub_set {forks : List (Fork C)} {f : Fork C}
    (hf : ∃ g ∈ forks, f.block = g.block ∧ f.validated = g.validated ∧ f.ctx = g.ctx) :
    Sub (setFork forks f) forks := by
  intro g hg
  unfold setFork at hg
  obtain ⟨k, hk, rfl⟩ := List.mem_map.1 hg
  split
  · exact hf
  · exact ⟨k, hk, rfl, rfl, rfl⟩

theorem sub_filter (forks : List (Fork C)) (p : Fork C → Bool) : Sub (forks.filter p) forks :=
  fun g hg => ⟨g, (List.mem_filter.1 hg).1, rfl, rfl, rfl⟩

theorem mem_insertFork {f g : Fork C} : ∀ {forks : List (Fork C)}, g ∈ insertFork forks f → g = f ∨ g ∈ forks := by
  intro forks
  induction forks with
  | nil => intro h; simp [insertFork] at h; exact .inl h
  | cons k ks ih =>
    intro h
    unfold insertFork at h
    split at h
    · rcases List.mem_cons.1 h with h | h
      · exact .inr (h ▸ List.mem_cons_self)
      · rcases ih h with h | h
        · exact .inl h
        · exact .inr (List.mem_cons_of_mem _ h)
    · rcases List.mem_cons.1 h with h | h
      · exact .inl h
      · exact .inr h

theorem mem_addFork {root : Block} {forks : List (Fork C)} {f g : Fork C} (h : g ∈ addFork root forks f) :
    g = f ∨ g ∈ forks := by
  unfold addFork at h
  split at h
  · exact .inr h
  · split at h
    · exact .inr h
    · exact mem_insertFork h

theorem mem_writeBlock {disk : List Block} {b x : Block} (h : x ∈ writeBlock disk b) : x = b ∨ x ∈ disk := by
  unfold writeBlock at h
  split at h
  · exact .inr h
  · simp at h; exact h.symm

theorem inv_addBlock {st : St S C} (h : Inv R U st) {b : Block} (hb : U b) : Inv R U (addBlock R st b) := by
  unfold addBlock
  split
  · exact h
  · split
    · refine ⟨h.hist, h.ne, h.dbU, ?_, h.forkU, h.rootU, h.ctx⟩
      intro x hx
      rcases mem_writeBlock hx with rfl | hx
      · exact hb
      · exact h.diskU x hx
    · refine ⟨h.hist, h.ne, h.dbU, h.diskU, ?_, h.rootU, ?_⟩
      · intro g hg
        rcases mem_addFork hg with rfl | hg
        · exact hb
        · exact h.forkU g hg
      · intro g hg
        rcases mem_addFork hg with rfl | hg
        · intro hv; cases hv
        · exact h.ctx g hg

/-! ### Applying and reverting -/

theorem inv_revert {st : St S C} (h : Inv R U st) {n : Nat} (hn : revertDb n st.db ≠ []) :
    Inv R U (revert st n) := by
  refine ⟨revertDb_hist h.hist n, hn, ?_, h.diskU, h.forkU, h.rootU, h.ctx⟩
  intro e he
  exact h.dbU e (List.mem_filter.1 he).1

theorem revertDb_ne (hw : World R U) {db : List (Entry S)} (h : Hist R db) (hn : db ≠ []) (n : Nat) :
    revertDb (n + 1) db ≠ [] := by
  have : ∃ e ∈ db, e.block.height = 0 := by
    induction h with
    | nil => exact absurd rfl hn
    | first hs => exact ⟨_, List.mem_cons_self, hw.zero⟩
    | next h _ _ _ _ _ ih =>
      obtain ⟨e, he, h0⟩ := ih (by simp)
      exact ⟨e, List.mem_cons_of_mem _ he, h0⟩
  obtain ⟨e, he, h0⟩ := this
  intro hc
  have : e ∈ revertDb (n + 1) db := List.mem_filter.2 ⟨he, by simp [h0]⟩
  rw [hc] at this; cases this

theorem validate_fits {st : St S C} (hw : World R U) (h : Inv R U st) {b : Block} {c : C}
    (hv : validate R st b = some c) : Fits R st.db b c := by
  unfold validate at hv
  split at hv
  · cases hv
  · next hs =>
    split at hv
    · cases hv
    · next p hp =>
      split at hv
      · cases hv
      · next ht =>
        split at hv
        · cases hv
        · next hh =>
          have hs : R.static b = true := by simpa using hs
          have ht : p.hash = tip st.db := Decidable.of_not_not ht
          have hh : b.height = p.height + 1 := Decidable.of_not_not hh
          obtain ⟨pu, ph⟩ := getBlock_mem h hp
          refine ⟨h.hist, ?_⟩
          match hd : st.db with
          | [] => exact absurd hd h.ne
          | e :: es =>
            have he : p = e.block := hw.inj _ _ pu (h.dbU e (hd ▸ List.mem_cons_self)) (by rw [ht, hd]; rfl)
            subst he
            refine ⟨e, es, rfl, ph.symm, hh, hs, ?_⟩
            rw [hd] at hv
            exact hv

theorem inv_apply {st : St S C} (hw : World R U) (h : Inv R U st) {b : Block} (hb : U b) {c : C}
    (hf : b.prev = tip st.db → Fits R st.db b c) : Inv R U (apply R st b (some c)).1 := by
  unfold apply
  split
  · exact h
  · next hp =>
    obtain ⟨_, e, es, hd, a1, a2, a3, a4⟩ := hf (Decidable.of_not_not hp)
    have hrev : Inv R U (revert st b.height) := by
      refine inv_revert h ?_
      rw [a2]; exact revertDb_ne hw h.hist h.ne _
    split
    · exact hrev
    · next s hs =>
      split
      · exact hrev
      · refine ⟨?_, by simp, ?_, ?_, h.forkU, h.rootU, h.ctx⟩
        · show Hist R (⟨b, s⟩ :: st.db)
          have hh := h.hist
          rw [hd] at hh hs ⊢
          exact .next hh a1 a2 a3 a4 hs
        · intro x hx
          rcases List.mem_cons.1 hx with rfl | hx
          · exact hb
          · exact h.dbU x hx
        · intro x hx
          rcases mem_writeBlock hx with rfl | hx
          · exact hb
          · exact h.diskU x hx

theorem inv_validated {st : St S C} (hw : World R U) (h : Inv R U st) {b : Block} {c : C} {f : Fork C}
    (hf : findFork st.forks b.hash = some f) (hb : U b) (hv : validate R st b = some c) :
    Inv R U { st with forks := setFork st.forks { f with ctx := some c, validated := true } } := by
  have hfb : f.block = b := hw.inj _ _ (h.forkU f (findFork_mem hf).1) hb (findFork_mem hf).2
  refine ⟨h.hist, h.ne, h.dbU, h.diskU, ?_, h.rootU, ?_⟩
  · intro g hg
    obtain ⟨k, hk, rfl⟩ := List.mem_map.1 hg
    split
    · exact h.forkU f (findFork_mem hf).1
    · exact h.forkU k hk
  · intro g hg
    obtain ⟨k, hk, rfl⟩ := List.mem_map.1 hg
    split
    · intro _
      refine ⟨st.db, c, h.dbU, ?_, rfl⟩
      show Fits R st.db f.block c
      rw [hfb]; exact validate_fits hw h hv
    · exact h.ctx k hk

theorem inv_applyLine {restore : St S C → St S C} (hw : World R U)
    (hr : ∀ s, Inv R U s → Inv R U (restore s)) : ∀ (bs : List Block) (st : St S C), Inv R U st →
    (∀ b ∈ bs, U b) → Inv R U (applyLine R restore st bs).1 := by
  intro bs
  induction bs with
  | nil => intro st h _; exact h
  | cons b bs ih =>
    intro st h hu
    have hb := hu b List.mem_cons_self
    have hu' : ∀ x ∈ bs, U x := fun x hx => hu x (List.mem_cons_of_mem _ hx)
    unfold applyLine
    split
    · exact ih st h hu'
    · next hp =>
      have hp : b.prev = tip st.db := Decidable.of_not_not hp
      split
      · exact h
      · next f hf =>
        have hfb : f.block = b := hw.inj _ _ (h.forkU f (findFork_mem hf).1) hb (findFork_mem hf).2
        split
        · next hv =>
          obtain ⟨db, c, du, fit, hc⟩ := h.ctx f (findFork_mem hf).1 hv
          rw [hfb] at fit
          have fit' := fits_unique hw fit du h.hist h.dbU h.ne hp
          have := inv_apply hw h hb (fun _ => fit')
          dsimp only
          rw [hc]
          split
          · exact ih _ this hu'
          · exact this
        · split
          · exact hr _ (inv_sub h (sub_mark _ _))
          · next c hv =>
            have h1 := inv_validated hw h hf hb hv
            have := inv_apply hw h1 hb (fun _ => validate_fits hw h hv)
            dsimp only
            split
            · exact ih _ this hu'
            · exact this

theorem inv_applyOld (hw : World R U) : ∀ (bs : List Block) (st : St S C), Inv R U st →
    (∀ b ∈ bs, U b) → Inv R U (applyOld R st bs).1 := by
  intro bs
  induction bs with
  | nil => intro st h _; exact h
  | cons b bs ih =>
    intro st h hu
    unfold applyOld
    split
    · exact h
    · next c hv =>
      have := inv_apply hw h (hu b List.mem_cons_self) (fun _ => validate_fits hw h hv)
      dsimp only
      split
      · exact ih _ this (fun x hx => hu x (List.mem_cons_of_mem _ hx))
      · exact this

theorem inv_applyAlt (hw : World R U) : ∀ (bs : List Block) (st : St S C), Inv R U st →
    Inv R U (applyAlt R st bs).1 := by
  intro bs
  induction bs with
  | nil => intro st h; exact h
  | cons b bs ih =>
    intro st h
    unfold applyAlt
    split
    · exact h
    · next b' hb' =>
      split
      · split
        · exact h
        · next c hv =>
          have := inv_apply hw h (getBlock_mem h hb').1 (fun _ => validate_fits hw h hv)
          dsimp only
          split
          · exact ih _ this
          · exact this
      · exact h

/-! ### Loading -/

theorem inv_settle (hw : World R U) : ∀ (n : Nat) (st : St S C), Inv R U st → Inv R U (settle R n st).1 := by
  intro n
  induction n with
  | zero => intro st h; exact h
  | succ n ih =>
    intro st h
    unfold settle
    have := inv_revert (n := n + 1) h (revertDb_ne hw h.hist h.ne n)
    split
    · split
      · exact h
      · exact ih _ this
    · exact ih _ this

theorem getBlockAt_U {st : St S C} (h : Inv R U st) {n : Nat} {b : Block} (hb : getBlockAt st n = some b) :
    U b := by
  unfold getBlockAt at hb
  obtain ⟨x, _, hx⟩ := Option.bind_eq_some_iff.1 hb
  exact (getBlock_mem h hx).1

theorem mem_load {root : Block} : ∀ (bs : List Block) (fs : List (Fork C)) (g : Fork C),
    g ∈ bs.foldl (fun fs b => addFork root fs { block := b, vdfOk := true }) fs →
    g ∈ fs ∨ ∃ b ∈ bs, g = { block := b, vdfOk := true } := by
  intro bs
  induction bs with
  | nil => intro fs g h; exact .inl h
  | cons b bs ih =>
    intro fs g h
    rcases ih _ g h with h | ⟨x, hx, rfl⟩
    · rcases mem_addFork h with rfl | h
      · exact .inr ⟨b, List.mem_cons_self, rfl⟩
      · exact .inl h
    · exact .inr ⟨x, List.mem_cons_of_mem _ hx, rfl⟩

theorem inv_start (hw : World R U) {st : St S C} (h : start R = some st) : Inv R U st := by
  unfold start at h
  split at h
  · cases h
  · next s hs =>
    injection h with h; subst h
    refine ⟨.first hs, by simp, ?_, ?_, by simp, hw.gen, by simp⟩
    · intro e he; simp at he; subst he; exact hw.gen
    · intro b hb; simp at hb; subst hb; exact hw.gen

/-- What `reset` needs: the tables may be empty. -/
structure Inv0 (R : Rules S C) (U : Block → Prop) (st : St S C) : Prop where
  hist : Hist R st.db
  dbU : ∀ e ∈ st.db, U e.block
  diskU : ∀ b ∈ st.disk, U b
  rootU : U st.root

theorem inv_reset (hw : World R U) {st st' : St S C} (h : Inv0 R U st) (hr : reset R st = some st') :
    Inv R U st' := by
  unfold reset at hr
  split at hr
  · exact inv_start hw hr
  · next e es hd =>
    have h0 : Inv R U { st with forks := [] } :=
      ⟨h.hist, by rw [hd]; simp, h.dbU, h.diskU, by simp, h.rootU, by simp⟩
    have h1 := inv_settle hw e.block.height _ h0
    dsimp only at hr
    split at hr
    · cases hr
    · next root hroot =>
      injection hr with hr; subst hr
      refine ⟨h1.hist, h1.ne, h1.dbU, h1.diskU, ?_, getBlockAt_U h1 hroot, ?_⟩
      · intro g hg
        rcases mem_load _ _ g hg with hg | ⟨b, hb, rfl⟩
        · cases hg
        · exact h1.diskU b (List.mem_filter.1 hb).1
      · intro g hg
        rcases mem_load _ _ g hg with hg | ⟨b, hb, rfl⟩
        · cases hg
        · intro hv; cases hv

theorem Inv.inv0 {st : St S C} (h : Inv R U st) : Inv0 R U st := ⟨h.hist, h.dbU, h.diskU, h.rootU⟩

/-! ### Switching -/

theorem oldLine_U {st : St S C} (h : Inv R U st) : ∀ (n : Nat) (hash : Nat) (acc : List Block),
    (∀ b ∈ acc, U b) → ∀ b ∈ oldLine st n hash acc, U b := by
  intro n
  induction n with
  | zero => intro hash acc ha; exact ha
  | succ n ih =>
    intro hash acc ha
    unfold oldLine
    split
    · exact ha
    · next b hb =>
      have : ∀ x ∈ b :: acc, U x := by
        intro x hx
        rcases List.mem_cons.1 hx with rfl | hx
        · exact (getBlock_mem h hb).1
        · exact ha x hx
      split
      · exact this
      · exact ih _ _ this

theorem sub_marks (line : List Block) : ∀ (fs : List (Fork C)),
    Sub (line.foldl (fun fs b => markInvalid fs b.hash) fs) fs := by
  induction line with
  | nil => intro fs; exact Sub.refl fs
  | cons b bs ih => intro fs; exact (ih _).trans (sub_mark fs b.hash)

theorem inv_astray {st : St S C} (h : Inv R U st) (a : Bool) : Inv R U { st with astray := a } :=
  ⟨h.hist, h.ne, h.dbU, h.diskU, h.forkU, h.rootU, h.ctx⟩

theorem inv_restoreOld (hw : World R U) {st : St S C} (h : Inv R U st) (prevState : Nat) (line : List Block) :
    Inv R U (restoreOld R st prevState line) := by
  unfold restoreOld
  have h1 := inv_applyOld hw (oldLine st (st.forks.length + st.disk.length + 1) prevState []) st h
    (oldLine_U h _ _ _ (by simp))
  have h2 := inv_astray h1 ((applyOld R st (oldLine st (st.forks.length + st.disk.length + 1) prevState [])).1.astray ||
    tip (applyOld R st (oldLine st (st.forks.length + st.disk.length + 1) prevState [])).1.db != prevState)
  dsimp only
  split
  · split
    · exact h2
    · next st1 hr => exact inv_sub (inv_reset hw h1.inv0 hr) (sub_marks _ _)
  · exact h2

theorem inv_deepFork (hw : World R U) {st : St S C} (h : Inv R U st) (line : List Block) (f0 : Block) :
    Inv R U (deepFork R st line f0).1 := by
  unfold deepFork
  split
  · exact h
  · next newRoot hn =>
    split
    · exact inv_restoreOld hw h _ _
    · next at_ list ha =>
      have h1 := inv_applyAlt hw list _ (inv_revert (n := at_.height + 1) h (revertDb_ne hw h.hist h.ne _))
      dsimp only
      split
      · exact ⟨h1.hist, h1.ne, h1.dbU, h1.diskU, h1.forkU, (getBlock_mem h hn).1, h1.ctx⟩
      · exact inv_restoreOld hw h1 _ _

theorem inv_nearFork (hw : World R U) {st : St S C} (h : Inv R U st) (line : List Block) :
    Inv R U (nearFork st line).1 := by
  unfold nearFork
  split
  · exact h
  · dsimp only
    split
    · exact inv_revert h (revertDb_ne hw h.hist h.ne _)
    · exact h

theorem lineFrom_U {st : St S C} (h : Inv R U st) : ∀ (n : Nat) (f : Fork C) (acc line : List Block),
    U f.block → (∀ b ∈ acc, U b) → lineFrom st n f acc = some line → ∀ b ∈ line, U b := by
  intro n
  induction n with
  | zero => intro f acc line _ _ hl; cases hl
  | succ n ih =>
    intro f acc line hf ha hl
    have : ∀ x ∈ f.block :: acc, U x := by
      intro x hx
      rcases List.mem_cons.1 hx with rfl | hx
      · exact hf
      · exact ha x hx
    unfold lineFrom at hl
    split at hl
    · injection hl with hl; subst hl; exact this
    · split at hl
      · cases hl
      · next g hg => exact ih g _ _ (h.forkU g (findFork_mem hg).1) this hl

theorem inv_forkToHash (hw : World R U) {go : St S C → Fork C → St S C × Out}
    (hg : ∀ s f, Inv R U s → U f.block → Inv R U (go s f).1) {st : St S C} (h : Inv R U st) (hash : Nat) :
    Inv R U (forkToHash go st hash).1 := by
  unfold forkToHash
  split
  · exact h
  · split
    · next f hf => exact hg _ _ h (h.forkU f (findFork_mem hf).1)
    · split
      · exact inv_revert h (revertDb_ne hw h.hist h.ne _)
      · exact h

theorem inv_forkTo (hw : World R U) : ∀ (n : Nat) (st : St S C) (f : Fork C), Inv R U st → U f.block →
    Inv R U (forkTo R n st f).1 := by
  intro n
  induction n with
  | zero => intro st f h _; exact h
  | succ n ih =>
    intro st f h hf
    unfold forkTo
    split
    · exact h
    · exact h
    · next f0 rest hl =>
      have hu := lineFrom_U h _ f [] _ hf (by simp) hl
      have h1 : Inv R U (if f0.prev ≠ st.root.hash then deepFork R st (f0 :: rest) f0
          else nearFork st (f0 :: rest)).1 := by
        split
        · exact inv_deepFork hw h _ _
        · exact inv_nearFork hw h _
      dsimp only
      split
      · exact h1
      · exact inv_applyLine hw (fun s hs => inv_forkToHash hw (fun s f hs hf => ih s f hs hf) hs _) _ _ h1 hu

/-! ### Choosing, verifying, committing -/

theorem sub_bestStep (st : St S C) (wait : Bool) (acc : List (Fork C) × Option (Fork C)) (f0 : Fork C) :
    Sub (bestStep st wait acc f0).1 acc.1 := by
  unfold bestStep
  split
  · exact Sub.refl _
  · next g hg =>
    have hs : Sub (setFork acc.1 (tally st acc.1 g)) acc.1 := by
      refine sub_set ⟨g, (findFork_mem hg).1, ?_⟩
      unfold tally
      split
      · simp
      · split <;> simp
    dsimp only
    split
    · exact hs
    · split
      · split
        · exact hs
        · split <;> exact hs
      · exact hs

theorem sub_findBest (st : St S C) (wait : Bool) : Sub (findBest st wait).1 st.forks := by
  unfold findBest
  generalize st.forks.filter (fun f => decide (st.root.height < f.block.height)) = l
  have : ∀ (l : List (Fork C)) (acc : List (Fork C) × Option (Fork C)),
      Sub (l.foldl (bestStep st wait) acc).1 acc.1 := by
    intro l
    induction l with
    | nil => intro acc; exact Sub.refl _
    | cons f l ih => intro acc; exact (ih _).trans (sub_bestStep st wait acc f)
  exact this l (st.forks, none)

theorem best_mem_step (st : St S C) (wait : Bool) {acc : List (Fork C) × Option (Fork C)} {P : Block → Prop}
    (h1 : ∀ f ∈ acc.1, P f.block) (h2 : ∀ f, acc.2 = some f → P f.block) (f0 : Fork C) :
    (∀ f ∈ (bestStep st wait acc f0).1, P f.block) ∧ ∀ f, (bestStep st wait acc f0).2 = some f → P f.block := by
  refine ⟨?_, ?_⟩
  · intro f hf
    obtain ⟨g, hg, e, _, _⟩ := sub_bestStep st wait acc f0 f hf
    rw [e]; exact h1 g hg
  · unfold bestStep
    split
    · exact h2
    · next g hg =>
      have ht : P (tally st acc.1 g).block := by
        have : (tally st acc.1 g).block = g.block := by
          unfold tally
          split
          · rfl
          · split <;> rfl
        rw [this]; exact h1 g (findFork_mem hg).1
      dsimp only
      split
      · exact h2
      · split
        · split
          · intro f hf; injection hf with hf; subst hf; exact ht
          · next b hb =>
            split
            · intro f hf; injection hf with hf; subst hf; exact ht
            · intro f hf; injection hf with hf; subst hf; exact h2 _ hb
        · exact h2

theorem best_mem (st : St S C) (wait : Bool) {P : Block → Prop} (h : ∀ f ∈ st.forks, P f.block) {f : Fork C}
    (hf : (findBest st wait).2 = some f) : P f.block := by
  unfold findBest at hf
  have : ∀ (l : List (Fork C)) (acc : List (Fork C) × Option (Fork C)), (∀ f ∈ acc.1, P f.block) →
      (∀ f, acc.2 = some f → P f.block) → ∀ f, (l.foldl (bestStep st wait) acc).2 = some f → P f.block := by
    intro l
    induction l with
    | nil => intro acc _ h2; exact h2
    | cons f l ih =>
      intro acc h1 h2
      have := best_mem_step st wait h1 h2 f
      exact ih _ this.1 this.2
  exact this _ (st.forks, none) h (by simp) f hf

theorem inv_choose (hw : World R U) (wait : Bool) : ∀ (n : Nat) (st : St S C), Inv R U st →
    Inv R U (choose R wait n st).1 := by
  intro n
  induction n with
  | zero => intro st h; exact h
  | succ n ih =>
    intro st h
    have h1 := inv_sub h (sub_findBest st wait)
    unfold choose
    dsimp only
    split
    · exact h1
    · next f hf =>
      have hfu := best_mem st wait h.forkU hf
      split
      · exact h1
      · have h2 := inv_forkTo hw 3 _ f h1 hfu
        split
        · exact h2
        · exact ih _ (inv_sub h2 (sub_mark _ _))

/-- Same block and same cached context. -/
def Same (g f : Fork C) : Prop := g.block = f.block ∧ g.validated = f.validated ∧ g.ctx = f.ctx

theorem same_link (st : St S C) (far : Block → Bool) (forks : List (Fork C)) (f : Fork C) :
    Same (linkFork st far forks f) f := by
  unfold linkFork Same
  split
  · simp
  · split <;> simp

theorem same_vdf (synced : Bool) (vdf : Block → Bool) (f : Fork C) : Same (vdfFork synced vdf f) f := by
  unfold vdfFork Same
  split <;> simp

theorem same_prove (st : St S C) (f : Fork C) : Same (proveFork R st f) f := by
  unfold proveFork Same
  split
  · split <;> simp
  · simp

theorem Same.trans {a b c : Fork C} (h1 : Same a b) (h2 : Same b c) : Same a c :=
  ⟨h1.1.trans h2.1, h1.2.1.trans h2.2.1, h1.2.2.trans h2.2.2⟩

theorem sub_verifyFork (st : St S C) (synced : Bool) (vdf far : Block → Bool) (forks : List (Fork C))
    (f0 : Fork C) : Sub (verifyFork R st synced vdf far forks f0) forks := by
  unfold verifyFork
  split
  · exact Sub.refl _
  · next f hf =>
    refine sub_set ⟨f, (findFork_mem hf).1, ?_⟩
    split
    · exact same_link st far forks f
    · exact (same_prove st _).trans ((same_vdf synced vdf _).trans (same_link st far forks f))

theorem sub_foldl {α : Type} {step : List (Fork C) → α → List (Fork C)} (h : ∀ fs a, Sub (step fs a) fs) :
    ∀ (l : List α) (fs : List (Fork C)), Sub (l.foldl step fs) fs := by
  intro l
  induction l with
  | nil => intro fs; exact Sub.refl _
  | cons a l ih => intro fs; exact (ih _).trans (h fs a)

theorem sub_castVote (best : Block → Bool) (forks : List (Fork C)) (v : Vote) :
    Sub (castVote best forks v).1 forks := by
  unfold castVote
  split
  · exact Sub.refl _
  · next f hf =>
    split
    · split
      · exact Sub.refl _
      · split
        · exact Sub.refl _
        · split
          · exact Sub.refl _
          · exact sub_set ⟨f, (findFork_mem hf).1, rfl, rfl, rfl⟩
    · exact Sub.refl _

theorem sub_castVotes (best : Block → Bool) : ∀ (vs : List Vote) (forks : List (Fork C)),
    Sub (castVotes best forks vs).1 forks := by
  intro vs
  induction vs with
  | nil => intro fs; exact Sub.refl _
  | cons v vs ih => intro fs; exact (ih _).trans (sub_castVote best fs v)

theorem mem_writes : ∀ (fs : List (Fork C)) (d : List Block) (x : Block),
    x ∈ fs.foldl (fun d f => writeBlock d f.block) d → x ∈ d ∨ ∃ f ∈ fs, x = f.block := by
  intro fs
  induction fs with
  | nil => intro d x h; exact .inl h
  | cons f fs ih =>
    intro d x h
    rcases ih _ x h with h | ⟨g, hg, rfl⟩
    · rcases mem_writeBlock h with rfl | h
      · exact .inr ⟨f, List.mem_cons_self, rfl⟩
      · exact .inl h
    · exact .inr ⟨g, List.mem_cons_of_mem _ hg, rfl⟩

theorem inv_commit {st st' : St S C} (h : Inv R U st) {b : Block} (hb : U b) (hc : commit st b = some st') :
    Inv R U st' := by
  unfold commit at hc
  split at hc
  · cases hc
  · dsimp only at hc
    injection hc with hc; subst hc
    have hs : Sub (commitForks b st.forks st.disk).1 st.forks :=
      (sub_filter _ _).trans (sub_filter _ _)
    have h1 := inv_sub h hs
    refine ⟨h1.hist, h1.ne, h1.dbU, ?_, h1.forkU, hb, h1.ctx⟩
    intro x hx
    rcases mem_writes _ _ x hx with hx | ⟨f, hf, rfl⟩
    · exact h.diskU x hx
    · have := (List.mem_filter.1 (List.mem_filter.1 hf).1).1
      exact h.forkU f (List.mem_filter.1 this).1

theorem inv_commitLine (delay peak : Nat) (ready : Block → Bool) : ∀ (bs : List Block) (st : St S C),
    Inv R U st → (∀ b ∈ bs, U b) → Inv R U (commitLine delay peak ready st bs).1 := by
  intro bs
  induction bs with
  | nil => intro st h _; exact h
  | cons b bs ih =>
    intro st h hu
    unfold commitLine
    split
    · split
      · exact h
      · next st1 hc =>
        exact ih st1 (inv_commit h (hu b List.mem_cons_self) hc) (fun x hx => hu x (List.mem_cons_of_mem _ hx))
    · exact h

theorem mainLine_U {st : St S C} (h : Inv R U st) {line : List Block} (hl : mainLine st = some line) :
    ∀ b ∈ line, U b := by
  unfold mainLine at hl
  split at hl
  · injection hl with hl; subst hl; simp
  · split at hl
    · cases hl
    · next f hf => exact lineFrom_U h _ f [] _ (h.forkU f (findFork_mem hf).1) (by simp) hl

theorem lineOf_U {st : St S C} (h : Inv R U st) {hash : Nat} {line : List Block}
    (hl : lineOf st (findFork st.forks hash) = some line) : ∀ b ∈ line, U b := by
  unfold lineOf at hl
  split at hl
  · next f hf => exact lineFrom_U h _ f [] _ (h.forkU f (findFork_mem hf).1) (by simp) hl
  · exact mainLine_U h hl

theorem inv_commitPart {st : St S C} (h : Inv R U st) (ready : Block → Bool) (peak : Block) :
    Inv R U (commitPart R ready st peak).1 := by
  unfold commitPart
  split
  · split
    · exact h
    · next line hl =>
      split
      · exact h
      · exact inv_commitLine _ _ _ _ _ h (lineOf_U h hl)
  · exact h

theorem inv_update (hw : World R U) {st : St S C} (h : Inv R U st) (env : Env) : Inv R U (update R env st).1 := by
  unfold update
  have h1 : Inv R U (verifyBlocks R st env.synced env.vdf env.far) :=
    inv_sub h (sub_foldl (sub_verifyFork st env.synced env.vdf env.far) _ _)
  have h2 := inv_sub h1 (sub_castVotes env.best env.votes _)
  have h3 := inv_choose hw env.wait
    ((castVotes env.best (verifyBlocks R st env.synced env.vdf env.far).forks env.votes).1.length + 2) _ h2
  dsimp only
  split
  · exact h3
  · exact inv_commitPart h3 _ _

theorem inv_step (hw : World R U) {st st' : St S C} (h : Inv R U st) {o : Op} (ho : o.In U)
    (hs : step R st o = some st') : Inv R U st' := by
  cases o with
  | add b => injection hs with hs; subst hs; exact inv_addBlock h ho
  | update env => injection hs with hs; subst hs; exact inv_update hw h env
  | forkTo hash =>
    injection hs with hs; subst hs
    exact inv_forkToHash hw (fun s f hs hf => inv_forkTo hw 3 s f hs hf) h hash
  | revertSync n =>
    have h0 : Inv0 R U (revert st n) := ⟨revertDb_hist h.hist n,
      fun e he => h.dbU e (List.mem_filter.1 he).1, h.diskU, h.rootU⟩
    unfold step at hs
    dsimp only at hs
    split at hs
    · exact inv_reset hw h0 hs
    · injection hs with hs; subst hs; exact h
  | restart keep lost =>
    have h0 : Inv0 R U { (revert st keep) with disk := st.disk.filter fun b => !lost b.hash } :=
      ⟨revertDb_hist h.hist keep, fun e he => h.dbU e (List.mem_filter.1 he).1,
        fun b hb => h.diskU b (List.mem_filter.1 hb).1, h.rootU⟩
    exact inv_reset hw h0 hs

theorem inv_run (hw : World R U) : ∀ (os : List Op) {st st' : St S C}, Inv R U st → (∀ o ∈ os, o.In U) →
    run R st os = some st' → Inv R U st' := by
  intro os
  induction os with
  | nil => intro st st' h _ hr; injection hr with hr; subst hr; exact h
  | cons o os ih =>
    intro st st' h ho hr
    unfold run at hr
    split at hr
    · cases hr
    · next st1 hs =>
      exact ih (inv_step hw h (ho o List.mem_cons_self) hs) (fun x hx => ho x (List.mem_cons_of_mem _ hx)) hr

end Verif.Node
