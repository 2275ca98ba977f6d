import Verif.Node.SwitchLemmas
/-
  Along every history without lost blocks and with honest heights, the chain goes through the root and its
  blocks above the root are in the fork tree.
-/
namespace Verif.Node

variable {S C : Type} {R : Rules S C} {U : Block → Prop}

/-- Every block of the chain can be read back. -/
def Stored (st : St S C) : Prop := ∀ e ∈ st.db, e.block ∈ st.disk

/-- The chain goes through the root, the tree holds its blocks above the root and nothing at or below it. -/
def Good (st : St S C) : Prop := ∃ above re below, st.db = above ++ re :: below ∧ re.block = st.root ∧
  (∀ e ∈ above, (findFork st.forks e.block.hash).isSome) ∧ ∀ b ∈ st.forks.map (·.block), st.root.height < b.height

/-- Forks are in the order of their heights, and there is one per block. -/
def TreeOk (bs : List Block) : Prop := bs.Pairwise (fun a b => a.height ≤ b.height) ∧ (bs.map (·.hash)).Nodup

structure Ready (R : Rules S C) (U : Block → Prop) (st : St S C) : Prop where
  inv : Inv R U st
  stored : Stored st
  good : st.astray = true ∨ Good st
  tree : TreeOk (st.forks.map (·.block))

theorem Ready.anchored {st : St S C} (h : Ready R U st) (ha : st.astray = false) :
    ∃ above re below, Anchored R U st above re below := by
  rcases h.good with hg | ⟨above, re, below, g1, g2, g3, g4⟩
  · rw [ha] at hg; cases hg
  · refine ⟨above, re, below, ⟨⟨g1, h.inv.hist, h.inv.dbU, g2, g3⟩, ?_, g4⟩⟩
    exact getBlock_isSome.2 (.inr ⟨re.block, h.stored re (by rw [g1]; simp), by rw [g2]⟩)

/-- Changes of the flags of forks only. -/
theorem ready_keeps {st' st : St S C} (h : Ready R U st) (k : Keeps st' st) (hi : Inv R U st')
    (hdb : st'.db = st.db) : Ready R U st' := by
  refine ⟨hi, ?_, ?_, ?_⟩
  · intro e he
    rw [hdb] at he
    exact k.disk _ (h.stored e he)
  · rcases h.good with hg | ⟨above, re, below, g1, g2, g3, g4⟩
    · exact .inl (k.astray.trans hg)
    · exact .inr ⟨above, re, below, hdb.trans g1, by rw [g2, k.root], fun e he => k.find.2 (g3 e he),
        by rw [k.forks, k.root]; exact g4⟩
  · rw [k.forks]; exact h.tree

theorem mem_writeBlock_self (hw : World R U) {disk : List Block} (hu : ∀ b ∈ disk, U b) {b : Block} (hb : U b) :
    b ∈ writeBlock disk b := by
  unfold writeBlock
  split
  · next h =>
    rw [List.find?_isSome] at h
    obtain ⟨x, hx, he⟩ := h
    have : x = b := hw.inj _ _ (hu x hx) hb (by simpa using he)
    exact this ▸ hx
  · simp

/-- What `apply` can do to a block that fits. -/
theorem apply_cases {st : St S C} (hi : Inv R U st) {b : Block} {c : C} (hf : b.prev = tip st.db → Fits R st.db b c) :
    (apply R st b (some c) = (st, false)) ∨
    ∃ s', apply R st b (some c) = ({ st with db := ⟨b, s'⟩ :: st.db, disk := writeBlock st.disk b }, true) ∧
      b.prev = tip st.db := by
  unfold apply
  split
  · exact .inl rfl
  · next hp =>
    have hp : b.prev = tip st.db := Decidable.of_not_not hp
    obtain ⟨_, e, es, hd, a1, a2, a3, a4⟩ := hf hp
    have hrev : revert st b.height = st := by
      unfold revert
      have : revertDb b.height st.db = st.db := by
        apply List.filter_eq_self.2
        intro x hx
        have hh := hi.hist
        rw [hd] at hx hh
        have := hh.le hx
        rw [a2]; simp; omega
      rw [this]
    split
    · left; rw [hrev]
    · next s' hs =>
      rw [if_neg (by rw [hd, a2]; simp [version])]
      exact .inr ⟨s', rfl, hp⟩

theorem ready_apply (hw : World R U) {st : St S C} (h : Ready R U st) {b : Block} (hb : U b)
    (hin : (findFork st.forks b.hash).isSome) {c : C} (hf : b.prev = tip st.db → Fits R st.db b c) :
    Ready R U (apply R st b (some c)).1 := by
  have hi := inv_apply hw h.inv hb hf
  rcases apply_cases h.inv hf with e | ⟨s', e, _⟩
  · rw [e]; exact h
  · rw [e] at hi ⊢
    refine ⟨hi, ?_, ?_, h.tree⟩
    · intro x hx
      rcases List.mem_cons.1 hx with rfl | hx
      · exact mem_writeBlock_self hw h.inv.diskU hb
      · exact mem_writeBlock_of (h.stored x hx)
    · rcases h.good with hg | ⟨above, re, below, g1, g2, g3, g4⟩
      · exact .inl hg
      · refine .inr ⟨⟨b, s'⟩ :: above, re, below, ?_, g2, ?_, g4⟩
        · show _ :: st.db = _
          rw [g1]; rfl
        · intro x hx
          rcases List.mem_cons.1 hx with rfl | hx
          · exact hin
          · exact g3 x hx

theorem ready_applyLine (hw : World R U) {restore : St S C → St S C}
    (hr : ∀ s, Ready R U s → Ready R U (restore s)) : ∀ (bs : List Block) (st : St S C), Ready R U st →
    (∀ b ∈ bs, U b) → Ready R U (applyLine R restore st bs).1 := by
  intro bs
  induction bs with
  | nil => intro st h _; exact h
  | cons b bs ih =>
    intro st h hu
    have hb := hu b List.mem_cons_self
    have hu' : ∀ x ∈ bs, U x := fun x hx => hu x (List.mem_cons_of_mem _ hx)
    unfold applyLine
    split
    · exact ih st h hu'
    · next hp =>
      have hp : b.prev = tip st.db := Decidable.of_not_not hp
      split
      · exact h
      · next f hf =>
        split
        · next hv =>
          obtain ⟨c, hc, fit⟩ := ctx_fits hw h.inv hb hf hv hp
          dsimp only
          rw [hc]
          have := ready_apply hw h hb (by rw [hf]; rfl) (fun _ => fit)
          split
          · exact ih _ this hu'
          · exact this
        · split
          · exact hr _ (ready_keeps h (keeps_mark st b.hash) (inv_sub h.inv (sub_mark _ _)) rfl)
          · next c hv =>
            have k := keeps_validated hw h.inv (c := c) hf
            have h1 := ready_keeps h k (inv_validated hw h.inv hf hb hv) rfl
            have := ready_apply hw h1 hb (k.find.2 (by rw [hf]; rfl)) (fun _ => validate_fits hw h.inv hv)
            dsimp only
            split
            · exact ih _ this hu'
            · exact this

/-! ### Reading the chain back -/

theorem getBlock_U (hw : World R U) {st : St S C} (hi : Inv R U st) {b : Block} (hb : U b) {x : Block}
    (h : getBlock st b.hash = some x) : x = b := by
  obtain ⟨h1, h2⟩ := getBlock_mem hi h
  exact hw.inj _ _ h1 hb h2

theorem hashAt_mem {db : List (Entry S)} {n h : Nat} (hh : hashAt db n = some h) :
    ∃ e ∈ db, e.block.hash = h ∧ e.block.height = n := by
  unfold hashAt at hh
  match hf : db.find? fun e => e.block.height == n with
  | none => rw [hf] at hh; cases hh
  | some e =>
    rw [hf] at hh
    injection hh with hh
    exact ⟨e, List.mem_of_find?_eq_some hf, hh, by simpa using List.find?_some hf⟩

theorem hist_static {d : List (Entry S)} (h : Hist R d) : ∀ e ∈ d, e.block = R.genesis ∨ R.static e.block = true := by
  induction h with
  | nil => intro e he; cases he
  | first _ => intro e he; simp at he; subst he; exact .inl rfl
  | next h h1 h2 h3 h4 h5 ih =>
    intro e he
    rcases List.mem_cons.1 he with rfl | he
    · exact .inr h3
    · exact ih e he

theorem getBlockAt_stored (hw : World R U) {st : St S C} (hi : Inv R U st) (hs : Stored st) {e : Entry S}
    (he : e ∈ st.db) : getBlockAt st e.block.height = some e.block := by
  unfold getBlockAt hashAt
  have hf : st.db.find? (fun x => x.block.height == e.block.height) = some e := by
    match hf : st.db.find? fun x => x.block.height == e.block.height with
    | none =>
      have := List.find?_eq_none.1 hf e he
      simp at this
    | some x =>
      exact hf.trans <| congrArg some
        (hist_height_inj hi.hist x (List.mem_of_find?_eq_some hf) e he (by simpa using List.find?_some hf))
  rw [hf]
  show getBlock st e.block.hash = some e.block
  obtain ⟨x, hx⟩ := Option.isSome_iff_exists.1
    (getBlock_isSome.2 (.inr ⟨e.block, hs e he, rfl⟩) : (getBlock st e.block.hash).isSome)
  rw [hx, getBlock_U hw hi (hi.dbU e he) hx]

theorem settle_stored (hw : World R U) {st : St S C} (hi : Inv R U st) (hs : Stored st) {e : Entry S}
    {es : List (Entry S)} (hd : st.db = e :: es) : settle R e.block.height st = (st, e.block.height) := by
  have he : e ∈ st.db := by rw [hd]; simp
  have hg := getBlockAt_stored hw hi hs he
  match hh : e.block.height with
  | 0 => rfl
  | h + 1 =>
    rw [hh] at hg
    unfold settle
    rw [hg]
    dsimp only
    rw [if_pos]
    refine ⟨?_, hh⟩
    rcases hist_static hi.hist e he with h1 | h1
    · rw [h1, hw.zero] at hh; cases hh
    · exact h1

theorem insert_blocks (f g : Fork C) : ∀ (fs : List (Fork C)), g ∈ insertFork fs f ↔ g = f ∨ g ∈ fs := by
  intro fs
  induction fs with
  | nil => simp [insertFork]
  | cons x fs ih =>
    unfold insertFork
    split
    · rw [List.mem_cons, ih, List.mem_cons]
      constructor
      · rintro (h | h | h) <;> simp [h]
      · rintro (h | h | h) <;> simp [h]
    · simp

theorem find_addFork {root : Block} {fs : List (Fork C)} {f : Fork C} {n : Nat}
    (h : (findFork fs n).isSome) : (findFork (addFork root fs f) n).isSome := by
  unfold addFork
  split
  · exact h
  · split
    · exact h
    · rw [findFork_isSome] at h ⊢
      obtain ⟨b, hb, he⟩ := h
      obtain ⟨g, hg, rfl⟩ := List.mem_map.1 hb
      exact ⟨g.block, List.mem_map.2 ⟨g, (insert_blocks f g fs).2 (.inr hg), rfl⟩, he⟩

theorem find_addFork_self {root : Block} {fs : List (Fork C)} {f : Fork C} (h : root.height < f.block.height) :
    (findFork (addFork root fs f) f.block.hash).isSome := by
  unfold addFork
  rw [if_neg (by omega)]
  split
  · next h => exact h
  · exact findFork_isSome.2 ⟨f.block, List.mem_map.2 ⟨f, (insert_blocks f f fs).2 (.inl rfl), rfl⟩, rfl⟩

theorem high_addFork {root : Block} {fs : List (Fork C)} {f : Fork C}
    (h : ∀ b ∈ fs.map (·.block), root.height < b.height) :
    ∀ b ∈ (addFork root fs f).map (·.block), root.height < b.height := by
  unfold addFork
  split
  · exact h
  · split
    · exact h
    · intro b hb
      obtain ⟨g, hg, rfl⟩ := List.mem_map.1 hb
      rcases (insert_blocks f g fs).1 hg with rfl | hg
      · omega
      · exact h _ (List.mem_map.2 ⟨g, hg, rfl⟩)

theorem tree_insert {f : Fork C} : ∀ {fs : List (Fork C)}, TreeOk (fs.map (·.block)) →
    (findFork fs f.block.hash).isNone → TreeOk ((insertFork fs f).map (·.block)) := by
  intro fs h hn
  have hne : ∀ g ∈ fs, g.block.hash ≠ f.block.hash := by
    intro g hg he
    have : (findFork fs f.block.hash).isSome := findFork_isSome.2 ⟨g.block, List.mem_map.2 ⟨g, hg, rfl⟩, he⟩
    rw [Option.isNone_iff_eq_none.1 hn] at this
    cases this
  clear hn
  induction fs with
  | nil => exact ⟨by simp [insertFork], by simp [insertFork]⟩
  | cons g fs ih =>
    obtain ⟨h1, h2⟩ := h
    rw [List.map_cons, List.pairwise_cons] at h1
    rw [List.map_cons, List.map_cons, List.nodup_cons] at h2
    unfold insertFork
    split
    · next hle =>
      obtain ⟨i1, i2⟩ := ih ⟨h1.2, h2.2⟩ (fun x hx => hne x (List.mem_cons_of_mem _ hx))
      refine ⟨?_, ?_⟩
      · rw [List.map_cons, List.pairwise_cons]
        refine ⟨?_, i1⟩
        intro b hb
        obtain ⟨x, hx, rfl⟩ := List.mem_map.1 hb
        rcases (insert_blocks f x fs).1 hx with rfl | hx
        · exact hle
        · exact h1.1 _ (List.mem_map.2 ⟨x, hx, rfl⟩)
      · rw [List.map_cons, List.map_cons, List.nodup_cons]
        refine ⟨?_, i2⟩
        intro hm
        obtain ⟨b, hb, he⟩ := List.mem_map.1 hm
        obtain ⟨x, hx, rfl⟩ := List.mem_map.1 hb
        rcases (insert_blocks f x fs).1 hx with rfl | hx
        · exact hne g List.mem_cons_self he.symm
        · exact h2.1 (List.mem_map.2 ⟨x.block, List.mem_map.2 ⟨x, hx, rfl⟩, he⟩)
    · next hlt =>
      refine ⟨?_, ?_⟩
      · rw [List.map_cons, List.pairwise_cons]
        refine ⟨?_, by rw [List.map_cons, List.pairwise_cons]; exact h1⟩
        intro b hb
        rw [List.map_cons] at hb
        rcases List.mem_cons.1 hb with rfl | hb
        · omega
        · have := h1.1 b hb; omega
      · rw [List.map_cons, List.map_cons, List.nodup_cons]
        refine ⟨?_, by rw [List.map_cons, List.map_cons, List.nodup_cons]; exact h2⟩
        intro hm
        obtain ⟨b, hb, he⟩ := List.mem_map.1 hm
        obtain ⟨x, hx, rfl⟩ := List.mem_map.1 hb
        exact hne x hx he

theorem tree_add {root : Block} {f : Fork C} {fs : List (Fork C)} (h : TreeOk (fs.map (·.block))) :
    TreeOk ((addFork root fs f).map (·.block)) := by
  unfold addFork
  split
  · exact h
  · split
    · exact h
    · next hn => exact tree_insert h (by simpa using hn)

theorem tree_load {root : Block} : ∀ (bs : List Block) (fs : List (Fork C)), TreeOk (fs.map (·.block)) →
    TreeOk ((bs.foldl (fun fs b => addFork root fs { block := b, vdfOk := true }) fs).map (·.block)) := by
  intro bs
  induction bs with
  | nil => intro fs h; exact h
  | cons b bs ih => intro fs h; exact ih _ (tree_add h)

theorem tree_filter {fs : List (Fork C)} (p : Fork C → Bool) (h : TreeOk (fs.map (·.block))) :
    TreeOk ((fs.filter p).map (·.block)) := by
  have hs : ((fs.filter p).map (·.block)).Sublist (fs.map (·.block)) := List.filter_sublist.map _
  exact ⟨h.1.sublist hs, h.2.sublist (hs.map _)⟩

theorem load_spec {root : Block} : ∀ (bs : List Block) (fs : List (Fork C)),
    (∀ b ∈ fs.map (·.block), root.height < b.height) →
    (∀ n, (findFork fs n).isSome →
      (findFork (bs.foldl (fun fs b => addFork root fs { block := b, vdfOk := true }) fs) n).isSome) ∧
    (∀ b ∈ bs, root.height < b.height →
      (findFork (bs.foldl (fun fs b => addFork root fs { block := b, vdfOk := true }) fs) b.hash).isSome) ∧
    ∀ b ∈ (bs.foldl (fun fs b => addFork root fs { block := b, vdfOk := true }) fs).map (·.block),
      root.height < b.height := by
  intro bs
  induction bs with
  | nil => intro fs h; exact ⟨fun _ h => h, by simp, h⟩
  | cons b bs ih =>
    intro fs h
    obtain ⟨i1, i2, i3⟩ := ih (addFork root fs { block := b, vdfOk := true }) (high_addFork h)
    refine ⟨fun n hn => i1 n (find_addFork hn), ?_, i3⟩
    intro x hx hr
    rcases List.mem_cons.1 hx with rfl | hx
    · exact i1 _ (find_addFork_self (f := { block := x, vdfOk := true }) hr)
    · exact i2 x hx hr

theorem ready_start (hw : World R U) {st : St S C} (h : start R = some st) : Ready R U st := by
  refine ⟨inv_start hw h, ?_, ?_, ?_⟩
  · unfold start at h
    split at h
    · cases h
    · injection h with h; subst h
      intro e he
      simp at he; subst he; simp
  · unfold start at h
    split at h
    · cases h
    · next s hs =>
      injection h with h; subst h
      exact .inr ⟨[], ⟨R.genesis, s⟩, [], rfl, rfl, by simp, by simp⟩
  · unfold start at h
    split at h
    · cases h
    · injection h with h; subst h
      exact ⟨by simp, by simp⟩

theorem ready_reset (hw : World R U) {st st' : St S C} (h : Inv0 R U st) (hs : Stored st)
    (hr : reset R st = some st') : Ready R U st' ∧ (st.db ≠ [] → st'.db = st.db) ∧ st'.astray = false := by
  have hi := inv_reset hw h hr
  unfold reset at hr
  split at hr
  · next hd =>
    refine ⟨ready_start hw hr, fun hn => absurd hd hn, ?_⟩
    unfold start at hr
    split at hr
    · cases hr
    · injection hr with hr; subst hr; rfl
  · next e es hd =>
    have h0 : Inv R U { st with forks := [] } :=
      ⟨h.hist, by rw [hd]; simp, h.dbU, h.diskU, by simp, h.rootU, by simp⟩
    have hset := settle_stored (R := R) hw (st := { st with forks := [] }) h0 hs (e := e) (es := es) hd
    rw [hset] at hr
    dsimp only at hr
    split at hr
    · cases hr
    · next root hroot =>
      injection hr with hr
      subst hr
      refine ⟨⟨hi, hs, .inr ?_, tree_load _ _ ⟨by simp, by simp⟩⟩, fun _ => rfl, rfl⟩
      -- the root is on the chain
      unfold getBlockAt at hroot
      match hh : hashAt st.db (e.block.height - min R.delay e.block.height) with
      | none =>
        dsimp only at hroot
        rw [hh] at hroot
        cases hroot
      | some x =>
        dsimp only at hroot
        rw [hh] at hroot
        have hroot : getBlock { st with forks := [] } x = some root := hroot
        obtain ⟨re, hre, hx, hn⟩ := hashAt_mem hh
        have : root = re.block := by
          obtain ⟨p1, p2⟩ := getBlock_mem h0 hroot
          exact hw.inj _ _ p1 (h.dbU re hre) (by rw [p2, hx])
        subst this
        obtain ⟨above, below, hab⟩ := List.append_of_mem hre
        obtain ⟨_, l2, l3⟩ := load_spec (C := C) (root := re.block)
          (st.disk.filter fun b => re.block.height ≤ b.height ∧ b.height < e.block.height + 1) [] (by simp)
        refine ⟨above, re, below, hab, rfl, ?_, l3⟩
        intro y hy
        have hyd : y ∈ st.db := by rw [hab]; simp [hy]
        have hlt : re.block.height < y.block.height := by
          have hh := h.hist
          rw [hab] at hh
          obtain ⟨l, r, rfl⟩ := List.append_of_mem hy
          rw [List.append_assoc] at hh
          exact (Hist.suffix hh).lt y (r ++ re :: below) rfl re (by simp)
        refine l2 _ ?_ hlt
        rw [List.mem_filter]
        refine ⟨hs y hyd, ?_⟩
        have := h.hist
        rw [hd] at this hyd
        have := this.le hyd
        simp; omega

/-! ### Forks off the committed chain -/

theorem applyOld_keeps (hw : World R U) : ∀ (bs : List Block) (st : St S C), Inv R U st → Stored st →
    (∀ b ∈ bs, U b) → Keeps (applyOld R st bs).1 st ∧ Stored (applyOld R st bs).1 := by
  intro bs
  induction bs with
  | nil => intro st _ hs _; exact ⟨Keeps.refl st, hs⟩
  | cons b bs ih =>
    intro st hi hs hu
    have hb := hu b List.mem_cons_self
    unfold applyOld
    split
    · exact ⟨Keeps.refl st, hs⟩
    · next c hv =>
      have fit := validate_fits hw hi hv
      have hi1 := inv_apply hw hi hb (fun _ => fit)
      dsimp only
      rcases apply_cases hi (fun _ => fit) with e | ⟨s', e, _⟩
      · rw [e]; exact ⟨Keeps.refl st, hs⟩
      · rw [e] at hi1 ⊢
        dsimp only at hi1 ⊢
        rw [if_pos rfl]
        have hs1 : Stored { st with db := ⟨b, s'⟩ :: st.db, disk := writeBlock st.disk b } := by
          intro x hx
          rcases List.mem_cons.1 hx with rfl | hx
          · exact mem_writeBlock_self hw hi.diskU hb
          · exact mem_writeBlock_of (hs x hx)
        obtain ⟨i1, i2⟩ := ih _ hi1 hs1 (fun x hx => hu x (List.mem_cons_of_mem _ hx))
        exact ⟨i1.trans keeps_apply, i2⟩

theorem applyAlt_keeps (hw : World R U) : ∀ (bs : List Block) (st : St S C), Inv R U st → Stored st →
    (∀ b ∈ bs, U b) → Keeps (applyAlt R st bs).1 st ∧ Stored (applyAlt R st bs).1 ∧
    ((applyAlt R st bs).2 = true → tip (applyAlt R st bs).1.db =
      (match bs.getLast? with | some x => x.hash | none => tip st.db)) := by
  intro bs
  induction bs with
  | nil => intro st _ hs _; exact ⟨Keeps.refl st, hs, fun _ => rfl⟩
  | cons b bs ih =>
    intro st hi hs hu
    have hb := hu b List.mem_cons_self
    unfold applyAlt
    split
    · exact ⟨Keeps.refl st, hs, fun h => by cases h⟩
    · next b' hg =>
      have : b' = b := getBlock_U hw hi hb hg
      subst this
      split
      · split
        · exact ⟨Keeps.refl st, hs, fun h => by cases h⟩
        · next c hv =>
          have fit := validate_fits hw hi hv
          have hi1 := inv_apply hw hi hb (fun _ => fit)
          dsimp only
          rcases apply_cases hi (fun _ => fit) with e | ⟨s', e, _⟩
          · rw [e]; exact ⟨Keeps.refl st, hs, fun h => by cases h⟩
          · rw [e] at hi1 ⊢
            dsimp only at hi1 ⊢
            rw [if_pos rfl]
            have hs1 : Stored { st with db := ⟨b', s'⟩ :: st.db, disk := writeBlock st.disk b' } := by
              intro x hx
              rcases List.mem_cons.1 hx with rfl | hx
              · exact mem_writeBlock_self hw hi.diskU hb
              · exact mem_writeBlock_of (hs x hx)
            obtain ⟨i1, i2, i3⟩ := ih _ hi1 hs1 (fun x hx => hu x (List.mem_cons_of_mem _ hx))
            refine ⟨i1.trans keeps_apply, i2, ?_⟩
            intro h
            rw [i3 h]
            match bs with
            | [] => rfl
            | y :: ys => rw [List.getLast?_cons_cons, List.getLast?_eq_some_getLast (by simp)]
      · exact ⟨Keeps.refl st, hs, fun h => by cases h⟩

theorem marks_blocks (line : List Block) : ∀ (fs : List (Fork C)),
    (line.foldl (fun fs b => markInvalid fs b.hash) fs).map (·.block) = fs.map (·.block) := by
  induction line with
  | nil => intro fs; rfl
  | cons b bs ih => intro fs; rw [List.foldl_cons, ih, mark_blocks]

theorem marks_marked (line : List Block) : ∀ (fs : List (Fork C)) {h : Nat}, Marked fs h →
    Marked (line.foldl (fun fs b => markInvalid fs b.hash) fs) h := by
  induction line with
  | nil => intro fs h hm; exact hm
  | cons b bs ih => intro fs h hm; exact ih _ (marked_mark hm)

theorem ready_strand (hw : World R U) {st st0 : St S C} (h0 : Ready R U st0) (k : Keeps st st0) (hi : Inv R U st)
    (hs : Stored st) : Ready R U (st.strand (tip st0.db)) := by
  refine ⟨inv_astray hi _, hs, ?_, by
    show TreeOk (st.forks.map (·.block))
    rw [k.forks]; exact h0.tree⟩
  by_cases hc : tip st.db = tip st0.db
  · have hdb : st.db = st0.db := hist_unique hw hi.hist h0.inv.hist hi.dbU h0.inv.dbU hi.ne h0.inv.ne hc
    rcases (ready_keeps h0 k hi hdb).good with g | g
    · left
      show (st.astray || _) = true
      rw [g]; rfl
    · exact .inr g
  · left
    show (st.astray || tip st.db != tip st0.db) = true
    simp [hc]

theorem ready_restoreOld (hw : World R U) {st st0 : St S C} (h0 : Ready R U st0) (k : Keeps st st0) (hi : Inv R U st)
    (hs : Stored st) (line : List Block) : Ready R U (restoreOld R st (tip st0.db) line) := by
  unfold restoreOld
  have hu := oldLine_U hi (st.forks.length + st.disk.length + 1) (tip st0.db) [] (by simp)
  have h1 := inv_applyOld hw _ st hi hu
  obtain ⟨k1, s1⟩ := applyOld_keeps hw _ st hi hs hu
  have h2 := ready_strand hw h0 (k1.trans k) h1 s1
  dsimp only
  split
  · split
    · exact h2
    · next st1 hr =>
      obtain ⟨h3, _, _⟩ := ready_reset hw h1.inv0 s1 hr
      exact ready_keeps h3 ⟨rfl, rfl, marks_blocks _ _, fun _ h => marks_marked _ _ h, fun _ h => h⟩ (inv_sub h3.inv (sub_marks _ _)) rfl
  · exact h2

theorem altLine_spec {st : St S C} (hi : Inv R U st) : ∀ (n : Nat) (b : Block) (acc : List Block) (a : Block)
    (list : List Block), altLine st n b acc = some (a, list) → U b → (∀ x ∈ acc, U x) →
    (∀ x ∈ list, U x) ∧ U a ∧ hashAt st.db a.height = some a.hash ∧
    ∃ l, list = l ++ acc ∧ (match l.getLast? with | some x => x = b | none => a = b) := by
  intro n
  induction n with
  | zero => intro b acc a list h; cases h
  | succ n ih =>
    intro b acc a list h hb ha
    unfold altLine at h
    split at h
    · next hh =>
      injection h with h
      injection h with h1 h2
      subst h1; subst h2
      exact ⟨ha, hb, hh, [], rfl, rfl⟩
    · split at h
      · cases h
      · next p hp =>
        have hpu := (getBlock_mem hi hp).1
        obtain ⟨i1, i2, i3, l, i4, i5⟩ := ih p (b :: acc) a list h hpu (by
          intro x hx
          rcases List.mem_cons.1 hx with rfl | hx
          · exact hb
          · exact ha x hx)
        exact ⟨i1, i2, i3, l ++ [b], by rw [i4]; simp, by simp⟩

theorem ready_deepFork (hw : World R U) (hon : Honest U) {st : St S C} (h : Ready R U st) (line : List Block)
    {f0 : Block} (hf0 : U f0) (hh : f0.height = st.root.height + 1) : Ready R U (deepFork R st line f0).1 := by
  unfold deepFork
  split
  · exact h
  · next newRoot hn =>
    obtain ⟨nu, nh⟩ := getBlock_mem h.inv hn
    split
    · exact ready_restoreOld hw h (Keeps.refl st) h.inv h.stored _
    · next at_ list ha =>
      obtain ⟨a1, a2, a3, l, a4, a5⟩ := altLine_spec h.inv _ _ _ _ _ ha nu (by simp)
      have hi1 : Inv R U (revert st (at_.height + 1)) := inv_revert h.inv (revertDb_ne hw h.inv.hist h.inv.ne _)
      have hs1 : Stored (revert st (at_.height + 1)) := fun e he => h.stored e (List.mem_filter.1 he).1
      have hi2 := inv_applyAlt hw list _ hi1
      obtain ⟨k2, s2, t2⟩ := applyAlt_keeps hw list _ hi1 hs1 a1
      dsimp only
      split
      · next hok =>
        refine ⟨⟨hi2.hist, hi2.ne, hi2.dbU, hi2.diskU, hi2.forkU, nu, hi2.ctx⟩, s2, ?_, by
          show TreeOk ((applyAlt R (revert st (at_.height + 1)) list).1.forks.map (·.block))
          rw [k2.forks]; exact h.tree⟩
        have hg : st.astray = true ∨ Good st := h.good
        rcases hg with hg | ⟨above, re, below, g1, g2, g3, g4⟩
        · exact .inl (k2.astray.trans hg)
        · right
          -- the newest block is the new root
          have htip : tip (applyAlt R (revert st (at_.height + 1)) list).1.db = newRoot.hash := by
            rw [t2 hok]
            rw [List.append_nil] at a4
            subst a4
            match hl : list.getLast? with
            | some x => rw [hl] at a5; rw [show x = newRoot from a5]
            | none =>
              rw [hl] at a5
              have a5 : at_ = newRoot := a5
              obtain ⟨e, he, e1, e2⟩ := hashAt_mem a3
              have heb : e.block = at_ := hw.inj _ _ (h.inv.dbU e he) a2 e1
              obtain ⟨l', r', hlr⟩ := List.append_of_mem he
              have hhist := h.inv.hist
              rw [hlr] at hhist
              have : revertDb (at_.height + 1) st.db = e :: r' := by
                rw [← heb, hlr]; exact revertDb_append hhist
              show tip (revertDb (at_.height + 1) st.db) = newRoot.hash
              rw [this, ← a5, ← heb]; rfl
          match hd : (applyAlt R (revert st (at_.height + 1)) list).1.db, hi2.ne with
          | e :: es, _ =>
            rw [hd] at htip
            have he : e.block = newRoot := hw.inj _ _ (hi2.dbU e (by rw [hd]; simp)) nu htip
            refine ⟨[], e, es, rfl, he, by simp, ?_⟩
            intro b hb
            have hkk : Keeps (applyAlt R (revert st (at_.height + 1)) list).1 st := k2.trans (keeps_revert _ _)
            have hb : b ∈ st.forks.map (·.block) := by rw [← hkk.forks]; exact hb
            have h1 := g4 b hb
            have h2 := hon f0 newRoot hf0 nu nh.symm
            show newRoot.height < b.height
            omega
      · exact ready_restoreOld hw h (k2.trans (keeps_revert _ _)) hi2 s2 _

theorem ready_nearFork (hw : World R U) {st : St S C} (h : Ready R U st) {line : List Block} (hu : ∀ b ∈ line, U b)
    (hl : LinkedFrom st.root.hash line) : Ready R U (nearFork st line).1 := by
  have hi := inv_nearFork hw h.inv line
  rcases h.good with hg | hg
  · refine ⟨hi, ?_, .inl ?_, ?_⟩
    · unfold nearFork
      split
      · exact h.stored
      · dsimp only
        split
        · exact fun e he => h.stored e (List.mem_filter.1 he).1
        · exact h.stored
    · unfold nearFork
      split
      · exact hg
      · dsimp only
        split <;> exact hg
    · unfold nearFork
      split
      · exact h.tree
      · dsimp only
        split <;> exact h.tree
  · have hg' := hg
    obtain ⟨above, re, below, g1, g2, g3, g4⟩ := hg
    have ha : Above R U st st.db above re below := ⟨g1, h.inv.hist, h.inv.dbU, g2, g3⟩
    have hr : (getBlock st st.root.hash).isSome :=
      getBlock_isSome.2 (.inr ⟨re.block, h.stored re (by rw [g1]; simp), by rw [g2]⟩)
    obtain ⟨m1, m2, sf, o, q1, q2, q3, q4, q5, q6, q7, q8⟩ := nearFork_spec hw h.inv ha hr hl hu
    have hm1 : ∀ x ∈ m1, x ∈ above := by
      intro x hx
      exact List.mem_reverse.1 (by rw [q1]; exact List.mem_append_left _ hx)
    refine ⟨hi, ?_, .inr ⟨m1.reverse, re, below, q4, by rw [g2, q5.root], ?_, by rw [q5.forks, q5.root]; exact g4⟩,
      by rw [q5.forks]; exact h.tree⟩
    · intro e he
      rw [q4] at he
      refine q5.disk _ (h.stored e ?_)
      rw [g1]
      rcases List.mem_append.1 he with he | he
      · exact List.mem_append_left _ (hm1 e (List.mem_reverse.1 he))
      · exact List.mem_append_right _ he
    · intro e he
      exact q5.find.2 (g3 e (hm1 e (List.mem_reverse.1 he)))

theorem ready_forkToHash (hw : World R U) {go : St S C → Fork C → St S C × Out}
    (hg : ∀ s f, Ready R U s → f ∈ s.forks → Ready R U (go s f).1) {st : St S C} (h : Ready R U st) (hash : Nat) :
    Ready R U (forkToHash go st hash).1 := by
  unfold forkToHash
  split
  · exact h
  · split
    · next f hf => exact hg _ _ h (findFork_mem hf).1
    · split
      · refine ⟨inv_revert h.inv (revertDb_ne hw h.inv.hist h.inv.ne _),
          fun e he => h.stored e (List.mem_filter.1 he).1, ?_, h.tree⟩
        rcases h.good with hg | ⟨above, re, below, g1, g2, g3, g4⟩
        · exact .inl hg
        · refine .inr ⟨[], re, below, ?_, g2, by simp, g4⟩
          show revertDb (st.root.height + 1) st.db = re :: below
          have hh := h.inv.hist
          rw [g1] at hh ⊢
          rw [← g2]
          exact revertDb_append hh
      · exact h

theorem ready_forkTo (hw : World R U) (hon : Honest U) : ∀ (n : Nat) (st : St S C) (f : Fork C), Ready R U st →
    (findFork st.forks f.block.hash).isSome → U f.block → Ready R U (forkTo R n st f).1 := by
  intro n
  induction n with
  | zero => intro st f h _ _; exact h
  | succ n ih =>
    intro st f h hin hf
    unfold forkTo
    split
    · exact h
    · exact h
    · next f0 rest hl =>
      have hu := lineFrom_U h.inv _ f [] _ hf (by simp) hl
      obtain ⟨b0, bs, l1, l2, l3, l4, l5, l6⟩ := forkLine_spec hl hin
      injection l1 with l1 l1'
      subst l1
      have h1 : Ready R U (if f0.prev ≠ st.root.hash then deepFork R st (f0 :: rest) f0
          else nearFork st (f0 :: rest)).1 := by
        split
        · exact ready_deepFork hw hon h _ (hu f0 List.mem_cons_self) l5
        · next hp =>
          have hp : f0.prev = st.root.hash := Decidable.of_not_not hp
          exact ready_nearFork hw h hu (hp ▸ l2)
      dsimp only
      split
      · exact h1
      · exact ready_applyLine hw (fun s hs => ready_forkToHash hw
          (fun s f hs hf => ih s f hs (findFork_isSome.2 ⟨f.block, List.mem_map.2 ⟨f, hf, rfl⟩, rfl⟩)
            (hs.inv.forkU f hf)) hs _) _ _ h1 hu

/-! ### The update round -/

theorem bestStep_blocks (hw : World R U) {st : St S C} {wait : Bool} {acc : List (Fork C) × Option (Fork C)}
    (hu : ∀ g ∈ acc.1, U g.block) (f0 : Fork C) :
    (bestStep st wait acc f0).1.map (·.block) = acc.1.map (·.block) := by
  unfold bestStep
  split
  · rfl
  · next g hg =>
    have hs : (setFork acc.1 (tally st acc.1 g)).map (·.block) = acc.1.map (·.block) := by
      refine set_blocks hw hu ⟨g, (findFork_mem hg).1, ?_⟩
      unfold tally
      split
      · rfl
      · split <;> rfl
    dsimp only
    split
    · exact hs
    · split
      · split
        · exact hs
        · split <;> exact hs
      · exact hs

theorem findBest_blocks (hw : World R U) {st : St S C} (hu : ∀ g ∈ st.forks, U g.block) (wait : Bool) :
    (findBest st wait).1.map (·.block) = st.forks.map (·.block) := by
  unfold findBest
  generalize st.forks.filter (fun f => decide (st.root.height < f.block.height)) = l
  have : ∀ (l : List (Fork C)) (acc : List (Fork C) × Option (Fork C)), (∀ g ∈ acc.1, U g.block) →
      (l.foldl (bestStep st wait) acc).1.map (·.block) = acc.1.map (·.block) := by
    intro l
    induction l with
    | nil => intro acc _; rfl
    | cons f l ih =>
      intro acc h
      have hb := bestStep_blocks hw (st := st) (wait := wait) h f
      rw [List.foldl_cons, ih, hb]
      intro g hg
      have : g.block ∈ acc.1.map (·.block) := by rw [← hb]; exact List.mem_map.2 ⟨g, hg, rfl⟩
      obtain ⟨k, hk, e⟩ := List.mem_map.1 this
      rw [← e]; exact h k hk
  exact this l (st.forks, none) hu

theorem tally_block (st : St S C) (fs : List (Fork C)) (g : Fork C) : (tally st fs g).block = g.block := by
  unfold tally
  split
  · rfl
  · split <;> rfl

theorem tally_invalid (st : St S C) (fs : List (Fork C)) (g : Fork C) (h : g.invalid = true) :
    (tally st fs g).invalid = true := by
  unfold tally
  split
  · exact h
  · split
    · simp [h]
    · exact h

theorem bestStep_forks (st : St S C) (wait : Bool) (acc : List (Fork C) × Option (Fork C)) (f0 : Fork C) :
    (bestStep st wait acc f0).1 = match findFork acc.1 f0.block.hash with
      | none => acc.1
      | some g => setFork acc.1 (tally st acc.1 g) := by
  unfold bestStep
  cases findFork acc.1 f0.block.hash with
  | none => rfl
  | some g =>
    dsimp only
    split
    · rfl
    · split
      · split
        · rfl
        · split <;> rfl
      · rfl

theorem findBest_marked (st : St S C) (wait : Bool) : ∀ h, Marked st.forks h → Marked (findBest st wait).1 h := by
  unfold findBest
  generalize st.forks.filter (fun f => decide (st.root.height < f.block.height)) = l
  have : ∀ (l : List (Fork C)) (acc : List (Fork C) × Option (Fork C)) (h : Nat), Marked acc.1 h →
      Marked (l.foldl (bestStep st wait) acc).1 h := by
    intro l
    induction l with
    | nil => intro acc h hm; exact hm
    | cons f l ih =>
      intro acc h hm
      apply ih
      rw [bestStep_forks]
      split
      · exact hm
      · next g hg =>
        refine marked_set (g := g) ?_ (tally_invalid st acc.1 g) hm
        rw [tally_block, (findFork_mem hg).2]; exact hg
  exact this l (st.forks, none)

theorem keeps_findBest (hw : World R U) {st : St S C} (hi : Inv R U st) (wait : Bool) :
    Keeps { st with forks := (findBest st wait).1 } st :=
  ⟨rfl, rfl, findBest_blocks hw hi.forkU wait, findBest_marked st wait, fun _ h => h⟩

theorem ready_choose (hw : World R U) (hon : Honest U) (wait : Bool) : ∀ (n : Nat) (st : St S C), Ready R U st →
    Ready R U (choose R wait n st).1 := by
  intro n
  induction n with
  | zero => intro st h; exact h
  | succ n ih =>
    intro st h
    have h1 := ready_keeps h (keeps_findBest hw h.inv wait) (inv_sub h.inv (sub_findBest st wait)) rfl
    unfold choose
    dsimp only
    split
    · exact h1
    · next f hf =>
      have hfu := best_mem st wait h.inv.forkU hf
      have hfin : (findFork (findBest st wait).1 f.block.hash).isSome := by
        rw [findFork_isSome, findBest_blocks hw h.inv.forkU]
        exact ⟨f.block, best_mem st wait (P := fun b => b ∈ st.forks.map (·.block))
          (fun g hg => List.mem_map.2 ⟨g, hg, rfl⟩) hf, rfl⟩
      split
      · exact h1
      · have h2 := ready_forkTo hw hon 3 _ f h1 hfin hfu
        split
        · exact h2
        · exact ih _ (ready_keeps h2 (keeps_mark _ _) (inv_sub h2.inv (sub_mark _ _)) rfl)

theorem foldl_blocks {α : Type} {step : List (Fork C) → α → List (Fork C)}
    (hs : ∀ fs a, (∀ g ∈ fs, U g.block) → (step fs a).map (·.block) = fs.map (·.block)) :
    ∀ (l : List α) (fs : List (Fork C)), (∀ g ∈ fs, U g.block) →
    (l.foldl step fs).map (·.block) = fs.map (·.block) := by
  intro l
  induction l with
  | nil => intro fs _; rfl
  | cons a l ih =>
    intro fs h
    have hb := hs fs a h
    rw [List.foldl_cons, ih, hb]
    intro g hg
    have : g.block ∈ fs.map (·.block) := by rw [← hb]; exact List.mem_map.2 ⟨g, hg, rfl⟩
    obtain ⟨k, hk, e⟩ := List.mem_map.1 this
    rw [← e]; exact h k hk

theorem verifyFork_blocks (hw : World R U) (st : St S C) (synced : Bool) (vdf far : Block → Bool)
    (fs : List (Fork C)) (f0 : Fork C) (hu : ∀ g ∈ fs, U g.block) :
    (verifyFork R st synced vdf far fs f0).map (·.block) = fs.map (·.block) := by
  unfold verifyFork
  split
  · rfl
  · next f hf =>
    dsimp only
    refine set_blocks hw hu ⟨f, (findFork_mem hf).1, ?_⟩
    have h1 := same_link st far fs f
    split
    · exact h1.1
    · exact ((same_prove st _).trans ((same_vdf synced vdf _).trans h1)).1

theorem castVote_blocks (hw : World R U) (best : Block → Bool) (fs : List (Fork C)) (v : Vote)
    (hu : ∀ g ∈ fs, U g.block) : (castVote best fs v).1.map (·.block) = fs.map (·.block) := by
  unfold castVote
  split
  · rfl
  · next f hf =>
    split
    · split
      · rfl
      · split
        · rfl
        · split
          · rfl
          · exact set_blocks hw hu ⟨f, (findFork_mem hf).1, rfl⟩
    · rfl

theorem castVotes_blocks (hw : World R U) (best : Block → Bool) : ∀ (vs : List Vote) (fs : List (Fork C)),
    (∀ g ∈ fs, U g.block) → (castVotes best fs vs).1.map (·.block) = fs.map (·.block) := by
  intro vs
  induction vs with
  | nil => intro fs _; rfl
  | cons v vs ih =>
    intro fs h
    have hb := castVote_blocks hw best fs v h
    show (castVotes best (castVote best fs v).1 vs).1.map (·.block) = _
    rw [ih, hb]
    intro g hg
    have : g.block ∈ fs.map (·.block) := by rw [← hb]; exact List.mem_map.2 ⟨g, hg, rfl⟩
    obtain ⟨k, hk, e⟩ := List.mem_map.1 this
    rw [← e]; exact h k hk

/-! ### Commitment -/

theorem writes_mono : ∀ (fs : List (Fork C)) (d : List Block) (x : Block), x ∈ d →
    x ∈ fs.foldl (fun d f => writeBlock d f.block) d := by
  intro fs
  induction fs with
  | nil => intro d x h; exact h
  | cons f fs ih => intro d x h; exact ih _ x (mem_writeBlock_of h)

/-- Committing the first block above the root. -/
theorem anchored_commit (hw : World R U) {st : St S C} {above : List (Entry S)} {e re : Entry S}
    {below : List (Entry S)} (h : Anchored R U st (above ++ [e]) re below) (hi : Inv R U st) (hs : Stored st) :
    ∃ st', commit st e.block = some st' ∧ Anchored R U st' above e (re :: below) ∧ Stored st' ∧ Inv R U st' ∧
      st'.db = st.db ∧ st'.root = e.block ∧ st'.astray = st.astray := by
  have hdb : st.db = above ++ e :: re :: below := by rw [h.above.eq]; simp
  have hh := hi.hist
  rw [hdb] at hh
  have ht := (Hist.suffix hh).two
  have hc : ¬ (e.block.height ≠ 0 ∧ e.block.prev ≠ st.root.hash) := by
    rintro ⟨_, h2⟩
    exact h2 (by rw [ht.1, h.above.root])
  have hcom : commit st e.block = some { st with
      forks := (commitForks e.block st.forks st.disk).1
      disk := (commitForks e.block st.forks st.disk).2
      root := e.block } := by
    unfold commit
    rw [if_neg hc]
  have hst : Stored { st with
      forks := (commitForks e.block st.forks st.disk).1
      disk := (commitForks e.block st.forks st.disk).2
      root := e.block } := fun x hx => writes_mono _ _ _ (hs x hx)
  have heU : U e.block := hi.dbU e (by rw [hdb]; simp)
  have hi' := inv_commit hi heU hcom
  refine ⟨_, hcom, ⟨⟨hdb, hi.hist, hi.dbU, rfl, ?_⟩, ?_, ?_⟩, hst, hi', rfl, rfl, rfl⟩
  · intro x hx
    have hx1 := h.above.inTree x (List.mem_append_left _ hx)
    rw [findFork_isSome] at hx1 ⊢
    obtain ⟨b, hb, hbx⟩ := hx1
    obtain ⟨f, hf, rfl⟩ := List.mem_map.1 hb
    have hfx : f.block = x.block := hw.inj _ _ (hi.forkU f hf) (hi.dbU x (by rw [hdb]; simp [hx])) hbx
    have hlt : e.block.height < x.block.height := by
      obtain ⟨l, r, rfl⟩ := List.append_of_mem hx
      rw [List.append_assoc] at hh
      exact (Hist.suffix hh).lt x (r ++ e :: re :: below) rfl e (by simp)
    refine ⟨f.block, List.mem_map.2 ⟨f, ?_, rfl⟩, hbx⟩
    show f ∈ (st.forks.filter _).filter _
    rw [List.mem_filter, List.mem_filter]
    refine ⟨⟨hf, ?_⟩, ?_⟩
    · rw [hfx]
      simp only [ne_eq, decide_not, Bool.not_eq_eq_eq_not, Bool.not_true, decide_eq_false_iff_not]
      intro he
      have : x.block = e.block := hw.inj _ _ (hi.dbU x (by rw [hdb]; simp [hx])) heU he
      rw [this] at hlt; omega
    · rw [hfx]; simp; omega
  · exact getBlock_isSome.2 (.inr ⟨e.block, hst e (by show e ∈ st.db; rw [hdb]; simp), rfl⟩)
  · intro b hb
    obtain ⟨f, hf, rfl⟩ := List.mem_map.1 hb
    have hf : f ∈ (st.forks.filter _).filter _ := hf
    rw [List.mem_filter, List.mem_filter] at hf
    have h1 := h.high f.block (List.mem_map.2 ⟨f, hf.1.1, rfl⟩)
    have h2 : f.block.height ≠ e.block.height := by simpa using hf.2
    rw [← h.above.root] at h1
    show e.block.height < f.block.height
    have := ht.2.1
    omega

/-- How the commit loop ends: some of the blocks above the root, oldest first, have been committed. -/
theorem anchored_commitLine (hw : World R U) (delay peak : Nat) (ready : Block → Bool) :
    ∀ (ys : List (Entry S)) (st : St S C) (re : Entry S) (below : List (Entry S)),
    Anchored R U st ys.reverse re below → Inv R U st → Stored st →
    ∃ st' c rest re' below', commitLine delay peak ready st (ys.map (·.block)) = (st', true) ∧ ys = c ++ rest ∧
      Anchored R U st' rest.reverse re' below' ∧ Stored st' ∧ Inv R U st' ∧ st'.db = st.db ∧
      st'.astray = st.astray ∧ re'.block = st'.root ∧ (re :: c).getLast (by simp) = re' ∧
      (∀ e ∈ c, e.block.height + delay ≤ peak ∧ ready e.block = true) := by
  intro ys
  induction ys with
  | nil =>
    intro st re below h hi hs
    exact ⟨st, [], [], re, below, rfl, rfl, h, hs, hi, rfl, rfl, h.above.root, rfl, by simp⟩
  | cons e ys ih =>
    intro st re below h hi hs
    rw [List.map_cons]
    unfold commitLine
    split
    · next hc =>
      rw [List.reverse_cons] at h
      obtain ⟨st1, c1, c2, c3, c4, c5, c6, c7⟩ := anchored_commit hw h hi hs
      rw [c1]
      dsimp only
      obtain ⟨st', c, rest, re', below', i1, i2, i3, i4, i5, i6, i7, i8, i9, i10⟩ := ih st1 e (re :: below) c2 c4 c3
      refine ⟨st', e :: c, rest, re', below', i1, by rw [i2]; rfl, i3, i4, i5, i6.trans c5, i7.trans c7, i8, ?_, ?_⟩
      · rw [List.getLast_cons (by simp)]; exact i9
      · intro x hx
        rcases List.mem_cons.1 hx with rfl | hx
        · exact hc
        · exact i10 x hx
    · exact ⟨st, [], e :: ys, re, below, rfl, rfl, h, hs, hi, rfl, rfl, h.above.root, rfl, by simp⟩

theorem Anchored.good {st : St S C} {above : List (Entry S)} {re : Entry S} {below : List (Entry S)}
    (h : Anchored R U st above re below) : Good st :=
  ⟨above, re, below, h.above.eq, h.above.root, h.above.inTree, h.high⟩

/-- The line that `update` commits from is the chain above the root. -/
theorem lineOf_peak (hw : World R U) {st : St S C} (hi : Inv R U st) {above : List (Entry S)} {re : Entry S}
    {below : List (Entry S)} (h : Anchored R U st above re below) :
    lineOf st (findFork st.forks (tip st.db)) = some (above.reverse.map (·.block)) := by
  unfold lineOf
  match hf : findFork st.forks (tip st.db) with
  | none => exact mainLine_above hw hi h.above h.stored
  | some f =>
    dsimp only
    by_cases ha : above = []
    · subst ha
      exfalso
      obtain ⟨f1, f2⟩ := findFork_mem hf
      have ht : tip st.db = st.root.hash := by rw [h.above.eq, ← h.above.root]; rfl
      have : f.block = st.root := hw.inj _ _ (hi.forkU f f1) hi.rootU (by rw [f2, ht])
      have := h.high f.block (List.mem_map.2 ⟨f, f1, rfl⟩)
      simp_all
    · exact forkLine_above hw hi h.above h.stored ha hf

theorem tree_commit {st st' : St S C} (h : TreeOk (st.forks.map (·.block))) {b : Block}
    (hc : commit st b = some st') : TreeOk (st'.forks.map (·.block)) := by
  unfold commit at hc
  split at hc
  · cases hc
  · injection hc with hc
    subst hc
    exact tree_filter _ (tree_filter _ h)

theorem tree_commitLine (delay peak : Nat) (ready : Block → Bool) : ∀ (bs : List Block) (st : St S C),
    TreeOk (st.forks.map (·.block)) → TreeOk ((commitLine delay peak ready st bs).1.forks.map (·.block)) := by
  intro bs
  induction bs with
  | nil => intro st h; exact h
  | cons b bs ih =>
    intro st h
    unfold commitLine
    split
    · split
      · exact h
      · next st1 hc => exact ih st1 (tree_commit h hc)
    · exact h

theorem tree_commitPart {st : St S C} (h : TreeOk (st.forks.map (·.block))) (ready : Block → Bool) (peak : Block) :
    TreeOk ((commitPart R ready st peak).1.forks.map (·.block)) := by
  unfold commitPart
  split
  · split
    · exact h
    · split
      · exact h
      · exact tree_commitLine _ _ _ _ _ h
  · exact h

theorem commitLine_astray (delay peak : Nat) (ready : Block → Bool) : ∀ (bs : List Block) (st : St S C),
    (commitLine delay peak ready st bs).1.astray = st.astray ∧ (commitLine delay peak ready st bs).1.db = st.db ∧
    ∀ b ∈ st.disk, b ∈ (commitLine delay peak ready st bs).1.disk := by
  intro bs
  induction bs with
  | nil => intro st; exact ⟨rfl, rfl, fun _ h => h⟩
  | cons b bs ih =>
    intro st
    unfold commitLine
    split
    · split
      · exact ⟨rfl, rfl, fun _ h => h⟩
      · next st1 hc =>
        obtain ⟨i1, i2, i3⟩ := ih st1
        unfold commit at hc
        split at hc
        · cases hc
        · injection hc with hc
          subst hc
          exact ⟨i1, i2, fun x hx => i3 x (writes_mono _ _ _ hx)⟩
    · exact ⟨rfl, rfl, fun _ h => h⟩

theorem ready_commitPart (hw : World R U) {st : St S C} (h : Ready R U st) (ready : Block → Bool) {peak : Block}
    (hp : peak.hash = tip st.db) : Ready R U (commitPart R ready st peak).1 := by
  have hi := inv_commitPart (R := R) h.inv ready peak
  by_cases ha : st.astray = true
  · have : (commitPart R ready st peak).1.astray = true ∧ (commitPart R ready st peak).1.db = st.db ∧
        ∀ b ∈ st.disk, b ∈ (commitPart R ready st peak).1.disk := by
      unfold commitPart
      split
      · split
        · exact ⟨ha, rfl, fun _ h => h⟩
        · split
          · exact ⟨ha, rfl, fun _ h => h⟩
          · obtain ⟨i1, i2, i3⟩ := commitLine_astray _ peak.height ready _ st
            exact ⟨i1.trans ha, i2, i3⟩
      · exact ⟨ha, rfl, fun _ h => h⟩
    refine ⟨hi, ?_, .inl this.1, tree_commitPart h.tree _ _⟩
    intro e he
    rw [this.2.1] at he
    exact this.2.2 _ (h.stored e he)
  · obtain ⟨above, re, below, hanch⟩ := h.anchored (by simpa using ha)
    unfold commitPart
    split
    · rw [hp, lineOf_peak hw h.inv hanch]
      dsimp only
      split
      · exact h
      · next d hd =>
        obtain ⟨st', c, rest, re', below', i1, i2, i3, i4, i5, _⟩ :=
          anchored_commitLine hw d peak.height ready above.reverse st re below
            (by rw [List.reverse_reverse]; exact hanch) h.inv h.stored
        have ht := tree_commitLine d peak.height ready (above.reverse.map (·.block)) st h.tree
        rw [i1] at ht ⊢
        exact ⟨i5, i4, .inr i3.good, ht⟩
    · exact h

theorem ready_addBlock {st : St S C} (h : Ready R U st) {b : Block} (hb : U b) : Ready R U (addBlock R st b) := by
  have hi := inv_addBlock (R := R) h.inv hb
  unfold addBlock at hi ⊢
  split
  · exact h
  · split
    · next h1 h2 =>
      rw [if_neg h1, if_pos h2] at hi
      refine ⟨hi, fun e he => mem_writeBlock_of (h.stored e he), ?_, h.tree⟩
      rcases h.good with hg | ⟨above, re, below, g1, g2, g3, g4⟩
      · exact .inl hg
      · exact .inr ⟨above, re, below, g1, g2, g3, g4⟩
    · next h1 h2 =>
      rw [if_neg h1, if_neg h2] at hi
      refine ⟨hi, h.stored, ?_, tree_add h.tree⟩
      rcases h.good with hg | ⟨above, re, below, g1, g2, g3, g4⟩
      · exact .inl hg
      · exact .inr ⟨above, re, below, g1, g2, fun e he => find_addFork (g3 e he), high_addFork g4⟩

theorem verifyFork_marked (st : St S C) (synced : Bool) (vdf far : Block → Bool) (fs : List (Fork C)) (f0 : Fork C)
    {h : Nat} (hm : Marked fs h) : Marked (verifyFork R st synced vdf far fs f0) h := by
  unfold verifyFork
  split
  · exact hm
  · next f hf =>
    dsimp only
    have h1 := same_link st far fs f
    have hl : f.invalid = true → (linkFork st far fs f).invalid = true := by
      intro hi
      unfold linkFork
      split
      · exact hi
      · split
        · simp [hi]
        · exact hi
    refine marked_set (g := f) ?_ ?_ hm
    · have : (if (!(linkFork st far fs f).connected || (linkFork st far fs f).invalid || (linkFork st far fs f).proved)
          = true then linkFork st far fs f else proveFork R st (vdfFork synced vdf (linkFork st far fs f))).block
          = f.block := by
        split
        · exact h1.1
        · exact ((same_prove st _).trans ((same_vdf synced vdf _).trans h1)).1
      rw [this, (findFork_mem hf).2]; exact hf
    · intro hi
      rw [if_pos (by simp [hl hi])]
      exact hl hi

theorem castVote_marked (best : Block → Bool) (fs : List (Fork C)) (v : Vote) {h : Nat} (hm : Marked fs h) :
    Marked (castVote best fs v).1 h := by
  unfold castVote
  split
  · exact hm
  · next f hf =>
    split
    · split
      · exact hm
      · split
        · exact hm
        · split
          · exact hm
          · refine marked_set (f := { f with
              validators := f.validators.map fun x => if x.1 = v.key then (x.1, true) else x
              votes := f.votes + 1 }) (g := f) ?_ (fun h => h) hm
            show findFork fs f.block.hash = some f
            rw [(findFork_mem hf).2]; exact hf
    · exact hm

theorem castVotes_marked (best : Block → Bool) : ∀ (vs : List Vote) (fs : List (Fork C)) {h : Nat}, Marked fs h →
    Marked (castVotes best fs vs).1 h := by
  intro vs
  induction vs with
  | nil => intro fs h hm; exact hm
  | cons v vs ih => intro fs h hm; exact ih _ (castVote_marked best fs v hm)

theorem keeps_prepare (hw : World R U) {st : St S C} (h : Inv R U st) (env : Env) :
    Keeps { verifyBlocks R st env.synced env.vdf env.far with
      forks := (castVotes env.best (verifyBlocks R st env.synced env.vdf env.far).forks env.votes).1 } st := by
  have hi1 : Inv R U (verifyBlocks R st env.synced env.vdf env.far) :=
    inv_sub h (sub_foldl (sub_verifyFork st env.synced env.vdf env.far) _ _)
  refine ⟨rfl, rfl, ?_, ?_, fun _ h => h⟩
  · show (castVotes _ _ _).1.map _ = _
    rw [castVotes_blocks hw _ _ _ hi1.forkU]
    exact foldl_blocks (U := U) (fun fs a hu => verifyFork_blocks hw st env.synced env.vdf env.far fs a hu) _ _ h.forkU
  · intro k hm
    apply castVotes_marked
    have : ∀ (l fs : List (Fork C)), Marked fs k →
        Marked (l.foldl (verifyFork R st env.synced env.vdf env.far) fs) k := by
      intro l
      induction l with
      | nil => intro fs h; exact h
      | cons f l ih => intro fs h; exact ih _ (verifyFork_marked st _ _ _ fs f h)
    exact this _ _ hm

/-- The tree before the choice. -/
theorem ready_prepare (hw : World R U) {st : St S C} (h : Ready R U st) (env : Env) :
    Ready R U { verifyBlocks R st env.synced env.vdf env.far with
      forks := (castVotes env.best (verifyBlocks R st env.synced env.vdf env.far).forks env.votes).1 } := by
  have hi1 : Inv R U (verifyBlocks R st env.synced env.vdf env.far) :=
    inv_sub h.inv (sub_foldl (sub_verifyFork st env.synced env.vdf env.far) _ _)
  have hi2 := inv_sub hi1 (sub_castVotes env.best env.votes _)
  exact ready_keeps h (keeps_prepare hw h.inv env) hi2 rfl

theorem ready_update (hw : World R U) (hon : Honest U) {st : St S C} (h : Ready R U st) (env : Env) :
    Ready R U (update R env st).1 := by
  unfold update
  have h2 := ready_prepare hw h env
  have h3 := ready_choose hw hon env.wait
    ((castVotes env.best (verifyBlocks R st env.synced env.vdf env.far).forks env.votes).1.length + 2) _ h2
  dsimp only
  split
  · exact h3
  · next peak hp => exact ready_commitPart hw h3 _ (getBlock_mem h3.inv hp).2

theorem ready_step (hw : World R U) (hon : Honest U) {st st' : St S C} (h : Ready R U st) {o : Op} (ho : o.In U)
    (hsafe : o.Safe) (hs : step R st o = some st') : Ready R U st' := by
  cases o with
  | add b => injection hs with hs; subst hs; exact ready_addBlock h ho
  | update env => injection hs with hs; subst hs; exact ready_update hw hon h env
  | forkTo hash =>
    injection hs with hs; subst hs
    exact ready_forkToHash hw (fun s f hs hf => ready_forkTo hw hon 3 s f hs
      (findFork_isSome.2 ⟨f.block, List.mem_map.2 ⟨f, hf, rfl⟩, rfl⟩) (hs.inv.forkU f hf)) h hash
  | revertSync n =>
    have h0 : Inv0 R U (revert st n) := ⟨revertDb_hist h.inv.hist n,
      fun e he => h.inv.dbU e (List.mem_filter.1 he).1, h.inv.diskU, h.inv.rootU⟩
    unfold step at hs
    dsimp only at hs
    split at hs
    · exact (ready_reset hw h0 (fun e he => h.stored e (List.mem_filter.1 he).1) hs).1
    · injection hs with hs; subst hs; exact h
  | restart keep lost =>
    have h0 : Inv0 R U { (revert st keep) with disk := st.disk.filter fun b => !lost b.hash } :=
      ⟨revertDb_hist h.inv.hist keep, fun e he => h.inv.dbU e (List.mem_filter.1 he).1,
        fun b hb => h.inv.diskU b (List.mem_filter.1 hb).1, h.inv.rootU⟩
    refine (ready_reset hw h0 ?_ hs).1
    intro e he
    show e.block ∈ st.disk.filter _
    rw [List.mem_filter]
    exact ⟨h.stored e (List.mem_filter.1 he).1, by simp [hsafe e.block.hash]⟩

theorem ready_run (hw : World R U) (hon : Honest U) : ∀ (os : List Op) {st st' : St S C}, Ready R U st →
    (∀ o ∈ os, o.In U ∧ o.Safe) → run R st os = some st' → Ready R U st' := by
  intro os
  induction os with
  | nil => intro st st' h _ hr; injection hr with hr; subst hr; exact h
  | cons o os ih =>
    intro st st' h ho hr
    unfold run at hr
    split at hr
    · cases hr
    · next st1 hs =>
      have := ho o List.mem_cons_self
      exact ih (ready_step hw hon h this.1 this.2 hs) (fun x hx => ho x (List.mem_cons_of_mem _ hx)) hr

end Verif.Node
