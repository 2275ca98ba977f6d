import Verif.DB.Lemmas2

/-! Helper lemmas: merge of blocks, invariant, every call preserves it. -/

set_option linter.unusedSectionVars false

namespace Verif.DB

variable {K V : Type} [LinearOrder K]

theorem pairwise_cases {α : Type} {R : α → α → Prop} {l : List α} (h : l.Pairwise R) {x y : α}
    (hx : x ∈ l) (hy : y ∈ l) (hne : x ≠ y) : R x y ∨ R y x := by
  induction l with
  | nil => cases hx
  | cons a l ih =>
    rw [List.pairwise_cons] at h
    rcases List.mem_cons.1 hx with rfl | hx' <;> rcases List.mem_cons.1 hy with rfl | hy'
    · exact absurd rfl hne
    · exact Or.inl (h.1 y hy')
    · exact Or.inr (h.1 x hx')
    · exact ih h.2 hx' hy'

/-! ### k-way merge -/

def streamOf (p : Ptr K V) : List (Entry K V) := p.1 :: p.2

def flat (m : List (Ptr K V)) : List (Entry K V) := m.flatMap streamOf

def Disj (a b : List (Entry K V)) : Prop := ∀ x ∈ a, ∀ y ∈ b, ¬ x.same y

theorem Disj.symm {a b : List (Entry K V)} (h : Disj a b) : Disj b a :=
  fun x hx y hy hs => h y hy x hx (Entry.same_symm hs)

theorem ptrInsert_perm (p : Ptr K V) (m : List (Ptr K V)) (h : ∀ q ∈ m, ¬ p.1.same q.1) :
    (ptrInsert p m).Perm (p :: m) := by
  induction m with
  | nil => simp [ptrInsert]
  | cons x xs ih =>
    unfold ptrInsert
    split
    · exact List.Perm.refl _
    · split
      · have := ih (fun q hq => h q (List.mem_cons_of_mem _ hq))
        exact (List.Perm.cons x this).trans (List.Perm.swap _ _ _)
      · rename_i h1 h2
        exact absurd (same_of_not_before h1 h2) (h x List.mem_cons_self)

def HeadsSorted (m : List (Ptr K V)) : Prop := m.Pairwise (fun a b => a.1.before b.1 = true)

theorem ptrInsert_sorted (p : Ptr K V) (m : List (Ptr K V)) (hs : HeadsSorted m)
    (h : ∀ q ∈ m, ¬ p.1.same q.1) : HeadsSorted (ptrInsert p m) := by
  induction m with
  | nil => simp [ptrInsert, HeadsSorted]
  | cons x xs ih =>
    have hs0 := hs
    unfold HeadsSorted at hs
    rw [List.pairwise_cons] at hs
    unfold ptrInsert
    split
    · rename_i hb
      refine List.pairwise_cons.2 ⟨fun q hq => ?_, hs0⟩
      rcases List.mem_cons.1 hq with rfl | hq
      · exact hb
      · exact before_trans hb (hs.1 q hq)
    · split
      · rename_i h1 h2
        refine List.pairwise_cons.2 ⟨fun q hq => ?_,
          ih hs.2 (fun q hq => h q (List.mem_cons_of_mem _ hq))⟩
        have := (ptrInsert_perm p xs (fun q hq => h q (List.mem_cons_of_mem _ hq))).mem_iff.1 hq
        rcases List.mem_cons.1 this with rfl | hq
        · exact h2
        · exact hs.1 q hq
      · rename_i h1 h2
        exact absurd (same_of_not_before h1 h2) (h x List.mem_cons_self)

theorem ptrErase_cons {e : Entry K V} {rest : List (Entry K V)} {m : List (Ptr K V)}
    (h : ∀ q ∈ m, e.before q.1 = true) : ptrErase e ((e, rest) :: m) = m := by
  unfold ptrErase
  rw [List.filter_cons_of_neg (by simp [before_irrefl])]
  rw [List.filter_eq_self]
  intro q hq
  simp [h q hq]

theorem flat_perm {m m' : List (Ptr K V)} (h : m.Perm m') : (flat m).Perm (flat m') :=
  h.flatMap_right _

theorem mergeLoop_spec (n : Nat) (m : List (Ptr K V)) (hn : (flat m).length ≤ n)
    (hs : ∀ p ∈ m, Sorted (streamOf p)) (hh : HeadsSorted m)
    (hd : m.Pairwise (fun a b => Disj (streamOf a) (streamOf b))) :
    (mergeLoop n m).Perm (flat m) ∧ Sorted (mergeLoop n m) := by
  induction n generalizing m with
  | zero =>
    cases m with
    | nil => simp [mergeLoop, flat, Sorted]
    | cons p m => simp [flat, streamOf] at hn
  | succ n ih =>
    cases m with
    | nil => simp [mergeLoop, flat, Sorted]
    | cons p m =>
      obtain ⟨e, rest⟩ := p
      have hh0 := hh
      unfold HeadsSorted at hh
      rw [List.pairwise_cons] at hh hd
      have hse := hs (e, rest) List.mem_cons_self
      -- e is before every other element
      have hmin : ∀ x, x ∈ flat ((e, rest) :: m) → x = e ∨ e.before x = true := by
        intro x hx
        simp only [flat, List.flatMap_cons, List.mem_append] at hx
        rcases hx with hx | hx
        · rcases List.mem_cons.1 hx with rfl | hx
          · exact Or.inl rfl
          · exact Or.inr ((sorted_cons.1 hse).1 x hx)
        · obtain ⟨q, hq, hxq⟩ := List.mem_flatMap.1 hx
          right
          have h1 := hh.1 q hq
          rcases List.mem_cons.1 hxq with rfl | hxq
          · exact h1
          · exact before_trans h1 ((sorted_cons.1 (hs q (List.mem_cons_of_mem _ hq))).1 x hxq)
      have key : ∀ m' : List (Ptr K V), (flat ((e, rest) :: m)).Perm (e :: flat m') →
          (∀ p ∈ m', Sorted (streamOf p)) → HeadsSorted m' →
          m'.Pairwise (fun a b => Disj (streamOf a) (streamOf b)) →
          (∀ x ∈ flat m', x ≠ e) →
          (e :: mergeLoop n m').Perm (flat ((e, rest) :: m)) ∧ Sorted (e :: mergeLoop n m') := by
        intro m' hp h1 h2 h3 hne
        have hl := hp.length_eq
        simp only [List.length_cons] at hl
        obtain ⟨i1, i2⟩ := ih m' (by omega) h1 h2 h3
        refine ⟨(List.Perm.cons e i1).trans hp.symm, sorted_cons.2 ⟨fun x hx => ?_, i2⟩⟩
        have hx' := i1.mem_iff.1 hx
        have hx'' : x ∈ flat ((e, rest) :: m) := hp.mem_iff.2 (List.mem_cons_of_mem _ hx')
        rcases hmin x hx'' with h | h
        · exact absurd h (hne x hx')
        · exact h
      have hne_m : ∀ x ∈ flat m, x ≠ e := by
        intro x hx heq
        subst heq
        obtain ⟨q, hq, hxq⟩ := List.mem_flatMap.1 hx
        exact hd.1 q hq x List.mem_cons_self x hxq ⟨rfl, rfl⟩
      cases rest with
      | nil =>
        unfold mergeLoop
        dsimp only
        rw [ptrErase_cons (fun q hq => hh.1 q hq)]
        exact key m (by simp [flat, streamOf])
          (fun p hp => hs p (List.mem_cons_of_mem _ hp)) hh.2 hd.2 hne_m
      | cons e' rest' =>
        unfold mergeLoop
        dsimp only
        have hbe : e.before e' = true := (sorted_cons.1 hse).1 e' List.mem_cons_self
        have hnot : ¬ e'.before e = true := before_asymm hbe
        have hpi : ptrInsert (e', rest') ((e, e' :: rest') :: m)
            = (e, e' :: rest') :: ptrInsert (e', rest') m := by
          conv => lhs; unfold ptrInsert
          rw [if_neg hnot, if_pos hbe]
        have hns : ∀ q ∈ m, ¬ e'.same q.1 := fun q hq =>
          hd.1 q hq e' (by simp [streamOf]) q.1 (by simp [streamOf])
        have hperm := ptrInsert_perm (e', rest') m hns
        rw [hpi, ptrErase_cons]
        · apply key
          · have h2 := flat_perm hperm
            refine List.Perm.trans ?_ (List.Perm.cons e h2.symm)
            simp [flat, streamOf]
          · intro p hp
            rcases List.mem_cons.1 (hperm.mem_iff.1 hp) with rfl | hp
            · exact (sorted_cons.1 hse).2
            · exact hs p (List.mem_cons_of_mem _ hp)
          · exact ptrInsert_sorted _ _ hh.2 hns
          · refine (hperm.pairwise_iff (fun {a b} h => Disj.symm h)).2 ?_
            refine List.pairwise_cons.2 ⟨fun q hq x hx y hy => ?_, hd.2⟩
            exact hd.1 q hq x (List.mem_cons_of_mem _ hx) y hy
          · intro x hx heq
            have hx' := (flat_perm hperm).mem_iff.1 hx
            simp only [flat, List.flatMap_cons, List.mem_append] at hx'
            rcases hx' with hx' | hx'
            · subst heq
              exact before_irrefl _ ((sorted_cons.1 hse).1 x hx')
            · exact hne_m x hx' heq
        · intro q hq
          rcases List.mem_cons.1 (hperm.mem_iff.1 hq) with rfl | hq
          · exact hbe
          · exact hh.1 q hq

/-- All entries of a list of blocks. -/
def allB (bs : List (Block K V)) : List (Entry K V) := bs.flatMap (·.entries)

theorem initPtrs_spec (bs : List (Block K V)) (hs : ∀ b ∈ bs, Sorted b.entries)
    (hd : bs.Pairwise (fun a b => Disj a.entries b.entries)) :
    ∀ m : List (Ptr K V), (∀ p ∈ m, Sorted (streamOf p)) → HeadsSorted m →
    m.Pairwise (fun a b => Disj (streamOf a) (streamOf b)) →
    (∀ p ∈ m, ∀ b ∈ bs, Disj (streamOf p) b.entries) →
    let m' := bs.foldl initStep m
    (∀ p ∈ m', Sorted (streamOf p)) ∧ HeadsSorted m' ∧
      m'.Pairwise (fun a b => Disj (streamOf a) (streamOf b)) ∧
      (flat m').Perm (flat m ++ allB bs) := by
  induction bs with
  | nil => intro m h1 h2 h3 _; exact ⟨h1, h2, h3, by simp [allB]⟩
  | cons b bs ih =>
    intro m h1 h2 h3 h4
    rw [List.pairwise_cons] at hd
    have ih' := ih (fun b hb => hs b (List.mem_cons_of_mem _ hb)) hd.2
    simp only [List.foldl_cons]
    have hstep : initStep m b = match b.entries with
      | [] => m
      | e :: es => ptrInsert (e, es) m := rfl
    rw [hstep]
    cases hb : b.entries with
    | nil =>
      obtain ⟨a1, a2, a3, a4⟩ := ih' m h1 h2 h3
        (fun p hp b hb => h4 p hp b (List.mem_cons_of_mem _ hb))
      exact ⟨a1, a2, a3, by simpa [allB, hb] using a4⟩
    | cons e es =>
      dsimp only
      have hdisj : ∀ p ∈ m, Disj (streamOf p) (e :: es) := fun p hp => by
        have := h4 p hp b List.mem_cons_self; rwa [hb] at this
      have hns : ∀ q ∈ m, ¬ e.same q.1 := fun q hq hsm =>
        hdisj q hq q.1 (by simp [streamOf]) e (by simp) (Entry.same_symm hsm)
      have hperm := ptrInsert_perm (e, es) m hns
      obtain ⟨a1, a2, a3, a4⟩ := ih' (ptrInsert (e, es) m)
        (by
          intro p hp
          rcases List.mem_cons.1 (hperm.mem_iff.1 hp) with rfl | hp
          · have := hs b List.mem_cons_self; rwa [hb] at this
          · exact h1 p hp)
        (ptrInsert_sorted _ _ h2 hns)
        (by
          refine (hperm.pairwise_iff (fun {a b} h => Disj.symm h)).2 ?_
          exact List.pairwise_cons.2 ⟨fun q hq => (hdisj q hq).symm, h3⟩)
        (by
          intro p hp b' hb'
          rcases List.mem_cons.1 (hperm.mem_iff.1 hp) with rfl | hp
          · have := hd.1 b' hb'; rwa [hb] at this
          · exact h4 p hp b' (List.mem_cons_of_mem _ hb'))
      refine ⟨a1, a2, a3, a4.trans ?_⟩
      have h5 := flat_perm hperm
      refine (List.Perm.append_right _ h5).trans ?_
      simp only [flat, List.flatMap_cons, streamOf, allB, hb]
      rw [← List.append_assoc]
      exact List.Perm.append_right _ List.perm_append_comm

theorem length_allB (bs : List (Block K V)) :
    (allB bs).length = (bs.map (fun b => b.entries.length)).sum := by
  unfold allB; rw [List.length_flatMap]

theorem mergeBlocks_spec (bs : List (Block K V)) (hs : ∀ b ∈ bs, Sorted b.entries)
    (hd : bs.Pairwise (fun a b => Disj a.entries b.entries)) :
    (mergeBlocks bs).Perm (allB bs) ∧ Sorted (mergeBlocks bs) := by
  obtain ⟨a1, a2, a3, a4⟩ := initPtrs_spec bs hs hd [] (by simp) List.Pairwise.nil
    List.Pairwise.nil (by simp)
  have a4' : (flat (initPtrs bs)).Perm (allB bs) := by simpa [flat, initPtrs] using a4
  have := mergeLoop_spec (bs.map (fun b => b.entries.length)).sum (initPtrs bs)
    (by rw [a4'.length_eq, length_allB]; exact Nat.le_refl _) a1 a2 a3
  exact ⟨this.1.trans a4', this.2⟩

/-! ### min / max of versions -/

theorem foldl_min_spec (es : List (Entry K V)) (m : Nat) :
    let r := es.foldl (fun m e => min e.ver m) m
    r ≤ m ∧ (∀ e ∈ es, r ≤ e.ver) ∧ (r = m ∨ ∃ e ∈ es, e.ver = r) := by
  induction es generalizing m with
  | nil => simp
  | cons e es ih =>
    simp only [List.foldl_cons]
    obtain ⟨h1, h2, h3⟩ := ih (min e.ver m)
    refine ⟨by omega, ?_, ?_⟩
    · intro x hx
      rcases List.mem_cons.1 hx with rfl | hx
      · omega
      · exact h2 x hx
    · rcases h3 with h3 | ⟨x, hx, h3⟩
      · rcases Nat.le_total e.ver m with h | h
        · right; exact ⟨e, List.mem_cons_self, by rw [h3]; omega⟩
        · left; rw [h3]; omega
      · right; exact ⟨x, List.mem_cons_of_mem _ hx, h3⟩

theorem foldl_max_spec (es : List (Entry K V)) (m : Nat) :
    let r := es.foldl (fun m e => max e.ver m) m
    m ≤ r ∧ (∀ e ∈ es, e.ver ≤ r) ∧ (r = m ∨ ∃ e ∈ es, e.ver = r) := by
  induction es generalizing m with
  | nil => simp
  | cons e es ih =>
    simp only [List.foldl_cons]
    obtain ⟨h1, h2, h3⟩ := ih (max e.ver m)
    refine ⟨by omega, ?_, ?_⟩
    · intro x hx
      rcases List.mem_cons.1 hx with rfl | hx
      · omega
      · exact h2 x hx
    · rcases h3 with h3 | ⟨x, hx, h3⟩
      · rcases Nat.le_total m e.ver with h | h
        · right; exact ⟨e, List.mem_cons_self, by rw [h3]; omega⟩
        · left; rw [h3]; omega
      · right; exact ⟨x, List.mem_cons_of_mem _ hx, h3⟩

theorem maxVersion_spec {es : List (Entry K V)} (hne : es ≠ []) :
    (∀ e ∈ es, e.ver ≤ maxVersion es) ∧ ∃ e ∈ es, e.ver = maxVersion es := by
  obtain ⟨h1, h2, h3⟩ := foldl_max_spec es 0
  refine ⟨h2, ?_⟩
  rcases h3 with h3 | h3
  · cases es with
    | nil => exact absurd rfl hne
    | cons e es =>
      refine ⟨e, List.mem_cons_self, ?_⟩
      have := h2 e List.mem_cons_self
      unfold maxVersion
      omega
  · exact h3

theorem minVersion_spec {es : List (Entry K V)} (hne : es ≠ []) (hlt : ∀ e ∈ es, e.ver < u32max) :
    (∀ e ∈ es, minVersion es ≤ e.ver) ∧ ∃ e ∈ es, e.ver = minVersion es := by
  obtain ⟨h1, h2, h3⟩ := foldl_min_spec es u32max
  refine ⟨h2, ?_⟩
  rcases h3 with h3 | h3
  · cases es with
    | nil => exact absurd rfl hne
    | cons e es =>
      have := h2 e List.mem_cons_self
      have := hlt e List.mem_cons_self
      omega
  · exact h3

theorem mkBlock_ok {es : List (Entry K V)} (hs : Sorted es) (hne : es ≠ [])
    (hlt : ∀ e ∈ es, e.ver < u32max) (id level : Nat) :
    BlockOK (mkBlock id level (minVersion es) es) :=
  ⟨hs, rfl, (minVersion_spec hne hlt).1, (maxVersion_spec hne).1, (minVersion_spec hne hlt).2,
    (maxVersion_spec hne).2⟩

/-! ### invariant -/

structure Inv (t : Table K V) : Prop where
  mem : MemOK t.mem t.idx
  blocks : ∀ b ∈ t.blocks, BlockOK b
  ranges : t.blocks.Pairwise (fun a b => a.maxV < b.minV)
  above : ∀ b ∈ t.blocks, ∀ e ∈ t.mem, b.maxV < e.ver
  memCur : ∀ e ∈ t.mem, e.ver ≤ t.cur
  blkCur : ∀ b ∈ t.blocks, b.maxV < t.cur
  curLt : t.cur < u32max

/-- Everything stored in a table. -/
def Table.all (t : Table K V) : List (Entry K V) := t.mem ++ allB t.blocks

theorem disj_of_range {a b : Block K V} (ha : BlockOK a) (hb : BlockOK b)
    (h : a.maxV < b.minV) : Disj a.entries b.entries := by
  rintro x hx y hy ⟨_, h2⟩
  have := ha.leMax x hx
  have := hb.minLe y hy
  omega

theorem blocks_disj {bs : List (Block K V)} (h : ∀ b ∈ bs, BlockOK b)
    (hr : bs.Pairwise (fun a b => a.maxV < b.minV)) :
    bs.Pairwise (fun a b => Disj a.entries b.entries) := by
  refine List.Pairwise.imp_of_mem ?_ hr
  intro a b ha hb hab
  exact disj_of_range (h a ha) (h b hb) hab

theorem Inv.unique {t : Table K V} (h : Inv t) {a b : Entry K V} (ha : a ∈ t.all) (hb : b ∈ t.all)
    (hs : a.same b) : a = b := by
  unfold Table.all at ha hb
  rw [List.mem_append] at ha hb
  have hmb : ∀ x ∈ t.mem, ∀ y ∈ allB t.blocks, ¬ x.same y := by
    rintro x hx y hy ⟨_, h2⟩
    obtain ⟨b, hb, hyb⟩ := List.mem_flatMap.1 hy
    have := h.above b hb x hx
    have := (h.blocks b hb).leMax y hyb
    omega
  rcases ha with ha | ha <;> rcases hb with hb | hb
  · exact h.mem.sorted.eq_of_same ha hb hs
  · exact absurd hs (hmb a ha b hb)
  · exact absurd (Entry.same_symm hs) (hmb b hb a ha)
  · obtain ⟨x, hx, hax⟩ := List.mem_flatMap.1 ha
    obtain ⟨y, hy, hby⟩ := List.mem_flatMap.1 hb
    by_cases hxy : x = y
    · subst hxy
      exact (h.blocks x hx).sorted.eq_of_same hax hby hs
    · have hd : Disj x.entries y.entries := by
        have hp := blocks_disj h.blocks h.ranges
        rcases pairwise_cases hp hx hy hxy with h | h
        · exact h
        · exact h.symm
      exact absurd hs (hd a hax b hby)

/-! ### find -/

theorem findBlocks_latest (bs : List (Block K V)) (h : ∀ b ∈ bs, BlockOK b)
    (hr : bs.Pairwise (fun a b => b.maxV < a.minV)) (key : K) (maxV : Nat) :
    ∃ r, findBlocks key maxV bs = some r ∧ Latest (· ∈ allB bs) key maxV r := by
  induction bs with
  | nil => exact ⟨none, rfl, by simp [Latest, allB]⟩
  | cons b bs ih =>
    rw [List.pairwise_cons] at hr
    obtain ⟨r, hr1, hr2⟩ := ih (fun b hb => h b (List.mem_cons_of_mem _ hb)) hr.2
    have hb := h b List.mem_cons_self
    have hmem : ∀ x, x ∈ allB (b :: bs) ↔ x ∈ b.entries ∨ x ∈ allB bs := by
      intro x; simp [allB]
    have hcov : (∀ x ∈ b.entries, x.key = key → maxV < x.ver) →
        Latest (· ∈ allB (b :: bs)) key maxV r := by
      intro hb'
      revert hr2
      cases r with
      | none =>
        intro hr2 x hx hk
        rcases (hmem x).1 hx with hx | hx
        · exact hb' x hx hk
        · exact hr2 x hx hk
      | some v =>
        rintro ⟨e, h1, h2, h3, h4, h5⟩
        refine ⟨e, (hmem e).2 (Or.inr h1), h2, h3, h4, fun x hx hk hv => ?_⟩
        rcases (hmem x).1 hx with hx | hx
        · have := hb' x hx hk; omega
        · exact h5 x hx hk hv
    unfold findBlocks
    split
    · rename_i hle
      obtain ⟨rb, hb1, hb2⟩ := findBlock_latest hb key maxV
      rw [hb1]
      cases rb with
      | none => exact ⟨r, hr1, hcov hb2⟩
      | some v =>
        refine ⟨some v, rfl, ?_⟩
        obtain ⟨e, h1, h2, h3, h4, h5⟩ := hb2
        refine ⟨e, (hmem e).2 (Or.inl h1), h2, h3, h4, fun x hx hk hv => ?_⟩
        rcases (hmem x).1 hx with hx | hx
        · exact h5 x hx hk hv
        · obtain ⟨b', hb', hxb⟩ := List.mem_flatMap.1 hx
          have := hr.1 b' hb'
          have := (h b' (List.mem_cons_of_mem _ hb')).leMax x hxb
          have := hb.minLe e h1
          omega
    · rename_i hle
      refine ⟨r, hr1, hcov fun x hx _ => ?_⟩
      have := hb.minLe x hx
      omega

theorem find_latest {t : Table K V} (h : Inv t) (key : K) (maxV : Nat) :
    ∃ r, t.find key maxV = some r ∧ Latest (· ∈ t.all) key maxV r := by
  obtain ⟨rb, hb1, hb2⟩ := findBlocks_latest t.blocks.reverse
    (fun b hb => h.blocks b (List.mem_reverse.1 hb))
    (List.pairwise_reverse.2 h.ranges) key maxV
  have hrev : ∀ x, x ∈ allB t.blocks.reverse ↔ x ∈ allB t.blocks := by
    intro x; simp [allB]
  have hmem : ∀ x, x ∈ t.all ↔ x ∈ t.mem ∨ x ∈ allB t.blocks := by
    intro x; simp [Table.all]
  have hm := findMem_latest h.mem key maxV
  unfold Table.find
  cases hf : findMem t.idx t.mem key maxV with
  | none =>
    rw [hf] at hm
    dsimp only
    refine ⟨rb, hb1, ?_⟩
    cases rb with
    | none =>
      intro x hx hk
      rcases (hmem x).1 hx with hx | hx
      · exact hm x hx hk
      · exact hb2 x ((hrev x).2 hx) hk
    | some v =>
      obtain ⟨e, h1, h2, h3, h4, h5⟩ := hb2
      refine ⟨e, (hmem e).2 (Or.inr ((hrev e).1 h1)), h2, h3, h4, fun x hx hk hv => ?_⟩
      rcases (hmem x).1 hx with hx | hx
      · have := hm x hx hk; omega
      · exact h5 x ((hrev x).2 hx) hk hv
  | some v =>
    rw [hf] at hm
    dsimp only
    refine ⟨some v, rfl, ?_⟩
    obtain ⟨e, h1, h2, h3, h4, h5⟩ := hm
    refine ⟨e, (hmem e).2 (Or.inl h1), h2, h3, h4, fun x hx hk hv => ?_⟩
    rcases (hmem x).1 hx with hx | hx
    · exact h5 x hx hk hv
    · obtain ⟨b', hb', hxb⟩ := List.mem_flatMap.1 hx
      have := h.above b' hb' e h1
      have := (h.blocks b' hb').leMax x hxb
      omega

/-! ### insert -/

theorem insertEntry_inv {o : Options K V} {t : Table K V} (h : Inv t) (e : Entry K V)
    (hver : ∀ x ∈ t.mem, x.key = e.key → x.ver ≤ e.ver) (hle : e.ver ≤ t.cur)
    (hab : ∀ b ∈ t.blocks, b.maxV < e.ver) :
    Inv (t.insertEntry o e) := by
  refine ⟨memOK_insert h.mem e hver, h.blocks, h.ranges, ?_, ?_, h.blkCur, h.curLt⟩
  · intro b hb x hx
    rcases (mem_memInsert h.mem.sorted).1 hx with rfl | ⟨hx, _⟩
    · exact hab b hb
    · exact h.above b hb x hx
  · intro x hx
    rcases (mem_memInsert h.mem.sorted).1 hx with rfl | ⟨hx, _⟩
    · exact hle
    · exact h.memCur x hx

theorem insertEntry_all {o : Options K V} {t : Table K V} (h : Inv t) (e : Entry K V)
    (hab : ∀ b ∈ t.blocks, b.maxV < e.ver) (x : Entry K V) :
    x ∈ (t.insertEntry o e).all ↔ x = e ∨ (x ∈ t.all ∧ ¬ x.same e) := by
  unfold Table.all Table.insertEntry
  simp only [List.mem_append]
  rw [mem_memInsert h.mem.sorted]
  constructor
  · rintro ((hx | ⟨hx, hs⟩) | hx)
    · exact Or.inl hx
    · exact Or.inr ⟨Or.inl hx, hs⟩
    · refine Or.inr ⟨Or.inr hx, fun hs => ?_⟩
      obtain ⟨b, hb, hxb⟩ := List.mem_flatMap.1 hx
      have := hab b hb
      have := (h.blocks b hb).leMax x hxb
      have := hs.2
      omega
  · rintro (hx | ⟨hx | hx, hs⟩)
    · exact Or.inl (Or.inl hx)
    · exact Or.inl (Or.inr ⟨hx, hs⟩)
    · exact Or.inr hx

/-! ### compaction -/

theorem selectRun_spec (factor : Nat) (before sel : List (Block K V)) (level : Nat)
    (rest : List (Block K V)) (hsel : ∀ b ∈ sel, b.level = level) (hlen : sel.length ≤ factor)
    {B S R : List (Block K V)} {l : Nat}
    (h : selectRun factor before sel level rest = some (B, S, l, R)) :
    B ++ S ++ R = before ++ sel ++ rest ∧ S.length = factor ∧ ∀ b ∈ S, b.level = l := by
  induction rest generalizing before sel level with
  | nil => simp [selectRun] at h
  | cons b rest ih =>
    unfold selectRun at h
    split at h
    · rename_i hc
      split at h
      · rename_i hf
        simp only [Option.some.injEq, Prod.mk.injEq] at h
        obtain ⟨rfl, rfl, rfl, rfl⟩ := h
        simp at hf
        exact ⟨rfl, by omega, hsel⟩
      · rename_i hf
        have := ih before (sel ++ [b]) b.level (by
          intro x hx
          rw [List.mem_append] at hx
          rcases hx with hx | hx
          · rcases hc with hc | hc
            · rw [hc] at hx; cases hx
            · rw [hc]; exact hsel x hx
          · simp at hx; rw [hx]) (by omega) h
        simpa using this
    · have := ih (before ++ sel) [b] b.level (by simp) (by
        rename_i hc
        have : sel ≠ [] := fun h => hc (Or.inl h)
        have := List.length_pos_iff.2 this
        simp; omega) h
      simpa using this

theorem checkRewrite_fields (o : Options K V) (n : Nat) (t : Table K V) :
    (checkRewrite o n t).1.mem = t.mem ∧ (checkRewrite o n t).1.idx = t.idx ∧
    (checkRewrite o n t).1.cur = t.cur ∧ (checkRewrite o n t).1.writeLock = t.writeLock ∧
    (checkRewrite o n t).1.lastFlush = t.lastFlush ∧ (checkRewrite o n t).1.size = t.size := by
  induction n generalizing t with
  | zero => simp [checkRewrite]
  | succ n ih =>
    unfold checkRewrite
    split
    · simp
    · split
      · simp
      · dsimp only
        exact ih _

theorem pairwise_replace {R : Block K V → Block K V → Prop} {B S T : List (Block K V)}
    {b : Block K V} (h : (B ++ S ++ T).Pairwise R)
    (h1 : ∀ x ∈ B, R x b) (h2 : ∀ x ∈ T, R b x) : (B ++ b :: T).Pairwise R := by
  rw [List.pairwise_append] at h ⊢
  obtain ⟨hbs, ht, hx⟩ := h
  refine ⟨(List.pairwise_append.1 hbs).1, List.pairwise_cons.2 ⟨h2, ht⟩, ?_⟩
  intro a ha c hc
  rcases List.mem_cons.1 hc with rfl | hc
  · exact h1 a ha
  · exact hx a (List.mem_append_left _ ha) c hc

/-- The block produced by merging a run of well-formed blocks. -/
theorem merged_ok {S : List (Block K V)} (hok : ∀ b ∈ S, BlockOK b)
    (hr : S.Pairwise (fun a b => a.maxV < b.minV)) (hne : S ≠ [])
    (hlt : ∀ b ∈ S, b.maxV < u32max) (id level : Nat) :
    let es := mergeBlocks S
    let b := mkBlock id level (minVersion es) es
    BlockOK b ∧ es.Perm (allB S) ∧ (∀ m, (∀ x ∈ S, m < x.minV) → m < b.minV) ∧
      (∀ m, (∀ x ∈ S, x.maxV < m) → b.maxV < m) ∧
      (∃ x ∈ S, b.minV = x.minV) ∧ (∃ x ∈ S, b.maxV = x.maxV) := by
  obtain ⟨h1, h2⟩ := mergeBlocks_spec S (fun b hb => (hok b hb).sorted) (blocks_disj hok hr)
  have hmem : ∀ e ∈ mergeBlocks S, ∃ b ∈ S, e ∈ b.entries := by
    intro e he
    have := h1.mem_iff.1 he
    exact List.mem_flatMap.1 this
  have hne' : mergeBlocks S ≠ [] := by
    intro hnil
    cases S with
    | nil => exact hne rfl
    | cons b bs =>
      obtain ⟨e, he, _⟩ := (hok b List.mem_cons_self).minAtt
      have : e ∈ mergeBlocks (b :: bs) := h1.mem_iff.2 (by simp [allB, he])
      rw [hnil] at this; cases this
  have hbok := mkBlock_ok h2 hne' (fun e he => by
    obtain ⟨b, hb, heb⟩ := hmem e he
    have := (hok b hb).leMax e heb
    have := hlt b hb
    omega) id level
  have hmin : ∃ x ∈ S, (minVersion (mergeBlocks S)) = x.minV := by
    obtain ⟨e, he, hev⟩ := hbok.minAtt
    obtain ⟨b, hb, heb⟩ := hmem e he
    refine ⟨b, hb, ?_⟩
    have hx := (hok b hb).minLe e heb
    obtain ⟨e', he', hev'⟩ := (hok b hb).minAtt
    have := hbok.minLe e' (h1.mem_iff.2 (List.mem_flatMap.2 ⟨b, hb, he'⟩))
    simp only [mkBlock] at hev this ⊢
    omega
  have hmax : ∃ x ∈ S, (maxVersion (mergeBlocks S)) = x.maxV := by
    obtain ⟨e, he, hev⟩ := hbok.maxAtt
    obtain ⟨b, hb, heb⟩ := hmem e he
    refine ⟨b, hb, ?_⟩
    have hx := (hok b hb).leMax e heb
    obtain ⟨e', he', hev'⟩ := (hok b hb).maxAtt
    have := hbok.leMax e' (h1.mem_iff.2 (List.mem_flatMap.2 ⟨b, hb, he'⟩))
    simp only [mkBlock] at hev this ⊢
    omega
  refine ⟨hbok, h1, ?_, ?_, hmin, hmax⟩
  · intro m hm
    obtain ⟨x, hx, he⟩ := hmin
    have := hm x hx
    simp only [mkBlock]
    omega
  · intro m hm
    obtain ⟨x, hx, he⟩ := hmax
    have := hm x hx
    simp only [mkBlock]
    omega

theorem rewriteStep_inv {t : Table K V} (h : Inv t) {B S R : List (Block K V)}
    (heq : t.blocks = B ++ S ++ R) (hne : S ≠ []) (id level : Nat) :
    let b := mkBlock id level (minVersion (mergeBlocks S)) (mergeBlocks S)
    Inv { t with blocks := B ++ b :: R, nextId := t.nextId + 1 } ∧
    (allB (B ++ b :: R)).Perm (allB t.blocks) := by
  have hSin : ∀ x ∈ S, x ∈ t.blocks := fun x hx => by rw [heq]; simp [hx]
  have hBin : ∀ x ∈ B, x ∈ t.blocks := fun x hx => by rw [heq]; simp [hx]
  have hRin : ∀ x ∈ R, x ∈ t.blocks := fun x hx => by rw [heq]; simp [hx]
  have hr := h.ranges
  rw [heq] at hr
  have hr' := hr
  rw [List.pairwise_append, List.pairwise_append] at hr'
  obtain ⟨⟨_, hSr, hBS⟩, _, hBSR⟩ := hr'
  obtain ⟨m1, m2, m3, m4, m5, m6⟩ := merged_ok (S := S) (fun b hb => h.blocks b (hSin b hb)) hSr hne
    (fun b hb => Nat.lt_trans (h.blkCur b (hSin b hb)) h.curLt) id level
  intro b
  have hin : ∀ x ∈ B ++ b :: R, x = b ∨ x ∈ t.blocks := by
    intro x hx
    rw [List.mem_append, List.mem_cons] at hx
    rcases hx with hx | hx | hx
    · exact Or.inr (hBin x hx)
    · exact Or.inl hx
    · exact Or.inr (hRin x hx)
  refine ⟨⟨h.mem, ?_, ?_, ?_, h.memCur, ?_, h.curLt⟩, ?_⟩
  · intro x hx
    rcases hin x hx with rfl | hx
    · exact m1
    · exact h.blocks x hx
  · refine pairwise_replace hr ?_ ?_
    · intro x hx
      exact m3 _ (fun y hy => hBS x hx y hy)
    · intro x hx
      exact m4 _ (fun y hy => hBSR y (List.mem_append_right _ hy) x hx)
  · intro x hx e he
    rcases hin x hx with rfl | hx
    · exact m4 _ (fun y hy => h.above y (hSin y hy) e he)
    · exact h.above x hx e he
  · intro x hx
    rcases hin x hx with rfl | hx
    · exact m4 _ (fun y hy => h.blkCur y (hSin y hy))
    · exact h.blkCur x hx
  · rw [heq]
    simp only [allB, List.flatMap_append, List.flatMap_cons, List.append_assoc]
    refine List.Perm.append_left _ ?_
    exact List.Perm.append_right _ m2

theorem checkRewrite_inv (o : Options K V) (n : Nat) (t : Table K V) (h : Inv t) :
    Inv (checkRewrite o n t).1 ∧ (checkRewrite o n t).1.all.Perm t.all := by
  induction n generalizing t with
  | zero => exact ⟨h, List.Perm.refl _⟩
  | succ n ih =>
    unfold checkRewrite
    split
    · exact ⟨h, List.Perm.refl _⟩
    · rename_i hf
      cases hs : selectRun o.levelFactor [] [] 0 t.blocks with
      | none => exact ⟨h, List.Perm.refl _⟩
      | some r =>
        obtain ⟨B, S, l, R⟩ := r
        dsimp only
        obtain ⟨s1, s2, s3⟩ := selectRun_spec _ [] [] 0 t.blocks (by simp) (by simp) hs
        have hne : S ≠ [] := by
          intro h; rw [h] at s2; simp at s2; omega
        obtain ⟨i1, i2⟩ := rewriteStep_inv h (by simpa using s1.symm) hne t.nextId (l + 1)
        obtain ⟨j1, j2⟩ := ih _ i1
        refine ⟨j1, j2.trans ?_⟩
        exact List.Perm.append_left _ i2

end Verif.DB
