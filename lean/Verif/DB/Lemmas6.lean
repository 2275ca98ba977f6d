import Verif.DB.Lemmas5

/-!
# Lemmas about the files of a table and about opening it
-/

set_option linter.unusedSectionVars false

namespace Verif.DB

variable {K V : Type} [LinearOrder K]

theorem exists_live {ws : List (Entry K V)} {e : Entry K V} (h : e ∈ ws) :
    ∃ x, Live ws x ∧ x.same e := by
  induction ws using List.reverseRecOn with
  | nil => cases h
  | append_singleton ws w ih =>
    by_cases hs : w.same e
    · exact ⟨w, live_append.2 (Or.inl rfl), hs⟩
    · rw [List.mem_append] at h
      rcases h with h | h
      · obtain ⟨x, h1, h2⟩ := ih h
        refine ⟨x, live_append.2 (Or.inr ⟨h1, fun h3 => ?_⟩), h2⟩
        exact hs (Entry.same_trans (Entry.same_symm h3) h2)
      · simp at h; subst h; exact absurd ⟨rfl, rfl⟩ hs

/-! ### running file operations -/

theorem run_append (d : Disk K V) (a b : List (FsOp K V)) : d.run (a ++ b) = (d.run a).run b := by
  unfold Disk.run; rw [List.foldl_append]

theorem run_cons (d : Disk K V) (a : FsOp K V) (b : List (FsOp K V)) :
    d.run (a :: b) = (d.step a).run b := rfl

theorem run_removes (d : Disk K V) (xs : List (Block K V)) :
    d.run (xs.map fun b => .remove b.id) =
      { d with files := d.files.filter fun f => decide (∀ x ∈ xs, f.id ≠ x.id) } := by
  induction xs generalizing d with
  | nil =>
    have : d.files.filter (fun f => decide (∀ x ∈ ([] : List (Block K V)), f.id ≠ x.id)) = d.files := by
      rw [List.filter_eq_self]; simp
    rw [this]; rfl
  | cons x xs ih =>
    rw [List.map_cons, run_cons, ih]
    simp only [Disk.step, List.filter_filter]
    congr 1
    apply List.filter_congr
    intro f _
    by_cases h : f.id = x.id <;> simp [h]

/-- Filtering out a set of blocks by id from a permutation of a list with distinct ids. -/
theorem filter_ids {files keep drop : List (Block K V)} (hp : files.Perm (keep ++ drop))
    (hn : ((keep ++ drop).map (·.id)).Nodup) :
    (files.filter fun f => decide (∀ x ∈ drop, f.id ≠ x.id)).Perm keep := by
  refine (hp.filter _).trans ?_
  rw [List.filter_append]
  have h1 : keep.filter (fun f => decide (∀ x ∈ drop, f.id ≠ x.id)) = keep := by
    rw [List.filter_eq_self]
    intro a ha
    rw [List.map_append, List.nodup_append] at hn
    simp only [decide_eq_true_eq]
    intro x hx he
    exact hn.2.2 a.id (List.mem_map.2 ⟨a, ha, rfl⟩) x.id (List.mem_map.2 ⟨x, hx, rfl⟩) he
  have h2 : drop.filter (fun f => decide (∀ x ∈ drop, f.id ≠ x.id)) = [] := by
    rw [List.filter_eq_nil_iff]
    intro a ha
    simp only [decide_eq_true_eq]
    intro h
    exact h a ha rfl
  rw [h1, h2, List.append_nil]

/-! ### blocks on disk -/

structure FilesOK (d : Disk K V) (bs : List (Block K V)) (nid : Nat) : Prop where
  perm : d.files.Perm bs
  nodup : (bs.map (·.id)).Nodup
  lt : ∀ b ∈ bs, b.id < nid

/-- What the constructor can load: after sorting, `bs` are kept and `ds` deleted. -/
structure Load (f bs ds : List (Block K V)) : Prop where
  perm : f.Perm (bs ++ ds)
  nodup : ((bs ++ ds).map (·.id)).Nodup
  load : loadLoop none 0 (sortBlocks f) = (bs, ds, blkTop bs)
  ok : ∀ b ∈ bs, BlockOK b
  ranges : bs.Pairwise (fun a b => a.maxV < b.minV)

theorem load_plain {f bs : List (Block K V)} (hp : f.Perm bs) (hn : (bs.map (·.id)).Nodup)
    (ok : ∀ b ∈ bs, BlockOK b) (hr : bs.Pairwise (fun a b => a.maxV < b.minV)) : Load f bs [] := by
  refine ⟨by simpa using hp, by simpa using hn, ?_, ok, hr⟩
  rw [sort_eq hp (strict_of_ranges ok hr), loadLoop_pairwise none 0 bs (by simp) hr]
  congr 2
  split
  · rename_i h; rw [h]; rfl
  · rfl

theorem loadLoop_append (prev : Option (Block K V)) (cur : Nat) (B L : List (Block K V))
    (hp : ∀ p, prev = some p → ∀ b ∈ B, p.maxV < b.minV)
    (hr : B.Pairwise (fun a b => a.maxV < b.minV)) :
    ∃ prev' cur', loadLoop prev cur (B ++ L) =
      (B ++ (loadLoop prev' cur' L).1, (loadLoop prev' cur' L).2) ∧
      (B = [] → prev' = prev ∧ cur' = cur) ∧ (∀ p, prev' = some p → p ∈ B ∨ prev = some p) := by
  induction B generalizing prev cur with
  | nil => exact ⟨prev, cur, rfl, fun _ => ⟨rfl, rfl⟩, fun p h => Or.inr h⟩
  | cons b B ih =>
    rw [List.pairwise_cons] at hr
    obtain ⟨p', c', h1, h2, h3⟩ := ih (some b) (b.maxV + 1)
      (by intro p hp' c hc; cases hp'; exact hr.1 c hc) hr.2
    refine ⟨p', c', ?_, by simp, ?_⟩
    · have hk : keepBlock prev b = true := by
        cases prev with
        | none => rfl
        | some p => simpa [keepBlock] using hp p rfl b (by simp)
      rw [List.cons_append, loadLoop, if_pos hk, h1]
      rfl
    · intro p hp'
      rcases h3 p hp' with h | h
      · exact Or.inl (List.mem_cons_of_mem _ h)
      · cases h; exact Or.inl (by simp)

/-- One leftover block `A` of a merge into `M`. -/
theorem load_leftover {f B R : List (Block K V)} {M A : Block K V}
    (hp : f.Perm ((B ++ M :: R) ++ [A])) (hn : (((B ++ M :: R) ++ [A]).map (·.id)).Nodup)
    (ok : ∀ b ∈ B ++ M :: R, BlockOK b) (hA : BlockOK A)
    (hr : (B ++ M :: R).Pairwise (fun a b => a.maxV < b.minV))
    (h1 : M.minV ≤ A.minV) (h2 : A.maxV ≤ M.maxV) (h3 : A.level < M.level) (hR : R ≠ []) :
    Load f (B ++ M :: R) [A] := by
  refine ⟨hp, hn, ?_, ok, hr⟩
  have hAm := hA.min_le_max
  have hr' := List.pairwise_append.1 hr
  have hr2 := List.pairwise_cons.1 hr'.2.1
  have hL : (B ++ M :: A :: R).Pairwise (fun a b => a.le b = true ∧ ¬ b.le a = true) := by
    have hs := strict_of_ranges ok hr
    rw [List.pairwise_append, List.pairwise_cons] at hs
    obtain ⟨s1, ⟨s2, s3⟩, s4⟩ := hs
    have hlt : ∀ a b : Block K V, a.minV < b.minV → a.le b = true ∧ ¬ b.le a = true := by
      intro a b h
      unfold Block.le
      rw [if_neg (by omega), if_neg (by omega)]
      simp; omega
    rw [List.pairwise_append, List.pairwise_cons, List.pairwise_cons]
    refine ⟨s1, ⟨?_, ?_, s3⟩, ?_⟩
    · intro x hx
      rcases List.mem_cons.1 hx with rfl | hx
      · by_cases he : M.minV = x.minV
        · unfold Block.le
          rw [if_pos he, if_pos he.symm]
          simp; omega
        · exact hlt _ _ (by omega)
      · exact s2 x hx
    · intro x hx
      have := hr2.1 x hx
      exact hlt _ _ (by omega)
    · intro x hx y hy
      rcases List.mem_cons.1 hy with rfl | hy
      · exact s4 x hx y (by simp)
      · rcases List.mem_cons.1 hy with rfl | hy
        · have := hr'.2.2 x hx M (by simp)
          have := (ok x (by simp [hx])).min_le_max
          exact hlt _ _ (by omega)
        · exact s4 x hx y (by simp [hy])
  have hperm : f.Perm (B ++ M :: A :: R) := by
    refine hp.trans ?_
    simp only [List.append_assoc]
    refine List.Perm.append_left _ ?_
    rw [List.cons_append]
    exact List.Perm.cons _ (List.perm_append_comm)
  rw [sort_eq hperm hL]
  obtain ⟨p', c', e1, e2, e3⟩ := loadLoop_append none 0 B (M :: A :: R) (by simp) hr'.1
  rw [e1]
  have hkM : keepBlock p' M = true := by
    cases hp' : p' with
    | none => rfl
    | some p =>
      rcases e3 p hp' with h | h
      · simpa [keepBlock] using hr'.2.2 p h M (by simp)
      · cases h
  have hkA : keepBlock (some M) A = false := by simp [keepBlock]; omega
  have hRl := loadLoop_pairwise (some A) (M.maxV + 1) R (by
    intro p hp x hx; cases hp
    have := hr2.1 x hx; omega) hr2.2
  have hl : loadLoop p' c' (M :: A :: R) = (M :: R, [A], blkTop R) := by
    rw [loadLoop, if_pos hkM, loadLoop, if_neg (by simp [hkA]), hRl, if_neg hR]
  rw [hl]
  have : blkTop R = blkTop (B ++ M :: R) := by
    unfold blkTop
    rw [List.getLast?_append]
    rw [List.getLast?_cons_of_ne_nil hR]
    cases h : R.getLast? with
    | none => rw [List.getLast?_eq_none_iff] at h; exact absurd h hR
    | some b => rfl
  rw [this]

/-! ### opening -/

/-- Everything that is known about the state inside the constructor, before its final
`revert(curr_version)` (DataBase.cpp:224). -/
theorem open_core (o : Options K V) (d : Disk K V) {f bs ds : List (Block K V)}
    {ren : List (FsOp K V)} (hf : recoverTmps d.files d.tmps = some (f, ren)) (hl : Load f bs ds)
    (htop : ∀ b ∈ bs, b.maxV < u32max - 1)
    (hent : ∀ e ∈ ent d.log, e.ver ≤ u32max - 1)
    {c : Nat} (hc : (lastCmd d.log).getD (blkTop bs) = c) :
    ∃ t1 : Table K V, Inv { t1 with cur := u32max - 1 } ∧ t1.blocks = bs ∧ t1.cur = c ∧
      t1.writeLock = 0 ∧ t1.nextId = f.foldl (fun m b => max m (b.id + 1)) 0 ∧
      (∀ x, x ∈ t1.mem ↔ Live (ent d.log) x ∧ blkTop bs ≤ x.ver) ∧
      openTable o d = some
        ((checkRewrite o (t1.revert o c).tab.blocks.length (t1.revert o c).tab).1,
         ren ++ (ds.map fun b => .remove b.id) ++ (t1.revert o c).ops ++
          (checkRewrite o (t1.revert o c).tab.blocks.length (t1.revert o c).tab).2) := by
  have hcur : (replay (blkTop bs) d.log).cur = c := by rw [replay_cur, hc]
  obtain ⟨t0, ht0⟩ : ∃ t0 : Table K V, t0 =
      { cur := c, lastFlush := (replay (blkTop bs) d.log).lastFlush,
        nextId := f.foldl (fun m b => max m (b.id + 1)) 0, blocks := bs, size := 0,
        idx := [], mem := [], writeLock := 0 } := ⟨_, rfl⟩
  have hinv0 : Inv { t0 with cur := u32max - 1 } := by
    rw [ht0]
    exact ⟨memOK_nil, hl.ok, hl.ranges, by simp, by simp, htop, by simp [u32max]⟩
  have hmono : Mono ((ent d.log).filter fun e => decide (blkTop bs ≤ e.ver)) :=
    List.Pairwise.filter _ (mono_ent _)
  obtain ⟨i1, i2, i3, i4, i5, i6, i7⟩ := foldl_insertEntry o
    ((ent d.log).filter fun e => decide (blkTop bs ≤ e.ver)) { t0 with cur := u32max - 1 } hinv0
    hmono (by rw [ht0]; simp) (fun e he => hent e (List.mem_filter.1 he).1) (by
      intro b hb e he
      have h1 : b ∈ bs := by rw [ht0] at hb; exact hb
      have := lt_blkTop hl.ok hl.ranges h1
      have := (List.mem_filter.1 he).2
      simp at this
      omega)
  rw [foldl_insertEntry_cur] at i1 i2 i3 i4 i7
  refine ⟨((ent d.log).filter fun e => decide (blkTop bs ≤ e.ver)).foldl
    (fun t e => t.insertEntry o e) t0, i1, ?_, ?_, ?_, ?_, ?_, ?_⟩
  · rw [show _ = _ from i2, ht0]
  · have : ∀ (es : List (Entry K V)) (t : Table K V),
        (es.foldl (fun t e => t.insertEntry o e) t).cur = t.cur := by
      intro es
      induction es with
      | nil => intro t; rfl
      | cons e es ih => intro t; rw [List.foldl_cons, ih]; rfl
    rw [this, ht0]
  · rw [show _ = _ from i4, ht0]
  · rw [show _ = _ from i3, ht0]
  · intro x
    have h7 := i7 x
    have hblk : (List.foldl (fun t e => Table.insertEntry o t e) t0
        ((ent d.log).filter fun e => decide (blkTop bs ≤ e.ver))).blocks = bs := by
      rw [show _ = _ from i2, ht0]
    constructor
    · intro hx
      have := h7.1 (by unfold Table.all; exact List.mem_append_left _ hx)
      rcases this with h | ⟨h, _⟩
      · exact live_filter_ge.1 h
      · exfalso
        have hx2 : x ∈ allB bs := by
          rw [ht0] at h; simpa [Table.all] using h
        obtain ⟨b, hb, hxb⟩ := List.mem_flatMap.1 hx2
        have h1 := i1.above b (by show b ∈ _; rw [hblk]; exact hb) x hx
        have h2 := (hl.ok b hb).leMax x hxb
        omega
    · rintro hx
      have h8 := h7.2 (Or.inl (live_filter_ge.2 hx))
      unfold Table.all at h8
      rw [List.mem_append] at h8
      rcases h8 with h8 | h8
      · exact h8
      · exfalso
        have hx2 : x ∈ allB bs := by rw [← hblk]; exact h8
        obtain ⟨b, hb, hxb⟩ := List.mem_flatMap.1 hx2
        have h2 := (hl.ok b hb).leMax x hxb
        have := lt_blkTop hl.ok hl.ranges hb
        omega
  · unfold openTable
    rw [hf]
    dsimp only
    rw [hl.load]
    dsimp only
    have hrep : d.log.foldl (replayStep (blkTop bs))
        { cur := blkTop bs, lastFlush := blkTop bs, first := true, entries := [] }
        = replay (blkTop bs) d.log := rfl
    rw [hrep, hcur, replay_entries, ← ht0]

end Verif.DB
