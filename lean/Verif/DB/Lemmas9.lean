import Verif.DB.Lemmas8

/-!
# Recoverable disks
-/

set_option linter.unusedSectionVars false

namespace Verif.DB

variable {K V : Type} [LinearOrder K]

/-- Relation between a table and its directory between two calls. -/
structure DiskInv (t : Table K V) (d : Disk K V) : Prop where
  files : FilesOK d t.blocks t.nextId
  tmps : d.tmps = []
  logMem : ∀ e ∈ t.mem, Live (ent (d.log ++ d.buf)) e
  logAll : ∀ e, Live (ent (d.log ++ d.buf)) e → e ∈ t.all
  cmd : lastCmd (d.log ++ d.buf) = some t.cur ∨
    (lastCmd (d.log ++ d.buf) = none ∧ ∀ e ∈ t.mem, e.ver = t.cur)
  bufOK : (∀ r ∈ d.buf, ∃ e : Entry K V, r = .put e ∧ e.ver = t.cur) ∨
    (d.log = [] ∧ ∃ ps, d.buf = .reset t.cur :: ps ∧
      ∀ r ∈ ps, ∃ e : Entry K V, r = .put e ∧ e.ver = t.cur)

/-- Blocks `bs` and log `l` together hold exactly the entries `C` below version `c`. -/
structure Content0 (l : List (Rec K V)) (bs : List (Block K V)) (c : Nat) (C : Entry K V → Prop) :
    Prop where
  top : ∀ b ∈ bs, b.maxV < u32max - 1
  ents : ∀ e ∈ ent l, e.ver ≤ u32max - 1
  cle : c ≤ u32max - 1
  c1 : ∀ e ∈ allB bs, e.ver < c → C e
  c2 : ∀ e, Live (ent l) e → e.ver < c → C e
  c3 : ∀ e, C e → e.ver < c ∧ (e ∈ allB bs ∨ (Live (ent l) e ∧ blkTop bs ≤ e.ver))

/-- Blocks `bs` and log `l` open at version `c` with the entries `C`. -/
structure Content (l : List (Rec K V)) (bs : List (Block K V)) (c : Nat) (C : Entry K V → Prop) :
    Prop extends Content0 l bs c C where
  cur : (lastCmd l).getD (blkTop bs) = c

theorem Content.same {l : List (Rec K V)} {bs bs' : List (Block K V)} {c : Nat}
    {C : Entry K V → Prop} (h : Content l bs c C) (hs : ∀ e, e ∈ allB bs' ↔ e ∈ allB bs)
    (ht : blkTop bs' = blkTop bs) (hm : ∀ m, (∀ b ∈ bs, b.maxV < m) → ∀ b ∈ bs', b.maxV < m) :
    Content l bs' c C :=
  ⟨⟨hm _ h.top, h.ents, h.cle, fun e he => h.c1 e ((hs e).1 he), h.c2,
    fun e he => by rw [hs, ht]; exact h.c3 e he⟩, by rw [ht]; exact h.cur⟩

theorem blkTop_mono {bs mid : List (Block K V)} (hok : ∀ b ∈ bs, BlockOK b)
    (hr : bs.Pairwise (fun a b => a.maxV < b.minV))
    (h : ∀ b ∈ mid, ∃ b0 ∈ bs, b.maxV ≤ b0.maxV) : blkTop mid ≤ blkTop bs := by
  apply blkTop_le
  intro b hb
  obtain ⟨b0, h0, h1⟩ := h b hb
  have := lt_blkTop hok hr h0
  omega

theorem Content0.revert {l : List (Rec K V)} {bs mid : List (Block K V)} {c : Nat}
    {C : Entry K V → Prop} (h : Content0 l bs c C) (hok : ∀ b ∈ bs, BlockOK b)
    (hr : bs.Pairwise (fun a b => a.maxV < b.minV)) (hm : RevMid c bs mid) :
    Content (l ++ [.revert c]) mid c C := by
  obtain ⟨m1, m2, m3, m4, m5⟩ := hm.spec hok hr
  have hent : ent (l ++ [Rec.revert c]) = (ent l).filter fun e => decide (e.ver < c) := by
    rw [ent_snoc]
  refine ⟨⟨?_, ?_, h.cle, ?_, ?_, ?_⟩, by rw [lastCmd_snoc]; rfl⟩
  · intro b hb
    obtain ⟨_, b0, h0, _, _, h1⟩ := m1 b hb
    exact Nat.lt_of_le_of_lt h1 (h.top b0 h0)
  · intro e he
    rw [hent] at he
    exact h.ents e (List.mem_filter.1 he).1
  · intro e he hv; exact h.c1 e (m3 e he) hv
  · intro e he hv
    rw [hent, live_filter] at he
    exact h.c2 e he.1 hv
  · intro e he
    obtain ⟨h1, h2⟩ := h.c3 e he
    refine ⟨h1, ?_⟩
    rcases h2 with h2 | ⟨h2, h3⟩
    · exact Or.inl (m4 e h2 h1)
    · refine Or.inr ⟨?_, ?_⟩
      · rw [hent, live_filter]; exact ⟨h2, h1⟩
      · refine Nat.le_trans (blkTop_mono hok hr ?_) h3
        intro b hb
        obtain ⟨_, b0, h0, _, _, h1⟩ := m1 b hb
        exact ⟨b0, h0, h1⟩

/-- A directory that the constructor can open, with the content it will find. -/
structure Good (d : Disk K V) (ren : List (FsOp K V)) (bs ds : List (Block K V)) (c : Nat)
    (C : Entry K V → Prop) : Prop where
  recov : recoverTmps d.files d.tmps = some ((d.run ren).files, ren)
  load : Load (d.run ren).files bs ds
  stale : Stale c (d.run ren).tmps bs
  rlen : ren.length ≤ 1
  dlen : ds.length ≤ 1
  log : (d.run ren).log = d.log
  buf : d.buf = [] ∧ (d.run ren).buf = []
  content : Content d.log bs c C

theorem crash_of_buf_nil {d : Disk K V} (h : d.buf = []) (m : Nat) : d.crash m = d := by
  unfold Disk.crash
  rw [h]
  cases d
  simp at h
  subst h
  simp

theorem good_of_files {d : Disk K V} {bs ds : List (Block K V)} {c : Nat} {C : Entry K V → Prop}
    (hl : Load d.files bs ds) (hs : Stale c d.tmps bs) (hd : ds.length ≤ 1) (hb : d.buf = [])
    (hc : Content d.log bs c C) : Good d [] bs ds c C := by
  refine ⟨recoverTmps_all _ _ ?_, hl, hs, by simp, hd, rfl, ⟨hb, hb⟩, hc⟩
  intro q hq
  obtain ⟨b, hb, he, _⟩ := hs q hq
  exact ⟨b, hl.perm.mem_iff.2 (by simp [hb]), he⟩

theorem foldl_max_id (f : List (Block K V)) (m : Nat) :
    m ≤ f.foldl (fun m b => max m (b.id + 1)) m ∧
    ∀ b ∈ f, b.id < f.foldl (fun m b => max m (b.id + 1)) m := by
  induction f generalizing m with
  | nil => simp
  | cons b f ih =>
    obtain ⟨h1, h2⟩ := ih (max m (b.id + 1))
    rw [List.foldl_cons]
    refine ⟨by omega, ?_⟩
    intro x hx
    rcases List.mem_cons.1 hx with rfl | hx
    · omega
    · exact h2 x hx

/-- The constructor on a recoverable disk: it succeeds, the table holds exactly `C`, the directory
matches the table afterwards, and after any prefix of its file operations the directory is still
recoverable with the same content (unless two inputs of a merge are left over). -/
theorem open_good (o : Options K V) {d : Disk K V} {ren : List (FsOp K V)} {bs ds : List (Block K V)}
    {c : Nat} {C : Entry K V → Prop} (g : Good d ren bs ds c C) :
    ∃ t ops, openTable o d = some (t, ops) ∧ Inv t ∧ t.cur = c ∧ t.writeLock = 0 ∧
      (∀ e, e ∈ t.all ↔ C e) ∧ DiskInv t (d.run ops) ∧
      ∀ k m, (k < ops.length → NoDouble (d.run (ops.take k)).files) →
        ∃ ren' bs' ds', Good ((d.run (ops.take k)).crash m) ren' bs' ds' c C := by
  have hl := g.load
  have hcc := g.content
  obtain ⟨t1, a1, a2, a3, a4, a5, a6, a7⟩ := open_core o d g.recov hl hcc.top hcc.ents hcc.cur
  obtain ⟨d1, hd1⟩ : ∃ d1, d1 = d.run ren := ⟨_, rfl⟩
  obtain ⟨d2, hd2⟩ : ∃ d2, d2 = d1.run (ds.map fun b => .remove b.id) := ⟨_, rfl⟩
  have hd2' : d2 = { d1 with files := d1.files.filter fun f => decide (∀ x ∈ ds, f.id ≠ x.id) } := by
    rw [hd2, run_removes]
  have hd2f : d2.files.Perm bs := by
    rw [hd2']; rw [hd1]; exact filter_ids hl.perm hl.nodup
  have hndbs : (bs.map (·.id)).Nodup := by
    have := hl.nodup
    rw [List.map_append, List.nodup_append] at this
    exact this.1
  -- the revert inside the constructor
  have hinvc : Inv { t1 with cur := u32max - 1 } := a1
  have hrevEq := revert_cur_irrel o t1 (u32max - 1) c a4 (by omega) hcc.cle
  obtain ⟨r1, r2, r3, r4⟩ := revert_inv (o := o) hinvc c a4 hcc.cle
  rw [← hrevEq] at r1 r2 r3 r4
  have hall1 : ∀ e, e ∈ Table.all { t1 with cur := u32max - 1 } ↔
      (e ∈ allB bs ∨ (Live (ent d.log) e ∧ blkTop bs ≤ e.ver)) := by
    intro e
    simp only [Table.all, List.mem_append, a6, a2]
    exact Or.comm
  have hC : ∀ e, e ∈ (t1.revert o c).tab.all ↔ C e := by
    intro e
    rw [r2, hall1]
    constructor
    · rintro ⟨h1 | h1, h2⟩
      · exact hcc.c1 e h1 h2
      · exact hcc.c2 e h1.1 h2
    · intro h
      obtain ⟨h1, h2⟩ := hcc.c3 e h
      exact ⟨h2, h1⟩
  have hrun : (t1.revert o c).tab.blocks = (Table.revertBlocks c bs).1 ∧
      (t1.revert o c).tab.nextId = t1.nextId ∧
      (t1.revert o c).tab.mem = t1.mem.filter (fun e => decide (e.ver < c)) ∧
      (t1.revert o c).ops = .logWrite (.revert c) :: .logFlush :: (Table.revertBlocks c bs).2 := by
    unfold Table.revert
    rw [if_neg (by omega), if_neg (by omega)]
    rw [a2]
    exact ⟨rfl, rfl, rfl, rfl⟩
  obtain ⟨u1, u2, u3, u4⟩ := hrun
  obtain ⟨d3, hd3⟩ : ∃ d3, d3 = d2.run [.logWrite (.revert c), .logFlush] := ⟨_, rfl⟩
  have hd2log : d2.log = d.log := by rw [hd2', hd1]; exact g.log
  have hd2buf : d2.buf = [] := by rw [hd2', hd1]; exact g.buf.2
  have hd2tmps : d2.tmps = (d.run ren).tmps := by rw [hd2', hd1]
  have hd3' : d3 = { d2 with log := d.log ++ [.revert c], buf := [] } := by
    rw [hd3]
    simp only [Disk.run, List.foldl_cons, List.foldl_nil, Disk.step, hd2buf, hd2log, List.nil_append]
  have hst2 : Stale c d2.tmps bs := by rw [hd2tmps]; exact g.stale
  have hpre := fun k => revertBlocks_prefix c bs [] d3 (by rw [hd3']; exact hd2f) (by simpa using hndbs)
    (by rw [hd3']; exact hst2) k
  obtain ⟨d4, hd4⟩ : ∃ d4, d4 = d3.run (Table.revertBlocks c bs).2 := ⟨_, rfl⟩
  -- state after the complete revert
  obtain ⟨mid, ren4, p1, p2⟩ := hpre (Table.revertBlocks c bs).2.length
  rw [List.take_length] at p1 p2
  obtain ⟨rfl, rfl, p3⟩ := p2 (Nat.le_refl _)
  rw [← hd4] at p1 p3
  have hd4f : d4.files.Perm (Table.revertBlocks c bs).1 := by
    simpa [Disk.run] using p1.files
  have hd4log : d4.log = d.log ++ [.revert c] := by rw [p1.log.1, hd3']
  have hd4buf : d4.buf = [] := by rw [p1.buf.1, hd3']
  obtain ⟨q1, q2, q3, q4, q5⟩ := p1.rmid.spec hl.ok hl.ranges
  have hfoldid := foldl_max_id (d.run ren).files 0
  have hfilesOK : FilesOK d4 (t1.revert o c).tab.blocks (t1.revert o c).tab.nextId := by
    rw [u1, u2, a5]
    refine ⟨hd4f, List.Nodup.sublist q5 hndbs, ?_⟩
    intro b hb
    obtain ⟨_, b0, h0, h1, _⟩ := q1 b hb
    rw [← h1]
    exact hfoldid.2 b0 (hl.perm.mem_iff.2 (by simp [h0]))
  have hcont4 : Content d4.log (Table.revertBlocks c bs).1 c C := by
    rw [hd4log]; exact hcc.revert hl.ok hl.ranges p1.rmid
  have hok4 : ∀ b ∈ (t1.revert o c).tab.blocks, BlockOK b := by
    rw [u1]; exact fun b hb => (q1 b hb).1
  have hr4 : (t1.revert o c).tab.blocks.Pairwise (fun a b => a.maxV < b.minV) := by
    rw [u1]; exact q2
  have hlt4 : ∀ b ∈ (t1.revert o c).tab.blocks, b.maxV < u32max := by
    rw [u1]; intro b hb; have := hcont4.top b hb; omega
  obtain ⟨w1, w2⟩ := checkRewrite_inv o (t1.revert o c).tab.blocks.length (t1.revert o c).tab r1
  obtain ⟨v1, v2, v3, v4⟩ := checkRewrite_files o (t1.revert o c).tab.blocks.length
    (t1.revert o c).tab d4 hfilesOK hok4 hr4 hlt4
  obtain ⟨f1, f2, f3, f4, _⟩ := checkRewrite_fields o (t1.revert o c).tab.blocks.length
    (t1.revert o c).tab
  obtain ⟨rw', hrw⟩ : ∃ x, x = checkRewrite o (t1.revert o c).tab.blocks.length
    (t1.revert o c).tab := ⟨_, rfl⟩
  rw [← hrw] at a7 w1 w2 v1 v2 v3 v4 f1 f3 f4
  have hfull : d.run (ren ++ (ds.map fun b => .remove b.id) ++ (t1.revert o c).ops ++ rw'.2) =
      d4.run rw'.2 := by
    rw [run_append, run_append, run_append, ← hd1, ← hd2, u4,
      show (FsOp.logWrite (Rec.revert c) :: FsOp.logFlush :: (Table.revertBlocks c bs).2) =
        [FsOp.logWrite (Rec.revert c), FsOp.logFlush] ++ (Table.revertBlocks c bs).2 from rfl,
      run_append, ← hd3, ← hd4]
  have hent4 : ent (d.log ++ [Rec.revert c]) = (ent d.log).filter fun e => decide (e.ver < c) := by
    rw [ent_snoc]
  refine ⟨_, _, a7, w1, by rw [f3, r3], by rw [f4, r4]; exact a4,
    fun e => w2.mem_iff.trans (hC e), ?_, ?_⟩
  · rw [hfull]
    refine ⟨v1, by rw [v2, p3], ?_, ?_, ?_, ?_⟩
    · rw [v3, v4, hd4log, hd4buf, List.append_nil, f1, u3, hent4]
      intro e he
      obtain ⟨h1, h2⟩ := mem_filter_ver.1 he
      rw [live_filter]
      exact ⟨((a6 e).1 h1).1, h2⟩
    · rw [v3, v4, hd4log, hd4buf, List.append_nil, hent4]
      intro e he
      rw [live_filter] at he
      rw [w2.mem_iff, hC]
      exact hcc.c2 e he.1 he.2
    · left
      rw [v3, v4, hd4log, hd4buf, List.append_nil, lastCmd_snoc, f3, r3]
    · left
      rw [v4, hd4buf]; simp
  · intro k m hg
    -- which phase are we in?
    by_cases hk1 : k < ren.length
    · have : k = 0 := by have := g.rlen; omega
      subst this
      refine ⟨ren, bs, ds, ?_⟩
      rw [List.take_zero]
      change Good (d.crash m) _ _ _ _ _
      rw [crash_of_buf_nil g.buf.1]
      exact g
    · by_cases hk2 : k - ren.length < ds.length
      · have h0 : k - ren.length = 0 := by have := g.dlen; omega
        have hk : k = ren.length := by omega
        refine ⟨[], bs, ds, ?_⟩
        rw [List.append_assoc, List.append_assoc, hk, List.take_left, ← hd1]
        rw [crash_of_buf_nil (by rw [hd1]; exact g.buf.2)]
        refine good_of_files (by rw [hd1]; exact hl) (by rw [hd1]; exact g.stale) g.dlen
          (by rw [hd1]; exact g.buf.2) ?_
        rw [hd1, g.log]; exact hcc
      · -- after the removal of leftovers
        obtain ⟨j, hj⟩ : ∃ j, k = ren.length + ds.length + j := ⟨k - ren.length - ds.length, by omega⟩
        have htk : (ren ++ (ds.map fun b : Block K V => (FsOp.remove b.id : FsOp K V)) ++ (t1.revert o c).ops ++ rw'.2).take k =
            (ren ++ (ds.map fun b => .remove b.id)) ++ ((t1.revert o c).ops ++ rw'.2).take j := by
          rw [List.append_assoc (ren ++ _), List.take_append, List.take_of_length_le (by simp; omega)]
          congr 2
          simp; omega
        rw [htk, run_append, run_append, ← hd1, ← hd2, u4] at hg ⊢
        have hgood2 : Good d2 [] bs [] c C := by
          refine good_of_files (load_plain hd2f hndbs hl.ok hl.ranges) hst2 (by simp) hd2buf ?_
          rw [hd2log]; exact hcc
        have hgood3 : Good d3 [] bs [] c C := by
          refine good_of_files (load_plain (by rw [hd3']; exact hd2f) hndbs hl.ok hl.ranges)
            (by rw [hd3']; exact hst2) (by simp) (by rw [hd3']) ?_
          rw [hd3']; exact hcc.revert hl.ok hl.ranges (RevMid.refl _ _)
        match j, hj, hg with
        | 0, hj, hg =>
          refine ⟨[], bs, [], ?_⟩
          rw [List.take_zero]
          change Good (d2.crash m) _ _ _ _ _
          rw [crash_of_buf_nil hd2buf]
          exact hgood2
        | 1, hj, hg =>
          have hone : (d2.run ((FsOp.logWrite (Rec.revert c) :: FsOp.logFlush ::
              (Table.revertBlocks c bs).2 ++ rw'.2).take 1)) =
              { d2 with buf := [Rec.revert c] } := by
            simp only [List.cons_append, List.take_succ_cons, List.take_zero, Disk.run,
              List.foldl_cons, List.foldl_nil, Disk.step, hd2buf, List.nil_append]
          refine ⟨[], bs, [], ?_⟩
          rw [hone]
          cases m with
          | zero =>
            have : Disk.crash { d2 with buf := [Rec.revert c] } 0 = d2 := by
              unfold Disk.crash
              cases d2
              simp at hd2buf ⊢
              exact hd2buf
            rw [this]; exact hgood2
          | succ m =>
            have : Disk.crash { d2 with buf := [Rec.revert c] } (m + 1) = d3 := by
              unfold Disk.crash
              rw [hd3']
              simp [hd2log]
            rw [this]; exact hgood3
        | i + 2, hj, hg =>
          have htk2 : (FsOp.logWrite (Rec.revert c) :: FsOp.logFlush ::
              (Table.revertBlocks c bs).2 ++ rw'.2).take (i + 2) =
              [FsOp.logWrite (Rec.revert c), FsOp.logFlush] ++
                ((Table.revertBlocks c bs).2 ++ rw'.2).take i := rfl
          rw [htk2, run_append, ← hd3] at hg ⊢
          by_cases hi : i ≤ (Table.revertBlocks c bs).2.length
          · rw [List.take_append_of_le_length hi]
            obtain ⟨mid, ren5, z1, _⟩ := hpre i
            obtain ⟨y1, y2, _, _, y5⟩ := z1.rmid.spec hl.ok hl.ranges
            have hb5 : (d3.run ((Table.revertBlocks c bs).2.take i)).buf = [] := by
              rw [z1.buf.1, hd3']
            rw [crash_of_buf_nil hb5]
            refine ⟨ren5, mid, [], z1.recov, load_plain (by simpa using z1.files)
              (List.Nodup.sublist y5 hndbs) (fun b hb => (y1 b hb).1) y2, z1.stale, z1.len, by simp,
              by rw [z1.log.1, z1.log.2], ⟨hb5, by rw [z1.buf.2, hd3']⟩, ?_⟩
            rw [z1.log.1, hd3']
            exact hcc.revert hl.ok hl.ranges z1.rmid
          · rw [List.take_append, List.take_of_length_le (by omega), run_append, ← hd4] at hg ⊢
            obtain ⟨bs5, ds5, z1, _⟩ := checkRewrite_prefix o (t1.revert o c).tab.blocks.length
              (t1.revert o c).tab d4 hfilesOK hok4 hr4 hlt4
              (i - (Table.revertBlocks c bs).2.length) (by
                rw [← hrw]
                intro h
                refine hg ?_
                rw [hj]
                simp
                omega)
            rw [← hrw] at z1
            have hb5 : (d4.run (rw'.2.take (i - (Table.revertBlocks c bs).2.length))).buf = [] := by
              rw [z1.buf, hd4buf]
            rw [crash_of_buf_nil hb5]
            refine ⟨[], bs5, ds5, good_of_files z1.load ?_ ?_ hb5 ?_⟩
            · rw [z1.tmps, p3]; intro q hq; cases hq
            · exact z1.dlen
            · rw [z1.log]
              exact hcont4.same (by rw [← u1]; exact z1.same) (by rw [← u1]; exact z1.top)
                (by rw [← u1]; exact z1.maxs)

end Verif.DB
