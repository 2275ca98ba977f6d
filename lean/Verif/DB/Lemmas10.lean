import Verif.DB.Lemmas9
import Verif.DB.Crash

/-!
# Crash points of the public calls
-/

set_option linter.unusedSectionVars false

namespace Verif.DB

variable {K V : Type} [LinearOrder K]

/-! ### records buffered since the last command -/

theorem puts_log {l ps : List (Rec K V)} {c : Nat}
    (h : ∀ r ∈ ps, ∃ e : Entry K V, r = .put e ∧ e.ver = c) :
    lastCmd (l ++ ps) = lastCmd l ∧
    (∀ e, e.ver ≠ c → (Live (ent (l ++ ps)) e ↔ Live (ent l) e)) ∧
    (∀ e ∈ ent (l ++ ps), e ∈ ent l ∨ e.ver = c) ∧ (∀ e ∈ ent l, e ∈ ent (l ++ ps)) := by
  induction ps using List.reverseRecOn with
  | nil => rw [List.append_nil]; exact ⟨rfl, fun _ _ => Iff.rfl, fun _ h => Or.inl h, fun _ h => h⟩
  | append_singleton ps r ih =>
    obtain ⟨i1, i2, i3, i4⟩ := ih (fun r hr => h r (by simp [hr]))
    obtain ⟨w, rfl, hw⟩ := h r (by simp)
    rw [← List.append_assoc]
    refine ⟨?_, ?_, ?_, ?_⟩
    · rw [lastCmd_snoc]; exact i1
    · intro e he
      rw [ent_snoc]
      dsimp only
      rw [live_mmInsert (mono_ent _), i2 e he]
      constructor
      · rintro (rfl | h)
        · exact absurd hw he
        · exact h.1
      · intro h
        exact Or.inr ⟨h, fun hs => he (hs.2.trans hw)⟩
    · intro e he
      rw [ent_snoc] at he
      rcases mem_mmInsert.1 he with rfl | he
      · exact Or.inr hw
      · exact i3 e he
    · intro e he
      rw [ent_snoc]
      exact mem_mmInsert.2 (Or.inr (i4 e he))

/-- What a crash right now must preserve. -/
def Committed (t : Table K V) (e : Entry K V) : Prop := e ∈ t.all ∧ e.ver < t.cur

/-- The directory `d` opens with the committed content of `t`. -/
def Recov (d : Disk K V) (t : Table K V) : Prop :=
  ∃ ren bs ds c, Good d ren bs ds c (Committed t) ∧ c ≤ t.cur

theorem Good.congr {d : Disk K V} {ren : List (FsOp K V)} {bs ds : List (Block K V)} {c : Nat}
    {C C' : Entry K V → Prop} (g : Good d ren bs ds c C) (h : ∀ e, C e ↔ C' e) :
    Good d ren bs ds c C' := by
  have : C = C' := funext fun e => propext (h e)
  rw [← this]; exact g

theorem Recov.congr {d : Disk K V} {t t' : Table K V} (g : Recov d t)
    (h : ∀ e, Committed t e ↔ Committed t' e) (hc : t.cur ≤ t'.cur) : Recov d t' := by
  obtain ⟨ren, bs, ds, c, g, hle⟩ := g
  exact ⟨ren, bs, ds, c, g.congr h, Nat.le_trans hle hc⟩

theorem blkTop_le_cur {t : Table K V} (hi : Inv t) : blkTop t.blocks ≤ t.cur := blkTop_le hi.blkCur

/-- Every version that occurs in the log is known to the table. -/
theorem DiskInv.ent_le {t : Table K V} {d : Disk K V} (hi : Inv t) (h : DiskInv t d) :
    ∀ e ∈ ent (d.log ++ d.buf), e.ver ≤ t.cur := by
  intro e he
  obtain ⟨x, h1, h2⟩ := exists_live he
  have h3 := h.logAll x h1
  have : x.ver ≤ t.cur := by
    simp only [Table.all, List.mem_append, allB, List.mem_flatMap] at h3
    rcases h3 with h3 | ⟨b, hb, h3⟩
    · exact hi.memCur x h3
    · have := (hi.blocks b hb).leMax x h3
      have := hi.blkCur b hb
      omega
  rw [h2.2] at *
  omega

/-- A crash between two calls, with the version found afterwards. -/
theorem idle_good {t : Table K V} {d : Disk K V} (hi : Inv t) (h : DiskInv t d) (n : Nat) :
    ∃ c, Good (d.crash n) [] t.blocks [] c (Committed t) ∧ c ≤ t.cur ∧
      (lastCmd (d.crash n).log ≠ none → c = t.cur) := by
  have hlog : (d.crash n).log = d.log ++ d.buf.take n := rfl
  -- facts about the surviving log
  have key : (lastCmd (d.crash n).log = some t.cur ∨
        (lastCmd (d.crash n).log = none ∧ ∀ e ∈ t.mem, e.ver = t.cur)) ∧
      (∀ e ∈ ent (d.crash n).log, e.ver ≤ t.cur) ∧
      (∀ e, Live (ent (d.crash n).log) e → e.ver < t.cur → e ∈ t.all) ∧
      (∀ e ∈ t.mem, e.ver < t.cur → Live (ent (d.crash n).log) e) := by
    rw [hlog]
    rcases h.bufOK with hb | ⟨hl, ps, hb, hps⟩
    · obtain ⟨a1, a2, a3, a4⟩ := puts_log (l := d.log) (ps := d.buf.take n) (c := t.cur)
        (fun r hr => hb r (List.mem_of_mem_take hr))
      obtain ⟨b1, b2, b3, b4⟩ := puts_log (l := d.log) (ps := d.buf) (c := t.cur) hb
      refine ⟨?_, ?_, ?_, ?_⟩
      · rw [a1, ← b1]; exact h.cmd
      · intro e he
        rcases a3 e he with he | he
        · exact h.ent_le hi e (b4 e he)
        · omega
      · intro e he hv
        exact h.logAll e ((b2 e (by omega)).2 ((a2 e (by omega)).1 he))
      · intro e he hv
        exact (a2 e (by omega)).2 ((b2 e (by omega)).1 (h.logMem e he))
    · have hmem : ∀ e ∈ t.mem, e.ver = t.cur := by
        intro e he
        have h1 := h.logMem e he
        rw [hl, hb, List.nil_append] at h1
        obtain ⟨_, _, b3, _⟩ := puts_log (l := [Rec.reset t.cur]) (ps := ps) (c := t.cur) hps
        rcases b3 e (live_mem h1) with h2 | h2
        · simp [ent, replay, replayStep] at h2
        · exact h2
      cases n with
      | zero =>
        rw [hl, List.take_zero, List.append_nil]
        refine ⟨Or.inr ⟨rfl, hmem⟩, ?_, ?_, ?_⟩
        · intro e he; simp [ent, replay] at he
        · intro e he; have := live_mem he; simp [ent, replay] at this
        · intro e he hv; have := hmem e he; omega
      | succ n =>
        rw [hl, hb, List.take_succ_cons, List.nil_append]
        obtain ⟨b1, b2, b3, _⟩ := puts_log (l := [Rec.reset t.cur]) (ps := ps.take n) (c := t.cur)
          (fun r hr => hps r (List.mem_of_mem_take hr))
        have b3' : ∀ e ∈ ent (Rec.reset t.cur :: ps.take n), e.ver = t.cur := by
          intro e he
          rcases b3 e he with h2 | h2
          · simp [ent, replay, replayStep] at h2
          · exact h2
        refine ⟨Or.inl (b1.trans rfl), ?_, ?_, ?_⟩
        · intro e he; rw [b3' e he]; exact Nat.le_refl _
        · intro e he hv; have := b3' e (live_mem he); omega
        · intro e he hv; have := hmem e he; omega
  obtain ⟨k1, k2, k3, k4⟩ := key
  have hcl : t.cur ≤ u32max - 1 := by have := hi.curLt; omega
  have htop := blkTop_le_cur hi
  obtain ⟨c, hc⟩ : ∃ c, c = (lastCmd (d.crash n).log).getD (blkTop t.blocks) := ⟨_, rfl⟩
  have hcle : c ≤ t.cur := by
    rw [hc]
    rcases k1 with k1 | ⟨k1, _⟩ <;> rw [k1] <;> simp [htop]
  refine ⟨c, ?_, hcle, ?_⟩
  · refine good_of_files (load_plain h.files.perm h.files.nodup hi.blocks hi.ranges) ?_ (by simp)
      rfl ⟨⟨?_, ?_, by omega, ?_, ?_, ?_⟩, hc.symm⟩
    · intro q hq
      change q ∈ d.tmps at hq
      rw [h.tmps] at hq; cases hq
    · intro b hb; have := hi.blkCur b hb; omega
    · intro e he; have := k2 e he; omega
    · intro e he hv
      exact ⟨by simp [Table.all, he], by omega⟩
    · intro e he hv
      exact ⟨k3 e he (by omega), by omega⟩
    · rintro e ⟨h1, h2⟩
      simp only [Table.all, List.mem_append] at h1
      rcases h1 with h1 | h1
      · have hcc : c = t.cur := by
          rw [hc]
          rcases k1 with k1 | ⟨_, k1⟩
          · rw [k1]; rfl
          · have := k1 e h1; omega
        refine ⟨by omega, Or.inr ⟨k4 e h1 h2, ?_⟩⟩
        exact blkTop_le (fun b hb => hi.above b hb e h1)
      · refine ⟨?_, Or.inl h1⟩
        rw [hc]
        rcases k1 with k1 | ⟨k1, _⟩
        · rw [k1]; exact h2
        · rw [k1]
          obtain ⟨b, hb, he⟩ := List.mem_flatMap.1 h1
          have := lt_blkTop hi.blocks hi.ranges hb
          have := (hi.blocks b hb).leMax e he
          show e.ver < blkTop t.blocks
          omega
  · intro hne
    rw [hc]
    rcases k1 with k1 | ⟨k1, _⟩
    · rw [k1]; rfl
    · exact absurd k1 hne

theorem idle_recov {t : Table K V} {d : Disk K V} (hi : Inv t) (h : DiskInv t d) (n : Nat) :
    Recov (d.crash n) t := by
  obtain ⟨c, h1, h2, _⟩ := idle_good hi h n
  exact ⟨_, _, _, c, h1, h2⟩

theorem take_beyond {α : Type} {l : List α} {k : Nat} (h : l.length ≤ k) : l.take k = l :=
  List.take_of_length_le h

/-! ### insert -/

theorem insert_disk {o : Options K V} {t : Table K V} {d : Disk K V} (hi : Inv t) (h : DiskInv t d)
    (e : Entry K V) (hv : e.ver = t.cur) :
    DiskInv (t.insertEntry o e) (d.step (.logWrite (.put e))) := by
  have hab : ∀ b ∈ t.blocks, b.maxV < e.ver := fun b hb => by rw [hv]; exact hi.blkCur b hb
  have hlog : (d.step (.logWrite (.put e))).log ++ (d.step (.logWrite (.put e))).buf =
      (d.log ++ d.buf) ++ [.put e] := by
    simp [Disk.step, List.append_assoc]
  refine ⟨⟨h.files.perm, h.files.nodup, h.files.lt⟩, h.tmps, ?_, ?_, ?_, ?_⟩
  · intro x hx
    rw [hlog, ent_snoc]
    dsimp only
    rw [live_mmInsert (mono_ent _)]
    rcases (mem_memInsert hi.mem.sorted).1 hx with rfl | ⟨h1, h2⟩
    · exact Or.inl rfl
    · exact Or.inr ⟨h.logMem x h1, h2⟩
  · intro x hx
    rw [hlog, ent_snoc] at hx
    dsimp only at hx
    rw [live_mmInsert (mono_ent _)] at hx
    rw [insertEntry_all hi _ hab]
    rcases hx with rfl | ⟨h1, h2⟩
    · exact Or.inl rfl
    · exact Or.inr ⟨h.logAll x h1, h2⟩
  · rw [hlog, lastCmd_snoc]
    dsimp only
    rcases h.cmd with h1 | ⟨h1, h2⟩
    · exact Or.inl h1
    · refine Or.inr ⟨h1, ?_⟩
      intro x hx
      rcases (mem_memInsert hi.mem.sorted).1 hx with rfl | ⟨h3, _⟩
      · exact hv
      · exact h2 x h3
  · rcases h.bufOK with h1 | ⟨h1, ps, h2, h3⟩
    · left
      intro r hr
      change r ∈ d.buf ++ [.put e] at hr
      rw [List.mem_append] at hr
      rcases hr with hr | hr
      · exact h1 r hr
      · simp at hr; exact ⟨e, hr, hv⟩
    · right
      refine ⟨h1, ps ++ [.put e], ?_, ?_⟩
      · show d.buf ++ [.put e] = _
        rw [h2]; rfl
      · intro r hr
        rw [List.mem_append] at hr
        rcases hr with hr | hr
        · exact h3 r hr
        · simp at hr; exact ⟨e, hr, hv⟩

/-! ### flush -/

theorem DiskInv.trunc {t : Table K V} {d : Disk K V} (h : DiskInv t d) (hm : t.mem = []) :
    DiskInv t (d.step .logTrunc) := by
  refine ⟨⟨h.files.perm, h.files.nodup, h.files.lt⟩, h.tmps, by rw [hm]; simp, ?_, Or.inr ⟨rfl, by rw [hm]; simp⟩, Or.inl ?_⟩
  · intro e he
    have := live_mem he
    simp [Disk.step, ent, replay] at this
  · intro r hr; simp [Disk.step] at hr

theorem flush_crash {o : Options K V} {t : Table K V} {d : Disk K V} (hi : Inv t)
    (h : DiskInv t d) (hc : ∀ e ∈ t.mem, e.ver < t.cur) :
    DiskInv (t.flush o).tab (d.run (t.flush o).ops) ∧
    ∀ k n, (k < (t.flush o).ops.length → NoDouble (d.run ((t.flush o).ops.take k)).files) →
      Recov ((d.run ((t.flush o).ops.take k)).crash n) t := by
  unfold Table.flush
  split
  · exact ⟨h, fun k n _ => by rw [List.take_nil]; exact idle_recov hi h n⟩
  · dsimp only
    split
    · rename_i hm
      have hm : t.mem = [] := by simpa using hm
      have h1 := h.trunc hm
      have h2 : DiskInv { t with lastFlush := t.cur }
          (d.run [.logTrunc, .logWrite (.reset t.cur)]) := by
        refine ⟨⟨h.files.perm, h.files.nodup, h.files.lt⟩, h.tmps, by simp [hm], ?_, Or.inl rfl, Or.inr ⟨rfl, [], rfl, by simp⟩⟩
        intro e he
        have := live_mem he
        simp [Disk.run, Disk.step, ent, replay, replayStep] at this
      refine ⟨h2, fun k n _ => ?_⟩
      match k with
      | 0 => exact idle_recov hi h n
      | 1 => exact idle_recov hi h1 n
      | k + 2 =>
        rw [take_beyond (by simp)]
        have hi2 : Inv { t with lastFlush := t.cur } :=
          ⟨hi.mem, hi.blocks, hi.ranges, hi.above, hi.memCur, hi.blkCur, hi.curLt⟩
        exact idle_recov hi2 h2 n
    · rename_i hne
      have hne : t.mem ≠ [] := by simpa using hne
      obtain ⟨b, hbdef⟩ : ∃ b, b = mkBlock t.nextId 0 (minVersion t.mem) t.mem := ⟨_, rfl⟩
      rw [← hbdef]
      obtain ⟨t2, ht2⟩ : ∃ t2 : Table K V, t2 = { t with
          lastFlush := t.cur, nextId := t.nextId + 1, idx := [], mem := [],
          blocks := t.blocks ++ [b], size := 0 } := ⟨_, rfl⟩
      have hb := mkBlock_ok hi.mem.sorted hne
        (fun e he => Nat.lt_of_le_of_lt (hi.memCur e he) hi.curLt) t.nextId 0
      rw [← hbdef] at hb
      have hbe : b.entries = t.mem := by rw [hbdef]; rfl
      have hbid : b.id = t.nextId := by rw [hbdef]; rfl
      obtain ⟨em, hem, hemv⟩ := hb.minAtt
      obtain ⟨ex, hex, hexv⟩ := hb.maxAtt
      rw [hbe] at hem hex
      have hi2 : Inv t2 := by
        rw [ht2]
        refine ⟨memOK_nil, ?_, ?_, ?_, ?_, ?_, hi.curLt⟩
        · intro x hx
          rw [List.mem_append] at hx
          rcases hx with hx | hx
          · exact hi.blocks x hx
          · simp at hx; rw [hx]; exact hb
        · refine List.pairwise_append.2 ⟨hi.ranges, List.pairwise_singleton _ _, ?_⟩
          intro x hx y hy
          simp at hy
          rw [hy, ← hemv]
          exact hi.above x hx em hem
        · intro b _ e he; cases he
        · intro e he; cases he
        · intro x hx
          rw [List.mem_append] at hx
          rcases hx with hx | hx
          · exact hi.blkCur x hx
          · simp at hx
            rw [hx, ← hexv]
            exact hc ex hex
      have hall2 : ∀ e, e ∈ t2.all ↔ e ∈ t.all := by
        intro e
        rw [ht2]
        simp only [Table.all, allB, List.flatMap_append, List.flatMap_cons, List.flatMap_nil,
          List.append_nil, List.nil_append, List.mem_append, hbe]
        exact Or.comm
      have hcur2 : t2.cur = t.cur := by rw [ht2]
      have hcom2 : ∀ e, Committed t2 e ↔ Committed t e := by
        intro e; unfold Committed; rw [hall2, hcur2]
      have hd1 : DiskInv t2 (d.step (.install b)) := by
        refine ⟨⟨?_, ?_, ?_⟩, h.tmps, by rw [ht2]; simp, ?_, ?_, ?_⟩
        · rw [ht2]; exact h.files.perm.append_right _
        · rw [ht2]
          rw [List.map_append, List.nodup_append]
          refine ⟨h.files.nodup, by simp, ?_⟩
          intro a ha x hx
          simp at hx
          obtain ⟨y, hy, rfl⟩ := List.mem_map.1 ha
          have := h.files.lt y hy
          show y.id ≠ x
          rw [hx, hbid]; omega
        · rw [ht2]
          intro x hx
          rw [List.mem_append] at hx
          dsimp only
          rcases hx with hx | hx
          · have := h.files.lt x hx; omega
          · simp at hx; rw [hx, hbid]; omega
        · intro e he; rw [hall2]; exact h.logAll e he
        · rw [hcur2]
          rcases h.cmd with h1 | ⟨h1, _⟩
          · exact Or.inl h1
          · exact Or.inr ⟨h1, by rw [ht2]; simp⟩
        · rw [hcur2]; exact h.bufOK
      have hd2 := hd1.trunc (by rw [ht2])
      rw [← ht2, show (t.blocks ++ [b]).length = t2.blocks.length by rw [ht2]]
      obtain ⟨d2, hd2e⟩ : ∃ d2, d2 = (d.step (.install b)).step .logTrunc := ⟨_, rfl⟩
      rw [← hd2e] at hd2
      have hb2 : d2.buf = [] := by rw [hd2e]; rfl
      have hl2 : d2.log = [] := by rw [hd2e]; rfl
      obtain ⟨w1, w2⟩ := checkRewrite_inv o t2.blocks.length t2 hi2
      obtain ⟨v1, v2, v3, v4⟩ := checkRewrite_files o t2.blocks.length t2 d2 hd2.files hi2.blocks
        hi2.ranges (fun b hb => Nat.lt_trans (hi2.blkCur b hb) hi2.curLt)
      obtain ⟨f1, _, f3, f4, _⟩ := checkRewrite_fields o t2.blocks.length t2
      refine ⟨?_, ?_⟩
      · rw [run_cons, run_cons, ← hd2e]
        refine ⟨v1, by rw [v2, hd2.tmps], ?_, ?_, ?_, ?_⟩
        · rw [f1, ht2]; simp
        · rw [v3, v4]
          intro e he
          rw [w2.mem_iff]; exact hd2.logAll e he
        · rw [v3, v4, f1, f3]; exact hd2.cmd
        · rw [v3, v4, f3]; exact hd2.bufOK
      · intro k n hg
        match k, hg with
        | 0, _ => exact idle_recov hi h n
        | 1, _ => exact (idle_recov hi2 hd1 n).congr hcom2 (by omega)
        | k + 2, hg =>
          rw [List.take_succ_cons, List.take_succ_cons, run_cons, run_cons, ← hd2e] at hg ⊢
          obtain ⟨bs5, ds5, z1, _⟩ := checkRewrite_prefix o t2.blocks.length t2 d2 hd2.files
            hi2.blocks hi2.ranges (fun b hb => Nat.lt_trans (hi2.blkCur b hb) hi2.curLt) k
            (fun hk => hg (by simp; omega))
          have hb5 := z1.buf
          rw [hb2] at hb5
          rw [crash_of_buf_nil hb5]
          obtain ⟨c, g1, g2, _⟩ := idle_good hi2 hd2 0
          rw [crash_of_buf_nil hb2] at g1
          refine Recov.congr (t := t2) ⟨[], bs5, ds5, c, ?_, g2⟩ hcom2 (by omega)
          refine good_of_files z1.load ?_ z1.dlen hb5 ?_
          · rw [z1.tmps, hd2.tmps]; intro q hq; cases hq
          · rw [z1.log]
            exact g1.content.same z1.same z1.top z1.maxs

/-! ### commit -/

theorem commit_disk {t : Table K V} {d : Disk K V} (h : DiskInv t d) (v : Nat) :
    DiskInv { t with cur := v } (d.run [.logWrite (.commit v), .logFlush]) := by
  have hlog : (d.run [.logWrite (.commit v), .logFlush]).log ++
      (d.run [.logWrite (.commit v), .logFlush]).buf = (d.log ++ d.buf) ++ [.commit v] := by
    simp [Disk.run, Disk.step, List.append_assoc]
  refine ⟨⟨h.files.perm, h.files.nodup, h.files.lt⟩, h.tmps, ?_, ?_, ?_, Or.inl ?_⟩
  · rw [hlog, ent_snoc]; exact h.logMem
  · rw [hlog, ent_snoc]; exact h.logAll
  · left; rw [hlog, lastCmd_snoc]
  · intro r hr; simp [Disk.run, Disk.step] at hr

/-- Crash between `logWrite r` and `logFlush`. -/
theorem crash_one {d : Disk K V} (r : Rec K V) (n : Nat) :
    (d.run [.logWrite r]).crash n =
      if d.buf.length < n then d.run [.logWrite r, .logFlush] else d.crash n := by
  simp only [Disk.run, List.foldl_cons, List.foldl_nil, Disk.step, Disk.crash]
  split
  · rw [List.take_of_length_le (by simp; omega)]
  · rw [List.take_append_of_le_length (by omega)]

theorem commit_crash {o : Options K V} {t : Table K V} {d : Disk K V} (hi : Inv t)
    (h : DiskInv t d) {v : Nat} (a : Bool) (hv : t.cur < v) (hm : v < u32max) :
    DiskInv (t.commit o v a).tab (d.run (t.commit o v a).ops) ∧
    ∀ k n, (k < (t.commit o v a).ops.length → NoDouble (d.run ((t.commit o v a).ops.take k)).files) →
      Recov ((d.run ((t.commit o v a).ops.take k)).crash n)
        (if durable k n d.buf.length then (t.commit o v a).tab else t) := by
  obtain ⟨t1, ht1⟩ : ∃ t1 : Table K V, t1 = { t with cur := v } := ⟨_, rfl⟩
  have hi1 : Inv t1 := by
    rw [ht1]
    exact ⟨hi.mem, hi.blocks, hi.ranges, hi.above,
      fun e he => Nat.le_trans (hi.memCur e he) (Nat.le_of_lt hv),
      fun b hb => Nat.lt_trans (hi.blkCur b hb) hv, hm⟩
  have h1 := commit_disk h v
  rw [← ht1] at h1
  have hc1 : ∀ e ∈ t1.mem, e.ver < t1.cur := by
    rw [ht1]
    exact fun e he => Nat.lt_of_le_of_lt (hi.memCur e he) hv
  have hb1 : (d.run [FsOp.logWrite (Rec.commit v), .logFlush]).buf = [] := rfl
  -- a uniform description of the call
  obtain ⟨r, hr, hp, hcu, hD, hR⟩ : ∃ r : Out K V, t.commit o v a =
      { tab := r.tab, ops := [.logWrite (.commit v), .logFlush] ++ r.ops, threw := r.threw } ∧
      r.tab.all.Perm t1.all ∧ r.tab.cur = t1.cur ∧
      DiskInv r.tab ((d.run [.logWrite (.commit v), .logFlush]).run r.ops) ∧
      ∀ k n, (k < r.ops.length → NoDouble
        ((d.run [.logWrite (.commit v), .logFlush]).run (r.ops.take k)).files) →
        Recov (((d.run [.logWrite (.commit v), .logFlush]).run (r.ops.take k)).crash n) t1 := by
    unfold Table.commit
    rw [if_neg (by omega), if_neg (by omega)]
    dsimp only
    rw [← ht1]
    split
    · obtain ⟨g1, g2⟩ := flush_crash (o := o) hi1 h1 hc1
      obtain ⟨_, f2, f3, _⟩ := flush_inv (o := o) hi1 hc1
      exact ⟨t1.flush o, rfl, f2, f3, g1, g2⟩
    · refine ⟨{ tab := t1, ops := [], threw := false }, rfl, List.Perm.refl _, rfl, h1, ?_⟩
      intro k n _
      rw [List.take_nil]
      exact idle_recov hi1 h1 n
  rw [hr]
  dsimp only
  have hcom : ∀ e, Committed t1 e ↔ Committed r.tab e := by
    intro e; unfold Committed; rw [hp.mem_iff, hcu]
  refine ⟨by rw [run_append]; exact hD, ?_⟩
  intro k n hg
  match k, hg with
  | 0, _ =>
    have : durable 0 n d.buf.length = false := by simp [durable]
    rw [this]
    exact idle_recov hi h n
  | 1, _ =>
    rw [List.cons_append, List.take_succ_cons, List.take_zero, crash_one]
    by_cases hn : d.buf.length < n
    · have : durable 1 n d.buf.length = true := by simp [durable, hn]
      rw [this, if_pos hn, if_pos rfl]
      have := idle_recov hi1 h1 0
      rw [crash_of_buf_nil hb1] at this
      exact this.congr hcom (by omega)
    · have : durable 1 n d.buf.length = false := by simp [durable]; omega
      rw [this, if_neg hn]
      exact idle_recov hi h n
  | k + 2, hg =>
    have : durable (k + 2) n d.buf.length = true := by simp [durable]
    rw [this, if_pos rfl]
    have htk : ([FsOp.logWrite (Rec.commit v), .logFlush] ++ r.ops).take (k + 2) =
        [.logWrite (.commit v), .logFlush] ++ r.ops.take k := rfl
    rw [htk, run_append] at hg ⊢
    exact (hR k n (fun hk => hg (by simp; omega))).congr hcom (by omega)

/-! ### revert -/

theorem revert_crash {o : Options K V} {t : Table K V} {d : Disk K V} (hi : Inv t)
    (h : DiskInv t d) {v : Nat} (hl : t.writeLock = 0) (hv : v ≤ t.cur) :
    DiskInv (t.revert o v).tab (d.run (t.revert o v).ops) ∧
    ∀ k n, Recov ((d.run ((t.revert o v).ops.take k)).crash n)
        (if durable k n d.buf.length then (t.revert o v).tab else t) := by
  obtain ⟨r1, r2, r3, r4⟩ := revert_inv (o := o) hi v hl hv
  have hrun : (t.revert o v).tab.blocks = (Table.revertBlocks v t.blocks).1 ∧
      (t.revert o v).tab.nextId = t.nextId ∧
      (t.revert o v).tab.mem = t.mem.filter (fun e => decide (e.ver < v)) ∧
      (t.revert o v).ops = .logWrite (.revert v) :: .logFlush ::
        (Table.revertBlocks v t.blocks).2 := by
    unfold Table.revert
    rw [if_neg (by omega), if_neg (by omega)]
    exact ⟨rfl, rfl, rfl, rfl⟩
  obtain ⟨u1, u2, u3, u4⟩ := hrun
  obtain ⟨d1, hd1⟩ : ∃ d1, d1 = d.run [.logWrite (.revert v), .logFlush] := ⟨_, rfl⟩
  have hd1' : d1 = { d with log := (d.log ++ d.buf) ++ [.revert v], buf := [] } := by
    rw [hd1]; simp [Disk.run, Disk.step, List.append_assoc]
  have hcur : t.cur ≤ u32max - 1 := by have := hi.curLt; omega
  have hcom : ∀ e, Committed (t.revert o v).tab e ↔ e ∈ t.all ∧ e.ver < v := by
    intro e
    unfold Committed
    rw [r2, r3]
    exact ⟨fun h => h.1, fun h => ⟨h, h.2⟩⟩
  have hC0 : Content0 (d.log ++ d.buf) t.blocks v (Committed (t.revert o v).tab) := by
    refine ⟨?_, ?_, by omega, ?_, ?_, ?_⟩
    · intro b hb; have := hi.blkCur b hb; omega
    · intro e he; have := h.ent_le hi e he; omega
    · intro e he hlt
      rw [hcom]
      exact ⟨by simp [Table.all, he], hlt⟩
    · intro e he hlt
      rw [hcom]
      exact ⟨h.logAll e he, hlt⟩
    · intro e he
      rw [hcom] at he
      refine ⟨he.2, ?_⟩
      have := he.1
      simp only [Table.all, List.mem_append] at this
      rcases this with h1 | h1
      · exact Or.inr ⟨h.logMem e h1, blkTop_le (fun b hb => hi.above b hb e h1)⟩
      · exact Or.inl h1
  have hpre := fun k => revertBlocks_prefix v t.blocks [] d1 (by rw [hd1']; exact h.files.perm)
    (by simpa using h.files.nodup)
    (by rw [hd1']; intro q hq; change q ∈ d.tmps at hq; rw [h.tmps] at hq; cases hq) k
  have hgood : ∀ i, Recov (d1.run ((Table.revertBlocks v t.blocks).2.take i)) (t.revert o v).tab := by
    intro i
    obtain ⟨mid, ren5, z1, _⟩ := hpre i
    obtain ⟨y1, y2, _, _, y5⟩ := z1.rmid.spec hi.blocks hi.ranges
    have hb5 : (d1.run ((Table.revertBlocks v t.blocks).2.take i)).buf = [] := by
      rw [z1.buf.1, hd1']
    refine ⟨ren5, mid, [], v, ⟨z1.recov, load_plain (by simpa using z1.files)
      (List.Nodup.sublist y5 h.files.nodup) (fun b hb => (y1 b hb).1) y2, z1.stale, z1.len, by simp,
      by rw [z1.log.1, z1.log.2], ⟨hb5, by rw [z1.buf.2, hd1']⟩, ?_⟩, Nat.le_of_eq r3.symm⟩
    rw [z1.log.1, hd1']
    exact hC0.revert hi.blocks hi.ranges z1.rmid
  refine ⟨?_, ?_⟩
  · obtain ⟨mid, ren4, p1, p2⟩ := hpre (Table.revertBlocks v t.blocks).2.length
    rw [List.take_length] at p1 p2
    obtain ⟨rfl, rfl, p3⟩ := p2 (Nat.le_refl _)
    obtain ⟨q1, q2, q3, q4, q5⟩ := p1.rmid.spec hi.blocks hi.ranges
    have hent : ent ((d.log ++ d.buf) ++ [Rec.revert v]) =
        (ent (d.log ++ d.buf)).filter fun e => decide (e.ver < v) := by rw [ent_snoc]
    have hl' : (d1.run (Table.revertBlocks v t.blocks).2).log ++
        (d1.run (Table.revertBlocks v t.blocks).2).buf = (d.log ++ d.buf) ++ [.revert v] := by
      rw [p1.log.1, p1.buf.1, hd1']; simp
    rw [u4, show (FsOp.logWrite (Rec.revert v) :: FsOp.logFlush ::
      (Table.revertBlocks v t.blocks).2) = [FsOp.logWrite (Rec.revert v), FsOp.logFlush] ++
        (Table.revertBlocks v t.blocks).2 from rfl, run_append, ← hd1]
    refine ⟨?_, p3, ?_, ?_, ?_, ?_⟩
    · rw [u1, u2]
      refine ⟨by simpa [Disk.run] using p1.files, List.Nodup.sublist q5 h.files.nodup, ?_⟩
      intro b hb
      obtain ⟨_, b0, h0, h1, _⟩ := q1 b hb
      rw [← h1]
      exact h.files.lt b0 h0
    · rw [hl', u3, hent]
      intro e he
      obtain ⟨h1, h2⟩ := mem_filter_ver.1 he
      rw [live_filter]
      exact ⟨h.logMem e h1, h2⟩
    · rw [hl', hent]
      intro e he
      rw [live_filter] at he
      rw [r2]
      exact ⟨h.logAll e he.1, he.2⟩
    · left
      rw [hl', lastCmd_snoc, r3]
    · left
      rw [p1.buf.1, hd1']; simp
  · intro k n
    rw [u4]
    match k with
    | 0 =>
      have : durable 0 n d.buf.length = false := by simp [durable]
      rw [this]
      exact idle_recov hi h n
    | 1 =>
      rw [List.take_succ_cons, List.take_zero, crash_one]
      by_cases hn : d.buf.length < n
      · have : durable 1 n d.buf.length = true := by simp [durable, hn]
        rw [this, if_pos hn, if_pos rfl, ← hd1]
        exact hgood 0
      · have : durable 1 n d.buf.length = false := by simp [durable]; omega
        rw [this, if_neg hn]
        exact idle_recov hi h n
    | k + 2 =>
      have : durable (k + 2) n d.buf.length = true := by simp [durable]
      rw [this, if_pos rfl]
      have htk : (FsOp.logWrite (Rec.revert v) :: FsOp.logFlush ::
          (Table.revertBlocks v t.blocks).2).take (k + 2) =
          [.logWrite (.revert v), .logFlush] ++ (Table.revertBlocks v t.blocks).2.take k := rfl
      rw [htk, run_append, ← hd1]
      have hb5 : (d1.run ((Table.revertBlocks v t.blocks).2.take k)).buf = [] := by
        obtain ⟨mid, ren5, z1, _⟩ := hpre k
        rw [z1.buf.1, hd1']
      rw [crash_of_buf_nil hb5]
      exact hgood k

/-! ### all calls -/

theorem apply_crash {o : Options K V} {t : Table K V} {d : Disk K V} (hi : Inv t)
    (h : DiskInv t d) (op : Op K V) (hc : op = .flush → ∀ e ∈ t.mem, e.ver < t.cur) :
    DiskInv (t.apply o op).tab (d.run (t.apply o op).ops) ∧
    ∀ k n, (k < (t.apply o op).ops.length → NoDouble (d.run ((t.apply o op).ops.take k)).files) →
      Recov ((d.run ((t.apply o op).ops.take k)).crash n)
        (if durable k n d.buf.length then (t.apply o op).tab else t) := by
  have nothing : ∀ t' : Table K V, Inv t' → DiskInv t' d → (∀ e, Committed t' e ↔ Committed t e) →
      t'.cur = t.cur → DiskInv t' (d.run []) ∧ ∀ k n,
      (k < ([] : List (FsOp K V)).length → NoDouble (d.run (([] : List (FsOp K V)).take k)).files) →
      Recov ((d.run (([] : List (FsOp K V)).take k)).crash n)
        (if durable k n d.buf.length then t' else t) := by
    intro t' hi' h' hcom hcu
    refine ⟨h', fun k n _ => ?_⟩
    rw [List.take_nil]
    have := idle_recov hi' h' n
    split
    · exact this
    · exact this.congr hcom (by omega)
  cases op with
  | insert k v =>
    simp only [Table.apply, Table.insert]
    split
    · exact nothing t hi h (fun _ => Iff.rfl) rfl
    · dsimp only
      have hab : ∀ b ∈ t.blocks, b.maxV < t.cur := hi.blkCur
      have hi' : Inv (t.insertEntry o { key := k, ver := t.cur, val := v }) :=
        insertEntry_inv hi _ (fun x hx _ => hi.memCur x hx) (Nat.le_refl _) hab
      have h' := insert_disk (o := o) hi h { key := k, ver := t.cur, val := v } rfl
      have hcom : ∀ e, Committed (t.insertEntry o { key := k, ver := t.cur, val := v }) e ↔
          Committed t e := by
        intro e
        unfold Committed
        rw [insertEntry_all hi _ hab]
        change (_ ∧ e.ver < t.cur) ↔ _
        constructor
        · rintro ⟨rfl | h1, h2⟩
          · exact absurd h2 (Nat.lt_irrefl _)
          · exact ⟨h1.1, h2⟩
        · rintro ⟨h1, h2⟩
          refine ⟨Or.inr ⟨h1, fun hs => ?_⟩, h2⟩
          have := hs.2
          dsimp only at this
          omega
      refine ⟨h', fun p n _ => ?_⟩
      have hcur : (t.insertEntry o { key := k, ver := t.cur, val := v }).cur = t.cur := rfl
      match p with
      | 0 =>
        have : durable 0 n d.buf.length = false := by simp [durable]
        rw [this]
        exact idle_recov hi h n
      | p + 1 =>
        rw [take_beyond (by simp)]
        have := idle_recov hi' h' n
        split
        · exact this
        · exact this.congr hcom (by omega)
  | commit v a =>
    simp only [Table.apply]
    by_cases hv : t.cur < v ∧ v < u32max
    · exact commit_crash hi h a hv.1 hv.2
    · obtain ⟨c1, c2, _⟩ := commit_refused (o := o) (t := t) v a hv
      rw [c1, c2]
      exact nothing t hi h (fun _ => Iff.rfl) rfl
  | flush =>
    simp only [Table.apply]
    obtain ⟨g1, g2⟩ := flush_crash (o := o) hi h (hc rfl)
    obtain ⟨_, f2, f3, _⟩ := flush_inv (o := o) hi (hc rfl)
    refine ⟨g1, fun k n hg => ?_⟩
    have := g2 k n hg
    split
    · refine this.congr (fun e => ?_) (by omega)
      unfold Committed; rw [f2.mem_iff, f3]
    · exact this
  | revert v =>
    simp only [Table.apply]
    by_cases hv : t.writeLock = 0 ∧ v ≤ t.cur
    · obtain ⟨g1, g2⟩ := revert_crash (o := o) hi h hv.1 hv.2
      exact ⟨g1, fun k n _ => g2 k n⟩
    · obtain ⟨c1, c2, _⟩ := revert_refused (o := o) (t := t) v hv
      rw [c1, c2]
      exact nothing t hi h (fun _ => Iff.rfl) rfl
  | iterOpen =>
    exact nothing _ ⟨hi.mem, hi.blocks, hi.ranges, hi.above, hi.memCur, hi.blkCur, hi.curLt⟩
      ⟨h.files, h.tmps, h.logMem, h.logAll, h.cmd, h.bufOK⟩ (fun _ => Iff.rfl) rfl
  | iterClose =>
    exact nothing _ ⟨hi.mem, hi.blocks, hi.ranges, hi.above, hi.memCur, hi.blkCur, hi.curLt⟩
      ⟨h.files, h.tmps, h.logMem, h.logAll, h.cmd, h.bufOK⟩ (fun _ => Iff.rfl) rfl

end Verif.DB
