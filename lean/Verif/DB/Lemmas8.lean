import Verif.DB.Lemmas7

/-!
# Every prefix of the file operations of a revert, and of opening a table
-/

set_option linter.unusedSectionVars false

namespace Verif.DB

variable {K V : Type} [LinearOrder K]

theorem recoverTmps_all (files : List (Block K V)) (tmps : List (Nat × Option (Block K V)))
    (h : ∀ q ∈ tmps, ∃ f ∈ files, f.id = q.1) : recoverTmps files tmps = some (files, []) := by
  induction tmps with
  | nil => rfl
  | cons q tmps ih =>
    obtain ⟨id, b⟩ := q
    unfold recoverTmps
    have : files.any (fun f => decide (f.id = id)) = true := by
      obtain ⟨f, hf, he⟩ := h (id, b) (by simp)
      exact List.any_eq_true.2 ⟨f, hf, by simpa using he⟩
    rw [if_pos this]
    exact ih (fun q hq => h q (by simp [hq]))

/-- Blocks found on disk at some point inside `revert(v)`: each block is still there, already
trimmed, or already deleted. -/
inductive RevMid (v : Nat) : List (Block K V) → List (Block K V) → Prop
  | nil : RevMid v [] []
  | keep (b : Block K V) {bs mid} : RevMid v bs mid → RevMid v (b :: bs) (b :: mid)
  | drop (b : Block K V) {bs mid} : v ≤ b.minV → RevMid v bs mid → RevMid v (b :: bs) mid
  | trim (b : Block K V) {bs mid} : b.minV < v → v ≤ b.maxV → RevMid v bs mid →
      RevMid v (b :: bs)
        (mkBlock b.id b.level b.minV (b.entries.filter fun e => decide (e.ver < v)) :: mid)

theorem RevMid.refl (v : Nat) (bs : List (Block K V)) : RevMid v bs bs := by
  induction bs with
  | nil => exact .nil
  | cons b bs ih => exact .keep b ih

theorem trim_ok {b : Block K V} (h : BlockOK b) {v : Nat} (hv : b.minV < v) :
    BlockOK (mkBlock b.id b.level b.minV (b.entries.filter fun e => decide (e.ver < v))) := by
  obtain ⟨e, he, hm⟩ := h.minAtt
  have he' : e ∈ b.entries.filter (fun e => decide (e.ver < v)) := mem_filter_ver.2 ⟨he, by omega⟩
  have hne : b.entries.filter (fun e => decide (e.ver < v)) ≠ [] := List.ne_nil_of_mem he'
  obtain ⟨x, y⟩ := maxVersion_spec hne
  exact ⟨List.Pairwise.filter _ h.sorted, rfl, fun x hx => h.minLe x (mem_filter_ver.1 hx).1, x,
    ⟨e, he', hm⟩, y⟩

theorem trim_max {b : Block K V} (h : BlockOK b) {v : Nat} (hv : b.minV < v) :
    (mkBlock b.id b.level b.minV (b.entries.filter fun e => decide (e.ver < v))).maxV ≤ b.maxV ∧
    (mkBlock b.id b.level b.minV (b.entries.filter fun e => decide (e.ver < v))).maxV < v := by
  obtain ⟨e, he, hm⟩ := (trim_ok h hv).maxAtt
  have he' := mem_filter_ver.1 (show e ∈ b.entries.filter (fun e => decide (e.ver < v)) from he)
  have := h.leMax e he'.1
  omega

theorem RevMid.spec {v : Nat} {bs mid : List (Block K V)} (h : RevMid v bs mid)
    (hok : ∀ b ∈ bs, BlockOK b) (hr : bs.Pairwise (fun a b => a.maxV < b.minV)) :
    (∀ b ∈ mid, BlockOK b ∧ ∃ b0 ∈ bs, b0.id = b.id ∧ b0.minV = b.minV ∧ b.maxV ≤ b0.maxV) ∧
    mid.Pairwise (fun a b => a.maxV < b.minV) ∧
    (∀ e, e ∈ allB mid → e ∈ allB bs) ∧ (∀ e, e ∈ allB bs → e.ver < v → e ∈ allB mid) ∧
    (mid.map (·.id)).Sublist (bs.map (·.id)) := by
  induction h with
  | nil => simp [allB]
  | keep b h ih =>
    rw [List.pairwise_cons] at hr
    obtain ⟨i1, i2, i3, i4, i5⟩ := ih (fun b hb => hok b (List.mem_cons_of_mem _ hb)) hr.2
    refine ⟨?_, ?_, ?_, ?_, ?_⟩
    · intro x hx
      rcases List.mem_cons.1 hx with rfl | hx
      · exact ⟨hok x (by simp), x, by simp, rfl, rfl, Nat.le_refl _⟩
      · obtain ⟨a, b0, c, d⟩ := i1 x hx
        exact ⟨a, b0, List.mem_cons_of_mem _ c, d⟩
    · refine List.pairwise_cons.2 ⟨fun x hx => ?_, i2⟩
      obtain ⟨_, b0, c, _, d, _⟩ := i1 x hx
      rw [← d]; exact hr.1 b0 c
    · intro e he
      simp only [allB, List.flatMap_cons, List.mem_append] at he ⊢
      exact he.imp id (i3 e)
    · intro e he hv
      simp only [allB, List.flatMap_cons, List.mem_append] at he ⊢
      exact he.imp id (fun h => i4 e h hv)
    · rw [List.map_cons, List.map_cons]; exact i5.cons_cons _
  | drop b hv h ih =>
    rw [List.pairwise_cons] at hr
    obtain ⟨i1, i2, i3, i4, i5⟩ := ih (fun b hb => hok b (List.mem_cons_of_mem _ hb)) hr.2
    refine ⟨?_, i2, ?_, ?_, ?_⟩
    · intro x hx
      obtain ⟨a, b0, c, d⟩ := i1 x hx
      exact ⟨a, b0, List.mem_cons_of_mem _ c, d⟩
    · intro e he
      simp only [allB, List.flatMap_cons, List.mem_append]
      exact Or.inr (i3 e he)
    · intro e he hlt
      simp only [allB, List.flatMap_cons, List.mem_append] at he
      rcases he with he | he
      · have := (hok b (by simp)).minLe e he; omega
      · exact i4 e he hlt
    · rw [List.map_cons]; exact i5.cons _
  | trim b h1 h2 h ih =>
    rw [List.pairwise_cons] at hr
    obtain ⟨i1, i2, i3, i4, i5⟩ := ih (fun b hb => hok b (List.mem_cons_of_mem _ hb)) hr.2
    have hb := hok b (by simp)
    have hmx := trim_max hb h1
    refine ⟨?_, ?_, ?_, ?_, ?_⟩
    · intro x hx
      rcases List.mem_cons.1 hx with rfl | hx
      · exact ⟨trim_ok hb h1, b, by simp, rfl, rfl, hmx.1⟩
      · obtain ⟨a, b0, c, d⟩ := i1 x hx
        exact ⟨a, b0, List.mem_cons_of_mem _ c, d⟩
    · refine List.pairwise_cons.2 ⟨fun x hx => ?_, i2⟩
      obtain ⟨_, b0, c, _, d, _⟩ := i1 x hx
      rw [← d]
      exact Nat.lt_of_le_of_lt hmx.1 (hr.1 b0 c)
    · intro e he
      simp only [allB, List.flatMap_cons, List.mem_append] at he ⊢
      rcases he with he | he
      · exact Or.inl (mem_filter_ver.1 (show e ∈ b.entries.filter (fun e => decide (e.ver < v)) from he)).1
      · exact Or.inr (i3 e he)
    · intro e he hv
      simp only [allB, List.flatMap_cons, List.mem_append] at he ⊢
      rcases he with he | he
      · exact Or.inl (show e ∈ b.entries.filter (fun e => decide (e.ver < v)) from mem_filter_ver.2 ⟨he, hv⟩)
      · exact Or.inr (i4 e he hv)
    · rw [List.map_cons, List.map_cons]; exact i5.cons_cons _

/-- A temporary file left over by `revert(v)` belongs to a block that still has to be trimmed. -/
def Stale (v : Nat) (tmps : List (Nat × Option (Block K V))) (bs : List (Block K V)) : Prop :=
  ∀ q ∈ tmps, ∃ b ∈ bs, b.id = q.1 ∧ b.minV < v ∧ v ≤ b.maxV

/-- Situation at some point inside a revert: `d` as found, `ren` the renames a constructor would do. -/
structure RevState (v : Nat) (d0 d : Disk K V) (pre bs mid : List (Block K V))
    (ren : List (FsOp K V)) : Prop where
  recov : recoverTmps d.files d.tmps = some ((d.run ren).files, ren)
  files : (d.run ren).files.Perm (pre ++ mid)
  rmid : RevMid v bs mid
  stale : Stale v (d.run ren).tmps mid
  len : ren.length ≤ 1
  log : d.log = d0.log ∧ (d.run ren).log = d0.log
  buf : d.buf = d0.buf ∧ (d.run ren).buf = d0.buf

theorem revState_of_files {v : Nat} {d0 d : Disk K V} {pre bs mid : List (Block K V)}
    (hf : d.files.Perm (pre ++ mid)) (hm : RevMid v bs mid) (hs : Stale v d.tmps mid)
    (hl : d.log = d0.log) (hb : d.buf = d0.buf) : RevState v d0 d pre bs mid [] := by
  refine ⟨recoverTmps_all _ _ ?_, hf, hm, hs, by simp, ⟨hl, hl⟩, ⟨hb, hb⟩⟩
  intro q hq
  obtain ⟨b, hb, he, _⟩ := hs q hq
  exact ⟨b, hf.mem_iff.2 (by simp [hb]), he⟩

theorem filter_one {files pre bs : List (Block K V)} {b : Block K V}
    (hp : files.Perm (pre ++ b :: bs)) (hn : ((pre ++ b :: bs).map (·.id)).Nodup) :
    (files.filter fun f => decide (f.id ≠ b.id)).Perm (pre ++ bs) := by
  have h1 : (pre ++ b :: bs).Perm ((pre ++ bs) ++ [b]) := by
    rw [List.append_assoc]
    refine List.Perm.append_left _ ?_
    rw [show b :: bs = [b] ++ bs from rfl]
    exact List.perm_append_comm
  have := filter_ids (hp.trans h1) ((h1.map (·.id)).nodup_iff.1 hn)
  simpa using this

theorem RevState.shift {v : Nat} {d0 d1 d : Disk K V} {pre bs mid : List (Block K V)}
    {ren : List (FsOp K V)} {x : Block K V} {bs' : List (Block K V)}
    (h : RevState v d1 d (pre ++ [x]) bs mid ren) (hl : d1.log = d0.log) (hb : d1.buf = d0.buf)
    (hm : RevMid v bs' (x :: mid)) : RevState v d0 d pre bs' (x :: mid) ren := by
  refine ⟨h.recov, by simpa using h.files, hm, ?_, h.len, by rw [← hl]; exact h.log,
    by rw [← hb]; exact h.buf⟩
  intro q hq
  obtain ⟨b, hb, he⟩ := h.stale q hq
  exact ⟨b, List.mem_cons_of_mem _ hb, he⟩

theorem revertBlocks_prefix (v : Nat) (bs pre : List (Block K V)) (d : Disk K V)
    (hf : d.files.Perm (pre ++ bs)) (hn : ((pre ++ bs).map (·.id)).Nodup)
    (hs : Stale v d.tmps bs) (k : Nat) :
    ∃ mid ren, RevState v d (d.run ((Table.revertBlocks v bs).2.take k)) pre bs mid ren ∧
      ((Table.revertBlocks v bs).2.length ≤ k → mid = (Table.revertBlocks v bs).1 ∧ ren = [] ∧
        (d.run ((Table.revertBlocks v bs).2.take k)).tmps = []) := by
  induction bs generalizing pre d k with
  | nil =>
    simp only [Table.revertBlocks, List.take_nil]
    refine ⟨[], [], revState_of_files hf .nil hs rfl rfl, fun _ => ⟨rfl, rfl, ?_⟩⟩
    change d.tmps = []
    rw [List.eq_nil_iff_forall_not_mem]
    intro q hq
    obtain ⟨b, hb, _⟩ := hs q hq
    cases hb
  | cons b bs ih =>
    have hnb : ∀ x ∈ bs, x.id ≠ b.id := by
      intro x hx he
      rw [List.map_append, List.nodup_append, List.map_cons, List.nodup_cons] at hn
      exact hn.2.1.1 (he ▸ List.mem_map.2 ⟨x, hx, rfl⟩)
    have hnpre : ((pre ++ bs).map (·.id)).Nodup := by
      refine List.Nodup.sublist ?_ hn
      exact ((List.sublist_cons_self b bs).append_left pre).map _
    by_cases h1 : v ≤ b.minV
    · -- removed
      have hrv : Table.revertBlocks v (b :: bs) = ((Table.revertBlocks v bs).1,
          .remove b.id :: (Table.revertBlocks v bs).2) := by
        conv_lhs => unfold Table.revertBlocks
        dsimp only
        rw [if_pos h1]
      rw [hrv]
      dsimp only
      cases k with
      | zero =>
        refine ⟨b :: bs, [], revState_of_files hf (RevMid.refl _ _) hs rfl rfl, fun h => ?_⟩
        simp at h
      | succ k =>
        rw [List.take_succ_cons, run_cons]
        obtain ⟨mid, ren, i1, i2⟩ := ih pre (d.step (.remove b.id)) (filter_one hf hn) hnpre (by
          intro q hq
          obtain ⟨x, hx, he, ha, hb⟩ := hs q hq
          rcases List.mem_cons.1 hx with rfl | hx
          · omega
          · exact ⟨x, hx, he, ha, hb⟩) k
        refine ⟨mid, ren, ⟨i1.recov, i1.files, .drop b h1 i1.rmid, i1.stale, i1.len, i1.log, i1.buf⟩,
          fun h => i2 (by simpa using h)⟩
    · by_cases h2 : v ≤ b.maxV
      · -- trimmed
        obtain ⟨nb, hnbdef⟩ : ∃ nb, nb = mkBlock b.id b.level b.minV
          (b.entries.filter fun e => decide (e.ver < v)) := ⟨_, rfl⟩
        have hnbid : nb.id = b.id := by rw [hnbdef]; rfl
        have hrv : Table.revertBlocks v (b :: bs) = (nb :: (Table.revertBlocks v bs).1,
            .tmpPart b.id :: .tmpDone b.id nb :: .replaceRm b.id :: .replaceMv b.id ::
              (Table.revertBlocks v bs).2) := by
          conv_lhs => unfold Table.revertBlocks
          dsimp only
          rw [if_neg h1, if_pos h2, ← hnbdef]
        have hst : ∀ x, Stale v ((b.id, x) :: d.tmps.filter fun p => decide (p.1 ≠ b.id)) (b :: bs) := by
          intro x q hq
          rcases List.mem_cons.1 hq with rfl | hq
          · exact ⟨b, by simp, rfl, by omega, h2⟩
          · exact hs q (List.mem_filter.1 hq).1
        have hst' : Stale v (d.tmps.filter fun p => decide (p.1 ≠ b.id)) bs := by
          intro q hq
          obtain ⟨hq1, hq2⟩ := List.mem_filter.1 hq
          obtain ⟨x, hx, he, hab⟩ := hs q hq1
          rcases List.mem_cons.1 hx with rfl | hx
          · simp [he] at hq2
          · exact ⟨x, hx, he, hab⟩
        have hff : ((d.tmps.filter fun p => decide (p.1 ≠ b.id)).filter fun p => decide (p.1 ≠ b.id))
            = d.tmps.filter fun p => decide (p.1 ≠ b.id) := by
          rw [List.filter_filter]; congr 1; funext p; simp
        have hpart : d.step (.tmpPart b.id) =
          { d with tmps := (b.id, none) :: d.tmps.filter fun p => decide (p.1 ≠ b.id) } := rfl
        have hdone : (d.step (.tmpPart b.id)).step (.tmpDone b.id nb) =
            { d with tmps := (b.id, some nb) :: d.tmps.filter fun p => decide (p.1 ≠ b.id) } := by
          rw [hpart]
          simp only [Disk.step]
          rw [List.filter_cons_of_neg (by simp), hff]
        have hrm : ((d.step (.tmpPart b.id)).step (.tmpDone b.id nb)).step (.replaceRm b.id) =
            { d with tmps := (b.id, some nb) :: d.tmps.filter (fun p => decide (p.1 ≠ b.id)),
                     files := d.files.filter fun f => decide (f.id ≠ b.id) } := by
          rw [hdone]; rfl
        have hfid : ((d.files.filter fun f => decide (f.id ≠ b.id)).filter
            fun x => decide (x.id ≠ b.id)) = d.files.filter fun f => decide (f.id ≠ b.id) := by
          rw [List.filter_filter]; congr 1; funext p; simp
        have hmv : (((d.step (.tmpPart b.id)).step (.tmpDone b.id nb)).step (.replaceRm b.id)).step
            (.replaceMv b.id) =
            { d with tmps := d.tmps.filter (fun p => decide (p.1 ≠ b.id)),
                     files := (d.files.filter fun f => decide (f.id ≠ b.id)) ++ [nb] } := by
          rw [hrm]
          simp only [Disk.step]
          rw [List.find?_cons_of_pos (by simp)]
          dsimp only
          rw [List.filter_cons_of_neg (by simp), hff, hfid]
        have hperm4 : ((d.files.filter fun f => decide (f.id ≠ b.id)) ++ [nb]).Perm
            ((pre ++ [nb]) ++ bs) := by
          refine ((filter_one hf hn).append_right _).trans ?_
          rw [List.append_assoc, List.append_assoc]
          exact List.Perm.append_left _ List.perm_append_comm
        have hn4 : (((pre ++ [nb]) ++ bs).map (·.id)).Nodup := by
          simpa [hnbid] using hn
        have hst4 : Stale v (d.tmps.filter fun p => decide (p.1 ≠ b.id)) (nb :: bs) := by
          intro q hq
          obtain ⟨x, hx, he⟩ := hst' q hq
          exact ⟨x, List.mem_cons_of_mem _ hx, he⟩
        have hmidn : RevMid v (b :: bs) (nb :: bs) := by
          rw [hnbdef]; exact .trim b (by omega) h2 (RevMid.refl _ _)
        rw [hrv]
        dsimp only
        match k with
        | 0 =>
          refine ⟨b :: bs, [], revState_of_files hf (RevMid.refl _ _) hs rfl rfl, fun h => ?_⟩
          simp at h
        | 1 =>
          refine ⟨b :: bs, [], revState_of_files hf (RevMid.refl _ _) (hst none) rfl rfl,
            fun h => ?_⟩
          simp at h
        | 2 =>
          refine ⟨b :: bs, [], ?_, fun h => ?_⟩
          · rw [show (FsOp.tmpPart b.id :: FsOp.tmpDone b.id nb :: FsOp.replaceRm b.id ::
              FsOp.replaceMv b.id :: (Table.revertBlocks v bs).2).take 2 =
              [FsOp.tmpPart b.id, FsOp.tmpDone b.id nb] from rfl, run_cons, run_cons, hdone]
            exact revState_of_files hf (RevMid.refl _ _) (hst (some nb)) rfl rfl
          · simp at h
        | 3 =>
          refine ⟨nb :: bs, [.replaceMv b.id], ?_, fun h => ?_⟩
          · rw [show (FsOp.tmpPart b.id :: FsOp.tmpDone b.id nb :: FsOp.replaceRm b.id ::
              FsOp.replaceMv b.id :: (Table.revertBlocks v bs).2).take 3 =
              [FsOp.tmpPart b.id, FsOp.tmpDone b.id nb, FsOp.replaceRm b.id] from rfl,
              run_cons, run_cons, run_cons]
            have hrun : ∀ d : Disk K V, d.run [.replaceMv b.id] = d.step (.replaceMv b.id) :=
              fun _ => rfl
            have hnil : ∀ d : Disk K V, d.run [] = d := fun _ => rfl
            rw [hnil]
            refine ⟨?_, ?_, hmidn, ?_, by simp, ?_, ?_⟩
            · rw [hrun, hmv, hrm]
              dsimp only
              unfold recoverTmps
              have hno : ¬ (d.files.filter fun f => decide (f.id ≠ b.id)).any
                  (fun f => decide (f.id = b.id)) = true := by
                rw [List.any_eq_true]
                rintro ⟨f, hf', he⟩
                have := (List.mem_filter.1 hf').2
                simp at this he
                exact this he
              rw [if_neg hno]
              dsimp only
              rw [recoverTmps_all]
              intro q hq
              obtain ⟨x, hx, he, _⟩ := hst' q hq
              exact ⟨x, hperm4.mem_iff.2 (by simp [hx]), he⟩
            · rw [hrun, hmv]; simpa using hperm4
            · rw [hrun, hmv]; exact hst4
            · rw [hrun, hmv, hrm]; exact ⟨rfl, rfl⟩
            · rw [hrun, hmv, hrm]; exact ⟨rfl, rfl⟩
          · simp at h
        | j + 4 =>
          rw [List.take_succ_cons, List.take_succ_cons, List.take_succ_cons, List.take_succ_cons,
            run_cons, run_cons, run_cons, run_cons, hmv]
          obtain ⟨mid, ren, i1, i2⟩ := ih (pre ++ [nb])
            { d with tmps := d.tmps.filter (fun p => decide (p.1 ≠ b.id)),
                     files := (d.files.filter fun f => decide (f.id ≠ b.id)) ++ [nb] }
            hperm4 hn4 hst' j
          refine ⟨nb :: mid, ren, i1.shift rfl rfl ?_, fun h => ?_⟩
          · rw [hnbdef]; exact .trim b (by omega) h2 i1.rmid
          · obtain ⟨a1, a2, a3⟩ := i2 (by simpa using h)
            exact ⟨by rw [a1], a2, a3⟩
      · -- kept
        have hrv : Table.revertBlocks v (b :: bs) = (b :: (Table.revertBlocks v bs).1,
            (Table.revertBlocks v bs).2) := by
          conv_lhs => unfold Table.revertBlocks
          dsimp only
          rw [if_neg h1, if_neg h2]
        rw [hrv]
        dsimp only
        obtain ⟨mid, ren, i1, i2⟩ := ih (pre ++ [b]) d (by simpa using hf) (by simpa using hn) (by
          intro q hq
          obtain ⟨x, hx, he, ha, hb⟩ := hs q hq
          rcases List.mem_cons.1 hx with rfl | hx
          · omega
          · exact ⟨x, hx, he, ha, hb⟩) k
        refine ⟨b :: mid, ren, i1.shift rfl rfl (.keep b i1.rmid), fun h => ?_⟩
        obtain ⟨a1, a2, a3⟩ := i2 h
        exact ⟨by rw [a1], a2, a3⟩

end Verif.DB
