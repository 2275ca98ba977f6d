import Verif.DB.Lemmas6
import Verif.DB.Crash

/-!
# File operations of compaction and revert, and every prefix of them
-/

set_option linter.unusedSectionVars false

namespace Verif.DB

variable {K V : Type} [LinearOrder K]

theorem selectRun_rest (factor : Nat) (before sel : List (Block K V)) (level : Nat)
    (rest : List (Block K V)) {B S R : List (Block K V)} {l : Nat}
    (h : selectRun factor before sel level rest = some (B, S, l, R)) : R ≠ [] := by
  induction rest generalizing before sel level with
  | nil => simp [selectRun] at h
  | cons b rest ih =>
    unfold selectRun at h
    split at h
    · split at h
      · simp only [Option.some.injEq, Prod.mk.injEq] at h
        rw [← h.2.2.2]; simp
      · exact ih _ _ _ h
    · exact ih _ _ _ h

/-- State of the block files at some point of a compaction. -/
structure Mid (d d' : Disk K V) (bs0 bs ds : List (Block K V)) : Prop where
  load : Load d'.files bs ds
  same : ∀ e, e ∈ allB bs ↔ e ∈ allB bs0
  top : blkTop bs = blkTop bs0
  maxs : ∀ m, (∀ b ∈ bs0, b.maxV < m) → ∀ b ∈ bs, b.maxV < m
  tmps : d'.tmps = d.tmps
  log : d'.log = d.log
  buf : d'.buf = d.buf
  dlen : ds.length ≤ 1

theorem blkTop_append {B R : List (Block K V)} (h : R ≠ []) : blkTop (B ++ R) = blkTop R := by
  unfold blkTop
  rw [List.getLast?_append]
  cases h' : R.getLast? with
  | none => rw [List.getLast?_eq_none_iff] at h'; exact absurd h' h
  | some b => rfl

theorem blkTop_cons {x : Block K V} {R : List (Block K V)} (h : R ≠ []) :
    blkTop (x :: R) = blkTop R := blkTop_append (B := [x]) h

/-- Reordering used to split off the merged blocks. -/
theorem perm_split {B S R : List (Block K V)} {M : Block K V} :
    ((B ++ S ++ R) ++ [M]).Perm ((B ++ M :: R) ++ S) := by
  simp only [List.append_assoc]
  refine List.Perm.append_left _ ?_
  refine (List.perm_append_comm (l₁ := S) (l₂ := R ++ [M])).trans ?_
  refine List.Perm.append_right _ ?_
  rw [show M :: R = [M] ++ R from rfl]
  exact List.perm_append_comm

theorem checkRewrite_prefix (o : Options K V) (n : Nat) (t : Table K V) (d : Disk K V)
    (hf : FilesOK d t.blocks t.nextId) (hok : ∀ b ∈ t.blocks, BlockOK b)
    (hr : t.blocks.Pairwise (fun a b => a.maxV < b.minV)) (hlt : ∀ b ∈ t.blocks, b.maxV < u32max)
    (k : Nat) (hg : k < (checkRewrite o n t).2.length →
      NoDouble (d.run ((checkRewrite o n t).2.take k)).files) :
    ∃ bs ds, Mid d (d.run ((checkRewrite o n t).2.take k)) t.blocks bs ds ∧
      (((checkRewrite o n t).2.length ≤ k) → ds = [] ∧ bs = (checkRewrite o n t).1.blocks ∧
        FilesOK (d.run ((checkRewrite o n t).2.take k)) bs (checkRewrite o n t).1.nextId) := by
  induction n generalizing t d k with
  | zero =>
    simp only [checkRewrite, List.take_nil]
    exact ⟨t.blocks, [], ⟨load_plain hf.perm hf.nodup hok hr, fun _ => Iff.rfl, rfl,
      fun _ h => h, rfl, rfl, rfl, by simp⟩, fun _ => ⟨rfl, rfl, hf⟩⟩
  | succ n ih =>
    have htriv : ∃ bs ds, Mid d (d.run []) t.blocks bs ds ∧
        (([] : List (FsOp K V)).length ≤ k → ds = [] ∧ bs = t.blocks ∧
          FilesOK (d.run []) bs t.nextId) :=
      ⟨t.blocks, [], ⟨load_plain hf.perm hf.nodup hok hr, fun _ => Iff.rfl, rfl,
        fun _ h => h, rfl, rfl, rfl, by simp⟩, fun _ => ⟨rfl, rfl, hf⟩⟩
    by_cases hlf : o.levelFactor ≤ 1
    · have : checkRewrite o (n + 1) t = (t, []) := by
        unfold checkRewrite; rw [if_pos hlf]
      rw [this]
      simpa using htriv
    · cases hs : selectRun o.levelFactor [] [] 0 t.blocks with
      | none =>
        have : checkRewrite o (n + 1) t = (t, []) := by
          unfold checkRewrite; rw [if_neg hlf, hs]
        rw [this]
        simpa using htriv
      | some r =>
        obtain ⟨B, S, l, R⟩ := r
        obtain ⟨s1, s2, s3⟩ := selectRun_spec _ [] [] 0 t.blocks (by simp) (by simp) hs
        have hRne := selectRun_rest _ _ _ _ _ hs
        have hSne : S ≠ [] := by intro h; rw [h] at s2; simp at s2; omega
        have hblk : t.blocks = B ++ S ++ R := by simpa using s1.symm
        obtain ⟨M, hM⟩ : ∃ M, M = mkBlock t.nextId (l + 1) (minVersion (mergeBlocks S))
          (mergeBlocks S) := ⟨_, rfl⟩
        obtain ⟨t', ht'⟩ : ∃ t' : Table K V, t' = { t with
          blocks := B ++ M :: R, nextId := t.nextId + 1 } := ⟨_, rfl⟩
        have hcr : checkRewrite o (n + 1) t = ((checkRewrite o n t').1,
            (.install M :: (S.map fun x => .remove x.id)) ++ (checkRewrite o n t').2) := by
          conv_lhs => unfold checkRewrite
          rw [if_neg hlf, hs]
          dsimp only
          rw [← hM, ← ht']
        -- facts about the merged block
        have hin : ∀ x ∈ B ++ S ++ R, x ∈ t.blocks := fun x hx => by rw [hblk]; exact hx
        have hSin : ∀ x ∈ S, x ∈ t.blocks := fun x hx => hin x (by simp [hx])
        have hrB := hr
        rw [hblk] at hrB
        have hr' := hrB
        rw [List.pairwise_append, List.pairwise_append] at hr'
        obtain ⟨⟨_, hSr, hBS⟩, _, hBSR⟩ := hr'
        obtain ⟨m1, m2, m3, m4, m5, m6⟩ := merged_ok (S := S) (fun b hb => hok b (hSin b hb)) hSr
          hSne (fun b hb => hlt b (hSin b hb)) t.nextId (l + 1)
        rw [← hM] at m1 m3 m4 m5 m6
        have hMe : M.entries = mergeBlocks S := by rw [hM]; rfl
        have hMid : M.id = t.nextId := by rw [hM]; rfl
        have hMl : M.level = l + 1 := by rw [hM]; rfl
        have hok' : ∀ b ∈ B ++ M :: R, BlockOK b := by
          intro x hx
          rw [List.mem_append, List.mem_cons] at hx
          rcases hx with hx | rfl | hx
          · exact hok x (hin x (by simp [hx]))
          · exact m1
          · exact hok x (hin x (by simp [hx]))
        have hr2 : (B ++ M :: R).Pairwise (fun a b => a.maxV < b.minV) := by
          refine pairwise_replace hrB ?_ ?_
          · intro x hx; exact m3 _ (fun y hy => hBS x hx y hy)
          · intro x hx; exact m4 _ (fun y hy => hBSR y (List.mem_append_right _ hy) x hx)
        have hmaxs : ∀ m, (∀ b ∈ t.blocks, b.maxV < m) → ∀ b ∈ B ++ M :: R, b.maxV < m := by
          intro m hm x hx
          rw [List.mem_append, List.mem_cons] at hx
          rcases hx with hx | rfl | hx
          · exact hm x (hin x (by simp [hx]))
          · exact m4 _ (fun y hy => hm y (hSin y hy))
          · exact hm x (hin x (by simp [hx]))
        have hsame : ∀ e, e ∈ allB (B ++ M :: R) ↔ e ∈ allB t.blocks := by
          intro e
          rw [hblk]
          simp only [allB, List.flatMap_append, List.flatMap_cons, List.mem_append]
          rw [hMe, m2.mem_iff]
          simp only [allB]
          constructor
          · rintro (h | h | h)
            · exact Or.inl (Or.inl h)
            · exact Or.inl (Or.inr h)
            · exact Or.inr h
          · rintro ((h | h) | h)
            · exact Or.inl h
            · exact Or.inr (Or.inl h)
            · exact Or.inr (Or.inr h)
        have htop : blkTop (B ++ M :: R) = blkTop t.blocks := by
          rw [hblk, blkTop_append (by simp), blkTop_cons hRne, blkTop_append hRne]
        have hnd : (((B ++ M :: R) ++ S).map (·.id)).Nodup := by
          have h1 : (((B ++ S ++ R) ++ [M]).map (·.id)).Nodup := by
            rw [List.map_append, List.nodup_append]
            refine ⟨by rw [← hblk]; exact hf.nodup, by simp, ?_⟩
            intro a ha b hb
            simp at hb
            obtain ⟨x, hx, rfl⟩ := List.mem_map.1 ha
            have := hf.lt x (hin x hx)
            show x.id ≠ b
            rw [hb, hMid]; omega
          exact ((perm_split (B := B) (S := S) (R := R) (M := M)).map (·.id)).nodup_iff.1 h1
        -- after installing M
        have hfiles1 : (d.step (.install M)).files.Perm ((B ++ M :: R) ++ S) := by
          refine List.Perm.trans ?_ (perm_split (B := B) (S := S) (R := R) (M := M))
          rw [← hblk]
          exact hf.perm.append_right _
        rw [hcr] at hg ⊢
        dsimp only at hg ⊢
        by_cases hk0 : k = 0
        · subst hk0
          refine ⟨t.blocks, [], ⟨load_plain hf.perm hf.nodup hok hr, fun _ => Iff.rfl, rfl,
            fun _ h => h, rfl, rfl, rfl, by simp⟩, fun h => ?_⟩
          simp at h
        · by_cases hkS : k ≤ S.length
          · -- in the middle of the removals: `S.take (k-1)` removed
            obtain ⟨j, rfl⟩ : ∃ j, k = j + 1 := ⟨k - 1, by omega⟩
            have htake : ((.install M :: (S.map fun x => FsOp.remove x.id)) ++
                (checkRewrite o n t').2).take (j + 1) =
                .install M :: ((S.take j).map fun x => .remove x.id) := by
              rw [List.cons_append, List.take_succ_cons,
                List.take_append_of_le_length (by simp; omega), List.map_take]
            have hrun : d.run (.install M :: ((S.take j).map fun x => .remove x.id)) =
                { d.step (.install M) with
                  files := (d.step (.install M)).files.filter
                    fun f => decide (∀ x ∈ S.take j, f.id ≠ x.id) } := by
              rw [run_cons, run_removes]
            have hperm2 : ((d.step (.install M)).files.filter
                fun f => decide (∀ x ∈ S.take j, f.id ≠ x.id)).Perm ((B ++ M :: R) ++ S.drop j) := by
              have hsplit : ((B ++ M :: R) ++ S).Perm (((B ++ M :: R) ++ S.drop j) ++ S.take j) := by
                rw [List.append_assoc _ (S.drop j)]
                refine List.Perm.append_left _ ?_
                conv_lhs => rw [← List.take_append_drop j S]
                exact List.perm_append_comm
              refine filter_ids (hfiles1.trans hsplit) ?_
              exact (hsplit.map (·.id)).nodup_iff.1 hnd
            have hnd2 : (((B ++ M :: R) ++ S.drop j).map (·.id)).Nodup := by
              refine List.Nodup.sublist ?_ hnd
              exact ((List.drop_sublist j S).append_left _).map _
            -- exactly one leftover
            have hlen : (S.drop j).length = 1 := by
              have h0 : 0 < (S.drop j).length := by rw [List.length_drop]; omega
              rcases Nat.lt_or_ge 1 (S.drop j).length with h2 | h2
              · exfalso
                obtain ⟨A1, A2, rest, hAA⟩ : ∃ A1 A2 rest, S.drop j = A1 :: A2 :: rest := by
                  match h : S.drop j with
                  | [] => rw [h] at h2; simp at h2
                  | [_] => rw [h] at h2; simp at h2
                  | a :: b :: r => exact ⟨a, b, r, rfl⟩
                have hg := hg (by simp; omega)
                rw [htake, hrun] at hg
                have hmem : ∀ x, x ∈ (B ++ M :: R) ++ S.drop j →
                    x ∈ (d.step (.install M)).files.filter
                      (fun f => decide (∀ x ∈ S.take j, f.id ≠ x.id)) :=
                  fun x hx => hperm2.mem_iff.2 hx
                have hA1 : A1 ∈ S.drop j := by rw [hAA]; simp
                have hA2 : A2 ∈ S.drop j := by rw [hAA]; simp
                have hcov : ∀ x ∈ S, M.minV ≤ x.minV ∧ x.maxV ≤ M.maxV := by
                  intro x hx
                  have hxo := hok x (hSin x hx)
                  obtain ⟨e, he, hv⟩ := hxo.minAtt
                  obtain ⟨e', he', hv'⟩ := hxo.maxAtt
                  have hi : ∀ e ∈ x.entries, e ∈ M.entries := by
                    intro e he
                    rw [hMe, m2.mem_iff]
                    exact List.mem_flatMap.2 ⟨x, hx, he⟩
                  have := m1.minLe e (hi e he)
                  have := m1.leMax e' (hi e' he')
                  omega
                have hidne : ∀ x ∈ S, x.id ≠ M.id := by
                  intro x hx
                  have := hf.lt x (hSin x hx)
                  rw [hMid]; omega
                have hS1 := List.mem_of_mem_drop hA1
                have hS2 := List.mem_of_mem_drop hA2
                have := hg M (hmem M (by simp)) A1 (hmem A1 (by simp [hA1]))
                  A2 (hmem A2 (by simp [hA2])) (hidne A1 hS1) (hidne A2 hS2)
                  (hcov A1 hS1).1 (hcov A1 hS1).2 (hcov A2 hS2).1 (hcov A2 hS2).2
                rw [hAA, List.map_append, List.nodup_append] at hnd2
                have := hnd2.2.1
                simp at this
                omega
              · omega
            obtain ⟨A, hA⟩ := List.length_eq_one_iff.1 hlen
            have hAS : A ∈ S := List.mem_of_mem_drop (by rw [hA]; simp)
            have hAo := hok A (hSin A hAS)
            refine ⟨B ++ M :: R, [A], ⟨?_, hsame, htop, hmaxs, ?_, ?_, ?_, by simp⟩, ?_⟩
            · rw [htake, hrun]
              rw [hA] at hperm2 hnd2
              have hi : ∀ e ∈ A.entries, e ∈ M.entries := by
                intro e he
                rw [hMe, m2.mem_iff]
                exact List.mem_flatMap.2 ⟨A, hAS, he⟩
              obtain ⟨e, he, hv⟩ := hAo.minAtt
              obtain ⟨e', he', hv'⟩ := hAo.maxAtt
              have h1 := m1.minLe e (hi e he)
              have h2 := m1.leMax e' (hi e' he')
              exact load_leftover hperm2 hnd2 hok' hAo hr2 (by omega) (by omega)
                (by rw [hMl, s3 A hAS]; omega) hRne
            · rw [htake, hrun]; rfl
            · rw [htake, hrun]; rfl
            · rw [htake, hrun]; rfl
            · intro h; exfalso; simp at h; omega
          · -- all removed, continue with the recursive call
            have htake : ((.install M :: (S.map fun x => FsOp.remove x.id)) ++
                (checkRewrite o n t').2).take k =
                (.install M :: (S.map fun x => .remove x.id)) ++
                  (checkRewrite o n t').2.take (k - (S.length + 1)) := by
              rw [List.take_append, List.take_of_length_le (by simp; omega)]
              simp
            have hrun1 : d.run (.install M :: (S.map fun x => .remove x.id)) =
                { d.step (.install M) with
                  files := (d.step (.install M)).files.filter
                    fun f => decide (∀ x ∈ S, f.id ≠ x.id) } := by
              rw [run_cons, run_removes]
            have hf' : FilesOK (d.run (.install M :: (S.map fun x => .remove x.id)))
                t'.blocks t'.nextId := by
              rw [hrun1, ht']
              refine ⟨filter_ids hfiles1 hnd, ?_, ?_⟩
              · rw [List.map_append, List.nodup_append] at hnd
                exact hnd.1
              · intro b hb
                rw [List.mem_append, List.mem_cons] at hb
                dsimp only
                rcases hb with hb | rfl | hb
                · have := hf.lt b (hin b (by simp [hb])); omega
                · rw [hMid]; omega
                · have := hf.lt b (hin b (by simp [hb])); omega
            rw [htake, run_append] at hg ⊢
            have hb' : t'.blocks = B ++ M :: R := by rw [ht']
            obtain ⟨bs, ds, hmid, hfin⟩ := ih t' _ hf' (by rw [hb']; exact hok')
              (by rw [hb']; exact hr2) (by rw [hb']; exact hmaxs _ hlt) (k - (S.length + 1))
              (fun h => hg (by simp; omega))
            refine ⟨bs, ds, ⟨hmid.load, ?_, ?_, ?_, ?_, ?_, ?_, hmid.dlen⟩, ?_⟩
            · intro e; rw [hmid.same, hb']; exact hsame e
            · rw [hmid.top, hb']; exact htop
            · intro m hm; exact hmid.maxs m (by rw [hb']; exact hmaxs m hm)
            · rw [hmid.tmps, hrun1]; rfl
            · rw [hmid.log, hrun1]; rfl
            · rw [hmid.buf, hrun1]; rfl
            · intro h
              refine hfin ?_
              simp at h
              omega

/-- The whole compaction. -/
theorem checkRewrite_files (o : Options K V) (n : Nat) (t : Table K V) (d : Disk K V)
    (hf : FilesOK d t.blocks t.nextId) (hok : ∀ b ∈ t.blocks, BlockOK b)
    (hr : t.blocks.Pairwise (fun a b => a.maxV < b.minV)) (hlt : ∀ b ∈ t.blocks, b.maxV < u32max) :
    FilesOK (d.run (checkRewrite o n t).2) (checkRewrite o n t).1.blocks (checkRewrite o n t).1.nextId ∧
    (d.run (checkRewrite o n t).2).tmps = d.tmps ∧ (d.run (checkRewrite o n t).2).log = d.log ∧
    (d.run (checkRewrite o n t).2).buf = d.buf := by
  obtain ⟨bs, ds, h1, h2⟩ := checkRewrite_prefix o n t d hf hok hr hlt
    (checkRewrite o n t).2.length (fun h => absurd h (Nat.lt_irrefl _))
  rw [List.take_length] at h1 h2
  obtain ⟨_, rfl, h3⟩ := h2 (Nat.le_refl _)
  exact ⟨h3, h1.tmps, h1.log, h1.buf⟩

end Verif.DB
