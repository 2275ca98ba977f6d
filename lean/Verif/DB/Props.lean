import Mathlib.Data.Nat.Basic
import Verif.DB.Lemmas4

/-!
# Properties C01–C04, C44: reads, flush/compaction, revert, version discipline

`Table.run`, `Table.find` are the model of `src/DataBase.cpp`; `Spec.run`, `Spec.find` the
specification in `Verif/DB/Spec.lean`.
-/

set_option linter.unusedSectionVars false

namespace Verif.DB

variable {K V : Type} [LinearOrder K]

/-- **C01.** After any history of calls (any options, any number of blocks, any merges), `find`
never throws and returns the value of the most recent surviving insert of the key at a version of at
most `maxV`. -/
theorem C01_find_returns_latest_write (o : Options K V) (h : List (Op K V))
    (hd : (Spec.empty : Spec K V).Disciplined h) (key : K) (maxV : Nat) :
    (Table.empty.run o h).find key maxV = some ((Spec.empty.run h).find key maxV) :=
  refines_find (refines_run refines_empty h hd) key maxV

/-- **C01**, version part: `current_version()` is the one of the specification. -/
theorem C01_version (o : Options K V) (h : List (Op K V))
    (hd : (Spec.empty : Spec K V).Disciplined h) :
    (Table.empty.run o h).cur = (Spec.empty.run h).cur :=
  (refines_run refines_empty h hd).cur

/-- The calls of a history that are not flushes, with the flush request of `commit` removed. -/
def stripFlush (h : List (Op K V)) : List (Op K V) :=
  h.filterMap fun
    | .flush => none
    | .commit v _ => some (.commit v false)
    | op => some op

theorem spec_run_stripFlush (s : Spec K V) (h : List (Op K V)) :
    s.run (stripFlush h) = s.run h := by
  induction h generalizing s with
  | nil => rfl
  | cons op h ih =>
    have hrun : ∀ (s : Spec K V) op h, s.run (op :: h) = (s.apply op).run h := fun _ _ _ => rfl
    cases op with
    | flush =>
      have : s.apply .flush = s := by
        unfold Spec.apply; split <;> rfl
      rw [hrun, this]
      exact ih s
    | commit v a =>
      have : s.apply (.commit v a) = s.apply (.commit v false) := rfl
      rw [hrun, this]
      exact ih _
    | insert k v => exact ih _
    | revert v => exact ih _
    | iterOpen => exact ih _
    | iterClose => exact ih _

/-- **C02.** Two histories that differ only in when flushes happen (explicit calls or automatic ones
inside `commit`), run with arbitrary and different options (merge factor, block size, thresholds),
give the same result for every read: neither flush nor compaction is visible. -/
theorem C02_flush_and_compaction_invisible (o o' : Options K V) (h h' : List (Op K V))
    (hd : (Spec.empty : Spec K V).Disciplined h) (hd' : (Spec.empty : Spec K V).Disciplined h')
    (hsame : stripFlush h = stripFlush h') (key : K) (maxV : Nat) :
    (Table.empty.run o h).find key maxV = (Table.empty.run o' h').find key maxV := by
  rw [C01_find_returns_latest_write o h hd, C01_find_returns_latest_write o' h' hd',
    ← spec_run_stripFlush _ h, hsame, spec_run_stripFlush]

theorem disciplined_append (s : Spec K V) (h h' : List (Op K V)) :
    s.Disciplined (h ++ h') ↔ s.Disciplined h ∧ (s.run h).Disciplined h' := by
  induction h generalizing s with
  | nil => simp [Spec.Disciplined, Spec.run]
  | cons op h ih =>
    simp only [List.cons_append, Spec.Disciplined, ih]
    have : s.run (op :: h) = (s.apply op).run h := rfl
    rw [this, and_assoc]

theorem spec_run_append (s : Spec K V) (h h' : List (Op K V)) :
    s.run (h ++ h') = (s.run h).run h' := by
  unfold Spec.run; rw [List.foldl_append]

theorem spec_find_revert (s : Spec K V) (v : Nat) (key : K) (maxV : Nat) :
    (s.effect (.revert v)).find key maxV = if v = 0 then none else s.find key (min maxV (v - 1)) := by
  unfold Spec.find Spec.effect
  dsimp only
  rw [List.filter_filter]
  split
  · rename_i h0
    subst h0
    simp
  · have : (fun a : Entry K V => decide (a.key = key ∧ a.ver ≤ maxV) && decide (a.ver < v))
        = (fun w => decide (w.key = key ∧ w.ver ≤ min maxV (v - 1))) := by
      funext w
      rw [← Bool.decide_and]
      congr 1
      apply propext
      constructor
      · rintro ⟨⟨a, b⟩, c⟩; exact ⟨a, by omega⟩
      · rintro ⟨a, b⟩; exact ⟨⟨a, by omega⟩, by omega⟩
    rw [this]

/-- **C03.** After an accepted `revert(v)`, every read answers exactly what the same read limited to
versions below `v` answered before: older writes are untouched, newer ones unreadable. -/
theorem C03_revert_exact (o : Options K V) (h : List (Op K V))
    (hd : (Spec.empty : Spec K V).Disciplined h) (v : Nat)
    (hacc : (Spec.empty.run h).accepts (.revert v)) (key : K) (maxV : Nat) :
    (Table.empty.run o (h ++ [.revert v])).find key maxV =
      if v = 0 then some none else (Table.empty.run o h).find key (min maxV (v - 1)) := by
  have hd' : (Spec.empty : Spec K V).Disciplined (h ++ [.revert v]) := by
    rw [disciplined_append]
    exact ⟨hd, by simp, trivial⟩
  rw [C01_find_returns_latest_write o _ hd', C01_find_returns_latest_write o h hd, spec_run_append]
  have : (Spec.empty.run h).run [Op.revert v] = (Spec.empty.run h).effect (.revert v) := by
    change (Spec.empty.run h).apply (.revert v) = _
    unfold Spec.apply; rw [if_pos hacc]
  rw [this, spec_find_revert]
  split <;> rfl

/-- A middle part of a history that never reverts below `v`. -/
def NoRevertBelow (v : Nat) (m : List (Op K V)) : Prop := ∀ w, Op.revert w ∈ m → v ≤ w

theorem spec_middle (v : Nat) (s0 s : Spec K V) (m : List (Op K V)) (hm : NoRevertBelow v m)
    (hcur : v ≤ s.cur) (hw : s.writes.filter (fun w => decide (w.ver < v)) = s0.writes) :
    v ≤ (s.run m).cur ∧ (s.run m).writes.filter (fun w => decide (w.ver < v)) = s0.writes := by
  induction m generalizing s with
  | nil => exact ⟨hcur, hw⟩
  | cons op m ih =>
    have hm' : NoRevertBelow v m := fun w hw => hm w (List.mem_cons_of_mem _ hw)
    change v ≤ ((s.apply op).run m).cur ∧ ((s.apply op).run m).writes.filter _ = s0.writes
    by_cases hacc : s.accepts op
    · have happ : s.apply op = s.effect op := by unfold Spec.apply; rw [if_pos hacc]
      rw [happ]
      cases op with
      | insert k x =>
        refine ih _ hm' hcur ?_
        simp only [Spec.effect, List.filter_append]
        rw [hw, List.filter_cons_of_neg (by simpa using hcur)]
        simp
      | commit w a =>
        have : s.cur < w ∧ w < u32max := hacc
        exact ih _ hm' (by simp only [Spec.effect]; omega) hw
      | flush => exact ih _ hm' hcur hw
      | revert w =>
        have hvw := hm w List.mem_cons_self
        refine ih _ hm' hvw ?_
        simp only [Spec.effect, List.filter_filter]
        rw [← hw]
        apply List.filter_congr
        intro x _
        by_cases hx : x.ver < v
        · have : x.ver < w := by omega
          simp [hx, this]
        · simp [hx]
      | iterOpen => exact ih _ hm' hcur hw
      | iterClose => exact ih _ hm' hcur hw
    · have happ : s.apply op = s := by unfold Spec.apply; rw [if_neg hacc]
      rw [happ]
      exact ih _ hm' hcur hw

/-- **C03**, indistinguishability: take any history `h`, commit version `v`, do anything (`m`, not
reverting below `v`), and revert to `v`.  For every continuation `h2`, every read answers as if `m`
had never happened. -/
theorem C03_revert_forgets (o : Options K V) (h m h2 : List (Op K V)) (v : Nat) (a : Bool)
    (hacc : (Spec.empty.run h).accepts (.commit v a))
    (hm : NoRevertBelow v m)
    (hlock : (Spec.empty.run (h ++ .commit v a :: m)).locks = (Spec.empty.run h).locks)
    (hlock0 : (Spec.empty.run h).locks = 0)
    (hd : (Spec.empty : Spec K V).Disciplined (h ++ .commit v a :: (m ++ .revert v :: h2)))
    (key : K) (maxV : Nat) :
    (Table.empty.run o (h ++ .commit v a :: (m ++ .revert v :: h2))).find key maxV =
      (Table.empty.run o (h ++ .commit v a :: h2)).find key maxV := by
  have hle : ∀ w ∈ (Spec.empty.run h).writes, w.ver ≤ (Spec.empty.run h).cur :=
    (refines_run (o := o) refines_empty h ((disciplined_append _ _ _).1 hd).1).le
  obtain ⟨s, hs⟩ : ∃ s, s = Spec.empty.run h := ⟨_, rfl⟩
  have hcv : s.cur < v ∧ v < u32max := by rw [hs]; exact hacc
  -- state after the commit
  have hc : s.apply (.commit v a) = { s with cur := v } := by
    unfold Spec.apply; rw [if_pos (by rw [hs]; exact hacc)]; rfl
  have hfil : s.writes.filter (fun w => decide (w.ver < v)) = s.writes := by
    rw [List.filter_eq_self]
    intro w hw
    have := hle w (hs ▸ hw)
    rw [← hs] at this
    simp; omega
  obtain ⟨m1, m2⟩ := spec_middle v s { s with cur := v } m hm (Nat.le_refl _) hfil
  have hrunm : Spec.empty.run (h ++ .commit v a :: m) = Spec.run { s with cur := v } m := by
    rw [spec_run_append, ← hs]
    change Spec.run (s.apply (.commit v a)) m = _
    rw [hc]
  have hl : (Spec.run { s with cur := v } m).locks = s.locks := by
    rw [← hrunm, hlock, ← hs]
  have hrev : (Spec.run { s with cur := v } m).apply (.revert v) = { s with cur := v } := by
    have hacc' : (Spec.run { s with cur := v } m).accepts (.revert v) :=
      ⟨by rw [hl, hs]; exact hlock0, m1⟩
    unfold Spec.apply
    rw [if_pos hacc']
    simp only [Spec.effect, m2]
    rw [hl]
  have hspec : Spec.empty.run (h ++ .commit v a :: (m ++ .revert v :: h2)) =
      Spec.empty.run (h ++ .commit v a :: h2) := by
    rw [spec_run_append, spec_run_append, ← hs]
    change Spec.run (s.apply (.commit v a)) (m ++ .revert v :: h2)
      = Spec.run (s.apply (.commit v a)) h2
    rw [hc, spec_run_append]
    change Spec.run (Spec.apply (Spec.run { s with cur := v } m) (.revert v)) h2 = _
    rw [hrev]
  have hd2 : (Spec.empty : Spec K V).Disciplined (h ++ .commit v a :: h2) := by
    rw [disciplined_append] at hd ⊢
    refine ⟨hd.1, by simp, ?_⟩
    have h3 := hd.2.2
    rw [disciplined_append] at h3
    have h4 := h3.2.2
    rw [← hs, hc] at h4 ⊢
    rw [hrev] at h4
    exact h4
  rw [C01_find_returns_latest_write o _ hd, C01_find_returns_latest_write o _ hd2, hspec]

/-- **C04.** For every reachable table: `insert` and `revert` throw exactly when an iterator is
alive (or the revert target is in the future), and then nothing changes: not the table, not the log,
not the files.  An accepted revert ends exactly at the requested version. -/
theorem C04_insert_revert_guards (o : Options K V) (h : List (Op K V))
    (hd : (Spec.empty : Spec K V).Disciplined h) (k : K) (x : V) (v : Nat) :
    let t := Table.empty.run o h
    (((t.insert o k x).threw = true ↔ t.writeLock ≠ 0) ∧
     ((t.insert o k x).threw = true → (t.insert o k x).tab = t ∧ (t.insert o k x).ops = []) ∧
     (t.insert o k x).tab.cur = t.cur) ∧
    (((t.revert o v).threw = true ↔ t.writeLock ≠ 0 ∨ t.cur < v) ∧
     ((t.revert o v).threw = true → (t.revert o v).tab = t ∧ (t.revert o v).ops = []) ∧
     ((t.revert o v).threw = false → (t.revert o v).tab.cur = v ∧ v ≤ t.cur)) := by
  intro t
  have hinv := (refines_run (o := o) refines_empty h hd).inv
  refine ⟨⟨?_, ?_, ?_⟩, ?_, ?_, ?_⟩
  · unfold Table.insert; split <;> simp_all
  · unfold Table.insert; split <;> simp_all
  · unfold Table.insert; split <;> rfl
  · unfold Table.revert; split
    · simp_all
    · split
      · simp_all
      · simp_all
  · unfold Table.revert; split
    · simp_all
    · split
      · simp_all
      · simp_all
  · unfold Table.revert; split
    · simp_all
    · split
      · simp_all
      · rename_i h1 h2
        exact fun _ => ⟨rfl, Nat.le_of_not_lt h2⟩

/-- **C04**, commits: `commit(v)` takes effect exactly when `v` is above the current version and not
the reserved value; a commit with a bad version throws and changes nothing; the version never
decreases by a commit. -/
theorem C04_commit_guard (o : Options K V) (h : List (Op K V))
    (hd : (Spec.empty : Spec K V).Disciplined h) (v : Nat) (a : Bool) :
    let t := Table.empty.run o h
    (¬ (t.cur < v ∧ v < u32max) →
      (t.commit o v a).threw = true ∧ (t.commit o v a).tab = t ∧ (t.commit o v a).ops = []) ∧
    ((t.cur < v ∧ v < u32max) → (t.commit o v a).tab.cur = v) ∧
    t.cur ≤ (t.commit o v a).tab.cur := by
  intro t
  have hinv := (refines_run (o := o) refines_empty h hd).inv
  refine ⟨fun hn => ?_, fun hp => (commit_inv hinv v a hp.1 hp.2).2.2.1, ?_⟩
  · obtain ⟨c1, c2, c3⟩ := commit_refused (o := o) (t := t) v a hn
    exact ⟨c3, c1, c2⟩
  · by_cases hp : t.cur < v ∧ v < u32max
    · rw [(commit_inv (o := o) hinv v a hp.1 hp.2).2.2.1]; omega
    · rw [(commit_refused (o := o) (t := t) v a hp).1]

/-- **C04**, flush: refused exactly while an iterator is alive, and then nothing happens. -/
theorem C04_flush_guard (o : Options K V) (t : Table K V) :
    ((t.flush o).threw = true ↔ t.writeLock ≠ 0) ∧
    ((t.flush o).threw = true → (t.flush o).tab = t ∧ (t.flush o).ops = []) := by
  unfold Table.flush
  split
  · simp_all
  · dsimp only
    split
    · simp_all
    · simp_all

/-- **C44** (partial: true for every call except a commit whose automatic flush is refused).
A call that throws changes nothing. -/
theorem C44_throw_means_no_effect_partial (o : Options K V) (h : List (Op K V))
    (hd : (Spec.empty : Spec K V).Disciplined h) (op : Op K V)
    (hop : ∀ v a, op = .commit v a → (Table.empty.run o h).writeLock = 0) :
    let t := Table.empty.run o h
    (t.apply o op).threw = true → (t.apply o op).tab = t ∧ (t.apply o op).ops = [] := by
  intro t hthrow
  cases op with
  | insert k x => exact (C04_insert_revert_guards o h hd k x 0).1.2.1 hthrow
  | revert v =>
    simp only [Table.apply] at hthrow ⊢
    have := refines_run (o := o) refines_empty h hd
    by_cases hv : t.writeLock = 0 ∧ v ≤ t.cur
    · have : (t.revert o v).threw = false := by
        unfold Table.revert
        rw [if_neg (by omega), if_neg (by omega)]
      rw [this] at hthrow; cases hthrow
    · obtain ⟨a, b, _⟩ := revert_refused (o := o) (t := t) v hv
      exact ⟨a, b⟩
  | flush => exact (C04_flush_guard o t).2 hthrow
  | commit v a =>
    have hl : t.writeLock = 0 := hop v a rfl
    simp only [Table.apply] at hthrow ⊢
    by_cases hv : t.cur < v ∧ v < u32max
    · exfalso
      unfold Table.commit at hthrow
      rw [if_neg (by omega), if_neg (by omega)] at hthrow
      dsimp only at hthrow
      split at hthrow
      · have := (C04_flush_guard o { t with cur := v }).1.1 hthrow
        exact this hl
      · cases hthrow
    · obtain ⟨c1, c2, _⟩ := commit_refused (o := o) (t := t) v a hv
      exact ⟨c1, c2⟩
  | iterOpen => simp [Table.apply] at hthrow
  | iterClose => simp [Table.apply] at hthrow

/-! ### Concrete instances and counterexamples -/

/-- Small options that make merges happen quickly. -/
def demoOpts (factor : Nat) : Options Nat Nat :=
  { levelFactor := factor, maxBlockSize := 1000, forceFlush := 1000, ksize := fun _ => 1,
    vsize := fun _ => 1 }

/-- A history with several blocks, a merge, an overwrite and a revert that is disciplined: the
hypotheses of C01–C04 are met. -/
def demoHistory : List (Op Nat Nat) :=
  [.insert 1 10, .insert 2 20, .commit 1 true, .flush, .insert 1 11, .commit 2 true, .flush,
   .insert 3 30, .commit 3 true, .flush, .insert 2 21, .commit 4 true, .revert 3, .insert 5 50]

example : (Spec.empty : Spec Nat Nat).Disciplined demoHistory := by
  simp [demoHistory, Spec.Disciplined, Spec.apply, Spec.accepts, Spec.effect, Spec.empty,
    Spec.clean, u32max]

example : (Spec.empty.run demoHistory).find 2 u32max = some 20 := by decide

/-- The discipline on `flush` cannot be dropped: with two flushes inside one version, a later merge
finds the same `(key, version)` in two blocks, overwrites one of the two read pointers and drops the
rest of that block.  Key 2 was inserted and committed, never reverted, and is gone. -/
theorem undisciplined_flush_loses_data :
    let h : List (Op Nat Nat) :=
      [.insert 1 10, .insert 2 20, .flush, .insert 1 11, .flush, .commit 1 false, .insert 3 30,
       .commit 2 false, .flush]
    (Spec.empty.run h).find 2 u32max = some 20 ∧
    (Table.empty.run (demoOpts 2) h).find 2 u32max = some none := by
  decide +kernel

/-- **C44** is false in general: when an iterator is alive and the commit triggers a flush, `commit`
throws although the new version is already in effect and logged. -/
theorem C44_commit_can_throw_after_committing :
    let o : Options Nat Nat := { demoOpts 4 with maxBlockSize := 1 }
    let t := Table.empty.run o [.insert 1 10, .iterOpen]
    (t.commit o 1 true).threw = true ∧ (t.commit o 1 true).tab.cur = 1 ∧ t.cur = 0 := by
  decide +kernel

end Verif.DB
