import Verif.DB.Lemmas10
import Verif.DB.Props

/-!
# Properties C05, C06, C07: crashes
-/

set_option linter.unusedSectionVars false

namespace Verif.DB

variable {K V : Type} [LinearOrder K]

/-- Invariant of executions. -/
structure Sound (t : Table K V) (d : Disk K V) (s : Spec K V) : Prop where
  ref : Refines t s
  disk : DiskInv t d

theorem sound_init :
    Sound (Table.empty : Table K V) { files := [], tmps := [], log := [], buf := [] } Spec.empty := by
  refine ⟨refines_empty, ⟨⟨List.Perm.refl _, by simp [Table.empty], by simp [Table.empty]⟩, rfl,
    by simp [Table.empty], ?_, Or.inr ⟨rfl, by simp [Table.empty]⟩, Or.inl (by simp)⟩⟩
  intro e he
  have := live_mem he
  simp [ent, replay] at this

theorem sound_call {o : Options K V} {t : Table K V} {d : Disk K V} {s : Spec K V}
    (h : Sound t d s) (op : Op K V) (hd : op = .flush → s.clean) :
    Sound (t.apply o op).tab (d.run (t.apply o op).ops) (s.apply op) :=
  ⟨(refines_apply h.ref op hd).1,
    (apply_crash h.ref.inv h.disk op (fun e => refines_mem_clean h.ref (hd e))).1⟩

theorem recov_down {o : Options K V} {t : Table K V} {d d' : Disk K V} (h : Recov d t)
    (hdn : Down o d d') : Recov d' t := by
  induction hdn with
  | here => exact h
  | again k n _ ho hg ih =>
    obtain ⟨ren, bs, ds, c, g, hc⟩ := ih
    obtain ⟨t2, ops2, o1, _, _, _, _, _, o7⟩ := open_good o g
    rw [ho] at o1
    simp only [Option.some.injEq, Prod.mk.injEq] at o1
    obtain ⟨rfl, rfl⟩ := o1
    obtain ⟨ren', bs', ds', g'⟩ := o7 k n hg
    exact ⟨ren', bs', ds', c, g', hc⟩

/-- Opening a recoverable directory. -/
theorem recov_open {o : Options K V} {t : Table K V} {d : Disk K V} {s : Spec K V}
    (hr : Refines t s) (h : Recov d t) :
    ∃ t' ops, openTable o d = some (t', ops) ∧ Sound t' (d.run ops) (s.crashed t'.cur) ∧
      t'.cur ≤ s.cur ∧ (∀ w ∈ s.writes, w.ver < s.cur → w.ver < t'.cur) := by
  obtain ⟨ren, bs, ds, c, g, hc⟩ := h
  obtain ⟨t', ops, o1, o2, o3, o4, o5, o6, _⟩ := open_good o g
  have hall : ∀ e, e ∈ t'.all ↔ Live (s.crashed t'.cur).writes e := by
    intro e
    rw [o5]
    simp only [Spec.crashed]
    rw [live_filter]
    unfold Committed
    rw [hr.all, hr.cur]
  have hver : ∀ w ∈ s.writes, w.ver < s.cur → w.ver < t'.cur := by
    intro w hw hv
    obtain ⟨x, h1, h2⟩ := exists_live hw
    have h3 : Committed t x := ⟨(hr.all x).2 h1, by rw [hr.cur, h2.2]; exact hv⟩
    have := (g.content.c3 x h3).1
    rw [h2.2, ← o3] at this
    exact this
  refine ⟨t', ops, o1, ⟨⟨o2, rfl, o4, hall, List.Pairwise.filter _ hr.mono, ?_⟩, o6⟩,
    by rw [o3, ← hr.cur]; exact hc, hver⟩
  intro w hw
  simp only [Spec.crashed] at hw
  obtain ⟨h1, h2⟩ := mem_filter_ver.1 hw
  exact Nat.le_of_lt (hver w h1 h2)

theorem survivor_refines {o : Options K V} {t : Table K V} {s : Spec K V} (h : Refines t s)
    (op : Op K V) (hd : op = .flush → s.clean) (p n b : Nat) :
    Refines (if durable p n b then (t.apply o op).tab else t) (s.survivor op p n b) := by
  unfold Spec.survivor
  split
  · exact (refines_apply h op hd).1
  · exact h

theorem reach_sound {o : Options K V} {t : Table K V} {d : Disk K V} {s : Spec K V}
    (h : Reach o t d s) : Sound t d s := by
  induction h with
  | init => exact sound_init
  | call op _ hd ih => exact sound_call ih op hd
  | crash op p n _ hd hg hdn ho ih =>
    have hrec := (apply_crash (o := o) ih.ref.inv ih.disk op
      (fun e => refines_mem_clean ih.ref (hd e))).2 p n hg
    obtain ⟨t2, ops2, o1, o2, _⟩ := recov_open (o := o)
      (survivor_refines ih.ref op hd p n _) (recov_down hrec hdn)
    rw [ho] at o1
    simp only [Option.some.injEq, Prod.mk.injEq] at o1
    obtain ⟨rfl, rfl⟩ := o1
    exact o2

theorem reachB_reach {o : Options K V} {t : Table K V} {d : Disk K V} {s : Spec K V}
    (h : ReachB o t d s) : Reach o t d s := by
  induction h with
  | init => exact .init
  | call op _ hd ih => exact .call op ih hd
  | @crash t t' d s ops n _ ho ih =>
    have := Reach.crash (o := o) (t' := t') (d' := d.crash n) (ops := ops) .iterOpen 0 n ih
      (by intro h; cases h) (by intro h; simp [Table.apply] at h) (.here _) ho
    have hs : s.survivor .iterOpen 0 n d.buf.length = s := by simp [Spec.survivor, durable]
    rw [hs] at this
    exact this

/-! ## C05 -/

/-- **C05.**  In every execution in which the process may die between calls, each read returns what
the specification says: after a crash that is the committed state (`Spec.crashed`). -/
theorem C05_crash_between_calls (o : Options K V) {t : Table K V} {d : Disk K V} {s : Spec K V}
    (h : ReachB o t d s) (k : K) (maxV : Nat) : t.find k maxV = some (s.find k maxV) :=
  refines_find (reach_sound (reachB_reach h)).ref k maxV

/-- **C05.**  After any number of buffered log records was lost, the table opens. -/
theorem C05_opens (o : Options K V) {t : Table K V} {d : Disk K V} {s : Spec K V}
    (h : ReachB o t d s) (n : Nat) : ∃ t' ops, openTable o (d.crash n) = some (t', ops) := by
  have hs := reach_sound (reachB_reach h)
  obtain ⟨t', ops, h1, _⟩ := recov_open (o := o) hs.ref (idle_recov hs.ref.inv hs.disk n)
  exact ⟨t', ops, h1⟩

theorem getLast?_filter_and {α : Type} (l : List α) (p q : α → Bool) (h : ∀ x ∈ l, q x = true → p x = true) :
    (l.filter p).filter q = l.filter q := by
  rw [List.filter_filter]
  apply List.filter_congr
  intro x hx
  cases hq : q x with
  | false => simp
  | true => simp [h x hx hq]

/-- **C05**, in terms of reads only: after a crash between calls and a restart, a read at a version
below the one in progress returns what it returned before, and a read of the newest version returns
what a read limited to committed versions returned before. -/
theorem C05_reads_survive (o : Options K V) {t t' : Table K V} {d : Disk K V} {s : Spec K V}
    {ops : List (FsOp K V)} (h : ReachB o t d s) (n : Nat)
    (ho : openTable o (d.crash n) = some (t', ops)) (k : K) (maxV : Nat) (hc : 0 < t.cur) :
    t'.find k maxV = t.find k (min maxV (t.cur - 1)) := by
  have hs := reach_sound (reachB_reach h)
  rw [C05_crash_between_calls o (.crash n h ho) k maxV, C05_crash_between_calls o h]
  congr 1
  have hcur := hs.ref.cur
  unfold Spec.find Spec.crashed
  dsimp only
  rw [List.filter_filter]
  congr 2
  apply List.filter_congr
  intro w _
  by_cases hk : w.key = k
  · simp only [hk, true_and]
    by_cases h1 : w.ver ≤ maxV <;> by_cases h2 : w.ver < s.cur <;> simp [h1, h2] <;> omega
  · simp [hk]

/-! ## C06 -/

/-- **C06 (partial).**  In every execution in which the process may die at any file operation of any
call, and at any file operation of any restart, each read returns what the specification says: after
a crash that is the committed state before or after the interrupted call (`Spec.survivor`).
Missing: crashes while `NoDouble` fails, that is while a compaction has installed its output and two
or more of its inputs are still there; `C06_two_leftovers_lose_data` shows that the claim is false
for them. -/
theorem C06_crash_inside_calls_partial (o : Options K V) {t : Table K V} {d : Disk K V}
    {s : Spec K V} (h : Reach o t d s) (k : K) (maxV : Nat) :
    t.find k maxV = some (s.find k maxV) :=
  refines_find (reach_sound h).ref k maxV

/-- **C06 (partial).**  Whatever the crash point, and however often the restart dies too, the table
opens. -/
theorem C06_opens_partial (o : Options K V) {t : Table K V} {d d' : Disk K V} {s : Spec K V}
    (h : Reach o t d s) (op : Op K V) (hd : op = .flush → s.clean) (p n : Nat)
    (hg : p < (t.apply o op).ops.length → NoDouble (d.run ((t.apply o op).ops.take p)).files)
    (hdn : Down o (crashIn o t d op p n) d') : ∃ t' ops, openTable o d' = some (t', ops) := by
  have hs := reach_sound h
  have hrec := (apply_crash (o := o) hs.ref.inv hs.disk op
    (fun e => refines_mem_clean hs.ref (hd e))).2 p n hg
  obtain ⟨t', ops, h1, _⟩ := recov_open (o := o) (survivor_refines hs.ref op hd p n _)
    (recov_down hrec hdn)
  exact ⟨t', ops, h1⟩

/-- **C06.**  A `commit` or `revert` that has returned is never lost: once the call has done all its
file operations, the crash falls back to the state after it. -/
theorem C06_returned_calls_survive (o : Options K V) {t : Table K V} {d : Disk K V} {s : Spec K V}
    (h : Reach o t d s) (op : Op K V) (hop : (∃ v a, op = .commit v a) ∨ ∃ v, op = .revert v)
    (p n : Nat) (hp : (t.apply o op).ops.length ≤ p) :
    s.survivor op p n d.buf.length = s.apply op := by
  have hr := (reach_sound h).ref
  unfold Spec.survivor
  by_cases ha : s.accepts op
  · have h2 : 2 ≤ p := by
      refine Nat.le_trans ?_ hp
      rcases hop with ⟨v, a, rfl⟩ | ⟨v, rfl⟩
      · simp only [Table.apply, Table.commit]
        have h3 : s.cur < v ∧ v < u32max := ha
        rw [if_neg (by omega), if_neg (by rw [hr.cur]; omega)]
        split <;> simp
      · simp only [Table.apply, Table.revert]
        have h3 : s.locks = 0 ∧ v ≤ s.cur := ha
        rw [if_neg (by rw [hr.locks]; omega), if_neg (by rw [hr.cur]; omega)]
        simp
    rw [if_pos (by simp [durable]; omega)]
  · have : s.apply op = s := by unfold Spec.apply; rw [if_neg ha]
    rw [this]; split <;> rfl

/-! ## C07 -/

/-- **C07 (partial).**  The version reported after a crash is never above the one that was reached,
and it is above every version with a surviving committed write.  The full claim (it equals the
committed version) is false: `C07_version_lost_after_flush`. -/
theorem C07_version_bounds_partial (o : Options K V) {t t' : Table K V} {d d' : Disk K V}
    {s : Spec K V} {ops : List (FsOp K V)} (h : Reach o t d s) (op : Op K V)
    (hd : op = .flush → s.clean) (p n : Nat)
    (hg : p < (t.apply o op).ops.length → NoDouble (d.run ((t.apply o op).ops.take p)).files)
    (hdn : Down o (crashIn o t d op p n) d') (ho : openTable o d' = some (t', ops)) :
    t'.cur ≤ (s.survivor op p n d.buf.length).cur ∧
    ∀ w ∈ (s.survivor op p n d.buf.length).writes,
      w.ver < (s.survivor op p n d.buf.length).cur → w.ver < t'.cur := by
  have hs := reach_sound h
  have hrec := (apply_crash (o := o) hs.ref.inv hs.disk op
    (fun e => refines_mem_clean hs.ref (hd e))).2 p n hg
  obtain ⟨t2, ops2, h1, _, h3, h4⟩ := recov_open (o := o) (survivor_refines hs.ref op hd p n _)
    (recov_down hrec hdn)
  rw [ho] at h1
  simp only [Option.some.injEq, Prod.mk.injEq] at h1
  obtain ⟨rfl, rfl⟩ := h1
  exact ⟨h3, h4⟩

/-- Consecutive inserts. -/
def inserts (kvs : List (K × V)) : List (Op K V) := kvs.map fun p => .insert p.1 p.2

/-- A table together with its directory after a list of calls. -/
def runBoth (o : Options K V) : Table K V × Disk K V → List (Op K V) → Table K V × Disk K V
  | x, [] => x
  | (t, d), op :: h => runBoth o ((t.apply o op).tab, d.run (t.apply o op).ops) h

/-- Inserts do not change the version nor remove commands from the log. -/
theorem inserts_keep (o : Options K V) (kvs : List (K × V)) (t : Table K V) (d : Disk K V)
    (hi : Inv t) (h : DiskInv t d) (hc : lastCmd d.log ≠ none) :
    Inv (runBoth o (t, d) (inserts kvs)).1 ∧
    DiskInv (runBoth o (t, d) (inserts kvs)).1 (runBoth o (t, d) (inserts kvs)).2 ∧
    (runBoth o (t, d) (inserts kvs)).1.cur = t.cur ∧
    (runBoth o (t, d) (inserts kvs)).2.log = d.log := by
  induction kvs generalizing t d with
  | nil => exact ⟨hi, h, rfl, rfl⟩
  | cons p kvs ih =>
    simp only [inserts, List.map_cons, runBoth]
    have h1 := (apply_crash (o := o) hi h (.insert p.1 p.2) (by intro h; cases h)).1
    have h2 : Inv (t.apply o (.insert p.1 p.2)).tab ∧
        (t.apply o (.insert p.1 p.2)).tab.cur = t.cur ∧
        (d.run (t.apply o (.insert p.1 p.2)).ops).log = d.log := by
      simp only [Table.apply, Table.insert]
      split
      · exact ⟨hi, rfl, rfl⟩
      · exact ⟨insertEntry_inv hi _ (fun x hx _ => hi.memCur x hx) (Nat.le_refl _) hi.blkCur,
          rfl, rfl⟩
    obtain ⟨i1, i2, i3, i4⟩ := ih _ _ h2.1 h1 (by rw [h2.2.2]; exact hc)
    exact ⟨i1, i2, i3.trans h2.2.1, i4.trans h2.2.2⟩

/-- **C07 (partial).**  As long as no flush happened since the last `commit`, the version survives:
after a `commit(v)` that did not flush and any inserts, a crash between calls restarts at `v`. -/
theorem C07_version_survives_without_flush_partial (o : Options K V) {t t' : Table K V}
    {d : Disk K V} {s : Spec K V} {ops : List (FsOp K V)} (h : Reach o t d s) (v : Nat) (a : Bool)
    (hv : t.cur < v ∧ v < u32max)
    (hf : (({ t with cur := v } : Table K V).doFlush o && a) = false) (kvs : List (K × V)) (n : Nat)
    (ho : openTable o ((runBoth o (t, d) (.commit v a :: inserts kvs)).2.crash n) =
      some (t', ops)) : t'.cur = v := by
  have hs := reach_sound h
  have h1 := (apply_crash (o := o) hs.ref.inv hs.disk (.commit v a) (by intro h; cases h)).1
  have h2 := (commit_inv (o := o) hs.ref.inv v a hv.1 hv.2)
  have hops : t.apply o (.commit v a) =
      { tab := { t with cur := v }, ops := [.logWrite (.commit v), .logFlush], threw := false } := by
    simp only [Table.apply, Table.commit]
    rw [if_neg (by omega), if_neg (by omega)]
    rw [hf]; rfl
  have hlog : lastCmd (d.run (t.apply o (.commit v a)).ops).log ≠ none := by
    rw [hops]
    have : (d.run [FsOp.logWrite (Rec.commit v), .logFlush]).log = (d.log ++ d.buf) ++ [.commit v] := by
      simp [Disk.run, Disk.step]
    rw [this, lastCmd_snoc]
    simp
  simp only [runBoth] at ho
  obtain ⟨i1, i2, i3, i4⟩ := inserts_keep o kvs _ _ h2.1 h1 hlog
  obtain ⟨c, g1, g2, g3⟩ := idle_good i1 i2 n
  have hcur : c = v := by
    have hcv : (runBoth o ((t.apply o (.commit v a)).tab, d.run (t.apply o (.commit v a)).ops)
        (inserts kvs)).1.cur = v := i3.trans h2.2.2.1
    rw [← hcv]
    apply g3
    rcases i2.bufOK with hb | ⟨hl, _⟩
    · show lastCmd (_ ++ List.take n _) ≠ none
      rw [(puts_log (fun r hr => hb r (List.mem_of_mem_take hr))).1, i4]
      exact hlog
    · rw [i4] at hl
      rw [hl] at hlog
      exact absurd rfl hlog
  obtain ⟨t2, ops2, o1, _, o3, _⟩ := open_good o g1
  have o1 := ho.symm.trans o1
  simp only [Option.some.injEq, Prod.mk.injEq] at o1
  rw [o1.1, o3, hcur]

/-! ## Witnesses -/

def emptyDisk : Disk K V := { files := [], tmps := [], log := [], buf := [] }

theorem reach_run (o : Options K V) (h : List (Op K V)) {t : Table K V} {d : Disk K V} {s : Spec K V}
    (hr : Reach o t d s) (hd : s.Disciplined h) :
    Reach o (runBoth o (t, d) h).1 (runBoth o (t, d) h).2 (s.run h) := by
  induction h generalizing t d s with
  | nil => exact hr
  | cons op h ih => exact ih (.call op hr hd.1) hd.2

instance (files : List (Block K V)) : Decidable (NoDouble files) := by
  unfold NoDouble; infer_instance

/-- Three blocks, a merge and overwritten keys; one write is not committed. -/
def crashHistory : List (Op Nat Nat) :=
  [.insert 1 10, .insert 2 20, .commit 1 true, .insert 1 11, .insert 3 30, .commit 2 true, .flush,
   .insert 2 21, .commit 3 true, .flush, .insert 4 40]

theorem crashHistory_disciplined : (Spec.empty : Spec Nat Nat).Disciplined crashHistory := by
  simp [crashHistory, Spec.Disciplined, Spec.apply, Spec.accepts, Spec.effect, Spec.empty,
    Spec.clean, u32max]

/-- The hypotheses of C05–C07 are met: here the process dies inside `revert(1)` when the old block
file is gone and its replacement has not been renamed yet, and dies again inside the restart. -/
example : ∃ t d s, Reach (demoOpts 2) t d s ∧ t.find 1 u32max = some (some 10) ∧
    t.find 2 u32max = some (some 20) ∧ t.find 3 u32max = some none ∧ t.cur = 1 := by
  have h0 := reach_run (demoOpts 2) crashHistory .init crashHistory_disciplined
  obtain ⟨x, hx⟩ : ∃ x, x = runBoth (demoOpts 2) (Table.empty, emptyDisk) crashHistory := ⟨_, rfl⟩
  change Reach _ (runBoth (demoOpts 2) (Table.empty, emptyDisk) crashHistory).1
    (runBoth (demoOpts 2) (Table.empty, emptyDisk) crashHistory).2 _ at h0
  have hg : 5 < (x.1.apply (demoOpts 2) (.revert 1)).ops.length →
      NoDouble (x.2.run ((x.1.apply (demoOpts 2) (.revert 1)).ops.take 5)).files := by
    rw [hx]; decide +kernel
  rw [← hx] at h0
  obtain ⟨t1, ops1, h1⟩ := C06_opens_partial _ h0 (.revert 1) (by intro h; cases h) 5 0 hg (.here _)
  have hdn : Down (demoOpts 2) (crashIn (demoOpts 2) x.1 x.2 (.revert 1) 5 0) _ :=
    .again 0 7 (.here _) h1 (by
      intro _
      rw [List.take_zero, hx]
      change NoDouble (crashIn _ _ _ _ _ _).files
      decide +kernel)
  obtain ⟨t2, ops2, h2⟩ := C06_opens_partial _ h0 (.revert 1) (by intro h; cases h) 5 0 hg hdn
  have hr := Reach.crash (.revert 1) 5 0 h0 (by intro h; cases h) hg hdn h2
  have hb := C07_version_bounds_partial _ h0 (.revert 1) (by intro h; cases h) 5 0 hg hdn h2
  have hs : ((Spec.run Spec.empty crashHistory).survivor (.revert 1) 5 0 x.2.buf.length) =
      { cur := 1, writes := [⟨1, 0, 10⟩, ⟨2, 0, 20⟩], locks := 0 } := by
    simp [Spec.survivor, durable, Spec.run, Spec.empty, crashHistory, Spec.apply, Spec.accepts,
      Spec.effect, u32max]
  rw [hs] at hr hb
  refine ⟨_, _, _, hr, ?_, ?_, ?_, ?_⟩
  · rw [C06_crash_inside_calls_partial _ hr]; rfl
  · rw [C06_crash_inside_calls_partial _ hr]; rfl
  · rw [C06_crash_inside_calls_partial _ hr]; rfl
  · have h3 := hb.1
    have h4 := hb.2 ⟨1, 0, 10⟩ (by simp) (by simp)
    dsimp only at h3 h4
    omega

/-- Start of the execution of `C06_two_leftovers_lose_data`. -/
def twoHistory : List (Op Nat Nat) :=
  [.insert 1 10, .insert 7 70, .commit 1 false, .flush, .insert 1 11, .commit 2 false, .flush,
   .insert 3 12, .commit 3 false]

/-- Ordinary calls after the restart; none of them touches key 7. -/
def laterHistory : List (Op Nat Nat) :=
  [.insert 4 1, .commit 4 false, .flush, .insert 4 2, .commit 5 false, .flush, .insert 4 3,
   .commit 6 false, .flush, .insert 4 2, .commit 7 false, .flush, .insert 4 2, .commit 8 false, .flush]

theorem twoHistory_disciplined : (Spec.empty : Spec Nat Nat).Disciplined (twoHistory ++ [.flush]) := by
  simp [twoHistory, Spec.Disciplined, Spec.apply, Spec.accepts, Spec.effect, Spec.empty,
    Spec.clean, u32max]

/-- **C06** is false in general.  The last `flush` below merges two blocks; the process dies after the
merged block is in place and before its two inputs are deleted (3 of 5 file operations).  The
restart deletes only one of the inputs and keeps the other beside the merged block.  The committed
value of key 7 is still there, but ordinary commits and flushes later a merge of the two overlapping
blocks drops it. -/
theorem C06_two_leftovers_lose_data :
    let o := demoOpts 2
    let x := runBoth o (Table.empty, emptyDisk) twoHistory
    (x.1.apply o .flush).ops.length = 5 ∧
    x.1.find 7 u32max = some (some 70) ∧
    (match openTable o (crashIn o x.1 x.2 .flush 3 0) with
     | none => none
     | some (t, _) => some (t.cur, t.find 7 u32max, (t.run o laterHistory).find 7 u32max)) =
      some (3, some (some 70), some none) := by
  decide +kernel

/-- **C07** is false in general: version 9 was committed, the table was flushed (which empties the
log), and after a clean restart the table reports version 1. -/
theorem C07_version_lost_after_flush :
    let o := demoOpts 2
    let x := runBoth o (Table.empty, emptyDisk) [.insert 1 10, .commit 9 true, .flush]
    x.1.cur = 9 ∧ x.2.buf = [] ∧
    (match openTable o (x.2.crash 0) with
     | none => none
     | some (t, _) => some t.cur) = some 1 := by
  decide +kernel

/-- **C07**, second cause: a flush with nothing to flush records the version only in the stream
buffer, so a crash right after it loses the version although `commit(9)` had been on disk. -/
theorem C07_version_lost_after_empty_flush :
    let o := demoOpts 2
    let x := runBoth o (Table.empty, emptyDisk)
      ([.insert 1 10, .commit 1 true, .flush, .commit 9 true, .flush] : List (Op Nat Nat))
    let y := runBoth o (Table.empty, emptyDisk)
      ([.insert 1 10, .commit 1 true, .flush, .commit 9 true] : List (Op Nat Nat))
    (match openTable o (y.2.crash 0) with
     | none => none
     | some (t, _) => some t.cur) = some 9 ∧
    (match openTable o (x.2.crash 0) with
     | none => none
     | some (t, _) => some t.cur) = some 1 := by
  decide +kernel

end Verif.DB
