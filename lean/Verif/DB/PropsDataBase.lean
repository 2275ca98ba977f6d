import Verif.DB.DataBase
import Verif.DB.Props
import Verif.DB.PropsCrash

/-!
# Property C08: a database of several tables

Each table comes with the execution that led to it (`Reach`, crashes included) and the specification
state of that execution.
-/

set_option linter.unusedSectionVars false

namespace Verif.DB

variable {K V : Type} [LinearOrder K]

/-- A table, its options, its directory and its specification after some execution. -/
structure Running (K V : Type) [LinearOrder K] where
  opts : Options K V
  tab : Table K V
  disk : Disk K V
  spec : Spec K V
  reach : Reach opts tab disk spec

/-- The database made of some tables. -/
def dbOf (l : List (Running K V)) : Db K V := { slots := l.map fun x => ⟨x.opts, x.tab⟩ }

theorem Running.ref (x : Running K V) : Refines x.tab x.spec := (reach_sound x.reach).ref

theorem foldl_minv (ss : List (Slot K V)) (m : Nat) :
    let r := ss.foldl (fun m s => min s.tab.cur m) m
    r ≤ m ∧ (∀ s ∈ ss, r ≤ s.tab.cur) ∧ (r = m ∨ ∃ s ∈ ss, s.tab.cur = r) := by
  induction ss generalizing m with
  | nil => simp
  | cons s ss ih =>
    obtain ⟨h1, h2, h3⟩ := ih (min s.tab.cur m)
    simp only [List.foldl_cons]
    refine ⟨by omega, ?_, ?_⟩
    · intro x hx
      rcases List.mem_cons.1 hx with rfl | hx
      · omega
      · exact h2 x hx
    · rcases h3 with h3 | ⟨x, hx, h3⟩
      · by_cases hle : s.tab.cur ≤ m
        · right; exact ⟨s, List.mem_cons_self, by rw [h3]; omega⟩
        · left; rw [h3]; omega
      · right; exact ⟨x, List.mem_cons_of_mem _ hx, h3⟩

theorem minVersion_db {ss : List (Slot K V)} (hne : ss ≠ []) (hlt : ∀ s ∈ ss, s.tab.cur < u32max) :
    (∀ s ∈ ss, (Db.mk ss).minVersion ≤ s.tab.cur) ∧ ∃ s ∈ ss, s.tab.cur = (Db.mk ss).minVersion := by
  cases ss with
  | nil => exact absurd rfl hne
  | cons s ss =>
    obtain ⟨h1, h2, h3⟩ := foldl_minv (s :: ss) u32max
    refine ⟨h2, ?_⟩
    rcases h3 with h3 | h3
    · have := h2 s List.mem_cons_self
      have := hlt s List.mem_cons_self
      rw [h3] at *
      omega
    · exact h3

/-- A revert of one table. -/
theorem revert_one {t : Table K V} {s : Spec K V} (o : Options K V) (h : Refines t s)
    (hl : s.locks = 0) {v : Nat} (hv : v ≤ s.cur) :
    (t.revert o v).threw = false ∧ (t.revert o v).tab.cur = v ∧
    ∀ k maxV, (t.revert o v).tab.find k maxV =
      some (if v = 0 then none else s.find k (min maxV (v - 1))) := by
  have hacc : s.accepts (.revert v) := ⟨hl, hv⟩
  obtain ⟨h1, h2⟩ := refines_apply (o := o) h (.revert v) (by intro h; cases h)
  have h1' : Refines (t.revert o v).tab (s.effect (.revert v)) := by
    have : s.apply (.revert v) = s.effect (.revert v) := by unfold Spec.apply; rw [if_pos hacc]
    rw [← this]; exact h1
  have hthrow : (t.revert o v).threw = false := by
    rcases h2 with h2 | ⟨w, a, h2⟩ | h2
    · cases h2
    · cases h2
    · cases hb : (t.revert o v).threw with
      | false => rfl
      | true => exact absurd hacc (h2.1 hb)
  refine ⟨hthrow, h1'.cur, fun k maxV => ?_⟩
  rw [refines_find h1', spec_find_revert]

/-- **C08.**  `recover()` on any number of tables, after any executions, with no iterator alive: it
does not throw, returns the smallest version `v` of all tables, leaves every table at version `v`,
and every read answers what the table's surviving writes of versions below `v` say. -/
theorem C08_recover (l : List (Running K V)) (hne : l ≠ []) (hl : ∀ x ∈ l, x.spec.locks = 0) :
    let r := (dbOf l).recover
    let v := r.2.2
    r.2.1 = false ∧ (∃ x ∈ l, x.tab.cur = v) ∧ (∀ x ∈ l, v ≤ x.tab.cur) ∧
    r.1.slots.length = l.length ∧
    ∀ (i : Nat) (x : Running K V), l[i]? = some x → ∃ s' : Slot K V, r.1.slots[i]? = some s' ∧ s'.tab.cur = v ∧
      ∀ k maxV, s'.tab.find k maxV =
        some (if v = 0 then none else x.spec.find k (min maxV (v - 1))) := by
  dsimp only
  have hlt : ∀ s ∈ (dbOf l).slots, s.tab.cur < u32max := by
    intro s hs
    obtain ⟨x, hx, rfl⟩ := List.mem_map.1 hs
    exact x.ref.inv.curLt
  obtain ⟨m1, m2⟩ := minVersion_db (ss := (dbOf l).slots) (by simp [dbOf, hne]) hlt
  obtain ⟨v, hv⟩ : ∃ v, v = (dbOf l).minVersion := ⟨_, rfl⟩
  have m1' : ∀ x ∈ l, v ≤ x.tab.cur := fun x hx =>
    hv ▸ m1 ⟨x.opts, x.tab⟩ (List.mem_map.2 ⟨x, hx, rfl⟩)
  have hone : ∀ x ∈ l, _ := fun x hx =>
    revert_one x.opts x.ref (hl x hx) (v := v) (by rw [← x.ref.cur]; exact m1' x hx)
  unfold Db.recover Db.revert
  dsimp only
  rw [← hv]
  refine ⟨?_, ?_, m1', by simp [dbOf], ?_⟩
  · rw [List.any_eq_false]
    intro s hs
    obtain ⟨x, hx, rfl⟩ := List.mem_map.1 hs
    simp [(hone x hx).1]
  · obtain ⟨s, hs, he⟩ := m2
    obtain ⟨x, hx, rfl⟩ := List.mem_map.1 hs
    exact ⟨x, hx, by rw [hv]; exact he⟩
  · intro i x hi
    have hx := List.mem_of_getElem? hi
    refine ⟨⟨x.opts, (x.tab.revert x.opts v).tab⟩, ?_, (hone x hx).2.1, (hone x hx).2.2⟩
    simp [dbOf, hi]

/-- A table whose process died inside call `op`, after `p` file operations with `n` buffered log
records surviving, and that was opened again (possibly after more crashes of the restart). -/
structure Restarted (K V : Type) [LinearOrder K] where
  before : Running K V
  op : Op K V
  p : Nat
  n : Nat
  found : Disk K V
  tab : Table K V
  ops : List (FsOp K V)
  disciplined : op = .flush → before.spec.clean
  noDouble : p < (before.tab.apply before.opts op).ops.length →
    NoDouble (before.disk.run ((before.tab.apply before.opts op).ops.take p)).files
  down : Down before.opts (crashIn before.opts before.tab before.disk op p n) found
  opened : openTable before.opts found = some (tab, ops)

/-- The execution of a restarted table. -/
def Restarted.after (x : Restarted K V) : Running K V :=
  { opts := x.before.opts, tab := x.tab, disk := x.found.run x.ops,
    spec := (x.before.spec.survivor x.op x.p x.n x.before.disk.buf.length).crashed x.tab.cur,
    reach := .crash x.op x.p x.n x.before.reach x.disciplined x.noDouble x.down x.opened }

theorem filter_below_eq {l l' : List (Entry K V)} {w : Nat}
    (h : l.filter (fun e => decide (e.ver < w)) = l'.filter (fun e => decide (e.ver < w)))
    (s s' : Spec K V) (hs : s.writes = l) (hs' : s'.writes = l') (k : K) (maxV : Nat) (h0 : w ≠ 0) :
    s.find k (min maxV (w - 1)) = s'.find k (min maxV (w - 1)) := by
  have key : ∀ l : List (Entry K V),
      l.filter (fun e => decide (e.key = k ∧ e.ver ≤ min maxV (w - 1))) =
      (l.filter (fun e => decide (e.ver < w))).filter
        (fun e => decide (e.key = k ∧ e.ver ≤ min maxV (w - 1))) := by
    intro l
    rw [List.filter_filter]
    apply List.filter_congr
    intro e _
    rw [← Bool.decide_and]
    congr 1
    apply propext
    constructor
    · rintro ⟨a, b⟩; exact ⟨⟨a, b⟩, by omega⟩
    · exact fun a => a.1
  unfold Spec.find
  rw [hs, hs', key l, key l', h]

/-- The writes of versions below `w` are the same before the crash and after the restart, for every
`w` the restarted table still reaches. -/
theorem restarted_writes (x : Restarted K V) {w : Nat} (hw : w ≤ x.tab.cur) :
    (x.after.spec.writes).filter (fun e => decide (e.ver < w)) =
      x.before.spec.writes.filter (fun e => decide (e.ver < w)) := by
  have hb := (C07_version_bounds_partial x.before.opts x.before.reach x.op x.disciplined x.p x.n
    x.noDouble x.down x.opened).1
  have hle := x.before.ref.le
  unfold Restarted.after Spec.crashed
  dsimp only
  rw [List.filter_filter]
  have h1 : ∀ (e : Entry K V) (c : Nat), w ≤ c →
      (decide (e.ver < w) && decide (e.ver < c)) = decide (e.ver < w) := by
    intro e c hc
    by_cases h : e.ver < w
    · have : e.ver < c := by omega
      simp [h, this]
    · simp [h]
  have hwc : w ≤ (x.before.spec.survivor x.op x.p x.n x.before.disk.buf.length).cur := by omega
  rw [List.filter_congr (fun e _ => h1 e _ hwc)]
  unfold Spec.survivor at *
  by_cases hd : durable x.p x.n x.before.disk.buf.length = true
  · rw [if_pos hd] at hwc ⊢
    unfold Spec.apply at *
    by_cases ha : x.before.spec.accepts x.op
    · rw [if_pos ha] at hwc ⊢
      cases hop : x.op with
      | insert k v =>
        rw [hop] at hwc
        simp only [Spec.effect] at hwc ⊢
        rw [List.filter_append, List.filter_cons_of_neg (by simpa using hwc)]
        simp
      | commit v a => rfl
      | flush => rfl
      | revert v =>
        rw [hop] at hwc
        simp only [Spec.effect] at hwc ⊢
        rw [List.filter_filter]
        exact List.filter_congr (fun e _ => h1 e v hwc)
      | iterOpen => rfl
      | iterClose => rfl
    · rw [if_neg ha]
  · rw [if_neg hd]

/-- **C08**, across a crash: the process dies while every table is inside some call (for instance in
the middle of `DataBase::commit` or `DataBase::revert`, with some tables done and others not), the
tables are opened and `recover()` runs.  Then there is one common version `v`, and every table holds
exactly the writes it had before the crash at versions below `v`: a consistent cut, never a mix. -/
theorem C08_restart_is_consistent_cut_partial (l : List (Restarted K V)) (hne : l ≠ []) :
    let r := (dbOf (l.map (·.after))).recover
    let v := r.2.2
    r.2.1 = false ∧ (∃ x ∈ l, x.tab.cur = v) ∧
    ∀ (i : Nat) (x : Restarted K V), l[i]? = some x → ∃ s' : Slot K V, r.1.slots[i]? = some s' ∧ s'.tab.cur = v ∧
      v ≤ (x.before.spec.survivor x.op x.p x.n x.before.disk.buf.length).cur ∧
      ∀ k maxV, s'.tab.find k maxV =
        some (if v = 0 then none else x.before.spec.find k (min maxV (v - 1))) := by
  dsimp only
  obtain ⟨h1, h2, h3, _, h5⟩ := C08_recover (l.map (·.after)) (by simp [hne]) (by
    intro x hx
    obtain ⟨y, _, rfl⟩ := List.mem_map.1 hx
    rfl)
  refine ⟨h1, ?_, fun i x hi => ?_⟩
  · obtain ⟨x, hx, he⟩ := h2
    obtain ⟨y, hy, rfl⟩ := List.mem_map.1 hx
    exact ⟨y, hy, he⟩
  · obtain ⟨s', a1, a2, a3⟩ := h5 i x.after (by simp [hi])
    have hle := h3 x.after (List.mem_map.2 ⟨x, List.mem_of_getElem? hi, rfl⟩)
    have hb := (C07_version_bounds_partial x.before.opts x.before.reach x.op x.disciplined x.p x.n
      x.noDouble x.down x.opened).1
    refine ⟨s', a1, a2, Nat.le_trans hle hb, fun k maxV => ?_⟩
    rw [a3]
    split
    · rfl
    · rename_i h0
      rw [filter_below_eq (restarted_writes x hle) _ _ rfl rfl k maxV h0]

/-! ### commit -/

theorem slot_commit {t : Table K V} {s : Spec K V} (o : Options K V) (h : Refines t s)
    (hl : s.locks = 0) {v : Nat} (hv : s.cur < v) (hm : v < u32max) :
    (t.commit o v false).threw = false ∧ ((Slot.mk o t).commit v).2 = false ∧
    Refines ((Slot.mk o t).commit v).1.tab (s.effect (.commit v false)) := by
  have hc : t.commit o v false =
      { tab := { t with cur := v }, ops := [.logWrite (.commit v), .logFlush], threw := false } := by
    unfold Table.commit
    rw [if_neg (by omega), if_neg (by rw [h.cur]; omega)]
    simp
  have h1 : Refines { t with cur := v } (s.effect (.commit v false)) := by
    have := (refines_apply (o := o) h (.commit v false) (by intro h; cases h)).1
    have ha : s.apply (.commit v false) = s.effect (.commit v false) := by
      unfold Spec.apply; rw [if_pos (show s.accepts (.commit v false) from ⟨hv, hm⟩)]
    rw [ha] at this
    have hap : (t.apply o (.commit v false)).tab = (t.commit o v false).tab := rfl
    rw [hap, hc] at this
    exact this
  refine ⟨by rw [hc], ?_⟩
  unfold Slot.commit
  dsimp only
  rw [hc]
  dsimp only
  rw [if_neg (by simp)]
  split
  · have hclean : (s.effect (.commit v false)).clean := by
      intro w hw
      exact Nat.lt_of_le_of_lt (h.le w hw) hv
    obtain ⟨h2, h3⟩ := refines_apply (o := o) h1 .flush (fun _ => hclean)
    have hacc : (s.effect (.commit v false)).accepts .flush := hl
    have ha : (s.effect (.commit v false)).apply .flush = s.effect (.commit v false) := by
      unfold Spec.apply; rw [if_pos hacc]; rfl
    rw [ha] at h2
    refine ⟨?_, h2⟩
    unfold Table.flush
    rw [if_neg (by have := h.locks; simp only; omega)]
    dsimp only
    split <;> rfl
  · exact ⟨rfl, h1⟩

/-- **C08**, `DataBase::commit`: when no iterator is alive and the version is above that of every
table, `commit(v)` does not throw, brings every table to version `v` and changes no read, whichever
tables decide to flush. -/
theorem C08_commit (l : List (Running K V)) (hl : ∀ x ∈ l, x.spec.locks = 0) (v : Nat)
    (hv : ∀ x ∈ l, x.tab.cur < v) (hm : v < u32max) :
    let r := (dbOf l).commit v
    r.2 = false ∧ r.1.slots.length = l.length ∧
    ∀ (i : Nat) (x : Running K V), l[i]? = some x → ∃ s' : Slot K V, r.1.slots[i]? = some s' ∧ s'.tab.cur = v ∧
      ∀ k maxV, s'.tab.find k maxV = x.tab.find k maxV := by
  dsimp only
  unfold Db.commit
  dsimp only
  have hdb : (dbOf l).slots = l.map fun x => ⟨x.opts, x.tab⟩ := rfl
  rw [hdb]
  clear hdb
  induction l with
  | nil => simp [commitSlots]
  | cons y l ih =>
    obtain ⟨i1, i2, i3⟩ := ih (fun x hx => hl x (List.mem_cons_of_mem _ hx))
      (fun x hx => hv x (List.mem_cons_of_mem _ hx))
    obtain ⟨c1, c2, c3⟩ := slot_commit y.opts y.ref (hl y List.mem_cons_self) (v := v)
      (by rw [← y.ref.cur]; exact hv y List.mem_cons_self) hm
    simp only [List.map_cons, commitSlots]
    rw [if_neg (by simp [c1])]
    dsimp only
    refine ⟨by rw [c2, i1]; rfl, by simp [i2], fun i x hi => ?_⟩
    cases i with
    | zero =>
      simp only [List.getElem?_cons_zero, Option.some.injEq] at hi
      subst hi
      refine ⟨_, List.getElem?_cons_zero, c3.cur, fun k maxV => ?_⟩
      rw [refines_find c3, refines_find y.ref]
      rfl
    | succ i =>
      simp only [List.getElem?_cons_succ] at hi ⊢
      exact i3 i x hi

/-- **C08**, a refused `DataBase::commit`: if some table refuses the version, the call throws, the
tables added before it are at version `v` with unchanged reads, and this table and every later one
are exactly as before. -/
theorem C08_commit_refused (l : List (Running K V)) (hl : ∀ x ∈ l, x.spec.locks = 0) (v : Nat)
    (hv : ∀ x ∈ l, x.tab.cur < v) (hm : v < u32max) (s : Slot K V)
    (hs : (s.tab.commit s.opts v false).threw = true) (post : List (Slot K V)) :
    let r := (Db.mk (l.map (fun x => Slot.mk x.opts x.tab) ++ s :: post)).commit v
    r.2 = true ∧ r.1.slots.drop l.length = s :: post ∧
    ∀ (i : Nat) (x : Running K V), l[i]? = some x → ∃ s' : Slot K V, r.1.slots[i]? = some s' ∧
      s'.tab.cur = v ∧ ∀ k maxV, s'.tab.find k maxV = x.tab.find k maxV := by
  dsimp only
  unfold Db.commit
  dsimp only
  induction l with
  | nil => simp [commitSlots, hs]
  | cons y l ih =>
    obtain ⟨i1, i2, i3⟩ := ih (fun x hx => hl x (List.mem_cons_of_mem _ hx))
      (fun x hx => hv x (List.mem_cons_of_mem _ hx))
    obtain ⟨c1, c2, c3⟩ := slot_commit y.opts y.ref (hl y List.mem_cons_self) (v := v)
      (by rw [← y.ref.cur]; exact hv y List.mem_cons_self) hm
    simp only [List.map_cons, List.cons_append, commitSlots]
    rw [if_neg (by simp [c1])]
    dsimp only
    refine ⟨by rw [i1]; simp, by simpa using i2, fun i x hi => ?_⟩
    cases i with
    | zero =>
      simp only [List.getElem?_cons_zero, Option.some.injEq] at hi
      subst hi
      refine ⟨_, List.getElem?_cons_zero, c3.cur, fun k maxV => ?_⟩
      rw [refines_find c3, refines_find y.ref]
      rfl
    | succ i =>
      simp only [List.getElem?_cons_succ] at hi ⊢
      exact i3 i x hi

/-- A `commit` refused by one table leaves the tables before it at the new version and the others at
the old one: the call is not atomic.  (`recover` repairs this: `C08_recover`.) -/
theorem C08_commit_not_atomic :
    let o := demoOpts 2
    let a : Slot Nat Nat := ⟨o, Table.empty.run o [.insert 1 10, .commit 1 false]⟩
    let b : Slot Nat Nat := ⟨o, Table.empty.run o [.insert 1 10, .commit 3 false]⟩
    let r := (Db.mk [a, b]).commit 2
    r.2 = true ∧ r.1.slots.map (·.tab.cur) = [2, 3] ∧ r.1.recover.2.2 = 2 ∧
      r.1.recover.1.slots.map (·.tab.cur) = [2, 2] := by
  decide +kernel

/-! ### concrete cases -/

/-- Two tables at different versions, both without iterators. -/
def skewA : Running Nat Nat :=
  { opts := demoOpts 2, tab := _, disk := _, spec := _,
    reach := .call (.commit 1 true) (.call (.insert 1 10) .init (by simp)) (by simp) }

def skewB : Running Nat Nat :=
  { opts := demoOpts 3, tab := _, disk := _, spec := _,
    reach := .call (.commit 2 true) (.call (.insert 1 20) (.call (.commit 1 true)
      (.call (.insert 2 5) .init (by simp)) (by simp)) (by simp)) (by simp) }

example : skewA.spec.locks = 0 ∧ skewB.spec.locks = 0 ∧ skewA.tab.cur = 1 ∧ skewB.tab.cur = 2 := by
  decide +kernel

example :
    let r := (dbOf [skewA, skewB]).recover
    r.2 = (false, 1) ∧ r.1.slots.map (fun s => (s.tab.cur, s.tab.find 1 u32max, s.tab.find 2 u32max))
      = [(1, some (some 10), some none), (1, some none, some (some 5))] := by
  decide +kernel

/-- A table that died inside a `commit(7)`, reopened; the hypotheses of
`C08_restart_is_consistent_cut_partial` are met with `p = 2` (committed) and with `p = 0` (not). -/
def restart (x : Running Nat Nat) (p : Nat)
    (ho : (openTable x.opts (crashIn x.opts x.tab x.disk (.commit 7 true) p 0)).isSome = true)
    (hp : ∀ b, (x.disk.run ((x.tab.apply x.opts (.commit 7 true)).ops.take p)).files = b → b = []) :
    Restarted Nat Nat :=
  { before := x, op := .commit 7 true, p := p, n := 0, found := _,
    tab := ((openTable x.opts (crashIn x.opts x.tab x.disk (.commit 7 true) p 0)).get ho).1,
    ops := ((openTable x.opts (crashIn x.opts x.tab x.disk (.commit 7 true) p 0)).get ho).2,
    disciplined := by simp,
    noDouble := by
      intro _
      rw [hp _ rfl]
      intro m hm
      cases hm
    down := .here _,
    opened := (Option.some_get ho).symm }

def halfA : Restarted Nat Nat := restart skewA 2 (by decide +kernel)
  (by rintro b rfl; decide +kernel)

def halfB : Restarted Nat Nat := restart skewB 0 (by decide +kernel)
  (by rintro b rfl; decide +kernel)

/-- Table A was committed at 7, table B was still at 2: both come back at 2. -/
example : halfA.tab.cur = 7 ∧ halfB.tab.cur = 2 ∧
    (dbOf ([halfA, halfB].map (·.after))).recover.2 = (false, 2) := by
  decide +kernel

/-- **Consequence of `C07_version_lost_after_flush` for the whole database**: table A had its last
write at version 0 and is flushed at version 9; table B is written at every version.  After a clean
stop between calls everything was committed at version 9, yet `recover()` takes both tables back to
version 1 and the committed writes of B are gone. -/
theorem C08_flush_rolls_database_back :
    let o := demoOpts 2
    let a := runBoth o (Table.empty, emptyDisk) [.insert 1 10, .commit 5 true, .commit 9 true, .flush]
    let b := runBoth o (Table.empty, emptyDisk)
      ([.insert 1 10, .commit 5 true, .insert 1 11, .commit 9 true] : List (Op Nat Nat))
    a.1.cur = 9 ∧ b.1.cur = 9 ∧ b.1.find 1 u32max = some (some 11) ∧
    (match openTable o (a.2.crash 0), openTable o (b.2.crash 0) with
     | some (a', _), some (b', _) =>
       some ((Db.mk [⟨o, a'⟩, ⟨o, b'⟩]).recover.2.2,
         (Db.mk [⟨o, a'⟩, ⟨o, b'⟩]).recover.1.slots.map (fun s => s.tab.find 1 u32max))
     | _, _ => none) = some (1, [some (some 10), some (some 10)]) := by
  decide +kernel

end Verif.DB
