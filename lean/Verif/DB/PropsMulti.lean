import Verif.DB.MultiLemmas

/-!
# Property C12: tables with several values per key

The specification is `MSpec` (`Verif/DB/MultiSpec.lean`): the list of inserted values that have not
been undone by a revert.
-/

namespace Verif.DB

variable {V W : Type}

/-- Effect of a call on the specification; a call that is refused changes nothing, except that
`insertMany` keeps the values that there was room for. -/
def MSpec.apply {A : Type} [DecidableEq A] (cap : Nat) (m : MSpec A W) : MOp A W → MSpec A W
  | .insertMany k xs => if m.locks = 0 then m.insert cap k xs else m
  | .commit v _ => if m.cur < v ∧ v < u32max then { m with cur := v } else m
  | .flush => m
  | .revert v => if m.locks = 0 ∧ v ≤ m.cur then m.revert v else m
  | .iterOpen => { m with locks := m.locks + 1 }
  | .iterClose => { m with locks := m.locks - 1 }

def MSpec.run {A : Type} [DecidableEq A] (cap : Nat) (m : MSpec A W) (h : List (MOp A W)) : MSpec A W :=
  h.foldl (fun m op => m.apply cap op) m

/-- `flush` is called only when nothing is uncommitted (as for C01). -/
def MSpec.Disciplined {A : Type} [DecidableEq A] (cap : Nat) (m : MSpec A W) : List (MOp A W) → Prop
  | [] => True
  | op :: h => (op = .flush → m.clean) ∧ MSpec.Disciplined cap (m.apply cap op) h

/-- The call stores everything it was given. -/
def MSpec.Accepts {A : Type} [DecidableEq A] (cap : Nat) (m : MSpec A W) (k : A) (xs : List W) : Prop :=
  (xs = [] ∨ m.locks = 0) ∧ (m.vals k).length + xs.length ≤ cap

section

variable {T : KeyType} [DecidableEq T.Val] {w : Nat} {wr : W → V}

/-- Table, byte level specification and multi-value specification together. -/
def MSim (T : KeyType) [DecidableEq T.Val] (w : Nat) (wr : W → V) (t : Table DbKey V)
    (m : MSpec T.Val W) : Prop := ∃ s, Refines t s ∧ MRep T w wr m s

theorem insertMany_sim (hT : T.Faithful) {o : Options DbKey V} {t : Table DbKey V}
    {m : MSpec T.Val W} (h : MSim T w wr t m) (key : T.Val) (xs : List W) :
    MSim T w wr (t.insertMany o T w wr key xs).1 (m.apply (maxIndex w) (.insertMany key xs)) ∧
    ((t.insertMany o T w wr key xs).2 = false ↔ m.Accepts (maxIndex w) key xs) := by
  obtain ⟨s, hr, hm⟩ := h
  obtain ⟨hr1, _⟩ := refines_apply (o := o) hr .iterOpen (by intro e; cases e)
  have hm1 : MRep T w wr { m with locks := m.locks + 1 } (s.apply .iterOpen) := by
    refine ⟨hm.cur, ?_, hm.writes, hm.cap, hm.mono, hm.le⟩
    show s.locks + 1 = m.locks + 1
    rw [hm.locks]
  have hn := nextIndex_spec hT hr1 hm1 key
  have ht2 : ((t.apply o .iterOpen).tab.apply o .iterClose).tab = t := by
    simp [Table.apply]
  unfold Table.insertMany
  dsimp only
  rw [hn, ht2]
  dsimp only
  have hvals : ({ m with locks := m.locks + 1 } : MSpec T.Val W).vals key = m.vals key := rfl
  rw [hvals]
  unfold MSpec.Accepts
  by_cases hl : m.locks = 0
  · obtain ⟨s', a1, a2, a3⟩ := insertFrom_spec (o := o) hr hm hl key xs
    refine ⟨⟨s', a1, ?_⟩, ?_⟩
    · simp only [MSpec.apply]; rw [if_pos hl]; exact a2
    · rw [← Bool.not_eq_true, a3]
      simp [hl]
  · have hlt : t.writeLock ≠ 0 := by rw [hr.locks, hm.locks]; exact hl
    rw [insertFrom_locked hlt]
    refine ⟨⟨s, hr, ?_⟩, ?_⟩
    · simp only [MSpec.apply]; rw [if_neg hl]; exact hm
    · have hcap := hm.cap key
      cases xs with
      | nil => simpa using hcap
      | cons x xs => simp [hl]

theorem apply_sim (hT : T.Faithful) {o : Options DbKey V} {t : Table DbKey V} {m : MSpec T.Val W}
    (h : MSim T w wr t m) (op : MOp T.Val W) (hd : op = .flush → m.clean) :
    MSim T w wr (t.multiApply o T w wr op).1 (m.apply (maxIndex w) op) := by
  cases op with
  | insertMany key xs => exact (insertMany_sim hT h key xs).1
  | commit v a =>
    obtain ⟨s, hr, hm⟩ := h
    obtain ⟨hr1, _⟩ := refines_apply (o := o) hr (.commit v a) (by intro e; cases e)
    refine ⟨_, hr1, ?_⟩
    unfold Spec.apply MSpec.apply
    simp only [Spec.accepts, hm.cur]
    split
    · rename_i hv
      exact ⟨rfl, hm.locks, hm.writes, hm.cap, hm.mono, fun x hx => by
        have := hm.le x hx; dsimp only; omega⟩
    · exact hm
  | flush =>
    obtain ⟨s, hr, hm⟩ := h
    obtain ⟨hr1, _⟩ := refines_apply (o := o) hr .flush (fun _ => hm.clean (hd rfl))
    refine ⟨_, hr1, ?_⟩
    unfold Spec.apply
    split <;> exact hm
  | revert v =>
    obtain ⟨s, hr, hm⟩ := h
    obtain ⟨hr1, _⟩ := refines_apply (o := o) hr (.revert v) (by intro e; cases e)
    refine ⟨_, hr1, ?_⟩
    unfold Spec.apply MSpec.apply
    simp only [Spec.accepts, hm.cur, hm.locks]
    split
    · refine ⟨rfl, hm.locks, ?_, ?_, hm.mono.filter _, ?_⟩
      · simp only [Spec.effect, MSpec.revert]
        rw [hm.writes]
        exact idxFrom_filter v [] m.log hm.mono
      · intro k
        refine Nat.le_trans ?_ (hm.cap k)
        simp only [MSpec.vals, MSpec.revert, List.length_map]
        exact ((List.filter_sublist).filter _).length_le
      · intro x hx
        simp only [MSpec.revert, List.mem_filter, decide_eq_true_eq] at hx ⊢
        omega
    · exact hm
  | iterOpen =>
    obtain ⟨s, hr, hm⟩ := h
    obtain ⟨hr1, _⟩ := refines_apply (o := o) hr .iterOpen (by intro e; cases e)
    refine ⟨_, hr1, hm.cur, ?_, hm.writes, hm.cap, hm.mono, hm.le⟩
    show s.locks + 1 = m.locks + 1
    rw [hm.locks]
  | iterClose =>
    obtain ⟨s, hr, hm⟩ := h
    obtain ⟨hr1, _⟩ := refines_apply (o := o) hr .iterClose (by intro e; cases e)
    refine ⟨_, hr1, hm.cur, ?_, hm.writes, hm.cap, hm.mono, hm.le⟩
    show s.locks - 1 = m.locks - 1
    rw [hm.locks]

theorem run_sim (hT : T.Faithful) {o : Options DbKey V} {t : Table DbKey V} {m : MSpec T.Val W}
    (hs : MSim T w wr t m) (h : List (MOp T.Val W)) (hd : m.Disciplined (maxIndex w) h) :
    MSim T w wr (t.multiRun o T w wr h) (m.run (maxIndex w) h) := by
  induction h generalizing t m with
  | nil => exact hs
  | cons op h ih => exact ih (apply_sim hT hs op hd.1) hd.2

theorem empty_sim : MSim T w wr (Table.empty : Table DbKey V) MSpec.empty :=
  ⟨Spec.empty, refines_empty, rfl, rfl, rfl, by intro k; simp [MSpec.vals, MSpec.empty],
    List.Pairwise.nil, by intro x hx; cases hx⟩

/-- The values of one key with their keys. -/
def valList (T : KeyType) (w : Nat) (key : T.Val) (vs : List W) : List ((multiKey T w).Val × W) :=
  vs.mapIdx fun i x => ((key, toIndex w i), x)

omit [DecidableEq T.Val] in
theorem mem_valList {key : T.Val} {vs : List W} {a : T.Val} {i : (uintKey w).Val} {x : W}
    (hlen : vs.length ≤ maxIndex w) :
    ((a, i), x) ∈ valList T w key vs ↔ a = key ∧ vs[Fin.val i]? = some x := by
  unfold valList
  rw [List.mem_mapIdx]
  constructor
  · rintro ⟨j, hj, e⟩
    have e1 : key = a := congrArg (fun z => z.1.1) e
    have e2 : toIndex w j = i := congrArg (fun z => z.1.2) e
    have e3 : vs[j] = x := congrArg (fun z => z.2) e
    have e4 : Fin.val i = j := by rw [← e2]; exact toIndex_val (by omega)
    refine ⟨e1.symm, ?_⟩
    rw [e4, List.getElem?_eq_getElem hj, e3]
  · rintro ⟨rfl, h⟩
    obtain ⟨hj, e⟩ := List.getElem?_eq_some_iff.1 h
    exact ⟨Fin.val i, hj, by rw [e, toIndex_self]⟩

omit [DecidableEq T.Val] in
theorem valList_sorted (hT : T.Faithful) {key : T.Val} {vs : List W}
    (hlen : vs.length ≤ maxIndex w) :
    (valList T w key vs).Pairwise fun x y => (multiKey T w).lt x.1 y.1 = true := by
  rw [List.pairwise_iff_getElem]
  intro i j hi hj hij
  unfold valList at hi hj ⊢
  rw [List.length_mapIdx] at hi hj
  rw [List.getElem_mapIdx, List.getElem_mapIdx]
  refine (multi_lt hT _ _).2 (Or.inr ⟨rfl, ?_⟩)
  dsimp only
  rw [toIndex_val (by omega), toIndex_val (by omega)]
  exact hij

omit [DecidableEq T.Val] in
theorem map_valList (key : T.Val) (vs : List W) : (valList T w key vs).map Prod.snd = vs := by
  unfold valList
  apply List.ext_getElem
  · simp
  · intro i h1 h2
    simp

theorem index_le (i : (uintKey w).Val) : Fin.val i ≤ maxIndex w := by
  have := Fin.isLt i
  unfold maxIndex; omega

theorem holds_iff (hT : T.Faithful) {rd : V → Option W} (hrw : ∀ x, rd (wr x) = some x)
    {m : MSpec T.Val W} {s : Spec DbKey V} (h : MRep T w wr m s) (hc : s.cur < u32max) (a : T.Val)
    (i : (uintKey w).Val) (x : W) :
    (∃ v, s.find ((multiKey T w).key (a, i)) u32max = some v ∧ rd v = some x) ↔
      (m.vals a)[Fin.val i]? = some x := by
  have hk : (multiKey T w).key (a, i) = mkey T w a (Fin.val i) := by
    unfold mkey; rw [toIndex_self]
  rw [hk, h.find hT hc (index_le i)]
  constructor
  · rintro ⟨v, hv, hx⟩
    rw [Option.map_eq_some_iff] at hv
    obtain ⟨y, hy, rfl⟩ := hv
    rw [hrw] at hx
    rw [hy, hx]
  · intro hx
    exact ⟨wr x, by rw [hx]; rfl, hrw x⟩

omit [DecidableEq T.Val] in
theorem sel_from (hT : T.Faithful) (b : T.Val) (a : (multiKey T w).Val) :
    Sel true (some ((multiKey T w).key (b, toIndex w 0))) ((multiKey T w).key a) ↔
      ¬ T.lt a.1 b = true := by
  refine (key_le (multi_faithful hT w) _ _).trans (not_congr ((multi_lt hT _ _).trans ?_))
  dsimp only
  rw [toIndex_val (Nat.zero_le _)]
  simp

omit [DecidableEq T.Val] in
theorem sel_to (hT : T.Faithful) (b : T.Val) (a : (multiKey T w).Val) :
    Sel false (some ((multiKey T w).key (b, toIndex w (maxIndex w)))) ((multiKey T w).key a) ↔
      T.lt a.1 b = true ∨ (a.1 = b ∧ Fin.val a.2 < maxIndex w) := by
  refine ((multi_faithful hT w).order _ _).trans ((multi_lt hT _ _).trans ?_)
  dsimp only
  rw [toIndex_val (Nat.le_refl _)]

theorem find_sim (hT : T.Faithful) {rd : V → Option W} (hrw : ∀ x, rd (wr x) = some x)
    {t : Table DbKey V} {m : MSpec T.Val W} (h : MSim T w wr t m) (key : T.Val) :
    ∃ n, t.multiFind T w rd key false n = some (m.vals key) := by
  obtain ⟨s, hr, hm⟩ := h
  have hc : s.cur < u32max := by rw [← hr.cur]; exact hr.inv.curLt
  have hT' := multi_faithful hT w
  have hcap := hm.cap key
  obtain ⟨it, h1, n, R, h2, h3, _, h5, _⟩ := query_spec hT' (rd := rd) hr hm.typed true
    (key, toIndex w 0) (fun a => false || T.beq a.1 key) (by
      intro a b hab hsel hb
      simp only [if_true, Bool.false_or] at hab hb ⊢
      rw [sel_from hT] at hsel
      rw [hT.beq_iff] at *
      rw [multi_lt hT] at hab
      rcases hT.trichotomy a.1 key with e | e | e
      · exact absurd e hsel
      · exact e
      · rw [hb] at hab
        rcases hab with hab | hab
        · exact absurd e (hT.asymm hab)
        · exact hab.1)
  have hR : R = valList T w key (m.vals key) := by
    refine sorted_ext (r := fun x y => (multiKey T w).lt x.1 y.1 = true) (fun a => hT'.irrefl _)
      (fun a b => hT'.asymm) (by simpa using h2) (valList_sorted hT hcap) ?_
    rintro ⟨⟨a, i⟩, x⟩
    rw [h3, mem_valList hcap, holds_iff hT hrw hm hc]
    rw [sel_from hT]
    simp only [Bool.false_or, hT.beq_iff]
    constructor
    · rintro ⟨_, rfl, hx⟩; exact ⟨rfl, hx⟩
    · rintro ⟨rfl, hx⟩
      exact ⟨hT.irrefl _, rfl, hx⟩
  refine ⟨n, ?_⟩
  unfold Table.multiFind Table.seek mkey
  simp only [if_true] at h1
  rw [h1]
  have := h5 none
  rw [hR] at this
  simp only [takeL] at this
  rw [map_valList] at this
  exact this

theorem findLast_sim (hT : T.Faithful) {rd : V → Option W} (hrw : ∀ x, rd (wr x) = some x)
    {t : Table DbKey V} {m : MSpec T.Val W} (h : MSim T w wr t m) (key : T.Val) (limit : Nat) :
    ∃ n, t.multiFindLast T w rd key limit n = some ((m.vals key).reverse.take limit) := by
  obtain ⟨s, hr, hm⟩ := h
  have hc : s.cur < u32max := by rw [← hr.cur]; exact hr.inv.curLt
  have hT' := multi_faithful hT w
  have hcap := hm.cap key
  obtain ⟨it, h1, n, R, h2, h3, _, h5, _⟩ := query_spec hT' (rd := rd) hr hm.typed false
    (key, toIndex w (maxIndex w)) (fun a => T.beq a.1 key) (by
      intro a b hab hsel hb
      simp only [Bool.false_eq_true, if_false] at hab
      rw [sel_to hT] at hsel
      rw [hT.beq_iff] at *
      rw [multi_lt hT] at hab
      rw [hb] at hab
      rcases hab with hab | hab
      · rcases hsel with e | e
        · exact absurd e (hT.asymm hab)
        · exact e.1
      · exact hab.1.symm)
  have hR : R = (valList T w key (m.vals key)).reverse := by
    refine sorted_ext (r := fun x y => (multiKey T w).lt y.1 x.1 = true) (fun a => hT'.irrefl _)
      (fun a b => hT'.asymm) (by simpa using h2)
      (List.pairwise_reverse.2 (valList_sorted hT hcap)) ?_
    rintro ⟨⟨a, i⟩, x⟩
    rw [h3, List.mem_reverse, mem_valList hcap, holds_iff hT hrw hm hc]
    rw [sel_to hT]
    simp only [hT.beq_iff]
    constructor
    · rintro ⟨_, rfl, hx⟩; exact ⟨rfl, hx⟩
    · rintro ⟨rfl, hx⟩
      refine ⟨?_, rfl, hx⟩
      refine Or.inr ⟨rfl, ?_⟩
      have := (List.getElem?_eq_some_iff.1 hx).1
      omega
  refine ⟨n, ?_⟩
  unfold Table.multiFindLast Table.seekPrev mkey
  simp only [Bool.false_eq_true, if_false] at h1
  rw [h1]
  have := h5 (some limit)
  rw [hR] at this
  simp only [takeL, List.map_take, List.map_reverse] at this
  rw [map_valList] at this
  exact this

theorem findRange_sim (hT : T.Faithful) {rd : V → Option W} (hrw : ∀ x, rd (wr x) = some x)
    {t : Table DbKey V} {m : MSpec T.Val W} (h : MSim T w wr t m) (begin_ end_ : T.Val) :
    ∃ n R, t.multiFindRange T w rd begin_ end_ n = some R ∧
      R.Pairwise (fun x y => ¬ T.lt y.1 x.1 = true) ∧
      ∀ k, (R.filter fun x => decide (x.1 = k)).map Prod.snd =
        if ¬ T.lt k begin_ = true ∧ T.lt k end_ = true then m.vals k else [] := by
  obtain ⟨s, hr, hm⟩ := h
  have hc : s.cur < u32max := by rw [← hr.cur]; exact hr.inv.curLt
  have hT' := multi_faithful hT w
  obtain ⟨it, h1, n, R, h2, h3, _, _, h6⟩ := query_spec hT' (rd := rd) hr hm.typed true
    (begin_, toIndex w 0) (fun a => T.lt a.1 end_) (by
      intro a b hab _ hb
      simp only [if_true] at hab
      rw [multi_lt hT] at hab
      rcases hab with e | e
      · rw [← hT.order] at *
        exact lt_trans e hb
      · rw [e.1]; exact hb)
  simp only [if_true] at h2
  refine ⟨n, R.map fun x => (x.1.1, x.2), ?_, ?_, ?_⟩
  · unfold Table.multiFindRange Table.seek mkey
    simp only [if_true] at h1
    rw [h1]
    exact h6 _ (fun x => (x.1.1, x.2)) none
  · rw [List.pairwise_map]
    refine h2.imp ?_
    intro a b hab
    rw [multi_lt hT] at hab
    rcases hab with e | e
    · exact hT.asymm e
    · dsimp only; rw [e.1]; exact hT.irrefl _
  · intro k
    have hcap := hm.cap k
    have hL : R.filter (fun x => decide (x.1.1 = k)) =
        if ¬ T.lt k begin_ = true ∧ T.lt k end_ = true then valList T w k (m.vals k) else [] := by
      by_cases hk : ¬ T.lt k begin_ = true ∧ T.lt k end_ = true
      · rw [if_pos hk]
        refine sorted_ext (r := fun x y => (multiKey T w).lt x.1 y.1 = true) (fun a => hT'.irrefl _)
          (fun a b => hT'.asymm) (h2.filter _) (valList_sorted hT hcap) ?_
        rintro ⟨⟨a, i⟩, x⟩
        rw [List.mem_filter, h3, mem_valList hcap, holds_iff hT hrw hm hc, sel_from hT]
        simp only [decide_eq_true_eq]
        constructor
        · rintro ⟨⟨_, _, hx⟩, rfl⟩; exact ⟨rfl, hx⟩
        · rintro ⟨rfl, hx⟩; exact ⟨⟨hk.1, hk.2, hx⟩, rfl⟩
      · rw [if_neg hk, List.filter_eq_nil_iff]
        rintro ⟨⟨a, i⟩, x⟩ hx hxk
        rw [h3, sel_from hT] at hx
        simp only [decide_eq_true_eq] at hxk
        subst hxk
        exact hk ⟨hx.1, hx.2.1⟩
    rw [List.filter_map, List.map_map]
    have e : ((fun x : T.Val × W => decide (x.1 = k)) ∘ fun x : (multiKey T w).Val × W => (x.1.1, x.2)) =
        fun x : (multiKey T w).Val × W => decide (x.1.1 = k) := rfl
    rw [e, hL]
    split
    · exact map_valList k (m.vals k)
    · rfl

theorem findFrom_sim (hT : T.Faithful) {rd : V → Option W} (hrw : ∀ x, rd (wr x) = some x)
    {t : Table DbKey V} {m : MSpec T.Val W} (h : MSim T w wr t m) (begin_ : T.Val) :
    ∃ (n : Nat) (R : List (T.Val × W)), t.multiFind T w rd begin_ true n = some (R.map Prod.snd) ∧
      R.Pairwise (fun x y => ¬ T.lt y.1 x.1 = true) ∧
      ∀ k, (R.filter fun x => decide (x.1 = k)).map Prod.snd =
        if ¬ T.lt k begin_ = true then m.vals k else [] := by
  obtain ⟨s, hr, hm⟩ := h
  have hc : s.cur < u32max := by rw [← hr.cur]; exact hr.inv.curLt
  have hT' := multi_faithful hT w
  obtain ⟨it, h1, n, R, h2, h3, _, h5, _⟩ := query_spec hT' (rd := rd) hr hm.typed true
    (begin_, toIndex w 0) (fun a => true || T.beq a.1 begin_) (by
      intro a b _ _ _
      rfl)
  simp only [if_true] at h2
  refine ⟨n, R.map fun x => (x.1.1, x.2), ?_, ?_, ?_⟩
  · unfold Table.multiFind Table.seek mkey
    simp only [if_true] at h1
    rw [h1]
    rw [List.map_map]
    exact h5 none
  · rw [List.pairwise_map]
    refine h2.imp ?_
    intro a b hab
    rw [multi_lt hT] at hab
    rcases hab with e | e
    · exact hT.asymm e
    · dsimp only; rw [e.1]; exact hT.irrefl _
  · intro k
    have hcap := hm.cap k
    have hL : R.filter (fun x => decide (x.1.1 = k)) =
        if ¬ T.lt k begin_ = true then valList T w k (m.vals k) else [] := by
      by_cases hk : ¬ T.lt k begin_ = true
      · rw [if_pos hk]
        refine sorted_ext (r := fun x y => (multiKey T w).lt x.1 y.1 = true) (fun a => hT'.irrefl _)
          (fun a b => hT'.asymm) (h2.filter _) (valList_sorted hT hcap) ?_
        rintro ⟨⟨a, i⟩, x⟩
        rw [List.mem_filter, h3, mem_valList hcap, holds_iff hT hrw hm hc, sel_from hT]
        simp only [decide_eq_true_eq]
        constructor
        · rintro ⟨⟨_, _, hx⟩, rfl⟩; exact ⟨rfl, hx⟩
        · rintro ⟨rfl, hx⟩; exact ⟨⟨hk, rfl, hx⟩, rfl⟩
      · rw [if_neg hk, List.filter_eq_nil_iff]
        rintro ⟨⟨a, i⟩, x⟩ hx hxk
        rw [h3, sel_from hT] at hx
        simp only [decide_eq_true_eq] at hxk
        subst hxk
        exact hk hx.1
    rw [List.filter_map, List.map_map]
    have e : ((fun x : T.Val × W => decide (x.1 = k)) ∘ fun x : (multiKey T w).Val × W => (x.1.1, x.2)) =
        fun x : (multiKey T w).Val × W => decide (x.1.1 = k) := rfl
    rw [e, hL]
    split
    · exact map_valList k (m.vals k)
    · rfl

end

/-- **C12.**  After any history of inserts, commits, flushes and reverts, for every key: `find`
returns the values inserted for that key and not reverted, in the order of insertion, and no value of
another key; `find_last` returns the last `limit` of them, newest first. -/
theorem C12_find {T : KeyType} [DecidableEq T.Val] (hT : T.Faithful) (w : Nat) (o : Options DbKey V)
    (wr : W → V) (rd : V → Option W) (hrw : ∀ x, rd (wr x) = some x) (h : List (MOp T.Val W))
    (hd : (MSpec.empty : MSpec T.Val W).Disciplined (maxIndex w) h) (key : T.Val) :
    (∃ n, (Table.empty.multiRun o T w wr h).multiFind T w rd key false n =
      some ((MSpec.empty.run (maxIndex w) h).vals key)) ∧
    ∀ limit, ∃ n, (Table.empty.multiRun o T w wr h).multiFindLast T w rd key limit n =
      some (((MSpec.empty.run (maxIndex w) h).vals key).reverse.take limit) := by
  have hs := run_sim (o := o) (wr := wr) hT empty_sim h hd
  exact ⟨find_sim hT hrw hs key, findLast_sim hT hrw hs key⟩

/-- **C12, `find_range`.**  The result contains, for every key of `[begin, end)` and no other, exactly
its values in the order of insertion; keys ascend. -/
theorem C12_find_range {T : KeyType} [DecidableEq T.Val] (hT : T.Faithful) (w : Nat)
    (o : Options DbKey V) (wr : W → V) (rd : V → Option W) (hrw : ∀ x, rd (wr x) = some x)
    (h : List (MOp T.Val W)) (hd : (MSpec.empty : MSpec T.Val W).Disciplined (maxIndex w) h)
    (begin_ end_ : T.Val) :
    ∃ n R, (Table.empty.multiRun o T w wr h).multiFindRange T w rd begin_ end_ n = some R ∧
      R.Pairwise (fun x y => ¬ T.lt y.1 x.1 = true) ∧
      ∀ k, (R.filter fun x => decide (x.1 = k)).map Prod.snd =
        if ¬ T.lt k begin_ = true ∧ T.lt k end_ = true then
          (MSpec.empty.run (maxIndex w) h).vals k else [] :=
  findRange_sim hT hrw (run_sim (o := o) (wr := wr) hT empty_sim h hd) begin_ end_

/-- **C12, `find` with `greater_equal`.**  The values of all keys at or above the given one: for each
such key exactly its values in the order of insertion, keys ascending. -/
theorem C12_find_from {T : KeyType} [DecidableEq T.Val] (hT : T.Faithful) (w : Nat)
    (o : Options DbKey V) (wr : W → V) (rd : V → Option W) (hrw : ∀ x, rd (wr x) = some x)
    (h : List (MOp T.Val W)) (hd : (MSpec.empty : MSpec T.Val W).Disciplined (maxIndex w) h)
    (key : T.Val) :
    ∃ (n : Nat) (R : List (T.Val × W)),
      (Table.empty.multiRun o T w wr h).multiFind T w rd key true n = some (R.map Prod.snd) ∧
      R.Pairwise (fun x y => ¬ T.lt y.1 x.1 = true) ∧
      ∀ k, (R.filter fun x => decide (x.1 = k)).map Prod.snd =
        if ¬ T.lt k key = true then (MSpec.empty.run (maxIndex w) h).vals k else [] :=
  findFrom_sim hT hrw (run_sim (o := o) (wr := wr) hT empty_sim h hd) key

/-- **C12, inserts.**  After any history: an insert succeeds exactly when no iterator is alive (or
nothing is to be inserted) and the key keeps at most `maxIndex` values; then its values follow the old
ones.  When it is refused no value of any key is lost: the key keeps its values, possibly followed by
the first few new ones, and other keys keep theirs. -/
theorem C12_insert {T : KeyType} [DecidableEq T.Val] (hT : T.Faithful) (w : Nat) (o : Options DbKey V)
    (wr : W → V) (rd : V → Option W) (hrw : ∀ x, rd (wr x) = some x) (h : List (MOp T.Val W))
    (hd : (MSpec.empty : MSpec T.Val W).Disciplined (maxIndex w) h) (key : T.Val) (xs : List W) :
    let t := Table.empty.multiRun o T w wr h
    let m := (MSpec.empty : MSpec T.Val W).run (maxIndex w) h
    let r := t.insertMany o T w wr key xs
    (r.2 = false ↔ (xs = [] ∨ m.locks = 0) ∧ (m.vals key).length + xs.length ≤ maxIndex w) ∧
    (r.2 = false → ∃ n, r.1.multiFind T w rd key false n = some (m.vals key ++ xs)) ∧
    (∃ n j, r.1.multiFind T w rd key false n = some (m.vals key ++ xs.take j)) ∧
    ∀ k, k ≠ key → ∃ n, r.1.multiFind T w rd k false n = some (m.vals k) := by
  intro t m r
  have hs : MSim T w wr t m := run_sim (o := o) (wr := wr) hT empty_sim h hd
  obtain ⟨h1, h2⟩ := insertMany_sim (o := o) hT hs key xs
  have hv : ∀ j, (({ m with log := m.log ++ (xs.take j).map fun x => (key, m.cur, x) } :
      MSpec T.Val W).vals key) = m.vals key ++ xs.take j := by
    intro j
    simp only [MSpec.vals, List.filter_append, List.map_append, List.filter_map, List.map_map]
    congr 1
    rw [List.filter_eq_self.2 (by intro a _; simp)]
    exact List.map_id _
  have hv' : ∀ j k, k ≠ key → (({ m with log := m.log ++ (xs.take j).map fun x => (key, m.cur, x) } :
      MSpec T.Val W).vals k) = m.vals k := by
    intro j k hk
    simp only [MSpec.vals, List.filter_append, List.map_append, List.filter_map, List.map_map]
    rw [(List.filter_eq_nil_iff (l := xs.take j)).2 (by
      intro a _
      simpa using fun e => hk e.symm)]
    simp
  refine ⟨h2, ?_, ?_, ?_⟩
  · intro hr
    obtain ⟨n, hn⟩ := find_sim hT hrw h1 key
    refine ⟨n, ?_⟩
    rw [hn]
    obtain ⟨ha, hb⟩ := h2.1 hr
    simp only [MSpec.apply]
    rcases ha with ha | ha
    · subst ha
      split
      · simp [MSpec.insert]
      · simp
    · rw [if_pos ha]
      unfold MSpec.insert
      rw [hv, List.take_of_length_le (by omega)]
  · obtain ⟨n, hn⟩ := find_sim hT hrw h1 key
    simp only [MSpec.apply] at hn
    by_cases hl : m.locks = 0
    · rw [if_pos hl] at hn
      unfold MSpec.insert at hn
      rw [hv] at hn
      exact ⟨n, _, hn⟩
    · rw [if_neg hl] at hn
      exact ⟨n, 0, by rw [List.take_zero, List.append_nil]; exact hn⟩
  · intro k hk
    obtain ⟨n, hn⟩ := find_sim hT hrw h1 k
    refine ⟨n, ?_⟩
    rw [hn]
    simp only [MSpec.apply]
    split
    · unfold MSpec.insert; rw [hv' _ _ hk]
    · rfl

/-! ### a concrete case -/

section Demo

instance (w : Nat) : DecidableEq (uintKey w).Val := inferInstanceAs (DecidableEq (Fin (256 ^ w)))

def multiDemo : List (MOp (uintKey 1).Val Nat) :=
  [.insertMany ⟨3, by decide⟩ [30, 31], .insertMany ⟨4, by decide⟩ [40], .commit 1 false, .flush,
   .insertMany ⟨3, by decide⟩ [32], .commit 2 false, .insertMany ⟨3, by decide⟩ [99], .revert 2,
   .insertMany ⟨3, by decide⟩ [33]]

def multiOpts : Options DbKey Nat :=
  { levelFactor := 4, maxBlockSize := 1000, forceFlush := 1000, ksize := fun _ => 1, vsize := fun _ => 1 }

example : (MSpec.empty : MSpec (uintKey 1).Val Nat).Disciplined (maxIndex 1) multiDemo := by
  refine ⟨?_, ?_, ?_, ?_, ?_, ?_, ?_, ?_, ?_, trivial⟩
  case refine_4 => intro _; unfold MSpec.clean; decide +kernel
  all_goals (intro e; cases e)

example : (MSpec.empty.run (maxIndex 1) multiDemo).vals ⟨3, by decide⟩ = [30, 31, 32, 33] := by
  decide +kernel

example : (Table.empty.multiRun multiOpts (uintKey 1) 1 id multiDemo).multiFind (uintKey 1) 1 some
    ⟨3, by decide⟩ false 10 = some [30, 31, 32, 33] := by decide +kernel

end Demo

end Verif.DB
