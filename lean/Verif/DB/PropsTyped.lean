import Verif.DB.TypedLemmas

/-!
# Property C70: range queries of typed tables

The history is a list of calls on the typed table; `typedOp` is what they do to the byte level table
(table.h:58-61 `insert`).  `Spec.find` is the value a read of the key returns (C01).
-/

namespace Verif.DB

variable {V W : Type}

/-- A call on a typed table as a call on the underlying table. -/
def typedOp (T : KeyType) (wr : W → V) : Op T.Val W → Op DbKey V
  | .insert k v => .insert (T.key k) (wr v)
  | .commit v a => .commit v a
  | .flush => .flush
  | .revert v => .revert v
  | .iterOpen => .iterOpen
  | .iterClose => .iterClose

theorem typedKeys_run (T : KeyType) (wr : W → V) (s : Spec DbKey V) (hs : TypedKeys T s)
    (h : List (Op T.Val W)) : TypedKeys T (s.run (h.map (typedOp T wr))) := by
  induction h generalizing s with
  | nil => exact hs
  | cons op h ih =>
    refine ih _ ?_
    unfold Spec.apply
    split
    · cases op with
      | insert k v =>
        intro w hw
        simp only [typedOp, Spec.effect, List.mem_append, List.mem_singleton] at hw
        rcases hw with hw | hw
        · exact hs w hw
        · exact ⟨k, by rw [hw]⟩
      | revert v =>
        intro w hw
        simp only [typedOp, Spec.effect, List.mem_filter] at hw
        exact hs w hw.1
      | commit v a => exact hs
      | flush => exact hs
      | iterOpen => exact hs
      | iterClose => exact hs
    · exact hs

theorem typedVals_run (T : KeyType) (wr : W → V) (s : Spec DbKey V)
    (hs : ∀ w ∈ s.writes, ∃ x, w.val = wr x) (h : List (Op T.Val W)) :
    ∀ w ∈ (s.run (h.map (typedOp T wr))).writes, ∃ x, w.val = wr x := by
  induction h generalizing s with
  | nil => exact hs
  | cons op h ih =>
    refine ih _ ?_
    unfold Spec.apply
    split
    · cases op with
      | insert k v =>
        intro w hw
        simp only [typedOp, Spec.effect, List.mem_append, List.mem_singleton] at hw
        rcases hw with hw | hw
        · exact hs w hw
        · exact ⟨v, by rw [hw]⟩
      | revert v =>
        intro w hw
        simp only [typedOp, Spec.effect, List.mem_filter] at hw
        exact hs w hw.1
      | commit v a => exact hs
      | flush => exact hs
      | iterOpen => exact hs
      | iterClose => exact hs
    · exact hs

/-- The table after a history of typed calls, and its specification. -/
def typedRun (o : Options DbKey V) (T : KeyType) (wr : W → V) (h : List (Op T.Val W)) : Table DbKey V :=
  Table.empty.run o (h.map (typedOp T wr))

def typedSpec (T : KeyType) (wr : W → V) (h : List (Op T.Val W)) : Spec DbKey V :=
  Spec.empty.run (h.map (typedOp T wr))

/-- `a` is stored with the value `x`: reading the key finds bytes that decode to `x`. -/
def Holds (T : KeyType) (rd : V → Option W) (s : Spec DbKey V) (a : T.Val) (x : W) : Prop :=
  ∃ v, s.find (T.key a) u32max = some v ∧ rd v = some x

/-- **C70, `find_range`.**  After any history the query for `[begin, end)` ends and returns the first
`limit` of the entries whose key is at least `begin` and below `end`, each exactly once, keys
ascending, with the value that a read returns. -/
theorem C70_find_range (o : Options DbKey V) {T : KeyType} (hT : T.Faithful) (wr : W → V)
    (rd : V → Option W) (h : List (Op T.Val W))
    (hd : (Spec.empty : Spec DbKey V).Disciplined (h.map (typedOp T wr))) (begin_ end_ : T.Val) :
    ∃ R : List (T.Val × W), R.Pairwise (fun x y => T.lt x.1 y.1 = true) ∧
      (∀ a x, (a, x) ∈ R ↔ ¬ T.lt a begin_ = true ∧ T.lt a end_ = true ∧
        Holds T rd (typedSpec T wr h) a x) ∧
      ∀ limit, ∃ n,
        (typedRun o T wr h).findRange T rd begin_ end_ limit n = some (R.take limit) ∧
        (typedRun o T wr h).findRangeValues T rd begin_ end_ limit n =
          some ((R.take limit).map Prod.snd) := by
  have href : Refines (typedRun o T wr h) (typedSpec T wr h) := refines_run refines_empty _ hd
  have htk : TypedKeys T (typedSpec T wr h) :=
    typedKeys_run T wr Spec.empty (by intro w hw; simp [Spec.empty] at hw) h
  obtain ⟨it, h1, n, R, h2, h3, h4, h5, _⟩ := query_spec hT (rd := rd) href htk true begin_
    (fun a => T.lt a end_) (by
      intro a b hab _ hb
      simp only [if_true] at hab
      rw [← hT.order] at *
      exact lt_trans hab hb)
  refine ⟨R, by simpa using h2, ?_, fun limit => ⟨n, ?_, ?_⟩⟩
  · intro a x
    rw [h3]
    simp only [Sel, if_true, key_le hT]
    exact Iff.rfl
  · unfold Table.findRange Table.seek
    simp only [if_true] at h1
    rw [h1]
    exact h4 (some limit)
  · unfold Table.findRangeValues Table.seek
    simp only [if_true] at h1
    rw [h1]
    exact h5 (some limit)

/-- **C70, `find_last_range`.**  The same from the end: the last `limit` entries of `[begin, end)`,
keys descending. -/
theorem C70_find_last_range (o : Options DbKey V) {T : KeyType} (hT : T.Faithful) (wr : W → V)
    (rd : V → Option W) (h : List (Op T.Val W))
    (hd : (Spec.empty : Spec DbKey V).Disciplined (h.map (typedOp T wr))) (begin_ end_ : T.Val) :
    ∃ R : List (T.Val × W), R.Pairwise (fun x y => T.lt y.1 x.1 = true) ∧
      (∀ a x, (a, x) ∈ R ↔ ¬ T.lt a begin_ = true ∧ T.lt a end_ = true ∧
        Holds T rd (typedSpec T wr h) a x) ∧
      ∀ limit, ∃ n,
        (typedRun o T wr h).findLastRange T rd begin_ end_ limit n = some (R.take limit) ∧
        (typedRun o T wr h).findLastRangeValues T rd begin_ end_ limit n =
          some ((R.take limit).map Prod.snd) := by
  have href : Refines (typedRun o T wr h) (typedSpec T wr h) := refines_run refines_empty _ hd
  have htk : TypedKeys T (typedSpec T wr h) :=
    typedKeys_run T wr Spec.empty (by intro w hw; simp [Spec.empty] at hw) h
  have hge : ∀ a, (T.lt begin_ a || T.beq a begin_) = true ↔ ¬ T.lt a begin_ = true := by
    intro a
    rw [Bool.or_eq_true, hT.beq_iff]
    constructor
    · rintro (hh | hh)
      · exact hT.asymm hh
      · rw [hh]; exact hT.irrefl _
    · intro hh
      rcases hT.trichotomy begin_ a with e | e | e
      · exact Or.inl e
      · exact Or.inr e.symm
      · exact absurd e hh
  obtain ⟨it, h1, n, R, h2, h3, h4, h5, _⟩ := query_spec hT (rd := rd) href htk false end_
    (fun a => T.lt begin_ a || T.beq a begin_) (by
      intro a b hab _ hb
      simp only [Bool.false_eq_true, if_false] at hab
      rw [hge] at *
      rw [← hT.order] at *
      intro hc
      exact hb (lt_trans hab hc))
  refine ⟨R, by simpa using h2, ?_, fun limit => ⟨n, ?_, ?_⟩⟩
  · intro a x
    rw [h3, hge]
    simp only [Sel, Bool.false_eq_true, if_false, hT.order]
    constructor
    · rintro ⟨p, q, r⟩; exact ⟨q, p, r⟩
    · rintro ⟨p, q, r⟩; exact ⟨q, p, r⟩
  · unfold Table.findLastRange Table.seekPrev
    simp only [Bool.false_eq_true, if_false] at h1
    rw [h1]
    exact h4 (some limit)
  · unfold Table.findLastRangeValues Table.seekPrev
    simp only [Bool.false_eq_true, if_false] at h1
    rw [h1]
    exact h5 (some limit)

/-- **C70, `find`.**  A typed read returns the decoded value of the last write, nothing for a key that
is not stored, and fails only when the stored bytes do not decode. -/
theorem C70_find (o : Options DbKey V) (T : KeyType) (wr : W → V) (rd : V → Option W)
    (hrw : ∀ x, rd (wr x) = some x) (h : List (Op T.Val W))
    (hd : (Spec.empty : Spec DbKey V).Disciplined (h.map (typedOp T wr))) (a : T.Val) :
    ∃ r, (typedRun o T wr h).typedFind T rd a u32max = some r ∧
      ∀ x, r = some x ↔ Holds T rd (typedSpec T wr h) a x := by
  have href : Refines (typedRun o T wr h) (typedSpec T wr h) := refines_run refines_empty _ hd
  unfold Table.typedFind
  rw [refines_find href]
  unfold Holds
  cases hf : (typedSpec T wr h).find (T.key a) u32max with
  | none => exact ⟨none, rfl, by simp⟩
  | some v =>
    obtain ⟨w, hw, _, hwv⟩ := find_mem hf
    obtain ⟨x, hx⟩ := typedVals_run T wr Spec.empty (by intro w hw; simp [Spec.empty] at hw) h w hw
    refine ⟨some x, ?_, ?_⟩
    · dsimp only
      rw [← hwv, hx, hrw]; rfl
    · intro y
      rw [← hwv, hx]
      simp [hrw]

/-- **C70, `find_greater_equal`.**  The values of the first `limit` entries whose key is at least
`begin`, keys ascending. -/
theorem C70_find_greater_equal (o : Options DbKey V) {T : KeyType} (hT : T.Faithful) (wr : W → V)
    (rd : V → Option W) (h : List (Op T.Val W))
    (hd : (Spec.empty : Spec DbKey V).Disciplined (h.map (typedOp T wr))) (begin_ : T.Val) :
    ∃ R : List (T.Val × W), R.Pairwise (fun x y => T.lt x.1 y.1 = true) ∧
      (∀ a x, (a, x) ∈ R ↔ ¬ T.lt a begin_ = true ∧ Holds T rd (typedSpec T wr h) a x) ∧
      ∀ limit, ∃ n, (typedRun o T wr h).findGreaterEqual T rd begin_ limit n =
          some ((R.take limit).map Prod.snd) := by
  have href : Refines (typedRun o T wr h) (typedSpec T wr h) := refines_run refines_empty _ hd
  have htk : TypedKeys T (typedSpec T wr h) :=
    typedKeys_run T wr Spec.empty (by intro w hw; simp [Spec.empty] at hw) h
  obtain ⟨it, h1, n, L, h2, h3, h4⟩ := scan_lists href true (some (T.key begin_))
  have hread : ∀ kv ∈ L, ∃ a, kv.1 = T.key a ∧ T.read kv.1.bytes = some a := by
    intro kv hkv
    exact typed_read hT htk ((h4 kv.1 kv.2).1 hkv).2
  refine ⟨L.filterMap (fun kv => readBoth T rd kv.1 kv.2), ?_, ?_, fun limit => ⟨n, ?_⟩⟩
  · refine List.Pairwise.filterMap _ ?_ h3
    intro x y hxy a ha b hb
    rw [readBoth_some] at ha hb
    rw [key_eq hT ha.1, key_eq hT hb.1] at hxy
    simpa [Ord, hT.order] using hxy
  · intro a x
    simp only [List.mem_filterMap, readBoth_some]
    constructor
    · rintro ⟨⟨k, v⟩, hL, hr, hv⟩
      dsimp only at hr hv
      have hf := (h4 k v).1 hL
      rw [key_eq hT hr] at hf
      refine ⟨?_, v, hf.2, hv⟩
      have := hf.1
      simpa only [Sel, if_true, key_le hT] using this
    · rintro ⟨hsel, v, hf, hv⟩
      have hr : T.read (T.key a).bytes = some a := hT.read_write a
      refine ⟨(T.key a, v), (h4 _ _).2 ⟨?_, hf⟩, hr, hv⟩
      simpa only [Sel, if_true, key_le hT] using hsel
  · unfold Table.findGreaterEqual Table.seek
    simp only [if_true] at h1
    rw [h1]
    dsimp only
    rw [queryLoop_eq h2 (by simp)]
    have e : L.filterMap (fun kv => rd kv.2) =
        (L.filterMap (fun kv => readBoth T rd kv.1 kv.2)).map Prod.snd := by
      rw [List.map_filterMap]
      refine filterMap_congr' ?_
      intro kv hkv
      obtain ⟨a, _, ha⟩ := hread kv hkv
      unfold readBoth
      rw [ha]
      cases rd kv.2 <;> rfl
    have et : (L.takeWhile fun _ => some true == some true) = L := by
      clear h2 h3 h4 hread e
      induction L with
      | nil => rfl
      | cons x L ih => rw [List.takeWhile_cons, ih]; rfl
    rw [et, e]
    simp [takeL, List.map_take]

/-- **C70, `find_first` and `find_last`.**  They return the entry with the least and greatest stored
key, and `false` exactly when the table is empty. -/
theorem C70_find_first (o : Options DbKey V) {T : KeyType} (hT : T.Faithful) (wr : W → V)
    (rd : V → Option W) (hrw : ∀ x, rd (wr x) = some x) (h : List (Op T.Val W))
    (hd : (Spec.empty : Spec DbKey V).Disciplined (h.map (typedOp T wr))) :
    ∃ r l, (typedRun o T wr h).findFirst T rd = some r ∧ (typedRun o T wr h).findLast T rd = some l ∧
      (r = none ↔ ∀ a x, ¬ Holds T rd (typedSpec T wr h) a x) ∧
      (∀ y, r = some y → Holds T rd (typedSpec T wr h) y.1 y.2 ∧
        ∀ a x, Holds T rd (typedSpec T wr h) a x → ¬ T.lt a y.1 = true) ∧
      (l = none ↔ ∀ a x, ¬ Holds T rd (typedSpec T wr h) a x) ∧
      (∀ y, l = some y → Holds T rd (typedSpec T wr h) y.1 y.2 ∧
        ∀ a x, Holds T rd (typedSpec T wr h) a x → ¬ T.lt y.1 a = true) := by
  have href : Refines (typedRun o T wr h) (typedSpec T wr h) := refines_run refines_empty _ hd
  have htk : TypedKeys T (typedSpec T wr h) :=
    typedKeys_run T wr Spec.empty (by intro w hw; simp [Spec.empty] at hw) h
  have key : ∀ fwd : Bool, ∃ it r, (typedRun o T wr h).seekMode none (if fwd then 0 else -1) = some it ∧
      readCurrent T rd it = some r ∧
      (r = none ↔ ∀ a x, ¬ Holds T rd (typedSpec T wr h) a x) ∧
      (∀ y, r = some y → Holds T rd (typedSpec T wr h) y.1 y.2 ∧
        ∀ a x, Holds T rd (typedSpec T wr h) a x →
          ¬ (if fwd then T.lt a y.1 = true else T.lt y.1 a = true)) := by
    intro fwd
    obtain ⟨it, h1, n, L, h2, h3, h4⟩ := scan_lists href fwd none
    have h4' : ∀ k v, (k, v) ∈ L ↔ (typedSpec T wr h).find k u32max = some v := by
      intro k v; rw [h4]; simp [Sel]
    unfold Table.collect at h2
    cases hcur : it.current with
    | none =>
      rw [hcur] at h2
      injection h2 with h2
      refine ⟨it, none, h1, by unfold readCurrent; rw [hcur], ?_, by intro y hy; cases hy⟩
      simp only [true_iff]
      rintro a x ⟨v, hv, _⟩
      have := (h4' _ _).2 hv
      rw [← h2] at this
      cases this
    | some e =>
      rw [hcur] at h2
      cases n with
      | zero => cases h2
      | succ n =>
        dsimp only at h2
        cases hs : (if fwd then (typedRun o T wr h).next it else (typedRun o T wr h).prev it) with
        | none => rw [hs] at h2; cases h2
        | some it' =>
          rw [hs] at h2
          dsimp only at h2
          cases hcc : (typedRun o T wr h).collect fwd n it' with
          | none => rw [hcc] at h2; cases h2
          | some L' =>
            rw [hcc, Option.map_some] at h2
            injection h2 with h2
            have he : (typedSpec T wr h).find e.key u32max = some e.val :=
              (h4' _ _).1 (by rw [← h2]; exact List.mem_cons_self)
            obtain ⟨a, hka, ha⟩ := typed_read hT htk he
            obtain ⟨w, hw, _, hwv⟩ := find_mem he
            obtain ⟨x, hx⟩ := typedVals_run T wr Spec.empty (by intro w hw; simp [Spec.empty] at hw) h w hw
            have hx : rd e.val = some x := by rw [← hwv, hx, hrw]
            have hh : Holds T rd (typedSpec T wr h) a x := ⟨e.val, by rw [← hka]; exact he, hx⟩
            refine ⟨it, some (a, x), h1, ?_, ?_, ?_⟩
            · unfold readCurrent
              rw [hcur]
              dsimp only
              rw [(readBoth_some (x := (a, x))).2 ⟨ha, hx⟩]
              rfl
            · constructor
              · intro hn; cases hn
              · intro hn; exact absurd hh (hn a x)
            · intro y hy
              injection hy with hy
              subst hy
              refine ⟨hh, ?_⟩
              rintro b z ⟨v, hv, _⟩
              have hm := (h4' _ _).2 hv
              rw [← h2] at hm h3
              rw [List.pairwise_cons] at h3
              rcases List.mem_cons.1 hm with hm | hm
              · have : T.key b = e.key := by injection hm
                rw [hka] at this
                have hba : b = a := C11_injective hT _ _ this
                subst hba
                cases fwd <;> simpa using hT.irrefl b
              · have ho := h3.1 _ hm
                dsimp only at ho
                rw [hka] at ho
                cases fwd with
                | true =>
                  simp only [Ord, if_true, hT.order] at ho ⊢
                  exact hT.asymm ho
                | false =>
                  simp only [Ord, Bool.false_eq_true, if_false, hT.order] at ho ⊢
                  exact hT.asymm ho
  obtain ⟨it, r, a1, a2, a3, a4⟩ := key true
  obtain ⟨it', l, b1, b2, b3, b4⟩ := key false
  simp only [if_true] at a1 a4
  simp only [Bool.false_eq_true, if_false] at b1 b4
  refine ⟨r, l, ?_, ?_, a3, a4, b3, b4⟩
  · unfold Table.findFirst Table.seekBegin; rw [a1]; exact a2
  · unfold Table.findLast Table.seekLast; rw [b1]; exact b2

/-! ### a concrete case -/

section Demo

/-- A table from pairs of bytes to numbers; writes, a commit, a flush, more writes, a revert. -/
def typedDemo : List (Op (uintUintKey 1 1).Val Nat) :=
  [.insert (⟨1, by decide⟩, ⟨5, by decide⟩) 15, .insert (⟨2, by decide⟩, ⟨0, by decide⟩) 20,
   .insert (⟨1, by decide⟩, ⟨2, by decide⟩) 12, .commit 1 false, .flush,
   .insert (⟨1, by decide⟩, ⟨9, by decide⟩) 19, .commit 2 false,
   .insert (⟨1, by decide⟩, ⟨2, by decide⟩) 99, .revert 2]

def bytesOpts : Options DbKey Nat :=
  { levelFactor := 4, maxBlockSize := 4, forceFlush := 4, ksize := fun _ => 1, vsize := fun _ => 1 }

example : ((typedRun bytesOpts (uintUintKey 1 1) id typedDemo).findRangeValues (uintUintKey 1 1) some
    (⟨1, by decide⟩, ⟨3, by decide⟩) (⟨2, by decide⟩, ⟨1, by decide⟩) 10 10) = some [15, 19, 20] := by
  decide +kernel

example : ((typedRun bytesOpts (uintUintKey 1 1) id typedDemo).findLastRangeValues (uintUintKey 1 1) some
    (⟨1, by decide⟩, ⟨2, by decide⟩) (⟨2, by decide⟩, ⟨0, by decide⟩) 2 10) = some [19, 15] := by
  decide +kernel

/-- The demo history meets the hypothesis of the theorems. -/
example : (Spec.empty : Spec DbKey Nat).Disciplined
    (typedDemo.map (typedOp (uintUintKey 1 1) id)) := by
  refine ⟨?_, ?_, ?_, ?_, ?_, ?_, ?_, ?_, ?_, trivial⟩
  case refine_5 => intro _; unfold Spec.clean; decide +kernel
  all_goals (intro e; cases e)

end Demo

end Verif.DB
