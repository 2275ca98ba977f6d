import Verif.DB.TypedLemmas
import Verif.DB.MultiSpec

/-!
# Lemmas about tables with several values per key
-/

namespace Verif.DB

variable {V W : Type}

theorem maxIndex_lt (w : Nat) : maxIndex w < 256 ^ w := by
  have : 0 < 256 ^ w := Nat.pow_pos (by omega)
  unfold maxIndex; omega

theorem toIndex_val {w i : Nat} (h : i ≤ maxIndex w) : Fin.val (toIndex w i) = i := by
  have := maxIndex_lt w
  exact Nat.mod_eq_of_lt (by omega)

theorem toIndex_self {w : Nat} (i : (uintKey w).Val) : toIndex w (Fin.val i) = i := by
  apply Fin.ext
  exact Nat.mod_eq_of_lt (Fin.isLt i)

theorem multi_faithful {T : KeyType} (hT : T.Faithful) (w : Nat) : (multiKey T w).Faithful :=
  C11_pair hT (C11_uint w)

theorem multi_lt {T : KeyType} (hT : T.Faithful) {w : Nat} (x y : (multiKey T w).Val) :
    (multiKey T w).lt x y = true ↔
      T.lt x.1 y.1 = true ∨ (x.1 = y.1 ∧ Fin.val x.2 < Fin.val y.2) := by
  refine (pair_lt_iff (B := uintKey w) hT x y).trans ?_
  exact or_congr Iff.rfl (and_congr Iff.rfl (C11_uint_order w _ _))

theorem mkey_inj {T : KeyType} (hT : T.Faithful) {w i j : Nat} {a b : T.Val} (hi : i ≤ maxIndex w)
    (hj : j ≤ maxIndex w) : mkey T w a i = mkey T w b j ↔ a = b ∧ i = j := by
  constructor
  · intro h
    have h' := C11_injective (multi_faithful hT w) _ _ h
    have h1 : a = b := congrArg Prod.fst h'
    have h2 : toIndex w i = toIndex w j := congrArg Prod.snd h'
    have h3 := congrArg Fin.val h2
    rw [toIndex_val hi, toIndex_val hj] at h3
    exact ⟨h1, h3⟩
  · rintro ⟨rfl, rfl⟩; rfl

theorem mkey_lt {T : KeyType} (hT : T.Faithful) {w i j : Nat} {a b : T.Val} (hi : i ≤ maxIndex w)
    (hj : j ≤ maxIndex w) : mkey T w a i < mkey T w b j ↔ T.lt a b = true ∨ (a = b ∧ i < j) := by
  refine ((multi_faithful hT w).order _ _).trans ((multi_lt hT _ _).trans ?_)
  dsimp only
  rw [toIndex_val hi, toIndex_val hj]

/-! ### the log with index numbers -/

section Index

variable {T : KeyType} [DecidableEq T.Val] {w : Nat} {wr : W → V}

/-- How often a key occurs in a log. -/
def occ {A : Type} [DecidableEq A] (k : A) (l : List (A × Nat × W)) : Nat :=
  (l.filter fun x => decide (x.1 = k)).length

/-- The writes of the underlying table for a log: the index of a value is the number of earlier values
of its key. -/
def idxFrom (T : KeyType) [DecidableEq T.Val] (w : Nat) (wr : W → V) (pre : List (T.Val × Nat × W)) :
    List (T.Val × Nat × W) → List (Entry DbKey V)
  | [] => []
  | x :: xs => { key := mkey T w x.1 (occ x.1 pre), ver := x.2.1, val := wr x.2.2 } ::
      idxFrom T w wr (pre ++ [x]) xs

theorem occ_append {A : Type} [DecidableEq A] (k : A) (a b : List (A × Nat × W)) :
    occ k (a ++ b) = occ k a + occ k b := by
  simp [occ]

theorem idxFrom_append (pre a b : List (T.Val × Nat × W)) :
    idxFrom T w wr pre (a ++ b) = idxFrom T w wr pre a ++ idxFrom T w wr (pre ++ a) b := by
  induction a generalizing pre with
  | nil => simp [idxFrom]
  | cons x xs ih => simp [idxFrom, ih]

theorem idxFrom_filter (v : Nat) (pre l : List (T.Val × Nat × W))
    (hl : l.Pairwise fun a b => a.2.1 ≤ b.2.1) :
    (idxFrom T w wr pre l).filter (fun e => decide (e.ver < v)) =
      idxFrom T w wr pre (l.filter fun x => decide (x.2.1 < v)) := by
  induction l generalizing pre with
  | nil => rfl
  | cons x xs ih =>
    rw [List.pairwise_cons] at hl
    by_cases hx : x.2.1 < v
    · simp [idxFrom, hx, ih (pre ++ [x]) hl.2]
    · have hnone : xs.filter (fun x => decide (x.2.1 < v)) = [] := by
        rw [List.filter_eq_nil_iff]
        intro y hy
        have := hl.1 y hy
        simp only [decide_eq_true_eq]; omega
      rw [List.filter_cons, if_neg (by simpa using hx), hnone]
      simp only [idxFrom, List.filter_cons]
      rw [if_neg (by simpa using hx), ih _ hl.2, hnone]
      rfl

theorem idxFrom_mem {pre l : List (T.Val × Nat × W)} {e : Entry DbKey V}
    (h : e ∈ idxFrom T w wr pre l) :
    ∃ k i, e.key = mkey T w k i ∧ i < occ k (pre ++ l) ∧ ∃ x ∈ l, e.ver = x.2.1 := by
  induction l generalizing pre with
  | nil => cases h
  | cons x xs ih =>
    rcases List.mem_cons.1 h with h | h
    · refine ⟨x.1, occ x.1 pre, by rw [h], ?_, x, List.mem_cons_self, by rw [h]⟩
      rw [occ_append]
      have : 0 < occ x.1 (x :: xs) := by simp [occ]
      omega
    · obtain ⟨k, i, h1, h2, y, hy, h3⟩ := ih h
      refine ⟨k, i, h1, ?_, y, List.mem_cons_of_mem _ hy, h3⟩
      simpa using h2

/-- Which writes of the log go to a given index. -/
theorem idxFrom_find (hT : T.Faithful) {pre l : List (T.Val × Nat × W)} {k : T.Val} {i maxV : Nat}
    (hcap : ∀ k, occ k (pre ++ l) ≤ maxIndex w) (hi : i ≤ maxIndex w)
    (hv : ∀ x ∈ l, x.2.1 ≤ maxV) :
    ((idxFrom T w wr pre l).filter fun e => decide (e.key = mkey T w k i ∧ e.ver ≤ maxV)).map
        (fun e => e.val) =
      if occ k pre ≤ i then
        ((((l.filter fun x => decide (x.1 = k)).map fun x => x.2.2)[i - occ k pre]?).map wr).toList
      else [] := by
  induction l generalizing pre with
  | nil => simp [idxFrom]
  | cons x xs ih =>
    have hcap' : ∀ k, occ k ((pre ++ [x]) ++ xs) ≤ maxIndex w := by
      intro k; have := hcap k; simpa using this
    have hpre : ∀ k, occ k pre ≤ maxIndex w := by
      intro k; have := hcap k; rw [occ_append] at this; omega
    have hih := ih hcap' (fun y hy => hv y (List.mem_cons_of_mem _ hy))
    have hvx := hv x List.mem_cons_self
    simp only [idxFrom, List.filter_cons, mkey_inj hT (hpre x.1) hi]
    by_cases hk : x.1 = k
    · have ho : occ k (pre ++ [x]) = occ k pre + 1 := by
        rw [occ_append]; simp [occ, hk]
      rw [ho] at hih
      subst hk
      by_cases hio : occ x.1 pre = i
      · rw [if_pos (by simp [hio, hvx]), List.map_cons, hih, if_neg (by omega), if_pos (by omega)]
        have : i - occ x.1 pre = 0 := by omega
        simp [this]
      · rw [if_neg (by simp [hio]), hih]
        by_cases hle : occ x.1 pre ≤ i
        · rw [if_pos hle, if_pos (by omega)]
          have : i - occ x.1 pre = (i - (occ x.1 pre + 1)) + 1 := by omega
          simp [this]
        · rw [if_neg hle, if_neg (by omega)]
    · have ho : occ k (pre ++ [x]) = occ k pre := by
        rw [occ_append]; simp [occ, hk]
      rw [ho] at hih
      rw [if_neg (by simp [hk]), hih]
      simp [hk]

/-- The underlying table holds exactly the log. -/
structure MRep (T : KeyType) [DecidableEq T.Val] (w : Nat) (wr : W → V) (m : MSpec T.Val W)
    (s : Spec DbKey V) : Prop where
  cur : s.cur = m.cur
  locks : s.locks = m.locks
  writes : s.writes = idxFrom T w wr [] m.log
  cap : ∀ k, (m.vals k).length ≤ maxIndex w
  mono : m.log.Pairwise fun a b => a.2.1 ≤ b.2.1
  le : ∀ x ∈ m.log, x.2.1 ≤ m.cur

theorem occ_vals (m : MSpec T.Val W) (k : T.Val) : occ k m.log = (m.vals k).length := by
  simp [occ, MSpec.vals]

theorem MRep.find (hT : T.Faithful) {m : MSpec T.Val W} {s : Spec DbKey V} (h : MRep T w wr m s)
    (hc : s.cur < u32max) {k : T.Val} {i : Nat} (hi : i ≤ maxIndex w) :
    s.find (mkey T w k i) u32max = ((m.vals k)[i]?).map wr := by
  have hf := idxFrom_find (wr := wr) (V := V) hT (pre := []) (l := m.log) (k := k) (i := i)
    (maxV := u32max) (by intro k; rw [List.nil_append, occ_vals]; exact h.cap k) hi
    (fun x hx => by have := h.le x hx; have := h.cur; omega)
  rw [if_pos (by simp [occ])] at hf
  have hocc : occ k ([] : List (T.Val × Nat × W)) = 0 := rfl
  rw [hocc, Nat.sub_zero] at hf
  unfold Spec.find
  rw [h.writes, ← List.getLast?_map, hf]
  show _ = Option.map wr (m.vals k)[i]?
  unfold MSpec.vals
  cases ((m.log.filter fun x => decide (x.1 = k)).map fun x => x.2.2)[i]? <;> rfl

theorem MRep.typed {m : MSpec T.Val W} {s : Spec DbKey V} (h : MRep T w wr m s) :
    TypedKeys (multiKey T w) s := by
  intro e he
  rw [h.writes] at he
  obtain ⟨k, i, hk, _⟩ := idxFrom_mem he
  exact ⟨_, hk⟩

theorem MRep.clean {m : MSpec T.Val W} {s : Spec DbKey V} (h : MRep T w wr m s) (hc : m.clean) :
    s.clean := by
  intro e he
  rw [h.writes] at he
  obtain ⟨_, _, _, _, x, hx, hv⟩ := idxFrom_mem he
  rw [hv, h.cur]
  exact hc x hx

theorem MRep.stored (hT : T.Faithful) {m : MSpec T.Val W} {s : Spec DbKey V} (h : MRep T w wr m s)
    {k : T.Val} (hc : s.cur < u32max) {i : Nat} (hi : i ≤ maxIndex w) :
    (∃ v, s.find (mkey T w k i) u32max = some v) ↔ i < (m.vals k).length := by
  rw [h.find hT hc hi]
  constructor
  · rintro ⟨v, hv⟩
    rw [Option.map_eq_some_iff] at hv
    obtain ⟨x, hx, _⟩ := hv
    exact (List.getElem?_eq_some_iff.1 hx).1
  · intro hl
    exact ⟨wr (m.vals k)[i], by rw [List.getElem?_eq_getElem hl]; rfl⟩

/-- The index found for new values is the number of values of the key. -/
theorem nextIndex_spec (hT : T.Faithful) {m : MSpec T.Val W} {s : Spec DbKey V} {t : Table DbKey V}
    (hr : Refines t s) (h : MRep T w wr m s) (key : T.Val) :
    t.nextIndex T w key = some (m.vals key).length := by
  have hc : s.cur < u32max := by rw [← hr.cur]; exact hr.inv.curLt
  obtain ⟨it, h1, n, L, h2, h3, h4⟩ := scan_lists hr false (some (mkey T w key (maxIndex w)))
  simp only [Bool.false_eq_true, if_false] at h1
  have hcur := current_of_collect h2
  have hcap := h.cap key
  -- every stored index of the key is in the list
  have hin : ∀ i, i < (m.vals key).length → ∃ v, (mkey T w key i, v) ∈ L := by
    intro i hi
    obtain ⟨v, hv⟩ := (h.stored hT hc (k := key) (by omega : i ≤ maxIndex w)).2 hi
    refine ⟨v, (h4 _ _).2 ⟨?_, hv⟩⟩
    simp only [Sel, Bool.false_eq_true, if_false]
    rw [mkey_lt hT (by omega) (Nat.le_refl _)]
    exact Or.inr ⟨rfl, by omega⟩
  unfold Table.nextIndex Table.seekPrev
  rw [h1]
  dsimp only
  cases hL : L with
  | nil =>
    rw [hL] at hcur
    have hn : it.current = none := by simpa using hcur
    rw [hn]
    dsimp only
    have : (m.vals key).length = 0 := by
      rcases Nat.eq_zero_or_pos (m.vals key).length with e | e
      · exact e
      · obtain ⟨v, hv⟩ := hin 0 e
        rw [hL] at hv; cases hv
    rw [this]
  | cons y ys =>
    obtain ⟨k0, v0⟩ := y
    rw [hL] at hcur
    cases hcu : it.current with
    | none => rw [hcu] at hcur; cases hcur
    | some e =>
      rw [hcu] at hcur
      simp only [Option.map_some, List.head?_cons, Option.some.injEq, Prod.mk.injEq] at hcur
      obtain ⟨hk0, hv0⟩ := hcur
      have hmem : (k0, v0) ∈ L := by rw [hL]; exact List.mem_cons_self
      obtain ⟨hsel, hf⟩ := (h4 _ _).1 hmem
      simp only [Sel, Bool.false_eq_true, if_false] at hsel
      obtain ⟨⟨a, i⟩, hka, hra⟩ := typed_read (multi_faithful hT w) h.typed hf
      have hii : Fin.val i ≤ maxIndex w := by
        have := Fin.isLt i
        have := maxIndex_lt w
        unfold maxIndex at *; omega
      have hka' : k0 = mkey T w a (Fin.val i) := by
        rw [hka]; unfold mkey; rw [toIndex_self]
      have hhead : ∀ k v, (k, v) ∈ L → k ≤ k0 := by
        intro k v hkv
        rw [hL] at hkv h3
        rw [List.pairwise_cons] at h3
        rcases List.mem_cons.1 hkv with e | e
        · injection e with e1 e2; rw [e1]
        · have := h3.1 _ e
          simp only [Ord, Bool.false_eq_true, if_false] at this
          exact le_of_lt this
      show indexAfter T w key e.key = _
      unfold indexAfter
      rw [hk0, hra, Option.map_some]
      dsimp only
      by_cases hbe : T.beq a key = true
      · rw [if_pos hbe]
        have hak : a = key := (hT.beq_iff _ _).1 hbe
        subst hak
        have hlt : Fin.val i < (m.vals a).length :=
          (h.stored hT hc hii).1 ⟨v0, by rw [← hka']; exact hf⟩
        obtain ⟨v, hv⟩ := hin ((m.vals a).length - 1) (by omega)
        have hle := hhead _ _ hv
        rw [hka', ← not_lt, mkey_lt hT hii (by omega)] at hle
        have : Fin.val i + 1 = (m.vals a).length := by
          by_contra hne
          exact hle (Or.inr ⟨rfl, by omega⟩)
        rw [this, Nat.mod_eq_of_lt (by have := maxIndex_lt w; omega)]
      · rw [if_neg hbe]
        have hak : a ≠ key := fun e => hbe ((hT.beq_iff _ _).2 e)
        have : (m.vals key).length = 0 := by
          rcases Nat.eq_zero_or_pos (m.vals key).length with e | e
          · exact e
          · exfalso
            obtain ⟨v, hv⟩ := hin 0 e
            have hle := hhead _ _ hv
            rw [hka', ← not_lt, mkey_lt hT hii (by omega)] at hle
            rw [hka', mkey_lt hT hii (Nat.le_refl _)] at hsel
            rcases hsel with hs | hs
            · exact hle (Or.inl hs)
            · exact hak hs.1
        rw [this]

/-! ### steps -/

theorem MRep.insertOne {m : MSpec T.Val W} {s : Spec DbKey V} (h : MRep T w wr m s) (key : T.Val)
    (x : W) (hroom : (m.vals key).length < maxIndex w) :
    MRep T w wr { m with log := m.log ++ [(key, m.cur, x)] }
      { s with writes := s.writes ++
        [{ key := mkey T w key (m.vals key).length, ver := s.cur, val := wr x }] } where
  cur := h.cur
  locks := h.locks
  writes := by
    rw [idxFrom_append, h.writes, h.cur]
    simp only [List.nil_append, idxFrom, occ_vals]
  cap k := by
    have := h.cap k
    simp only [MSpec.vals, List.filter_append, List.map_append, List.length_append] at this ⊢
    by_cases hk : key = k
    · subst hk
      simp only [MSpec.vals] at hroom
      have : (List.filter (fun x => decide (x.1 = key)) m.log).length < maxIndex w := by simpa using hroom
      simp; omega
    · simpa [hk] using this
  mono := by
    rw [List.pairwise_append]
    refine ⟨h.mono, List.pairwise_singleton _ _, ?_⟩
    intro a ha b hb
    rw [List.mem_singleton] at hb
    subst hb
    exact h.le a ha
  le y hy := by
    rw [List.mem_append, List.mem_singleton] at hy
    rcases hy with hy | hy
    · exact h.le y hy
    · subst hy; exact Nat.le_refl _

theorem vals_insertOne (m : MSpec T.Val W) (key : T.Val) (x : W) :
    ({ m with log := m.log ++ [(key, m.cur, x)] } : MSpec T.Val W).vals key = m.vals key ++ [x] := by
  simp [MSpec.vals]

theorem insertFrom_spec {o : Options DbKey V} {m : MSpec T.Val W} {s : Spec DbKey V}
    {t : Table DbKey V} (hr : Refines t s) (h : MRep T w wr m s) (hl : m.locks = 0) (key : T.Val)
    (xs : List W) :
    ∃ s', Refines (Table.insertFrom o T w wr key t (m.vals key).length xs).1 s' ∧
      MRep T w wr (m.insert (maxIndex w) key xs) s' ∧
      ((Table.insertFrom o T w wr key t (m.vals key).length xs).2 = true ↔
        maxIndex w < (m.vals key).length + xs.length) := by
  induction xs generalizing m s t with
  | nil =>
    refine ⟨s, hr, ?_, ?_⟩
    · simpa [MSpec.insert] using h
    · have := h.cap key
      simp only [Table.insertFrom, List.length_nil, Nat.add_zero]
      constructor
      · intro hh; cases hh
      · intro hh; omega
  | cons x xs ih =>
    have hcap := h.cap key
    unfold Table.insertFrom
    by_cases hfull : (m.vals key).length = maxIndex w
    · rw [if_pos hfull]
      refine ⟨s, hr, ?_, ?_⟩
      · simpa [MSpec.insert, hfull] using h
      · simp [hfull]
    · rw [if_neg hfull]
      have hroom : (m.vals key).length < maxIndex w := by omega
      have hacc : s.accepts (.insert (mkey T w key (m.vals key).length) (wr x)) := by
        show s.locks = 0
        rw [h.locks]; exact hl
      obtain ⟨hr1, hthrew⟩ := refines_apply (o := o) hr
        (.insert (mkey T w key (m.vals key).length) (wr x)) (by intro e; cases e)
      have hnt : (t.insert o (mkey T w key (m.vals key).length) (wr x)).threw = false := by
        rcases hthrew with e | ⟨_, _, e⟩ | e
        · cases e
        · cases e
        · by_contra hc
          exact (e.1 (by simpa [Table.apply] using hc)) hacc
      have hs1 : s.apply (.insert (mkey T w key (m.vals key).length) (wr x)) =
          { s with writes := s.writes ++
            [{ key := mkey T w key (m.vals key).length, ver := s.cur, val := wr x }] } := by
        unfold Spec.apply; rw [if_pos hacc]; rfl
      rw [hs1] at hr1
      have h1 := h.insertOne key x hroom
      have hv1 := vals_insertOne m key x
      have hlen : (({ m with log := m.log ++ [(key, m.cur, x)] } : MSpec T.Val W).vals key).length =
          (m.vals key).length + 1 := by rw [hv1]; simp
      obtain ⟨s', a1, a2, a3⟩ := ih hr1 h1 hl
      rw [hlen] at a1 a3
      dsimp only
      rw [hnt]
      simp only [Bool.false_eq_true, if_false]
      refine ⟨s', a1, ?_, ?_⟩
      · have e : (({ m with log := m.log ++ [(key, m.cur, x)] } : MSpec T.Val W).insert
            (maxIndex w) key xs) = m.insert (maxIndex w) key (x :: xs) := by
          unfold MSpec.insert
          rw [hlen]
          have : maxIndex w - (m.vals key).length =
              (maxIndex w - ((m.vals key).length + 1)) + 1 := by omega
          simp [this]
        rw [← e]; exact a2
      · rw [List.length_cons]
        show (Table.insertFrom o T w wr key
          (t.apply o (.insert (mkey T w key (m.vals key).length) (wr x))).tab _ xs).2 = true ↔ _
        rw [a3]
        omega

omit [DecidableEq T.Val] in
/-- With an iterator alive nothing is inserted. -/
theorem insertFrom_locked {o : Options DbKey V} {t : Table DbKey V} (hl : t.writeLock ≠ 0)
    (key : T.Val) (i : Nat) (xs : List W) :
    Table.insertFrom o T w wr key t i xs = (t, !xs.isEmpty) := by
  cases xs with
  | nil => rfl
  | cons x xs =>
    unfold Table.insertFrom
    have hi : t.insert o (mkey T w key i) (wr x) = { tab := t, ops := [], threw := true } := by
      unfold Table.insert
      rw [if_pos hl]
    rw [hi]
    simp

end Index

end Verif.DB
