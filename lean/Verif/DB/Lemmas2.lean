import Verif.DB.Lemmas1

/-! Helper lemmas: block index, binary search, `findBlock`. -/

set_option linter.unusedSectionVars false

namespace Verif.DB

variable {K V : Type} [LinearOrder K]

/-- Suffixes of the entry list that start with a new key. -/
def suffixes (prev : Option K) : List (Entry K V) → List (Entry K V × List (Entry K V))
  | [] => []
  | e :: es =>
    if prev = some e.key then suffixes (some e.key) es
    else (e, es) :: suffixes (some e.key) es

theorem buildIndex_suffixes (prev : Option K) (pre es : List (Entry K V)) :
    (buildIndex prev pre.length es).map (fun p => (pre ++ es).drop p)
      = (suffixes prev es).map (fun s => s.1 :: s.2) := by
  induction es generalizing prev pre with
  | nil => simp [buildIndex, suffixes]
  | cons e es ih =>
    have := ih (some e.key) (pre ++ [e])
    simp only [List.length_append, List.length_cons, List.length_nil, List.append_assoc,
      List.cons_append, List.nil_append] at this
    unfold buildIndex suffixes
    split
    · simpa using this
    · simp only [List.map_cons, List.drop_left]
      congr 1

theorem buildIndex_suffixes0 (es : List (Entry K V)) :
    (buildIndex none 0 es).map (fun p => es.drop p)
      = (suffixes none es).map (fun s => s.1 :: s.2) := by
  simpa using buildIndex_suffixes none [] es

theorem suffixes_sorted {prev : Option K} {es : List (Entry K V)} (h : Sorted es)
    (hp : ∀ k, prev = some k → ∀ e ∈ es, k ≤ e.key) :
    ((suffixes prev es).Pairwise (fun a b => a.1.key < b.1.key)) ∧
    (∀ s ∈ suffixes prev es, (∀ k, prev = some k → k < s.1.key) ∧ Sorted (s.1 :: s.2) ∧
      ∀ e ∈ s.1 :: s.2, e ∈ es) ∧
    (∀ e ∈ es, prev ≠ some e.key → ∃ s ∈ suffixes prev es, s.1.key = e.key ∧
      ∀ x ∈ es, x.key = e.key → x ∈ s.1 :: s.2) := by
  induction es generalizing prev with
  | nil => simp [suffixes]
  | cons e es ih =>
    have h0 := h
    rw [sorted_cons] at h
    have hle : ∀ k, (some e.key) = some k → ∀ x ∈ es, k ≤ x.key := by
      intro k hk x hx
      cases hk
      have := h.1 x hx
      rw [before_iff] at this
      rcases this with h | h
      · exact le_of_lt h
      · exact le_of_eq h.1
    obtain ⟨i1, i2, i3⟩ := ih h.2 hle
    unfold suffixes
    split
    · rename_i hpe
      subst hpe
      refine ⟨i1, fun s hs => ?_, fun x hx hxk => ?_⟩
      · obtain ⟨a, b, c⟩ := i2 s hs
        exact ⟨a, b, fun y hy => List.mem_cons_of_mem _ (c y hy)⟩
      · rcases List.mem_cons.1 hx with rfl | hx
        · exact absurd rfl hxk
        · obtain ⟨s, hs, hsk, hall⟩ := i3 x hx hxk
          refine ⟨s, hs, hsk, fun y hy hyk => ?_⟩
          rcases List.mem_cons.1 hy with rfl | hy
          · exact absurd (by rw [hyk]) hxk
          · exact hall y hy hyk
    · rename_i hpe
      have hlt : ∀ k, prev = some k → k < e.key := by
        intro k hk
        rcases lt_or_eq_of_le (hp k hk e List.mem_cons_self) with h | h
        · exact h
        · exact absurd (by rw [hk, h]) hpe
      refine ⟨?_, ?_, ?_⟩
      · rw [List.pairwise_cons]
        exact ⟨fun s hs => (i2 s hs).1 _ rfl, i1⟩
      · intro s hs
        rcases List.mem_cons.1 hs with rfl | hs
        · exact ⟨hlt, h0, fun y hy => hy⟩
        · obtain ⟨a, b, c⟩ := i2 s hs
          exact ⟨fun k hk => lt_trans (hlt k hk) (a _ rfl), b,
            fun y hy => List.mem_cons_of_mem _ (c y hy)⟩
      · intro x hx hxk
        by_cases hxe : x.key = e.key
        · exact ⟨(e, es), List.mem_cons_self, hxe.symm, fun y hy _ => hy⟩
        · rcases List.mem_cons.1 hx with rfl | hx
          · exact absurd rfl hxe
          · obtain ⟨s, hs, hsk, hall⟩ := i3 x hx (by simpa using fun h => hxe h.symm)
            refine ⟨s, List.mem_cons_of_mem _ hs, hsk, fun y hy hyk => ?_⟩
            rcases List.mem_cons.1 hy with rfl | hy
            · exact absurd hyk.symm hxe
            · exact hall y hy hyk

/-- A block as written by the code. -/
structure BlockOK (b : Block K V) : Prop where
  sorted : Sorted b.entries
  index : b.index = buildIndex none 0 b.entries
  minLe : ∀ e ∈ b.entries, b.minV ≤ e.ver
  leMax : ∀ e ∈ b.entries, e.ver ≤ b.maxV
  minAtt : ∃ e ∈ b.entries, e.ver = b.minV
  maxAtt : ∃ e ∈ b.entries, e.ver = b.maxV

theorem index_drop {b : Block K V} (h : BlockOK b) (i : Nat) :
    (b.index[i]?).map (fun p => b.entries.drop p)
      = ((suffixes none b.entries)[i]?).map (fun s => s.1 :: s.2) := by
  have := buildIndex_suffixes0 b.entries
  rw [← h.index] at this
  have := congrArg (fun l => l[i]?) this
  simpa using this

theorem index_length {b : Block K V} (h : BlockOK b) :
    b.index.length = (suffixes none b.entries).length := by
  have := congrArg List.length (buildIndex_suffixes0 b.entries)
  rw [← h.index] at this
  simpa using this

theorem at_eq {b : Block K V} (h : BlockOK b) (i : Nat) :
    b.at i = ((suffixes none b.entries)[i]?).map (fun s => s.1) := by
  have := index_drop h i
  unfold Block.at
  cases hi : b.index[i]? with
  | none =>
    rw [hi] at this
    cases hs : (suffixes none b.entries)[i]? with
    | none => rfl
    | some s => rw [hs] at this; simp at this
  | some p =>
    rw [hi] at this
    cases hs : (suffixes none b.entries)[i]? with
    | none => rw [hs] at this; simp at this
    | some s =>
      rw [hs] at this
      simp at this
      simp only [Option.map_some]
      rw [← List.head?_drop, this]
      rfl

theorem bsearch_spec {b : Block K V} (h : BlockOK b) (key : K) (n L R : Nat) (hfuel : R - L ≤ n)
    (hR : R ≤ (suffixes none b.entries).length) (hLR : L ≤ R)
    (hlow : ∀ i s, i < L → (suffixes none b.entries)[i]? = some s → s.1.key ≤ key)
    (hhigh : ∀ i s, R ≤ i → (suffixes none b.entries)[i]? = some s → key < s.1.key) :
    ∃ r, bsearch b key n L R = some r ∧ r ≤ (suffixes none b.entries).length ∧
      (∀ i s, i < r → (suffixes none b.entries)[i]? = some s → s.1.key ≤ key) ∧
      (∀ i s, r ≤ i → (suffixes none b.entries)[i]? = some s → key < s.1.key) := by
  have hpw := (suffixes_sorted (prev := none) h.sorted (by simp)).1
  rw [List.pairwise_iff_getElem] at hpw
  induction n generalizing L R with
  | zero =>
    unfold bsearch
    rw [if_neg (by omega)]
    have : L = R := by omega
    subst this
    exact ⟨L, rfl, hR, hlow, hhigh⟩
  | succ n ih =>
    unfold bsearch
    by_cases hlt : L < R
    · rw [if_pos hlt]
      dsimp only
      have hm : (L + R) / 2 < (suffixes none b.entries).length := by omega
      rw [at_eq h, List.getElem?_eq_getElem hm]
      simp only [Option.map_some]
      split
      · rename_i hk
        refine ih L ((L + R) / 2) (by omega) (by omega) (by omega) hlow ?_
        intro i s hi hs
        rw [List.getElem?_eq_some_iff] at hs
        obtain ⟨hil, rfl⟩ := hs
        rcases Nat.lt_or_eq_of_le hi with hi | hi
        · exact lt_trans hk (hpw _ _ hm hil hi)
        · subst hi; exact hk
      · rename_i hk
        refine ih ((L + R) / 2 + 1) R (by omega) (by omega) (by omega) ?_ hhigh
        intro i s hi hs
        rw [List.getElem?_eq_some_iff] at hs
        obtain ⟨hil, rfl⟩ := hs
        rcases Nat.lt_or_eq_of_le (Nat.le_of_lt_succ hi) with hi | hi
        · exact le_of_lt (lt_of_lt_of_le (hpw _ _ hil hm hi) (not_lt.1 hk))
        · subst hi; exact not_lt.1 hk
    · rw [if_neg hlt]
      have : L = R := by omega
      subst this
      exact ⟨L, rfl, hR, hlow, hhigh⟩

/-- What `lower_bound` returns on a well-formed block. -/
theorem lowerBound_spec {b : Block K V} (h : BlockOK b) (key : K) :
    ∃ r, lowerBound b key = some r ∧ r.ent = (suffixes none b.entries)[r.pos]?.map (·.1) ∧
      r.pos ≤ (suffixes none b.entries).length ∧
      (∀ i s, i < r.pos → (suffixes none b.entries)[i]? = some s → s.1.key < key) ∧
      (∀ i s, r.pos ≤ i → (suffixes none b.entries)[i]? = some s → key ≤ s.1.key) ∧
      (r.isMatch = true ↔ ∃ s, (suffixes none b.entries)[r.pos]? = some s ∧ s.1.key = key) := by
  have hpw := (suffixes_sorted (prev := none) h.sorted (by simp)).1
  rw [List.pairwise_iff_getElem] at hpw
  obtain ⟨R, hb, hRl, hlo, hhi⟩ := bsearch_spec h key b.index.length 0 b.index.length (by omega)
    (by rw [index_length h]; exact Nat.le_refl _)
    (Nat.zero_le _) (fun i s hi => absurd hi (Nat.not_lt_zero _))
    (fun i s hi hs => by
      rw [List.getElem?_eq_some_iff] at hs
      obtain ⟨hil, _⟩ := hs
      rw [index_length h] at hi; omega)
  unfold lowerBound
  rw [hb]
  dsimp only
  -- the case without match
  have hfall : (∀ i s, i < R → (suffixes none b.entries)[i]? = some s → s.1.key < key) →
      ∃ r, (if R < b.index.length then
        match b.at R with
        | none => none
        | some e => some { pos := R, isMatch := false, ent := some e }
      else some { pos := R, isMatch := false, ent := none } : Option (LB K V)) = some r ∧
      r.ent = (suffixes none b.entries)[r.pos]?.map (·.1) ∧
      r.pos ≤ (suffixes none b.entries).length ∧
      (∀ i s, i < r.pos → (suffixes none b.entries)[i]? = some s → s.1.key < key) ∧
      (∀ i s, r.pos ≤ i → (suffixes none b.entries)[i]? = some s → key ≤ s.1.key) ∧
      (r.isMatch = true ↔ ∃ s, (suffixes none b.entries)[r.pos]? = some s ∧ s.1.key = key) := by
    intro hstrict
    have hno : ¬ ∃ s, (suffixes none b.entries)[R]? = some s ∧ s.1.key = key := by
      rintro ⟨s, hs, hk⟩
      have := hhi R s (Nat.le_refl _) hs
      rw [hk] at this; exact lt_irrefl _ this
    by_cases hlt : R < b.index.length
    · rw [if_pos hlt]
      rw [index_length h] at hlt
      rw [at_eq h, List.getElem?_eq_getElem hlt]
      simp only [Option.map_some]
      refine ⟨_, rfl, ?_, hRl, hstrict, fun i s hi hs => le_of_lt (hhi i s hi hs), ?_⟩
      · simp [List.getElem?_eq_getElem hlt]
      · simpa using hno
    · rw [if_neg hlt]
      rw [index_length h] at hlt
      refine ⟨_, rfl, ?_, hRl, hstrict, fun i s hi hs => le_of_lt (hhi i s hi hs), ?_⟩
      · simp [List.getElem?_eq_none (Nat.le_of_not_lt hlt)]
      · simpa using hno
  by_cases hR : 0 < R
  · rw [if_pos hR]
    have hlt : R - 1 < (suffixes none b.entries).length := by omega
    rw [at_eq h, List.getElem?_eq_getElem hlt]
    simp only [Option.map_some]
    split
    · rename_i hk
      refine ⟨_, rfl, ?_, by dsimp only; omega, ?_, ?_, ?_⟩
      · simp [List.getElem?_eq_getElem hlt]
      · intro i s hi hs
        dsimp only at hi
        rw [List.getElem?_eq_some_iff] at hs
        obtain ⟨hil, rfl⟩ := hs
        rw [hk]
        exact hpw _ _ hil hlt hi
      · intro i s hi hs
        dsimp only at hi
        rcases Nat.lt_or_eq_of_le hi with hi | hi
        · exact le_of_lt (hhi i s (by omega) hs)
        · subst hi
          rw [List.getElem?_eq_getElem hlt] at hs
          cases hs
          exact le_of_eq hk
      · simp [List.getElem?_eq_getElem hlt, hk]
    · rename_i hk
      apply hfall
      intro i s hi hs
      refine lt_of_le_of_ne (hlo i s hi hs) (fun heq => ?_)
      rw [List.getElem?_eq_some_iff] at hs
      obtain ⟨hil, rfl⟩ := hs
      rcases Nat.lt_or_eq_of_le (show i ≤ R - 1 by omega) with hi' | hi'
      · have h1 := hpw _ _ hil hlt hi'
        have h2 := hlo (R - 1) _ (by omega) (List.getElem?_eq_getElem hlt)
        rw [heq] at h1
        exact lt_irrefl _ (lt_of_lt_of_le h1 h2)
      · subst hi'
        exact hk heq.symm
  · rw [if_neg hR]
    apply hfall
    intro i s hi
    omega

theorem scanOlder_latest {key : K} {maxV : Nat} {e : Entry K V} {es : List (Entry K V)}
    (h : Sorted (e :: es)) (hk : e.key = key) :
    Latest (· ∈ e :: es) key maxV (scanOlder key maxV e es) := by
  induction es generalizing e with
  | nil =>
    unfold scanOlder
    split
    · intro x hx _
      simp at hx; subst hx; assumption
    · refine ⟨e, List.mem_cons_self, hk, by omega, rfl, ?_⟩
      intro x hx _ _
      simp at hx; subst hx; exact Nat.le_refl _
  | cons x xs ih =>
    have h0 := h
    rw [sorted_cons] at h
    unfold scanOlder
    split
    · rename_i hv
      split
      · rename_i hxk
        have := ih h.2 hxk
        revert this
        cases hres : scanOlder key maxV x xs with
        | none =>
          intro this y hy hyk
          rcases List.mem_cons.1 hy with rfl | hy
          · exact hv
          · exact this y hy hyk
        | some v =>
          rintro ⟨w, h1, h2, h3, h4, h5⟩
          refine ⟨w, List.mem_cons_of_mem _ h1, h2, h3, h4, fun y hy hyk hyv => ?_⟩
          rcases List.mem_cons.1 hy with rfl | hy
          · omega
          · exact h5 y hy hyk hyv
      · rename_i hxk
        intro y hy hyk
        rcases List.mem_cons.1 hy with rfl | hy
        · exact hv
        · -- y has key = key, but x.key > key and everything after too
          exfalso
          have hex : key < x.key := by
            have := h.1 x List.mem_cons_self
            rw [before_iff] at this
            rcases this with h | ⟨h, _⟩
            · rw [← hk]; exact h
            · exact absurd (h.symm.trans hk) hxk
          rcases List.mem_cons.1 hy with rfl | hy
          · exact hxk hyk
          · have := (sorted_cons.1 h.2).1 y hy
            rw [before_iff] at this
            rcases this with h | ⟨h, _⟩
            · rw [hyk] at h; exact lt_irrefl _ (lt_trans hex h)
            · exact hxk (h.trans hyk)
    · rename_i hv
      refine ⟨e, List.mem_cons_self, hk, by omega, rfl, fun y hy hyk _ => ?_⟩
      rcases List.mem_cons.1 hy with rfl | hy
      · exact Nat.le_refl _
      · have := h.1 y hy
        rw [before_iff] at this
        rcases this with h | ⟨_, h⟩
        · rw [hk, hyk] at h; exact absurd h (lt_irrefl _)
        · omega

theorem findBlock_latest {b : Block K V} (h : BlockOK b) (key : K) (maxV : Nat) :
    ∃ r, findBlock b key maxV = some r ∧ Latest (· ∈ b.entries) key maxV r := by
  obtain ⟨r, hr, _, hpos, hlo, hhi, hm⟩ := lowerBound_spec h key
  obtain ⟨_, i2, i3⟩ := suffixes_sorted (prev := none) h.sorted (by simp)
  unfold findBlock
  rw [hr]
  dsimp only
  by_cases hmt : r.isMatch = true
  · rw [if_pos hmt]
    obtain ⟨s, hs, hsk⟩ := hm.1 hmt
    have hd := index_drop h r.pos
    rw [hs] at hd
    cases hi : b.index[r.pos]? with
    | none => rw [hi] at hd; simp at hd
    | some p =>
      rw [hi] at hd
      simp at hd
      dsimp only
      rw [hd]
      dsimp only
      refine ⟨_, rfl, ?_⟩
      obtain ⟨_, hsorted, hsub⟩ := i2 s (List.mem_of_getElem? hs)
      have hl := scanOlder_latest (maxV := maxV) hsorted hsk
      -- move from the suffix to the whole block
      have hmem : ∀ x, x ∈ b.entries → x.key = key → x ∈ s.1 :: s.2 := by
        intro x hx hxk
        obtain ⟨s', hs', hsk', hall⟩ := i3 x hx (by simp)
        obtain ⟨j, hj⟩ := List.getElem?_of_mem hs'
        have : j = r.pos := by
          rcases Nat.lt_trichotomy j r.pos with hlt | heq | hgt
          · have := hlo j s' hlt hj
            rw [hsk', hxk] at this; exact absurd this (lt_irrefl _)
          · exact heq
          · have hpw := (suffixes_sorted (prev := none) h.sorted (by simp)).1
            rw [List.pairwise_iff_getElem] at hpw
            rw [List.getElem?_eq_some_iff] at hs hj
            obtain ⟨ha, rfl⟩ := hs
            obtain ⟨hb, rfl⟩ := hj
            have := hpw _ _ ha hb hgt
            rw [hsk, hsk', hxk] at this
            exact absurd this (lt_irrefl _)
        subst this
        rw [hs] at hj
        cases hj
        exact hall x hx rfl
      revert hl
      cases scanOlder key maxV s.1 s.2 with
      | none => exact fun hl x hx hxk => hl x (hmem x hx hxk) hxk
      | some v =>
        rintro ⟨w, h1, h2, h3, h4, h5⟩
        exact ⟨w, hsub w h1, h2, h3, h4, fun y hy hyk hyv => h5 y (hmem y hy hyk) hyk hyv⟩
  · rw [if_neg hmt]
    refine ⟨none, rfl, fun x hx hxk => ?_⟩
    exfalso
    apply hmt
    obtain ⟨s', hs', hsk', hall⟩ := i3 x hx (by simp)
    obtain ⟨j, hj⟩ := List.getElem?_of_mem hs'
    rcases Nat.lt_trichotomy j r.pos with h | h | h
    · have := hlo j s' h hj
      rw [hsk', hxk] at this; exact absurd this (lt_irrefl _)
    · subst h
      exact hm.2 ⟨s', hj, hsk'.trans hxk⟩
    · have hlt : r.pos < (suffixes none b.entries).length := by
        rw [List.getElem?_eq_some_iff] at hj
        obtain ⟨hb, _⟩ := hj
        omega
      have h1 := hhi r.pos _ (Nat.le_refl _) (List.getElem?_eq_getElem hlt)
      have hpw := (suffixes_sorted (prev := none) (es := b.entries) ‹BlockOK b›.sorted (by simp)).1
      rw [List.pairwise_iff_getElem] at hpw
      rw [List.getElem?_eq_some_iff] at hj
      obtain ⟨hb, rfl⟩ := hj
      have := hpw _ _ hlt hb h
      rw [hsk', hxk] at this
      exact absurd (lt_of_le_of_lt h1 this) (lt_irrefl _)

end Verif.DB
