import Verif.DB.Model
import Mathlib.Order.Basic

/-! Helper lemmas: entry order, memory block, memory index. -/

set_option linter.unusedSectionVars false

namespace Verif.DB

variable {K V : Type} [LinearOrder K]

/-- Same `(key, version)`. -/
def Entry.same (a b : Entry K V) : Prop := a.key = b.key ∧ a.ver = b.ver

theorem before_iff (a b : Entry K V) :
    a.before b = true ↔ a.key < b.key ∨ (a.key = b.key ∧ b.ver < a.ver) := by
  unfold Entry.before
  split
  · rename_i h; simp [h]
  · rename_i h; simp [h]

theorem before_irrefl (a : Entry K V) : ¬ a.before a = true := by
  simp [before_iff]

theorem before_trans {a b c : Entry K V} (h1 : a.before b = true) (h2 : b.before c = true) :
    a.before c = true := by
  rw [before_iff] at *
  rcases h1 with h1 | ⟨h1, h1'⟩ <;> rcases h2 with h2 | ⟨h2, h2'⟩
  · exact Or.inl (lt_trans h1 h2)
  · exact Or.inl (h2 ▸ h1)
  · exact Or.inl (h1 ▸ h2)
  · exact Or.inr ⟨h1.trans h2, by omega⟩

theorem before_asymm {a b : Entry K V} (h1 : a.before b = true) : ¬ b.before a = true :=
  fun h2 => before_irrefl a (before_trans h1 h2)

theorem same_of_not_before {a b : Entry K V} (h1 : ¬ a.before b = true) (h2 : ¬ b.before a = true) :
    a.same b := by
  rw [before_iff] at *
  rw [not_or, not_lt, not_and] at h1 h2
  have hk : a.key = b.key := le_antisymm h2.1 h1.1
  exact ⟨hk, by have := h1.2 hk; have := h2.2 hk.symm; omega⟩

theorem not_same_of_before {a b : Entry K V} (h : a.before b = true) : ¬ a.same b := by
  rintro ⟨h1, h2⟩
  rw [before_iff] at h
  rcases h with h | ⟨_, h⟩
  · exact absurd h1 (ne_of_lt h)
  · omega

theorem before_congr_left {a b c : Entry K V} (h : a.same b) : a.before c = b.before c := by
  unfold Entry.before; rw [h.1, h.2]

theorem before_congr_right {a b c : Entry K V} (h : a.same b) : c.before a = c.before b := by
  unfold Entry.before; rw [h.1, h.2]

theorem Entry.same_symm {a b : Entry K V} (h : a.same b) : b.same a := ⟨h.1.symm, h.2.symm⟩

theorem Entry.same_trans {a b c : Entry K V} (h : a.same b) (h' : b.same c) : a.same c :=
  ⟨h.1.trans h'.1, h.2.trans h'.2⟩

/-- Sorted by key ascending, version descending, no duplicates. -/
def Sorted (l : List (Entry K V)) : Prop := l.Pairwise (fun a b => a.before b = true)

theorem sorted_nil : Sorted ([] : List (Entry K V)) := List.Pairwise.nil

theorem sorted_cons {a : Entry K V} {l} :
    Sorted (a :: l) ↔ (∀ b ∈ l, a.before b = true) ∧ Sorted l := List.pairwise_cons

theorem Sorted.eq_of_same {l : List (Entry K V)} (h : Sorted l) {a b : Entry K V}
    (ha : a ∈ l) (hb : b ∈ l) (hs : a.same b) : a = b := by
  induction l with
  | nil => cases ha
  | cons x xs ih =>
    rw [sorted_cons] at h
    rcases List.mem_cons.1 ha with rfl | ha' <;> rcases List.mem_cons.1 hb with rfl | hb'
    · rfl
    · exact absurd hs (not_same_of_before (h.1 _ hb'))
    · exact absurd (Entry.same_symm hs) (not_same_of_before (h.1 _ ha'))
    · exact ih h.2 ha' hb'

theorem mem_memInsert {e x : Entry K V} {l} (h : Sorted l) :
    x ∈ memInsert e l ↔ x = e ∨ (x ∈ l ∧ ¬ x.same e) := by
  induction l with
  | nil => simp [memInsert]
  | cons y ys ih =>
    rw [sorted_cons] at h
    unfold memInsert
    split
    · rename_i hb
      constructor
      · intro hx
        rcases List.mem_cons.1 hx with hx | hx
        · exact Or.inl hx
        · refine Or.inr ⟨hx, fun hs => ?_⟩
          have : e.before x = true := by
            rcases List.mem_cons.1 hx with rfl | hx
            · exact hb
            · exact before_trans hb (h.1 _ hx)
          exact not_same_of_before this (Entry.same_symm hs)
      · rintro (hx | ⟨hx, _⟩)
        · exact List.mem_cons.2 (Or.inl hx)
        · exact List.mem_cons.2 (Or.inr hx)
    · rename_i hb
      split
      · rename_i hb2
        rw [List.mem_cons, ih h.2, List.mem_cons]
        constructor
        · rintro (hx | hx | ⟨hx, hs⟩)
          · subst hx; exact Or.inr ⟨Or.inl rfl, not_same_of_before hb2⟩
          · exact Or.inl hx
          · exact Or.inr ⟨Or.inr hx, hs⟩
        · rintro (hx | ⟨hx | hx, hs⟩)
          · exact Or.inr (Or.inl hx)
          · exact Or.inl hx
          · exact Or.inr (Or.inr ⟨hx, hs⟩)
      · rename_i hb2
        have hs := same_of_not_before hb hb2
        constructor
        · intro hx
          rcases List.mem_cons.1 hx with hx | hx
          · exact Or.inl hx
          · refine Or.inr ⟨List.mem_cons_of_mem _ hx, fun hs' => ?_⟩
            exact not_same_of_before (h.1 _ hx) (Entry.same_symm (Entry.same_trans hs' hs))
        · rintro (hx | ⟨hx, hs'⟩)
          · exact List.mem_cons.2 (Or.inl hx)
          · rcases List.mem_cons.1 hx with rfl | hx
            · exact absurd (Entry.same_symm hs) hs'
            · exact List.mem_cons_of_mem _ hx

theorem sorted_memInsert {e : Entry K V} {l} (h : Sorted l) : Sorted (memInsert e l) := by
  induction l with
  | nil => simp [memInsert, Sorted]
  | cons y ys ih =>
    have h0 := h
    rw [sorted_cons] at h
    unfold memInsert
    split
    · rename_i hb
      refine sorted_cons.2 ⟨fun b hbm => ?_, h0⟩
      rcases List.mem_cons.1 hbm with rfl | hbm
      · exact hb
      · exact before_trans hb (h.1 _ hbm)
    · rename_i hb
      split
      · rename_i hb2
        refine sorted_cons.2 ⟨fun b hbm => ?_, ih h.2⟩
        rcases (mem_memInsert h.2).1 hbm with rfl | ⟨hm, _⟩
        · exact hb2
        · exact h.1 _ hm
      · rename_i hb2
        have hs := same_of_not_before hb hb2
        refine sorted_cons.2 ⟨fun b hbm => ?_, h.2⟩
        rw [before_congr_left hs]
        exact h.1 _ hbm

/-- Memory index sorted by key. -/
def KSorted (l : List (Entry K V)) : Prop := l.Pairwise (fun a b => a.key < b.key)

theorem ksorted_cons {a : Entry K V} {l} :
    KSorted (a :: l) ↔ (∀ b ∈ l, a.key < b.key) ∧ KSorted l := List.pairwise_cons

theorem KSorted.eq_of_key {l : List (Entry K V)} (h : KSorted l) {a b : Entry K V}
    (ha : a ∈ l) (hb : b ∈ l) (hs : a.key = b.key) : a = b := by
  induction l with
  | nil => cases ha
  | cons x xs ih =>
    rw [ksorted_cons] at h
    rcases List.mem_cons.1 ha with rfl | ha' <;> rcases List.mem_cons.1 hb with rfl | hb'
    · rfl
    · exact absurd hs (ne_of_lt (h.1 _ hb'))
    · exact absurd hs.symm (ne_of_lt (h.1 _ ha'))
    · exact ih h.2 ha' hb'

theorem mem_idxInsert {e x : Entry K V} {l} (h : KSorted l) :
    x ∈ idxInsert e l ↔ x = e ∨ (x ∈ l ∧ x.key ≠ e.key) := by
  induction l with
  | nil => simp [idxInsert]
  | cons y ys ih =>
    rw [ksorted_cons] at h
    unfold idxInsert
    split
    · rename_i hb
      constructor
      · intro hx
        rcases List.mem_cons.1 hx with hx | hx
        · exact Or.inl hx
        · refine Or.inr ⟨hx, fun hs => ?_⟩
          have : e.key < x.key := by
            rcases List.mem_cons.1 hx with rfl | hx
            · exact hb
            · exact lt_trans hb (h.1 _ hx)
          exact absurd hs.symm (ne_of_lt this)
      · rintro (hx | ⟨hx, _⟩)
        · exact List.mem_cons.2 (Or.inl hx)
        · exact List.mem_cons.2 (Or.inr hx)
    · rename_i hb
      split
      · rename_i hb2
        rw [List.mem_cons, ih h.2, List.mem_cons]
        constructor
        · rintro (hx | hx | ⟨hx, hs⟩)
          · subst hx; exact Or.inr ⟨Or.inl rfl, ne_of_lt hb2⟩
          · exact Or.inl hx
          · exact Or.inr ⟨Or.inr hx, hs⟩
        · rintro (hx | ⟨hx | hx, hs⟩)
          · exact Or.inr (Or.inl hx)
          · exact Or.inl hx
          · exact Or.inr (Or.inr ⟨hx, hs⟩)
      · rename_i hb2
        have hs : e.key = y.key := le_antisymm (not_lt.1 hb2) (not_lt.1 hb)
        constructor
        · intro hx
          rcases List.mem_cons.1 hx with hx | hx
          · exact Or.inl hx
          · refine Or.inr ⟨List.mem_cons_of_mem _ hx, fun hs' => ?_⟩
            have := h.1 _ hx
            rw [hs', hs] at this
            exact lt_irrefl _ this
        · rintro (hx | ⟨hx, hs'⟩)
          · exact List.mem_cons.2 (Or.inl hx)
          · rcases List.mem_cons.1 hx with rfl | hx
            · exact absurd hs.symm hs'
            · exact List.mem_cons_of_mem _ hx

theorem ksorted_idxInsert {e : Entry K V} {l} (h : KSorted l) : KSorted (idxInsert e l) := by
  induction l with
  | nil => simp [idxInsert, KSorted]
  | cons y ys ih =>
    have h0 := h
    rw [ksorted_cons] at h
    unfold idxInsert
    split
    · rename_i hb
      refine ksorted_cons.2 ⟨fun b hbm => ?_, h0⟩
      rcases List.mem_cons.1 hbm with rfl | hbm
      · exact hb
      · exact lt_trans hb (h.1 _ hbm)
    · rename_i hb
      split
      · rename_i hb2
        refine ksorted_cons.2 ⟨fun b hbm => ?_, ih h.2⟩
        rcases (mem_idxInsert h.2).1 hbm with rfl | ⟨hm, _⟩
        · exact hb2
        · exact h.1 _ hm
      · rename_i hb2
        have hs : e.key = y.key := le_antisymm (not_lt.1 hb2) (not_lt.1 hb)
        refine ksorted_cons.2 ⟨fun b hbm => ?_, h.2⟩
        rw [hs]
        exact h.1 _ hbm

/-- `r` is what a read of `key` at `maxV` must return from the set of entries `P`. -/
def Latest (P : Entry K V → Prop) (key : K) (maxV : Nat) (r : Option V) : Prop :=
  match r with
  | none => ∀ e, P e → e.key = key → maxV < e.ver
  | some v => ∃ e, P e ∧ e.key = key ∧ e.ver ≤ maxV ∧ e.val = v ∧
      ∀ e', P e' → e'.key = key → e'.ver ≤ maxV → e'.ver ≤ e.ver

theorem Latest.unique {P : Entry K V → Prop}
    (hP : ∀ a b, P a → P b → a.same b → a = b) {key : K} {maxV : Nat} {r r' : Option V}
    (h : Latest P key maxV r) (h' : Latest P key maxV r') : r = r' := by
  cases r with
  | none =>
    cases r' with
    | none => rfl
    | some v =>
      obtain ⟨e, h1, h2, h3, _⟩ := h'
      have := h e h1 h2; omega
  | some v =>
    obtain ⟨e, h1, h2, h3, h4, h5⟩ := h
    cases r' with
    | none => have := h' e h1 h2; omega
    | some v' =>
      obtain ⟨e', g1, g2, g3, g4, g5⟩ := h'
      have := h5 e' g1 g2 g3
      have := g5 e h1 h2 h3
      have : e = e' := hP e e' h1 g1 ⟨h2.trans g2.symm, by omega⟩
      rw [← h4, ← g4, this]

theorem Latest.congr {P Q : Entry K V → Prop} (h : ∀ e, P e ↔ Q e) {key : K} {maxV : Nat}
    {r : Option V} : Latest P key maxV r ↔ Latest Q key maxV r := by
  have : P = Q := funext fun e => propext (h e)
  rw [this]

/-- Relation between memory block and memory index. -/
structure MemOK (mem idx : List (Entry K V)) : Prop where
  sorted : Sorted mem
  ksorted : KSorted idx
  sub : ∀ i ∈ idx, i ∈ mem
  top : ∀ i ∈ idx, ∀ e ∈ mem, e.key = i.key → e.ver ≤ i.ver
  cover : ∀ e ∈ mem, ∃ i ∈ idx, i.key = e.key

theorem memOK_nil : MemOK ([] : List (Entry K V)) [] :=
  ⟨sorted_nil, List.Pairwise.nil, by simp, by simp, by simp⟩

theorem memOK_insert {mem idx : List (Entry K V)} (h : MemOK mem idx) (e : Entry K V)
    (htop : ∀ x ∈ mem, x.key = e.key → x.ver ≤ e.ver) :
    MemOK (memInsert e mem) (idxInsert e idx) := by
  refine ⟨sorted_memInsert h.sorted, ksorted_idxInsert h.ksorted, ?_, ?_, ?_⟩
  · intro i hi
    rcases (mem_idxInsert h.ksorted).1 hi with rfl | ⟨hi, hk⟩
    · exact (mem_memInsert h.sorted).2 (Or.inl rfl)
    · exact (mem_memInsert h.sorted).2 (Or.inr ⟨h.sub _ hi, fun hs => hk hs.1⟩)
  · intro i hi x hx hk
    rcases (mem_idxInsert h.ksorted).1 hi with rfl | ⟨hi, hk'⟩
    · rcases (mem_memInsert h.sorted).1 hx with rfl | ⟨hx, _⟩
      · exact Nat.le_refl _
      · exact htop x hx hk
    · rcases (mem_memInsert h.sorted).1 hx with rfl | ⟨hx, _⟩
      · exact absurd hk.symm hk'
      · exact h.top i hi x hx hk
  · intro x hx
    rcases (mem_memInsert h.sorted).1 hx with rfl | ⟨hx, _⟩
    · exact ⟨x, (mem_idxInsert h.ksorted).2 (Or.inl rfl), rfl⟩
    · obtain ⟨i, hi, hk⟩ := h.cover x hx
      by_cases hke : i.key = e.key
      · exact ⟨e, (mem_idxInsert h.ksorted).2 (Or.inl rfl), by rw [← hke, hk]⟩
      · exact ⟨i, (mem_idxInsert h.ksorted).2 (Or.inr ⟨hi, hke⟩), hk⟩

theorem idxFind_some {key : K} {idx : List (Entry K V)} {e : Entry K V}
    (h : idxFind key idx = some e) : e ∈ idx ∧ e.key = key := by
  unfold idxFind at h
  exact ⟨List.mem_of_find?_eq_some h, by simpa using List.find?_some h⟩

theorem idxFind_none {key : K} {idx : List (Entry K V)}
    (h : idxFind key idx = none) : ∀ e ∈ idx, e.key ≠ key := by
  unfold idxFind at h
  intro e he
  simpa using List.find?_eq_none.1 h e he

/-- `lower_bound` predicate as a propositional order. -/
def lowP (key : K) (ver : Nat) (e : Entry K V) : Bool :=
  if e.key = key then decide (ver < e.ver) else decide (e.key < key)

theorem lowP_mono {key : K} {ver : Nat} {a b : Entry K V} (h : a.before b = true)
    (hb : lowP key ver b = true) : lowP key ver a = true := by
  rw [before_iff] at h
  unfold lowP at *
  rcases h with h | ⟨h, h'⟩
  · by_cases hk : b.key = key
    · have : a.key ≠ key := by rw [← hk]; exact ne_of_lt h
      rw [if_neg this]; simpa [← hk] using h
    · simp [hk] at hb
      have h2 := lt_trans h hb
      simp [ne_of_lt h2, h2]
  · rw [h]
    by_cases hk : b.key = key
    · simp [hk] at *; omega
    · simpa [hk] using hb

/-- In a sorted list the first element not satisfying `lowP` splits the list. -/
theorem memLower_eq {key : K} {ver : Nat} {mem : List (Entry K V)} :
    memLower key ver mem = mem.dropWhile (lowP key ver) := rfl

theorem memLower_head {key : K} {ver : Nat} {mem : List (Entry K V)} (h : Sorted mem) :
    (∀ e, (memLower key ver mem).head? = some e →
        e ∈ mem ∧ lowP key ver e = false ∧
        ∀ x ∈ mem, lowP key ver x = false → x = e ∨ e.before x = true) ∧
    ((memLower key ver mem).head? = none → ∀ x ∈ mem, lowP key ver x = true) := by
  rw [memLower_eq]
  induction mem with
  | nil => simp
  | cons y ys ih =>
    rw [sorted_cons] at h
    obtain ⟨ih1, ih2⟩ := ih h.2
    by_cases hy : lowP key ver y = true
    · rw [List.dropWhile_cons_of_pos hy]
      refine ⟨fun e he => ?_, fun he x hx => ?_⟩
      · obtain ⟨a, b, c⟩ := ih1 e he
        refine ⟨List.mem_cons_of_mem _ a, b, fun x hx hxl => ?_⟩
        rcases List.mem_cons.1 hx with rfl | hx
        · rw [hy] at hxl; cases hxl
        · exact c x hx hxl
      · rcases List.mem_cons.1 hx with rfl | hx
        · exact hy
        · exact ih2 he x hx
    · rw [List.dropWhile_cons_of_neg hy]
      refine ⟨fun e he => ?_, fun he => by simp at he⟩
      simp at he
      subst he
      refine ⟨List.mem_cons_self, by simpa using hy, fun x hx _ => ?_⟩
      rcases List.mem_cons.1 hx with rfl | hx
      · exact Or.inl rfl
      · exact Or.inr (h.1 _ hx)

theorem memScan_of_le {key : K} {maxV : Nat} {e : Entry K V} (hk : e.key = key)
    (hv : e.ver ≤ maxV) (back : List (Entry K V)) :
    memScan key maxV (some e) back = some e.val := by
  cases back <;> simp [memScan, hk, hv]

theorem memScan_of_ne {key : K} {maxV : Nat} {e : Entry K V} (hk : e.key ≠ key)
    (back : List (Entry K V)) :
    memScan key maxV (some e) back = none := by
  cases back <;> simp [memScan, hk]

theorem memScan_none {key : K} {maxV : Nat} (back : List (Entry K V)) :
    memScan key maxV none back = none := by
  cases back <;> simp [memScan]

theorem findMem_latest {mem idx : List (Entry K V)} (h : MemOK mem idx) (key : K) (maxV : Nat) :
    Latest (· ∈ mem) key maxV (findMem idx mem key maxV) := by
  unfold findMem
  cases hf : idxFind key idx with
  | none =>
    intro e he hk
    obtain ⟨i, hi, hik⟩ := h.cover e he
    exact absurd (hik.trans hk) (idxFind_none hf i hi)
  | some i =>
    obtain ⟨hi, hk⟩ := idxFind_some hf
    dsimp only
    split
    · rename_i hv
      exact ⟨i, h.sub i hi, hk, hv, rfl, fun e' he' hk' _ => h.top i hi e' he' (hk'.trans hk.symm)⟩
    · obtain ⟨h1, h2⟩ := memLower_head (key := key) (ver := maxV) h.sorted
      cases hh : (memLower key maxV mem).head? with
      | none =>
        rw [memScan_none]
        intro e he hke
        have := h2 hh e he
        simpa [lowP, hke] using this
      | some e =>
        obtain ⟨a, b, c⟩ := h1 e hh
        by_cases hke : e.key = key
        · have hv : e.ver ≤ maxV := by simpa [lowP, hke] using b
          rw [memScan_of_le hke hv]
          refine ⟨e, a, hke, hv, rfl, fun e' he' hk' hv' => ?_⟩
          rcases c e' he' (by simp [lowP, hk']; exact hv') with rfl | hb
          · exact Nat.le_refl _
          · rw [before_iff] at hb
            rcases hb with hb | ⟨_, hb⟩
            · rw [hke, hk'] at hb; exact absurd hb (lt_irrefl _)
            · omega
        · rw [memScan_of_ne hke]
          intro e' he' hk'
          by_contra hcon
          rcases c e' he' (by simp [lowP, hk']; omega) with rfl | hb
          · exact hke hk'
          · rw [before_iff] at hb
            have : ¬ e.key < key := by
              simpa [lowP, hke] using b
            rcases hb with hb | ⟨hb, _⟩
            · rw [hk'] at hb; exact this hb
            · exact hke (hb.trans hk')

end Verif.DB
