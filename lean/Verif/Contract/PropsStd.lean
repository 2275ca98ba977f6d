import Verif.Contract.StdLemmas
/-
  C152: what contracts get from the standard library (`sort`, `reverse`, `equals`, `compare`).
-/
namespace Verif.Contract.Std
open Verif.VM (Val)
open Res

def num (n : Nat) : V := .leaf (.uint n)

/-! ## sort -/

/-- Sorting numbers: the same numbers, each as often as before, in ascending order; never aborts. -/
theorem C152_sort (l : List Nat) :
    ∃ t, sort gtNat l = .ok t ∧ t.Perm l ∧ t.Pairwise (· ≤ ·) :=
  sort_spec decides_nat l (fun _ _ => trivial)

/-- Sorting values of one type (strings, binaries, numbers ...): the order is that of the operator `>`. -/
theorem C152_sort_values (k : Nat) (l : List V) (h : ∀ v ∈ l, ∃ x, v = .leaf x ∧ Plain x ∧ x.code = k) :
    ∃ t, sort opGt l = .ok t ∧ t.Perm l ∧ t.Pairwise fun a b => opGt a b = .ok false := by
  obtain ⟨t, h1, h2, h3⟩ := sort_spec (decides_code k) l h
  refine ⟨t, h1, h2, h3.imp_of_mem ?_⟩
  intro a b ha hb hab
  obtain ⟨x, y, rfl, rfl, hg⟩ := hab
  obtain ⟨x', e1, _, kx⟩ := h _ (h2.subset ha)
  obtain ⟨y', e2, _, ky⟩ := h _ (h2.subset hb)
  cases e1; cases e2
  simp [opGt, kx, ky, hg]

/-- Sorting an array that holds two types of values aborts. -/
theorem C152_sort_mixed (l : List V) (a b : V) (ha : a ∈ l) (hb : b ∈ l) (hab : codeOf a ≠ codeOf b) (t : List V) :
    sort opGt l ≠ .ok t := by
  intro h
  unfold sort at h
  by_cases hl : l.length ≤ 1
  · match l, hl with
    | [], _ => exact absurd ha List.not_mem_nil
    | [x], _ => rw [List.mem_singleton.1 ha, List.mem_singleton.1 hb] at hab; exact hab rfl
  · rw [if_neg hl] at h
    obtain ⟨m, hm⟩ : ∃ m, l.length - 1 = m + 1 := ⟨l.length - 2, by omega⟩
    rw [hm] at h
    obtain ⟨t', h1, _⟩ := Res.bind_eq_ok.1 h
    obtain ⟨k, hk⟩ := pass_codes (m + 1) l t' h1 (by omega) (by omega)
    exact hab (by rw [hk a ha, hk b hb])

/-! ## reverse -/

theorem C152_reverse {α : Type} (l : List α) : reverse l = .ok l.reverse := by
  rw [reverse, reverseFrom_eq l l.length 0 [] (by omega)]; simp

/-- `reverse(sort(x))` gives descending order. -/
theorem C152_descending (l : List Nat) :
    ∃ t, (sort gtNat l >>= reverse) = .ok t ∧ t.Perm l ∧ t.Pairwise (· ≥ ·) := by
  obtain ⟨t, h1, h2, h3⟩ := C152_sort l
  refine ⟨t.reverse, ?_, (List.reverse_perm t).trans h2, ?_⟩
  · rw [h1]; exact C152_reverse t
  · rw [List.pairwise_reverse]; exact h3

/-! ## equals, compare -/

/-- `equals` answers whether two values, arrays compared element by element to any depth, are the same. -/
theorem C152_equals (a b : V) (ha : AllPlain a) (hb : AllPlain b) : equals a b = true ↔ a = b := equals_eq a b ha hb

/-- `compare` says "EQ" exactly for the same values. -/
theorem C152_compare_equal (a b : V) (ha : AllPlain a) : cmp a b = .ok .eq ↔ a = b :=
  ⟨cmp_eq a b ha, fun h => by rw [← h]; exact cmp_refl a ha⟩

/-- The answers are those of one order: asked the other way round the answer is the opposite, and "LT" carries over. -/
theorem C152_compare_order (a b c : V) :
    (∀ o, cmp a b = .ok o → cmp b a = .ok o.swap) ∧
    (AllPlain a → AllPlain b → cmp a b = .ok .lt → cmp b c = .ok .lt → cmp a c = .ok .lt) :=
  ⟨fun o h => cmp_swap a b o h, fun ha hb h1 h2 => cmp_trans a b c ha hb h1 h2⟩

/-- Two arrays of numbers: the shorter one is smaller; of two with the same length the one with the smaller number in
    the first place where they differ. -/
theorem C152_compare_numbers (l r : List Nat) :
    (l.length < r.length → cmp (.arr (l.map num)) (.arr (r.map num)) = .ok .lt) ∧
    (∀ p a b s t, l = p ++ a :: s → r = p ++ b :: t → s.length = t.length → a < b →
      cmp (.arr (l.map num)) (.arr (r.map num)) = .ok .lt) := by
  constructor
  · intro h
    simp only [cmp, List.length_map]
    rw [if_pos (by omega), if_pos h]
  · rintro p a b s t rfl rfl hst hab
    simp only [cmp, List.length_map, List.length_append, List.length_cons, hst]
    rw [if_neg (by simp)]
    induction p with
    | nil =>
      simp only [List.nil_append, List.map_cons, cmpL, num, cmp, cmpPlain_leaf]
      simp only [Val.code, ne_eq, not_true_eq_false, if_false, Res.bind_ok, VM.compare]
      rw [show VM.cmpN a b = .lt from VM.cmpN_lt.2 hab]; rfl
    | cons x p ih =>
      simp only [List.cons_append, List.map_cons, cmpL]
      rw [show num x = .leaf (.uint x) from rfl, cmp_refl _ (by trivial : AllPlain (.leaf (.uint x)))]
      exact ih

/-- Arguments of different types: aborts. -/
theorem C152_compare_mixed (a b : Val) (h : a.code ≠ b.code) (l : List V) :
    cmp (.leaf a) (.leaf b) = .throw ∧ cmp (.leaf a) (.arr l) = .throw ∧ cmp (.arr l) (.leaf a) = .throw := by
  refine ⟨?_, ?_, ?_⟩
  · simp only [cmp, cmpPlain_leaf]; rw [if_pos h]
  · rfl
  · rfl

/-! ## Cases -/

example : sort gtNat [5, 2, 9, 1, 5, 6] = .ok [1, 2, 5, 5, 6, 9] := by decide
example : reverse [1, 2, 3] = .ok [3, 2, 1] := by decide
example : equals (.arr [num 1, .arr [num 2, .leaf .nil]]) (.arr [num 1, .arr [num 2, .leaf .nil]]) = true := by decide
example : AllPlain (.arr [num 1, .arr [num 2, .leaf .nil]]) := by simp [AllPlain, AllPlainL, num, Plain]
example : equals (.arr [num 1, num 2]) (.arr [num 2, num 1]) = false := by decide
example : cmp (.arr [num 1, num 3]) (.arr [num 1, num 2]) = .ok .gt := by decide
/-- Shorter arrays come first whatever they hold, unlike with strings in a dictionary. -/
example : cmp (.arr [num 9]) (.arr [num 1, num 1]) = .ok .lt := by decide
/-- Booleans have a type each: `compare(true, false)` aborts. -/
example : cmp (.leaf .tru) (.leaf .fls) = .throw := by decide
example : sort opGt [.leaf (.str [98]), .leaf (.str [97])] = .ok [.leaf (.str [97]), .leaf (.str [98])] := by rfl

end Verif.Contract.Std
