import Verif.Pos.VerifyLemmas
/-
  An instance of the functions and of the sort for the examples, and that the functions of the code
  meet the assumptions of the theorems.
-/
namespace Verif.Pos

theorem foldl_and (k : Nat) (l : List Nat) (a : Nat) :
    l.foldl (· ^^^ ·) a &&& k = (l.map (· &&& k)).foldl (· ^^^ ·) (a &&& k) := by
  induction l generalizing a with
  | nil => rfl
  | cons x l ih =>
    rw [List.foldl_cons, ih, List.map_cons, List.foldl_cons, Nat.and_xor_distrib_right]

/-- The functions of the code are good: `Y` is the exclusive or of the words of the meta data. -/
theorem good_hashFns (g1 : Nat → List Nat) (h : List Nat → List Nat) (ksize : Nat) :
    Good (hashFns g1 h ksize) := by
  have hk : kmask ksize < 2 ^ 32 := u32_lt _
  have hs : ∀ l, (split ksize l).1 < 2 ^ 32 := by
    intro l
    unfold split
    exact Nat.lt_of_le_of_lt Nat.and_le_right hk
  have hy : ∀ l, (split ksize l).1 = ((split ksize l).2).foldl (· ^^^ ·) 0 := by
    intro l
    unfold split
    dsimp only
    rw [foldl_and, Nat.zero_and]
  exact ⟨fun x => hs _, fun a b => hs _, fun m => m.foldl (· ^^^ ·) 0, fun x => hy _, fun a b => hy _⟩

/-! ### a sort -/

/-- The meta data of an entry. -/
def keyOf (M : List (List Nat)) (e : Entry) : List Nat := M[e.2]?.getD []

/-- `a` may stand before `b`. -/
def leB (M : List (List Nat)) (a b : Entry) : Bool :=
  a.1 < b.1 || (a.1 == b.1 && !decide (keyOf M b < keyOf M a))

def insertE (M : List (List Nat)) (e : Entry) : List Entry → List Entry
  | [] => [e]
  | r :: rest => if leB M e r then e :: r :: rest else r :: insertE M e rest

def isort (M : List (List Nat)) : List Entry → List Entry
  | [] => []
  | e :: rest => insertE M e (isort M rest)

theorem leB_total (M : List (List Nat)) (a b : Entry) : leB M a b = true ∨ leB M b a = true := by
  unfold leB
  simp only [Bool.or_eq_true, decide_eq_true_eq, Bool.and_eq_true, beq_iff_eq, Bool.not_eq_true',
    decide_eq_false_iff_not]
  rcases Nat.lt_trichotomy a.1 b.1 with h | h | h
  · exact .inl (.inl h)
  · rcases List.le_total (keyOf M a) (keyOf M b) with h' | h'
    · exact .inl (.inr ⟨h, h'⟩)
    · exact .inr (.inr ⟨h.symm, h'⟩)
  · exact .inr (.inl h)

theorem leB_trans (M : List (List Nat)) {a b c : Entry} (h1 : leB M a b = true)
    (h2 : leB M b c = true) : leB M a c = true := by
  unfold leB at *
  simp only [Bool.or_eq_true, decide_eq_true_eq, Bool.and_eq_true, beq_iff_eq, Bool.not_eq_true',
    decide_eq_false_iff_not] at *
  rcases h1 with h1 | ⟨h1, h1'⟩
  · rcases h2 with h2 | ⟨h2, h2'⟩
    · left; omega
    · left; omega
  · rcases h2 with h2 | ⟨h2, h2'⟩
    · left; omega
    · right
      exact ⟨by omega, List.le_trans h1' h2'⟩

theorem insertE_perm (M : List (List Nat)) (e : Entry) (l : List Entry) :
    (insertE M e l).Perm (e :: l) := by
  induction l with
  | nil => exact .refl _
  | cons r rest ih =>
    unfold insertE
    by_cases h : leB M e r = true
    · rw [if_pos h]
    · rw [if_neg h]
      exact (ih.cons r).trans (List.Perm.swap e r rest)

theorem isort_perm (M : List (List Nat)) (l : List Entry) : (isort M l).Perm l := by
  induction l with
  | nil => exact .refl _
  | cons e rest ih => exact (insertE_perm M e _).trans (ih.cons e)

theorem insertE_sorted (M : List (List Nat)) (e : Entry) {l : List Entry}
    (h : l.Pairwise fun a b => leB M a b = true) : (insertE M e l).Pairwise fun a b => leB M a b = true := by
  induction l with
  | nil => simp [insertE]
  | cons r rest ih =>
    rw [List.pairwise_cons] at h
    unfold insertE
    by_cases hr : leB M e r = true
    · rw [if_pos hr, List.pairwise_cons]
      refine ⟨?_, List.pairwise_cons.2 h⟩
      intro q hq
      rcases List.mem_cons.1 hq with rfl | hq
      · exact hr
      · exact leB_trans M hr (h.1 q hq)
    · rw [if_neg hr, List.pairwise_cons]
      refine ⟨?_, ih h.2⟩
      intro q hq
      rcases List.mem_cons.1 ((insertE_perm M e rest).mem_iff.1 hq) with rfl | hq
      · rcases leB_total M q r with h' | h'
        · exact absurd h' hr
        · exact h'
      · exact h.1 q hq

theorem isort_sorted (M : List (List Nat)) (l : List Entry) :
    (isort M l).Pairwise fun a b => leB M a b = true := by
  induction l with
  | nil => exact .nil
  | cons e rest ih => exact insertE_sorted M e ih

/-- There is such a sort for the order of the code. -/
theorem isSort_isort (g1 : Nat → List Nat) (h : List Nat → List Nat) (ksize : Nat) :
    IsSort (hashFns g1 h ksize).lt isort where
  perm M l _ := isort_perm M l
  sorted M l hr := by
    refine List.Pairwise.imp_of_mem ?_ (isort_sorted M l)
    intro a b ha hb hab
    have ha' := hr a ((isort_perm M l).mem_iff.1 ha)
    have hb' := hr b ((isort_perm M l).mem_iff.1 hb)
    unfold leB keyOf at hab
    rw [List.getElem?_eq_getElem ha', List.getElem?_eq_getElem hb'] at hab
    unfold before
    rw [List.getElem?_eq_getElem ha', List.getElem?_eq_getElem hb']
    simp only [Option.getD_some, Bool.or_eq_true, decide_eq_true_eq, Bool.and_eq_true, beq_iff_eq,
      Bool.not_eq_true', decide_eq_false_iff_not] at hab
    by_cases he : b.1 = a.1
    · rw [if_pos he]
      rcases hab with hab | ⟨_, hab⟩
      · omega
      · exact decide_eq_false hab
    · rw [if_neg he]
      apply decide_eq_false
      omega

/-! ### hashes that make a tree -/

/-- The words of the node `p` of level `d`: `Y` is `p / 2 * 4 + p % 2`. -/
def toyNode (d p : Nat) : List Nat :=
  [(p / 2 * 4 + p % 2) ^^^ d ^^^ p, d, p] ++ List.replicate 13 0

/-- The word `i`. -/
def word (l : List Nat) (i : Nat) : Nat := l[i]?.getD 0

def toyG1 (base x : Nat) : List Nat := toyNode 0 (x - base)

def toyH (msg : List Nat) : List Nat := toyNode (word msg 1 + 1) (word msg 2 / 2)

/-- Values above `2^12` for a plot of `ksize` 12. -/
def exXs : List Nat := (List.range 256).map (8192 + ·)

def exFn : Fns (List Nat) (List Nat) := hashFns (toyG1 8192) toyH 12

def exChal : Chal (List Nat) Nat :=
  { y0 := 0, plotFilter := 4, postFilter := 10, hardFork := true
    postHash := fun m => word m 1, proofHash := fun l => l.length, quality := fun m => word m 2 }

/-- The values of a plot that keeps all but the lowest bit. -/
def exStored : List Nat := (List.range 128).map (4096 + ·)

theorem toy_split : ∀ d < 9, ∀ p < 256, split 12 (toyNode d p) = (p / 2 * 4 + p % 2, (toyNode d p).take 14) := by
  decide +kernel

theorem toy_pos : ∀ p < 256, ∀ q < 256, q / 2 * 4 + q % 2 = p / 2 * 4 + p % 2 + 1 → q = p + 1 ∧ p % 2 = 0 := by
  intro p _ q _ h
  omega

theorem toyH_eq (d p : Nat) (r : List Nat) : toyH ((toyNode d p).take 14 ++ r) = toyNode (d + 1) (p / 2) := rfl

theorem range_append (a n : Nat) :
    (List.range n).map (a + ·) ++ (List.range n).map (a + n + ·) = (List.range (n + n)).map (a + ·) := by
  rw [List.range_add, List.map_append, List.map_map]
  congr 1
  apply List.map_congr_left
  intro x _
  simp only [Function.comp_apply]
  omega

theorem toy_tree {d : Nat} {xs : List Nat} {y : Nat} {m : List Nat} (hd : d ≤ 8)
    (h : Tree exFn d xs y m) (hx : ∀ x ∈ xs, x ∈ exXs) :
    ∃ p, (p + 1) * 2 ^ d ≤ 256 ∧ y = p / 2 * 4 + p % 2 ∧ m = (toyNode d p).take 14 ∧
      xs = (List.range (2 ^ d)).map (8192 + p * 2 ^ d + ·) := by
  induction h with
  | leaf x =>
    have hm := hx x (by simp)
    unfold exXs at hm
    obtain ⟨p, hp, rfl⟩ := List.mem_map.1 hm
    rw [List.mem_range] at hp
    have hs : exFn.f1 (8192 + p) = (p / 2 * 4 + p % 2, (toyNode 0 p).take 14) := by
      show split 12 (toyNode 0 (8192 + p - 8192)) = _
      rw [Nat.add_sub_cancel_left]
      exact toy_split 0 (by decide) p hp
    refine ⟨p, by omega, by rw [hs], by rw [hs], ?_⟩
    simp
  | @node d l r yl ml mr hl hr ihl ihr =>
    obtain ⟨p, hp, hy, hm, hl'⟩ := ihl (by omega) (fun x h => hx x (List.mem_append_left _ h))
    obtain ⟨q, hq, hy', hm', hr'⟩ := ihr (by omega) (fun x h => hx x (List.mem_append_right _ h))
    have h2 : 0 < 2 ^ d := Nat.two_pow_pos d
    have hp' : p < 256 := Nat.lt_of_lt_of_le (Nat.lt_succ_self p) (Nat.le_trans (Nat.le_mul_of_pos_right _ h2) hp)
    have hq' : q < 256 := Nat.lt_of_lt_of_le (Nat.lt_succ_self q) (Nat.le_trans (Nat.le_mul_of_pos_right _ h2) hq)
    obtain ⟨rfl, he⟩ := toy_pos p hp' q hq' (by omega)
    have hs : exFn.f ml mr = (p / 2 / 2 * 4 + p / 2 % 2, (toyNode (d + 1) (p / 2)).take 14) := by
      rw [hm]
      show split 12 (toyH ((toyNode d p).take 14 ++ mr)) = _
      rw [toyH_eq]
      exact toy_split (d + 1) (by omega) (p / 2) (by omega)
    have hpp : p = p / 2 * 2 := by omega
    refine ⟨p / 2, ?_, by rw [hs], by rw [hs], ?_⟩
    · rw [Nat.pow_succ, Nat.mul_comm (2 ^ d) 2, ← Nat.mul_assoc]
      have : (p / 2 + 1) * 2 = p + 1 + 1 := by omega
      rw [this]
      exact hq
    · rw [hl', hr']
      have e1 : p / 2 * 2 ^ (d + 1) = p * 2 ^ d := by
        rw [Nat.pow_succ, Nat.mul_comm (2 ^ d) 2, ← Nat.mul_assoc, ← hpp]
      have e2 : 8192 + (p + 1) * 2 ^ d = 8192 + p * 2 ^ d + 2 ^ d := by
        rw [Nat.add_mul, Nat.one_mul, Nat.add_assoc]
      rw [e1, e2, range_append, Nat.pow_succ, Nat.mul_two]

/-- The toy instance has no collision. -/
theorem ex_noCollision : NoCollision exFn exXs := by
  intro xs xs' y y' m h h'
  obtain ⟨p, hp, _, _, h1⟩ := toy_tree (Nat.le_refl 8) h.1 h.2
  obtain ⟨q, hq, _, _, h2⟩ := toy_tree (Nat.le_refl 8) h'.1 h'.2
  have : p = 0 := by omega
  have : q = 0 := by omega
  subst_vars
  rfl

theorem isOrder_zero_of {xs order : List Nat} (hn : order.Nodup) (hx : ∀ x ∈ xs, x < 2 ^ 32)
    (h : ∀ x, x ∈ order ↔ x ∈ xs) : IsOrder 0 xs order := by
  refine ⟨hn, fun x => ?_⟩
  rw [h]
  constructor
  · exact fun hx' => ⟨x, hx', (mem_expand_zero (hx x hx')).2 rfl⟩
  · rintro ⟨v, hv, hv'⟩
    rw [mem_expand_zero (hx v hv)] at hv'
    exact hv' ▸ hv

end Verif.Pos
