import Verif.Control.Spec
namespace Verif.Control

/-! ### The median -/

theorem insert_length (x : Nat) (l : List Nat) : (insert x l).length = l.length + 1 := by
  induction l with
  | nil => rfl
  | cons y l ih => unfold insert; by_cases h : x ≤ y <;> simp [h, ih]

theorem insert_countP (q : Nat → Bool) (x : Nat) (l : List Nat) : (insert x l).countP q = (x :: l).countP q := by
  induction l with
  | nil => rfl
  | cons y l ih =>
    unfold insert
    by_cases h : x ≤ y
    · simp [h]
    · simp only [h, if_false, List.countP_cons, ih] ; omega

theorem sort_length (l : List Nat) : (sort l).length = l.length := by
  induction l with
  | nil => rfl
  | cons x l ih => simp [sort, insert_length, ih]

theorem sort_countP (q : Nat → Bool) (l : List Nat) : (sort l).countP q = l.countP q := by
  induction l with
  | nil => rfl
  | cons x l ih => simp only [sort, insert_countP, List.countP_cons, ih]

theorem mem_insert (x y : Nat) (l : List Nat) : y ∈ insert x l ↔ y = x ∨ y ∈ l := by
  induction l with
  | nil => simp [insert]
  | cons z l ih =>
    unfold insert
    by_cases h : x ≤ z
    · simp [h]
    · simp only [h, if_false, List.mem_cons, ih]; exact or_left_comm

theorem insert_sorted (x : Nat) (l : List Nat) (h : l.Pairwise (· ≤ ·)) : (insert x l).Pairwise (· ≤ ·) := by
  induction l with
  | nil => simp [insert]
  | cons y l ih =>
    unfold insert
    rw [List.pairwise_cons] at h
    by_cases c : x ≤ y
    · simp only [c, if_true, List.pairwise_cons]
      refine ⟨fun z hz => ?_, h⟩
      rcases List.mem_cons.1 hz with e | e
      · omega
      · have := h.1 z e; omega
    · simp only [c, if_false, List.pairwise_cons]
      refine ⟨fun z hz => ?_, ih h.2⟩
      rcases (mem_insert x z l).1 hz with e | e
      · omega
      · exact h.1 z e

theorem sort_sorted (l : List Nat) : (sort l).Pairwise (· ≤ ·) := by
  induction l with
  | nil => simp [sort]
  | cons x l ih => exact insert_sorted x _ ih

/-- What is left: one or two values. -/
theorem middle_length (n : Nat) (l : List Nat) (h : l.length ≤ n) (h0 : l ≠ []) :
    (middle n l).length = 1 ∨ (middle n l).length = 2 := by
  induction n generalizing l with
  | zero =>
    have := List.length_pos_iff.2 h0
    omega
  | succ n ih =>
    unfold middle
    by_cases c : 2 < l.length
    · rw [if_pos c]
      have e : ((l.drop 1).dropLast).length = l.length - 2 := by simp; omega
      apply ih
      · omega
      · intro z; rw [z] at e; simp at e; omega
    · rw [if_neg c]
      have := List.length_pos_iff.2 h0
      omega

/-- Removing both ends of a sorted list keeps a majority in an interval. -/
theorem middle_majority (lo hi : Nat) (n : Nat) (l : List Nat) (hs : l.Pairwise (· ≤ ·))
    (h : l.length < 2 * l.countP (fun x => decide (lo ≤ x ∧ x ≤ hi))) :
    (middle n l).Pairwise (· ≤ ·)
      ∧ (middle n l).length < 2 * (middle n l).countP (fun x => decide (lo ≤ x ∧ x ≤ hi)) := by
  induction n generalizing l with
  | zero => exact ⟨hs, h⟩
  | succ n ih =>
    unfold middle
    by_cases c : 2 < l.length
    · rw [if_pos c]
      obtain ⟨a, t, rfl⟩ : ∃ a t, l = a :: t := by
        cases l with
        | nil => simp at c
        | cons a t => exact ⟨a, t, rfl⟩
      have ht : t ≠ [] := by rintro rfl; simp at c
      obtain ⟨u, b, rfl⟩ : ∃ u b, t = u ++ [b] := ⟨t.dropLast, t.getLast ht, (List.dropLast_concat_getLast ht).symm⟩
      have e : ((a :: (u ++ [b])).drop 1).dropLast = u := by simp
      rw [e]
      rw [List.pairwise_cons, List.pairwise_append] at hs
      apply ih _ hs.2.1
      simp only [List.length_cons, List.length_append, List.length_nil, List.countP_cons, List.countP_append,
        List.countP_nil] at h c
      by_cases ca : lo ≤ a ∧ a ≤ hi
      · by_cases cb : lo ≤ b ∧ b ≤ hi
        · have all : u.countP (fun x => decide (lo ≤ x ∧ x ≤ hi)) = u.length := by
            rw [List.countP_eq_length]
            intro z hz
            have h1 := hs.1 z (List.mem_append_left _ hz)
            have h2 := hs.2.2.2 z hz b (List.mem_singleton.2 rfl)
            simp only [decide_eq_true_eq]
            omega
          omega
        · simp only [ca, cb, and_self, decide_true, decide_false, if_true, Bool.false_eq_true, if_false] at h; omega
      · by_cases cb : lo ≤ b ∧ b ≤ hi
        · simp only [ca, cb, and_self, decide_true, decide_false, if_true, Bool.false_eq_true, if_false] at h; omega
        · simp only [ca, cb, decide_false, Bool.false_eq_true, if_false] at h; omega
    · rw [if_neg c]; exact ⟨hs, h⟩

theorem median_ok (mid : Nat → Nat → Nat) (l : List Nat) (h : l ≠ []) : ∃ x, median mid l = .ok x := by
  have e : sort l ≠ [] := by
    intro c; have := sort_length l; rw [c] at this; exact h (List.length_eq_zero_iff.1 this.symm)
  have m := middle_length l.length (sort l) (by rw [sort_length]; exact Nat.le_refl _) e
  unfold median
  match h' : middle l.length (sort l) with
  | [] => rw [h'] at m; simp at m
  | [a] => exact ⟨_, rfl⟩
  | [a, b] => exact ⟨_, rfl⟩
  | a :: b :: c :: t => rw [h'] at m; simp at m

theorem median_majority (mid : Nat → Nat → Nat) (hm : ∀ a b, a ≤ b → a ≤ mid a b ∧ mid a b ≤ b) (l : List Nat) (lo hi x : Nat)
    (h : l.length < 2 * l.countP (fun x => decide (lo ≤ x ∧ x ≤ hi))) (e : median mid l = .ok x) : lo ≤ x ∧ x ≤ hi := by
  have k := middle_majority lo hi l.length (sort l) (sort_sorted l) (by rw [sort_length, sort_countP]; exact h)
  unfold median at e
  match h' : middle l.length (sort l), e with
  | [], e => simp at e
  | [a], e =>
    rw [h'] at k
    simp only [Res.ok.injEq] at e
    subst e
    have := k.2
    simp only [List.length_singleton, List.countP_cons, List.countP_nil] at this
    by_cases c : lo ≤ a ∧ a ≤ hi
    · exact c
    · simp [c] at this
  | [a, b], e =>
    rw [h'] at k
    simp only [Res.ok.injEq] at e
    subst e
    have := k.2
    have le : a ≤ b := by have := k.1; simp at this; exact this
    have ⟨m1, m2⟩ := hm a b le
    simp only [List.length_cons, List.length_nil, List.countP_cons, List.countP_nil] at this
    by_cases ca : lo ≤ a ∧ a ≤ hi
    · by_cases cb : lo ≤ b ∧ b ≤ hi
      · omega
      · simp [ca, cb] at this
    · by_cases cb : lo ≤ b ∧ b ≤ hi <;> simp [ca, cb] at this
  | _ :: _ :: _ :: _, e => simp at e

/-! ### Scans -/

theorem request_files (k : Key) (s : St) : (request k s).files = s.files := by unfold request; split <;> rfl
theorem request_vote (k : Key) (s : St) : (request k s).vote = s.vote := by unfold request; split <;> rfl
theorem request_failed (k : Key) (s : St) : (request k s).failed = s.failed := by unfold request; split <;> rfl

theorem scan_frame (now : Nat) (l : List Key) (s : St) (again : Bool) :
    (scan now l s again).st.files = s.files ∧ (scan now l s again).st.vote = s.vote
      ∧ (scan now l s again).st.failed = s.failed := by
  induction l generalizing s again with
  | nil => exact ⟨rfl, rfl, rfl⟩
  | cons k l ih =>
    unfold scan
    by_cases c : isExpired now (s.files k) = true
    · rw [if_pos c]
      obtain ⟨a, b, d⟩ := ih (request k s) true
      exact ⟨a.trans (request_files k s), b.trans (request_vote k s), d.trans (request_failed k s)⟩
    · rw [if_neg c]; exact ih s again

theorem scan_prices (now : Nat) (l : List Key) (s : St) (again : Bool) :
    (scan now l s again).prices = fresh now s.files l := by
  induction l generalizing s again with
  | nil => rfl
  | cons k l ih =>
    unfold scan
    by_cases c : isExpired now (s.files k) = true
    · rw [if_pos c, ih, request_files]
      unfold fresh
      rw [List.flatMap_cons]
      match h : s.files k with
      | none => rfl
      | some f =>
        rw [h] at c
        simp only [isExpired, decide_eq_true_eq] at c
        simp [c]
    · rw [if_neg c]
      show _ ++ (scan now l s again).prices = _
      rw [ih]
      unfold fresh
      rw [List.flatMap_cons]
      match h : s.files k with
      | none => exact absurd (by rw [h]; rfl) c
      | some f =>
        rw [h] at c
        simp only [isExpired, decide_eq_true_eq] at c
        simp [c]

theorem scan_again (now : Nat) (l : List Key) (s : St) (again : Bool) :
    (scan now l s again).again = (again || l.any fun k => isExpired now (s.files k)) := by
  induction l generalizing s again with
  | nil => simp [scan]
  | cons k l ih =>
    unfold scan
    by_cases c : isExpired now (s.files k) = true
    · rw [if_pos c, ih]; simp [c]
    · rw [if_neg c]
      show (scan now l s again).again = _
      rw [ih]; simp only [List.any_cons, Bool.not_eq_true] at c ⊢; rw [c, Bool.false_or]

/-- What an update asks for. -/
structure Asked (now : Nat) (keys : List Key) (s t : St) : Prop where
  new : ∀ k ∈ t.running, k ∈ s.running ∨ (k ∈ keys ∧ isExpired now (s.files k) = true ∧ k ∉ s.failed ∧ k ∉ s.pending)
  old : ∀ k ∈ s.running, k ∈ t.running
  same : s.running = s.pending → t.running = t.pending
  nodup : s.running = s.pending → s.running.Nodup → t.running.Nodup

theorem scan_asked (now : Nat) (l : List Key) (s : St) (again : Bool) : Asked now l s (scan now l s again).st := by
  induction l generalizing s again with
  | nil => exact ⟨fun k h => Or.inl h, fun k h => h, fun h => h, fun _ h => h⟩
  | cons k l ih =>
    unfold scan
    by_cases c : isExpired now (s.files k) = true
    · rw [if_pos c]
      have a := ih (request k s) true
      by_cases d : k ∈ s.failed ∨ k ∈ s.pending
      · have r : request k s = s := if_pos d
        rw [r] at a ⊢
        refine ⟨fun j h => ?_, a.old, a.same, a.nodup⟩
        rcases a.new j h with x | ⟨x, y⟩
        · exact Or.inl x
        · exact Or.inr ⟨List.mem_cons_of_mem _ x, y⟩
      · have r : request k s = { s with pending := k :: s.pending, running := k :: s.running } := if_neg d
        rw [r] at a ⊢
        have d' := not_or.1 d
        refine ⟨fun j h => ?_, fun j h => a.old j (List.mem_cons_of_mem _ h), fun h => a.same (by simp [h]), fun h n =>
          a.nodup (by simp [h]) ?_⟩
        · rcases a.new j h with x | ⟨x, y, z, w⟩
          · rcases List.mem_cons.1 x with e | e
            · exact Or.inr ⟨by simp [e], by rw [e]; exact c, by rw [e]; exact d'.1, by rw [e]; exact d'.2⟩
            · exact Or.inl e
          · exact Or.inr ⟨List.mem_cons_of_mem _ x, y, z, fun m => w (List.mem_cons_of_mem _ m)⟩
        · show (k :: s.running).Nodup
          rw [List.nodup_cons, h]
          exact ⟨d'.2, h ▸ n⟩
    · rw [if_neg c]
      have a := ih s again
      refine ⟨fun j h => ?_, a.old, a.same, a.nodup⟩
      rcases a.new j h with x | ⟨x, y⟩
      · exact Or.inl x
      · exact Or.inr ⟨List.mem_cons_of_mem _ x, y⟩

end Verif.Control
