/-
  Helper lemmas on the search in a plot.
-/
import Verif.Farm.Prover

namespace Verif.Farm

theorem parks_spec {t : YTable} (hs : 0 < t.size) (p : Nat) : t.parks ≤ p ↔ t.num ≤ p * t.size := by
  unfold YTable.parks
  constructor
  · intro h
    have h1 : t.num + t.size - 1 < (p + 1) * t.size := by
      rw [← Nat.div_lt_iff_lt_mul hs]
      omega
    have h2 : (p + 1) * t.size = p * t.size + t.size := Nat.succ_mul _ _
    omega
  · intro h
    have h1 : t.num + t.size - 1 < t.size * (p + 1) := by
      have h2 : t.size * (p + 1) = p * t.size + t.size := by rw [Nat.mul_succ, Nat.mul_comm]
      omega
    have := Nat.div_lt_of_lt_mul h1
    omega

/-- What a park gives. -/
theorem pick_spec {yb ye num : Nat} {y : Nat → Nat} (hs : ∀ i j, i ≤ j → j < num → y i ≤ y j) :
    ∀ (l : List Nat) (i : Nat), (∀ j, j < l.length → i + j < num → l[j]? = some (y (i + j))) →
      (∀ x, x ∈ (pick yb ye num i l).1 ↔ i ≤ x ∧ x < i + l.length ∧ x < num ∧ yb ≤ y x ∧ y x < ye) ∧
      (pick yb ye num i l).1.Pairwise (· < ·) ∧
      ((pick yb ye num i l).2 = true → ∀ x, i + l.length ≤ x → x < num → ye ≤ y x)
  | [], i, _ => by
    refine ⟨fun x => ⟨fun h => (nomatch h), fun h => ?_⟩, List.Pairwise.nil, fun h => (nomatch h)⟩
    have h2 := h.2.1
    simp at h2
    omega
  | z :: l, i, h => by
    have h0 : i < num → z = y i := by
      intro k
      have := h 0 (by simp) (by omega)
      simpa using this
    have hl : ∀ j, j < l.length → i + 1 + j < num → l[j]? = some (y (i + 1 + j)) := by
      intro j k1 k2
      have := h (j + 1) (by simp; omega) (by omega)
      rw [List.getElem?_cons_succ] at this
      rw [this, show i + (j + 1) = i + 1 + j from by omega]
    obtain ⟨i1, i2, i3⟩ := pick_spec hs l (i + 1) hl
    unfold pick
    by_cases k : ye ≤ z
    · rw [if_pos k]
      refine ⟨fun x => ⟨fun h => (nomatch h), fun q => ?_⟩, List.Pairwise.nil, fun _ x q1 q2 => ?_⟩
      · have := hs i x q.1 q.2.2.1
        have := h0 (by omega)
        omega
      · rw [List.length_cons] at q1
        have := hs i x (by omega) q2
        have := h0 (by omega)
        omega
    · rw [if_neg k]
      dsimp only
      refine ⟨fun x => ?_, ?_, fun q x q1 q2 => i3 q x (by rw [List.length_cons] at q1; omega) q2⟩
      · rw [List.length_cons]
        by_cases c : yb ≤ z ∧ i < num
        · rw [if_pos c, List.mem_cons, i1 x]
          constructor
          · rintro (e | e)
            · subst e
              have := h0 c.2
              exact ⟨Nat.le_refl _, by omega, c.2, by omega, by omega⟩
            · exact ⟨by omega, by omega, e.2.2.1, e.2.2.2⟩
          · rintro ⟨q1, q2, q3, q4⟩
            by_cases e : x = i
            · exact .inl e
            · exact .inr ⟨by omega, by omega, q3, q4⟩
        · rw [if_neg c, i1 x]
          constructor
          · rintro ⟨q1, q2, q3, q4⟩
            exact ⟨by omega, by omega, q3, q4⟩
          · rintro ⟨q1, q2, q3, q4, q5⟩
            by_cases e : x = i
            · subst e
              have := h0 q3
              exact absurd ⟨by omega, q3⟩ c
            · exact ⟨by omega, by omega, q3, q4, q5⟩
      · by_cases c : yb ≤ z ∧ i < num
        · rw [if_pos c]
          refine List.Pairwise.cons (fun x q => ?_) i2
          have := ((i1 x).1 q).1
          omega
        · rw [if_neg c]; exact i2

theorem yList_length (ds : List Nat) : ∀ y, (yList y ds).length = ds.length + 1 := by
  induction ds with
  | nil => exact fun _ => rfl
  | cons d ds ih => intro y; unfold yList; rw [List.length_cons, List.length_cons, ih]

/-- The entries from `a` on that are in the range, in order. -/
def Lists (t : YTable) (y : Nat → Nat) (yb ye a : Nat) (out : List Nat) : Prop :=
  (∀ x, x ∈ out ↔ a ≤ x ∧ x < t.num ∧ yb ≤ y x ∧ y x < ye) ∧ out.Pairwise (· < ·)

theorem lists_nil {t : YTable} {y : Nat → Nat} {yb ye a : Nat} (h : ∀ x, a ≤ x → x < t.num → ye ≤ y x) :
    Lists t y yb ye a [] := by
  refine ⟨fun x => ⟨fun q => (nomatch q), fun q => ?_⟩, List.Pairwise.nil⟩
  have := h x q.1 q.2.1
  omega

/-- The first park of the scan is `p`: its first value is below the end of the range, or there is nothing. -/
theorem search_spec {t : YTable} {y : Nat → Nat} (h : t.Holds y) {yb ye : Nat} : ∀ (n : Nat) (hb : Bool) (p : Nat) {out : List Nat},
    t.search yb ye n hb p = .ok out →
    (hb = true → Lists t y yb ye (p * t.size) out) ∧
    ∃ q, Lists t y yb ye (q * t.size) out
  | 0, hb, p, out, e => by
    unfold YTable.search at e
    by_cases k : t.parks ≤ p
    · rw [if_pos k] at e
      cases e
      have := (parks_spec h.size p).1 k
      have : Lists t y yb ye (p * t.size) [] := lists_nil fun x q1 q2 => by omega
      exact ⟨fun _ => this, p, this⟩
    · rw [if_neg k] at e; exact (nomatch e)
  | n + 1, hb, p, out, e => by
    unfold YTable.search at e
    by_cases k : t.parks ≤ p
    · rw [if_pos k] at e
      cases e
      have := (parks_spec h.size p).1 k
      have : Lists t y yb ye (p * t.size) [] := lists_nil fun x q1 q2 => by omega
      exact ⟨fun _ => this, p, this⟩
    · rw [if_neg k] at e
      have hp : p * t.size < t.num := by
        have := mt (parks_spec h.size p).2 k
        omega
      rw [h.head p hp] at e
      dsimp only at e
      by_cases c : ye ≤ y (p * t.size)
      · rw [if_pos c] at e
        by_cases d : hb = true ∨ p = 0
        · rw [if_pos d] at e
          cases e
          have : Lists t y yb ye (p * t.size) [] := lists_nil fun x q1 q2 => Nat.le_trans c (h.sorted _ _ q1 q2)
          exact ⟨fun _ => this, p, this⟩
        · rw [if_neg d] at e
          exact ⟨fun z => absurd (.inl z) d, (search_spec h n hb _ e).2⟩
      · rw [if_neg c] at e
        obtain ⟨ds, hd, hl, hy⟩ := h.deltas p hp
        rw [hd] at e
        dsimp only at e
        have hs := h.size
        have hlen : (yList (y (p * t.size)) ds).length = t.size := by rw [yList_length, hl]; omega
        obtain ⟨p1, p2, p3⟩ := pick_spec (yb := yb) (ye := ye) h.sorted (yList (y (p * t.size)) ds) (p * t.size)
          (fun j q1 q2 => hy j (by omega) q2)
        rw [hlen] at p1 p3
        generalize pick yb ye t.num (p * t.size) (yList (y (p * t.size)) ds) = r at e p1 p2 p3
        have hnext : (p + 1) * t.size = p * t.size + t.size := Nat.succ_mul _ _
        have main : Lists t y yb ye (p * t.size) out := by
          by_cases f : r.2 = true
          · rw [if_pos f] at e
            cases e
            refine ⟨fun x => ⟨fun q => ?_, fun q => (p1 x).2 ?_⟩, p2⟩
            · have := (p1 x).1 q
              exact ⟨this.1, this.2.2⟩
            · refine ⟨q.1, ?_, q.2⟩
              by_cases z : x < p * t.size + t.size
              · exact z
              · have := p3 f x (by omega) q.2.1
                omega
          · rw [if_neg f] at e
            cases e2 : t.search yb ye n true (p + 1) with
            | throw => rw [e2] at e; exact (nomatch e)
            | ub => rw [e2] at e; exact (nomatch e)
            | ok l =>
              rw [e2] at e
              cases e
              obtain ⟨l1, l2⟩ := (search_spec h n true (p + 1) e2).1 rfl
              rw [hnext] at l1
              constructor
              · intro x
                rw [List.mem_append, p1 x, l1 x]
                constructor
                · rintro (q | q)
                  · exact ⟨q.1, q.2.2⟩
                  · exact ⟨by omega, q.2⟩
                · rintro ⟨q1, q2⟩
                  by_cases z : x < p * t.size + t.size
                  · exact .inl ⟨q1, z, q2⟩
                  · exact .inr ⟨by omega, q2⟩
              · rw [List.pairwise_append]
                refine ⟨p2, l2, fun a ha b hb => ?_⟩
                have := (p1 a).1 ha
                have := (l1 b).1 hb
                omega
        exact ⟨fun _ => main, p, main⟩

/-- The search begins low enough. -/
theorem search_complete {t : YTable} {y : Nat → Nat} (h : t.Holds y) {yb ye : Nat} {G : Nat → Prop}
    (g1 : ∀ p, p * t.size < t.num → G p → ye ≤ y (p * t.size) → p ≠ 0 → G (t.back yb (y (p * t.size)) p))
    (g2 : ∀ p, p * t.size < t.num → G p → y (p * t.size) < ye → ∀ x, x < p * t.size → y x < yb)
    (g3 : ∀ p, G p → p = 0 ∨ p * t.size < t.num) : ∀ (n p : Nat) {out : List Nat}, G p →
    t.search yb ye n false p = .ok out → Lists t y yb ye 0 out
  | 0, p, out, gp, e => by
    have e' := e
    unfold YTable.search at e
    by_cases k : t.parks ≤ p
    · rw [if_pos k] at e
      cases e
      have := (parks_spec h.size p).1 k
      rcases g3 p gp with z | z
      · subst z; exact lists_nil fun x q1 q2 => by omega
      · omega
    · rw [if_neg k] at e; exact (nomatch e)
  | n + 1, p, out, gp, e => by
    have e' := e
    unfold YTable.search at e
    by_cases k : t.parks ≤ p
    · rw [if_pos k] at e
      cases e
      have := (parks_spec h.size p).1 k
      rcases g3 p gp with z | z
      · subst z; exact lists_nil fun x q1 q2 => by omega
      · omega
    · rw [if_neg k] at e
      have hp : p * t.size < t.num := by
        have := mt (parks_spec h.size p).2 k
        omega
      rw [h.head p hp] at e
      dsimp only at e
      by_cases c : ye ≤ y (p * t.size)
      · rw [if_pos c] at e
        by_cases d : false = true ∨ p = 0
        · rw [if_pos d] at e
          cases e
          have d : p = 0 := d.elim (fun z => (nomatch z)) id
          subst d
          rw [Nat.zero_mul] at c
          exact lists_nil fun x q1 q2 => Nat.le_trans c (h.sorted _ _ q1 q2)
        · rw [if_neg d] at e
          exact search_complete h g1 g2 g3 n _ (g1 p hp gp c fun z => d (.inr z)) e
      · have c : y (p * t.size) < ye := by omega
        obtain ⟨l1, l2⟩ : Lists t y yb ye (p * t.size) out := by
          have : t.search yb ye (n + 1) true p = t.search yb ye (n + 1) false p := by
            unfold YTable.search
            rw [h.head p hp]
            dsimp only
            rw [if_neg k, if_neg k, if_neg (by omega), if_neg (by omega)]
          exact (search_spec h (n + 1) true p (this.trans e')).1 rfl
        refine ⟨fun x => ?_, l2⟩
        rw [l1 x]
        constructor
        · exact fun q => ⟨Nat.zero_le _, q.2⟩
        · intro q
          refine ⟨?_, q.2⟩
          by_cases z : p * t.size ≤ x
          · exact z
          · have := g2 p hp gp c x (by omega)
            omega

/-- The search ends when the end of the range is within reach. -/
theorem search_ends {t : YTable} {y : Nat → Nat} (h : t.Holds y) {yb ye : Nat} : ∀ (n m : Nat) (hb : Bool) (p : Nat),
    m < n → (hb = true ∨ p = 0 ∨ (p * t.size < t.num → y (p * t.size) < ye)) →
    ((p + m) * t.size < t.num → ye ≤ y ((p + m) * t.size)) →
    ∃ out, t.search yb ye n hb p = .ok out
  | n + 1, m, hb, p, hm, h1, h2 => by
    unfold YTable.search
    by_cases k : t.parks ≤ p
    · rw [if_pos k]; exact ⟨_, rfl⟩
    · rw [if_neg k]
      have hp : p * t.size < t.num := by
        have := mt (parks_spec h.size p).2 k
        omega
      rw [h.head p hp]
      dsimp only
      by_cases c : ye ≤ y (p * t.size)
      · rw [if_pos c]
        have d : hb = true ∨ p = 0 := by
          rcases h1 with z | z | z
          · exact .inl z
          · exact .inr z
          · have := z hp; omega
        rw [if_pos d]; exact ⟨_, rfl⟩
      · rw [if_neg c]
        obtain ⟨ds, hd, _⟩ := h.deltas p hp
        rw [hd]
        dsimp only
        by_cases f : (pick yb ye t.num (p * t.size) (yList (y (p * t.size)) ds)).2 = true
        · rw [if_pos f]; exact ⟨_, rfl⟩
        · rw [if_neg f]
          cases m with
          | zero => exact absurd (h2 hp) c
          | succ m =>
            obtain ⟨l, hl⟩ := search_ends h n m true (p + 1) (by omega) (.inl rfl)
              (by rw [show p + 1 + m = p + (m + 1) from by omega]; exact h2)
            rw [hl]; exact ⟨_, rfl⟩

theorem guess_lt {t : YTable} (hs : 0 < t.size) (yb : Nat) : t.guess yb = 0 ∨ t.guess yb * t.size < t.num := by
  by_cases h : t.guess yb = 0
  · exact .inl h
  · right
    have : ¬ t.parks ≤ t.guess yb := by
      unfold YTable.guess at h ⊢
      omega
    have := mt (parks_spec hs _).2 this
    omega

end Verif.Farm
