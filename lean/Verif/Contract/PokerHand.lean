import Verif.Contract.Poker
import Verif.Contract.PropsStd
/-  Lemmas on hands. -/
namespace Verif.Contract.Poker
open Res
open Verif.Codec (Bytes)
open Verif.Contract.Std (sort reverse gtNat cmp)

theorem values_ok : ∀ {l : List Card} {v : List Nat}, values l = .ok v →
    v = l.map (·.num) ∧ ∀ c ∈ l, c.num < 13 ∧ c.suit < 4
  | [], v, h => by cases h; exact ⟨rfl, fun c hc => absurd hc List.not_mem_nil⟩
  | c :: l, v, h => by
    simp only [values] at h
    rw [chk_bind] at h; obtain ⟨h1, h⟩ := h
    rw [chk_bind] at h; obtain ⟨h2, h⟩ := h
    obtain ⟨t, h3, h⟩ := Res.bind_eq_ok.1 h
    cases h
    obtain ⟨e, k⟩ := values_ok h3
    refine ⟨by rw [e]; rfl, ?_⟩
    intro d hd
    rcases List.mem_cons.1 hd with rfl | hd
    · exact ⟨h1, h2⟩
    · exact k d hd

theorem values_of : ∀ {l : List Card}, (∀ c ∈ l, c.num < 13 ∧ c.suit < 4) → values l = .ok (l.map (·.num))
  | [], _ => rfl
  | c :: l, h => by
    have hc := h c (by simp)
    simp only [values]
    rw [show chk (c.num < 13) = .ok () from if_pos hc.1, show chk (c.suit < 4) = .ok () from if_pos hc.2,
      values_of (fun d hd => h d (List.mem_cons_of_mem _ hd))]
    rfl

theorem uniq_some : ∀ (d : List Nat) (p : Nat), d.Pairwise (· ≥ ·) → (∀ x ∈ d, x ≤ p) →
    (uniq (some p) d).Pairwise (· > ·) ∧ (∀ v, v ∈ uniq (some p) d ↔ v ∈ d ∧ v < p) ∧ (uniq (some p) d).Sublist d
  | [], p, _, _ => by simp [uniq]
  | v :: l, p, hd, hp => by
    obtain ⟨h1, h2⟩ := List.pairwise_cons.1 hd
    have hvp : v ≤ p := hp v (by simp)
    by_cases hv : v = p
    · subst hv
      simp only [uniq, ne_eq, not_true_eq_false, if_false]
      obtain ⟨a, b, c⟩ := uniq_some l v h2 (fun x hx => h1 x hx)
      refine ⟨a, ?_, c.cons _⟩
      intro x; rw [b x, List.mem_cons]
      constructor
      · rintro ⟨h, k⟩; exact ⟨.inr h, k⟩
      · rintro ⟨rfl | h, k⟩
        · omega
        · exact ⟨h, k⟩
    · have hne : some v ≠ some p := fun e => hv (Option.some.inj e)
      simp only [uniq, if_pos hne]
      obtain ⟨a, b, c⟩ := uniq_some l v h2 (fun x hx => h1 x hx)
      refine ⟨List.pairwise_cons.2 ⟨fun x hx => ((b x).1 hx).2, a⟩, ?_, c.cons_cons _⟩
      intro x; rw [List.mem_cons, b x, List.mem_cons]
      constructor
      · rintro (rfl | ⟨h, k⟩)
        · exact ⟨.inl rfl, by omega⟩
        · exact ⟨.inr h, by omega⟩
      · rintro ⟨rfl | h, k⟩
        · exact .inl rfl
        · by_cases hx : x = v
          · exact .inl hx
          · have := h1 x h; exact .inr ⟨h, by omega⟩

theorem uniq_none {d : List Nat} (hd : d.Pairwise (· ≥ ·)) :
    (uniq none d).Pairwise (· > ·) ∧ (∀ v, v ∈ uniq none d ↔ v ∈ d) ∧ (uniq none d).Sublist d := by
  cases d with
  | nil => simp [uniq]
  | cons v l =>
    obtain ⟨h1, h2⟩ := List.pairwise_cons.1 hd
    simp only [uniq, ne_eq, reduceCtorEq, not_false_eq_true, if_true]
    obtain ⟨a, b, c⟩ := uniq_some l v h2 (fun x hx => h1 x hx)
    refine ⟨List.pairwise_cons.2 ⟨fun x hx => ((b x).1 hx).2, a⟩, ?_, c.cons_cons _⟩
    intro x; rw [List.mem_cons, b x, List.mem_cons]
    constructor
    · rintro (rfl | ⟨h, _⟩)
      · exact .inl rfl
      · exact .inr h
    · rintro (rfl | h)
      · exact .inl rfl
      · by_cases hx : x = v
        · exact .inl hx
        · have := h1 x h; exact .inr ⟨h, by omega⟩

/-! ### Specification of the kinds of hands -/

def nums' (l : List Card) : List Nat := l.map (·.num)

/-- All cards of one suit. -/
def Flush (l : List Card) : Prop := ∃ s, ∀ c ∈ l, c.suit = s
/-- Five ranks in a row. -/
def Run (l : List Card) : Prop := ∃ n, (nums' l).Perm [n, n + 1, n + 2, n + 3, n + 4]
/-- Ace, two, three, four, five. -/
def LowRun (l : List Card) : Prop := (nums' l).Perm [12, 0, 1, 2, 3]
/-- Some rank occurs exactly `n` times. -/
def Kind (l : List Card) (n : Nat) : Prop := ∃ v, (nums' l).count v = n

/-- The hand is of the kind with this number (poker.js:3-14). -/
def IsKind (l : List Card) : Nat → Prop
  | 10 => Flush l ∧ Run l
  | 9 => Flush l ∧ LowRun l
  | 8 => Kind l 4
  | 7 => Kind l 3 ∧ Kind l 2
  | 6 => Flush l
  | 5 => Run l
  | 4 => LowRun l
  | 3 => Kind l 3
  | 2 => ∃ v w, v ≠ w ∧ (nums' l).count v = 2 ∧ (nums' l).count w = 2
  | 1 => Kind l 2
  | 0 => True
  | _ => False

/-! ### The tests of `get_rank` -/

section
variable {l : List Card} {d : List Nat} (h5 : l.length = 5) (hd : d.Pairwise (· ≥ ·)) (hp : d.Perm (nums' l))
include h5 hd hp

omit hd hp in
theorem flush_iff (hs : ∀ c ∈ l, c.suit < 4) : isFlush l = true ↔ Flush l := by
  simp only [isFlush, List.any_eq_true, beq_iff_eq]
  constructor
  · rintro ⟨s, _, h⟩
    refine ⟨s, fun c hc => ?_⟩
    have : (l.filter fun c => c.suit = s) = l := by
      apply List.Sublist.eq_of_length List.filter_sublist
      rw [h, h5]
    rw [← this] at hc
    exact of_decide_eq_true (List.mem_filter.1 hc).2
  · rintro ⟨s, h⟩
    have hne : l ≠ [] := by intro e; rw [e] at h5; simp at h5
    obtain ⟨c, hc⟩ := List.exists_mem_of_ne_nil l hne
    have hlt : s < 4 := by rw [← h c hc]; exact hs c hc
    refine ⟨s, ?_, ?_⟩
    · simp; omega
    · rw [List.filter_eq_self.2 (fun c hc => by simpa using h c hc), h5]

omit hd in
theorem desc_length : d.length = 5 := by rw [hp.length_eq]; simp [nums', h5]

theorem uniq_full {u : List Nat} (hu : u = uniq none d) (h : u.length = 5) : u = d := by
  obtain ⟨_, _, c⟩ := uniq_none hd
  subst hu
  exact c.eq_of_length (by rw [h, desc_length h5 hp])

omit h5 hp in
theorem uniq_of_nodup (hn : d.Nodup) : uniq none d = d := by
  obtain ⟨a, b, c⟩ := uniq_none hd
  refine c.eq_of_length ?_
  have hu : (uniq none d).Nodup := a.imp (fun h => by intro e; omega)
  exact ((List.perm_ext_iff_of_nodup hu hn).2 b).length_eq

theorem straight_iff : isStraight (uniq none d) = true ↔ Run l := by
  constructor
  · intro h
    have hlen : (uniq none d).length = 5 := by
      unfold isStraight at h
      split at h
      · rename_i e; rw [e]; rfl
      · cases h
    have e := uniq_full h5 hd hp rfl hlen
    obtain ⟨a, _, _⟩ := uniq_none hd
    rw [e] at h a
    match d, desc_length h5 hp, h, a, hp with
    | [v, w, x, y, z], _, h, a, hp =>
      simp only [isStraight, beq_iff_eq] at h
      simp only [List.pairwise_cons, List.mem_cons, List.not_mem_nil, or_false, forall_eq_or_imp, forall_eq] at a
      refine ⟨z, ?_⟩
      have e1 : v = z + 4 := by omega
      have e2 : w = z + 3 := by omega
      have e3 : x = z + 2 := by omega
      have e4 : y = z + 1 := by omega
      subst e1; subst e2; subst e3; subst e4
      refine hp.symm.trans ?_
      have : [z + 4, z + 3, z + 2, z + 1, z] = [z, z + 1, z + 2, z + 3, z + 4].reverse := rfl
      rw [this]; exact List.reverse_perm _
  · rintro ⟨n, hn⟩
    have hdn : d.Perm [n, n + 1, n + 2, n + 3, n + 4] := hp.trans hn
    have hnd : d.Nodup := hdn.nodup_iff.2 (by simp)
    have e : d = [n + 4, n + 3, n + 2, n + 1, n] := by
      refine List.Perm.eq_of_pairwise (le := (· ≥ ·)) (fun a b _ _ h1 h2 => by omega) hd (by simp) ?_
      refine hdn.trans ?_
      have : [n + 4, n + 3, n + 2, n + 1, n] = [n, n + 1, n + 2, n + 3, n + 4].reverse := rfl
      rw [this]; exact (List.reverse_perm _).symm
    rw [uniq_of_nodup hd hnd, e]
    simp [isStraight]

theorem low_iff : uniq none d = [12, 3, 2, 1, 0] ↔ LowRun l := by
  constructor
  · intro h
    have e := uniq_full h5 hd hp rfl (by rw [h]; rfl)
    rw [e] at h
    rw [h] at hp
    refine hp.symm.trans ?_
    decide
  · intro h
    have hdn : d.Perm [12, 0, 1, 2, 3] := hp.trans h
    have hnd : d.Nodup := hdn.nodup_iff.2 (by simp)
    have e : d = [12, 3, 2, 1, 0] :=
      List.Perm.eq_of_pairwise (le := (· ≥ ·)) (fun a b _ _ h1 h2 => by omega) hd (by simp) (hdn.trans (by decide))
    rw [uniq_of_nodup hd hnd, e]

omit h5 in
theorem howMany_pos (n : Nat) (hn : 0 < n) : howMany d (uniq none d) n ≠ 0 ↔ Kind l n := by
  obtain ⟨_, b, _⟩ := uniq_none hd
  unfold howMany Kind
  rw [← Nat.pos_iff_ne_zero, List.length_pos_iff_exists_mem]
  constructor
  · rintro ⟨v, hv⟩
    exact ⟨v, by rw [← hp.count_eq]; exact of_decide_eq_true (List.mem_filter.1 hv).2⟩
  · rintro ⟨v, hv⟩
    rw [← hp.count_eq] at hv
    refine ⟨v, List.mem_filter.2 ⟨(b v).2 (List.count_pos_iff.1 (by omega)), by simpa using hv⟩⟩

omit h5 hd hp in
theorem count_sum_le : ∀ (w d : List Nat), w.Nodup → (w.map (fun v => d.count v)).sum ≤ d.length := by
  intro w
  induction w with
  | nil => intro d _; simp
  | cons v w ih =>
    intro d hw
    obtain ⟨h1, h2⟩ := List.nodup_cons.1 hw
    have k := ih (d.filter (· ≠ v)) h2
    have e : (w.map fun x => (d.filter (· ≠ v)).count x) = w.map fun x => d.count x := by
      refine List.map_congr_left fun x hx => ?_
      have : x ≠ v := fun e => h1 (e ▸ hx)
      rw [List.count_filter (by simpa using this)]
    rw [e] at k
    have hlen : d.count v + (d.filter (· ≠ v)).length = d.length := by
      clear k e ih
      induction d with
      | nil => rfl
      | cons x d ih =>
        by_cases hx : x = v
        · subst hx; simp [List.count_cons_self] at ih ⊢; omega
        · rw [List.count_cons_of_ne hx, List.filter_cons_of_pos (by simpa using hx)]
          simp only [List.length_cons]; omega
    simp only [List.map_cons, List.sum_cons]
    omega

theorem pairs_le : howMany d (uniq none d) 2 ≤ 2 := by
  obtain ⟨a, _, _⟩ := uniq_none hd
  have hu : (uniq none d).Nodup := a.imp (fun h => by intro e; omega)
  have hw : ((uniq none d).filter fun v => d.count v = 2).Nodup := hu.sublist List.filter_sublist
  have := count_sum_le _ d hw
  have hs : (((uniq none d).filter fun v => d.count v = 2).map fun v => d.count v)
      = List.replicate (howMany d (uniq none d) 2) 2 := by
    refine List.eq_replicate_iff.2 ⟨by simp [howMany], ?_⟩
    intro x hx
    obtain ⟨v, hv, rfl⟩ := List.mem_map.1 hx
    exact of_decide_eq_true (List.mem_filter.1 hv).2
  rw [hs, desc_length h5 hp, List.sum_replicate_nat] at this
  omega

omit h5 in
theorem two_pairs : 2 ≤ howMany d (uniq none d) 2 ↔ IsKind l 2 := by
  obtain ⟨a, b, _⟩ := uniq_none hd
  have hu : (uniq none d).Nodup := a.imp (fun h => by intro e; omega)
  unfold howMany
  constructor
  · intro h
    match e : (uniq none d).filter fun v => d.count v = 2, h with
    | v :: w :: t, _ =>
      have hn : (v :: w :: t).Nodup := e ▸ hu.sublist List.filter_sublist
      have hv : v ∈ (uniq none d).filter fun v => d.count v = 2 := by rw [e]; simp
      have hw : w ∈ (uniq none d).filter fun v => d.count v = 2 := by rw [e]; simp
      refine ⟨v, w, ?_, ?_, ?_⟩
      · intro h; subst h; simp at hn
      · rw [← hp.count_eq]; exact of_decide_eq_true (List.mem_filter.1 hv).2
      · rw [← hp.count_eq]; exact of_decide_eq_true (List.mem_filter.1 hw).2
    | [], h => simp at h
    | [_], h => simp at h
  · rintro ⟨v, w, hvw, hv, hw⟩
    rw [← hp.count_eq] at hv hw
    have m : ∀ x, d.count x = 2 → x ∈ (uniq none d).filter fun v => d.count v = 2 := fun x hx =>
      List.mem_filter.2 ⟨(b x).2 (List.count_pos_iff.1 (by omega)), by simpa using hx⟩
    obtain ⟨p, q, e⟩ := List.append_of_mem (m v hv)
    have hw' := m w hw
    rw [e, List.mem_append, List.mem_cons] at hw'
    rw [e, List.length_append, List.length_cons]
    rcases hw' with h | h | h
    · have := List.length_pos_of_mem h; omega
    · exact absurd h.symm hvw
    · have := List.length_pos_of_mem h; omega

end

theorem getRank_cards {l : List Card} (h5 : l.length = 5) (hc : ∀ c ∈ l, c.num < 13 ∧ c.suit < 4) :
    ∃ d, getRank (.cards l) = .ok ⟨category l d (uniq none d), d⟩ ∧ d.Perm (nums' l) ∧ d.Pairwise (· ≥ ·) := by
  obtain ⟨t, h1, h2, h3⟩ := Std.C152_descending (nums' l)
  refine ⟨t, ?_, h2, h3⟩
  obtain ⟨s, hs, h1⟩ := Res.bind_eq_ok.1 h1
  unfold getRank
  rw [show chk ((Hand.cards l).size = 5) = .ok () from if_pos h5]
  simp only [Res.bind_ok, values_of hc]
  rw [show l.map (·.num) = nums' l from rfl, hs]
  simp only [Res.bind_ok, h1]

theorem getRank_ok {h : Hand} {r : Rank} (e : getRank h = .ok r) :
    ∃ l, h = .cards l ∧ l.length = 5 ∧ ∀ c ∈ l, c.num < 13 ∧ c.suit < 4 := by
  cases h with
  | rank r' =>
    unfold getRank at e
    obtain ⟨_, _, e⟩ := Res.bind_eq_ok.1 e
    cases e
  | cards l =>
    unfold getRank at e
    obtain ⟨h5, e⟩ := chk_bind.1 e
    obtain ⟨v, hv, _⟩ := Res.bind_eq_ok.1 e
    exact ⟨l, rfl, h5, (values_ok hv).2⟩

theorem none_above {K : Nat → Prop} (big : ∀ k, K k → k ≤ 10) {c : Nat}
    (h10 : 10 ≤ c ∨ ¬ K 10) (h9 : 9 ≤ c ∨ ¬ K 9) (h8 : 8 ≤ c ∨ ¬ K 8) (h7 : 7 ≤ c ∨ ¬ K 7) (h6 : 6 ≤ c ∨ ¬ K 6)
    (h5 : 5 ≤ c ∨ ¬ K 5) (h4 : 4 ≤ c ∨ ¬ K 4) (h3 : 3 ≤ c ∨ ¬ K 3) (h2 : 2 ≤ c ∨ ¬ K 2) (h1 : 1 ≤ c ∨ ¬ K 1) :
    ∀ k, c < k → ¬ K k := by
  intro k hk hk'
  have hb := big k hk'
  have cover : k = 0 ∨ k = 1 ∨ k = 2 ∨ k = 3 ∨ k = 4 ∨ k = 5 ∨ k = 6 ∨ k = 7 ∨ k = 8 ∨ k = 9 ∨ k = 10 := by omega
  rcases cover with rfl | rfl | rfl | rfl | rfl | rfl | rfl | rfl | rfl | rfl | rfl
  · omega
  · exact h1.elim (by omega) (fun h => h hk')
  · exact h2.elim (by omega) (fun h => h hk')
  · exact h3.elim (by omega) (fun h => h hk')
  · exact h4.elim (by omega) (fun h => h hk')
  · exact h5.elim (by omega) (fun h => h hk')
  · exact h6.elim (by omega) (fun h => h hk')
  · exact h7.elim (by omega) (fun h => h hk')
  · exact h8.elim (by omega) (fun h => h hk')
  · exact h9.elim (by omega) (fun h => h hk')
  · exact h10.elim (by omega) (fun h => h hk')

/-- The chain of tests poker.js:485-495 gives the best kind. -/
theorem chain {K : Nat → Prop} (big : ∀ k, K k → k ≤ 10) {f r lo k4 k3 k2 p2 p1 : Prop} [Decidable f] [Decidable r]
    [Decidable lo] [Decidable k4] [Decidable k3] [Decidable k2] [Decidable p2] [Decidable p1]
    (e10 : K 10 ↔ f ∧ r) (e9 : K 9 ↔ f ∧ lo) (e8 : K 8 ↔ k4) (e7 : K 7 ↔ k3 ∧ k2) (e6 : K 6 ↔ f) (e5 : K 5 ↔ r)
    (e4 : K 4 ↔ lo) (e3 : K 3 ↔ k3) (e2 : K 2 ↔ p2) (e1 : K 1 ↔ k2) (e0 : K 0) (hp : k2 ↔ p2 ∨ p1) :
    ∃ c, c = (if f ∧ r then 10 else if f ∧ lo then 9 else if k4 then 8 else if k3 ∧ k2 then 7 else if f then 6
      else if r then 5 else if lo then 4 else if k3 then 3 else if p2 then 2 else if p1 then 1 else 0) ∧
      K c ∧ ∀ k, c < k → ¬ K k := by
  refine ⟨_, rfl, ?_⟩
  by_cases c10 : f ∧ r
  · rw [if_pos c10]; exact ⟨e10.2 c10, fun k hk hk' => by have := big k hk'; omega⟩
  have n10 := mt e10.1 c10
  rw [if_neg c10]
  by_cases c9 : f ∧ lo
  · rw [if_pos c9]
    exact ⟨e9.2 c9, none_above big (.inr n10) (.inl (by omega)) (.inl (by omega)) (.inl (by omega)) (.inl (by omega))
      (.inl (by omega)) (.inl (by omega)) (.inl (by omega)) (.inl (by omega)) (.inl (by omega))⟩
  have n9 := mt e9.1 c9
  rw [if_neg c9]
  by_cases c8 : k4
  · rw [if_pos c8]
    exact ⟨e8.2 c8, none_above big (.inr n10) (.inr n9) (.inl (by omega)) (.inl (by omega)) (.inl (by omega))
      (.inl (by omega)) (.inl (by omega)) (.inl (by omega)) (.inl (by omega)) (.inl (by omega))⟩
  have n8 := mt e8.1 c8
  rw [if_neg c8]
  by_cases c7 : k3 ∧ k2
  · rw [if_pos c7]
    exact ⟨e7.2 c7, none_above big (.inr n10) (.inr n9) (.inr n8) (.inl (by omega)) (.inl (by omega))
      (.inl (by omega)) (.inl (by omega)) (.inl (by omega)) (.inl (by omega)) (.inl (by omega))⟩
  have n7 := mt e7.1 c7
  rw [if_neg c7]
  by_cases c6 : f
  · rw [if_pos c6]
    exact ⟨e6.2 c6, none_above big (.inr n10) (.inr n9) (.inr n8) (.inr n7) (.inl (by omega))
      (.inl (by omega)) (.inl (by omega)) (.inl (by omega)) (.inl (by omega)) (.inl (by omega))⟩
  have n6 := mt e6.1 c6
  rw [if_neg c6]
  by_cases c5 : r
  · rw [if_pos c5]
    exact ⟨e5.2 c5, none_above big (.inr n10) (.inr n9) (.inr n8) (.inr n7) (.inr n6)
      (.inl (by omega)) (.inl (by omega)) (.inl (by omega)) (.inl (by omega)) (.inl (by omega))⟩
  have n5 := mt e5.1 c5
  rw [if_neg c5]
  by_cases c4 : lo
  · rw [if_pos c4]
    exact ⟨e4.2 c4, none_above big (.inr n10) (.inr n9) (.inr n8) (.inr n7) (.inr n6) (.inr n5)
      (.inl (by omega)) (.inl (by omega)) (.inl (by omega)) (.inl (by omega))⟩
  have n4 := mt e4.1 c4
  rw [if_neg c4]
  by_cases c3 : k3
  · rw [if_pos c3]
    exact ⟨e3.2 c3, none_above big (.inr n10) (.inr n9) (.inr n8) (.inr n7) (.inr n6) (.inr n5) (.inr n4)
      (.inl (by omega)) (.inl (by omega)) (.inl (by omega))⟩
  have n3 := mt e3.1 c3
  rw [if_neg c3]
  by_cases c2 : p2
  · rw [if_pos c2]
    exact ⟨e2.2 c2, none_above big (.inr n10) (.inr n9) (.inr n8) (.inr n7) (.inr n6) (.inr n5) (.inr n4) (.inr n3)
      (.inl (by omega)) (.inl (by omega))⟩
  have n2 := mt e2.1 c2
  rw [if_neg c2]
  by_cases c1 : p1
  · rw [if_pos c1]
    exact ⟨e1.2 (hp.2 (.inr c1)), none_above big (.inr n10) (.inr n9) (.inr n8) (.inr n7) (.inr n6) (.inr n5) (.inr n4)
      (.inr n3) (.inr n2) (.inl (by omega))⟩
  have n1 : ¬ K 1 := fun h => (hp.1 (e1.1 h)).elim c2 c1
  rw [if_neg c1]
  exact ⟨e0, none_above big (.inr n10) (.inr n9) (.inr n8) (.inr n7) (.inr n6) (.inr n5) (.inr n4)
      (.inr n3) (.inr n2) (.inr n1)⟩

/-- The best kind that the hand is of. -/
theorem category_spec {l : List Card} {d : List Nat} (h5 : l.length = 5) (hs : ∀ c ∈ l, c.suit < 4)
    (hd : d.Pairwise (· ≥ ·)) (hp : d.Perm (nums' l)) :
    IsKind l (category l d (uniq none d)) ∧ ∀ k, category l d (uniq none d) < k → ¬ IsKind l k := by
  have F := flush_iff h5 hs
  have S := straight_iff h5 hd hp
  have L := low_iff h5 hd hp
  have K4 := howMany_pos hd hp 4 (by omega)
  have K3 := howMany_pos hd hp 3 (by omega)
  have K2 := howMany_pos hd hp 2 (by omega)
  have T := two_pairs hd hp
  have P := pairs_le h5 hd hp
  have key : ∀ k, IsKind l k → k ≤ 10 := by
    intro k hk
    by_cases h : k ≤ 10
    · exact h
    · obtain ⟨m, rfl⟩ : ∃ m, k = m + 11 := ⟨k - 11, by omega⟩
      exact absurd hk (fun h => h)
  obtain ⟨c, e, h⟩ := chain (K := IsKind l) key (f := isFlush l = true) (r := isStraight (uniq none d) = true)
    (lo := uniq none d = [12, 3, 2, 1, 0]) (k4 := howMany d (uniq none d) 4 ≠ 0) (k3 := howMany d (uniq none d) 3 ≠ 0)
    (k2 := howMany d (uniq none d) 2 ≠ 0) (p2 := howMany d (uniq none d) 2 = 2) (p1 := howMany d (uniq none d) 2 = 1)
    (by rw [F, S]; exact Iff.rfl) (by rw [F, L]; exact Iff.rfl) (by rw [K4]; exact Iff.rfl)
    (by rw [K3, K2]; exact Iff.rfl) (by rw [F]; exact Iff.rfl) (by rw [S]; exact Iff.rfl) (by rw [L]; exact Iff.rfl)
    (by rw [K3]; exact Iff.rfl) (by rw [← T]; omega) (by rw [K2]; exact Iff.rfl) trivial (by omega)
  rw [show category l d (uniq none d) = c from e.symm]
  exact h

end Verif.Contract.Poker
