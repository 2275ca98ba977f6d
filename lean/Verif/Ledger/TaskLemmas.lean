import Verif.Ledger.Assemble
import Mathlib.Data.Nat.Find
/-
  Helper lemmas about tasks that may be skipped.
-/
namespace Verif.Ledger
open Verif

/-! ### Tasks -/

section Tasks
variable {wait : Nat → List Nat} {k : Nat}

/-- Tasks are taken in order. -/
theorem Task.Steps.inOrder {s t : List Task} (h : Task.Steps wait k s t) (hs : ∀ i : Nat, s[i]? = some .queued → ∀ j : Nat, i ≤ j → ∀ a, s[j]? = some a → a = .queued) :
    ∀ i : Nat, t[i]? = some .queued → ∀ j : Nat, i ≤ j → ∀ a, t[j]? = some a → a = .queued := by
  have other : ∀ (s : List Task) (m : Nat) (c d : Task), s[m]? = some c → c ≠ .queued → d ≠ .queued →
      (∀ i : Nat, s[i]? = some .queued → ∀ j : Nat, i ≤ j → ∀ a, s[j]? = some a → a = .queued) →
      ∀ i : Nat, (s.set m d)[i]? = some .queued → ∀ j : Nat, i ≤ j → ∀ a, (s.set m d)[j]? = some a → a = .queued := by
    intro s m c d hm hc hd ih i hi j hj a ha
    rw [List.getElem?_set] at hi ha
    split at hi
    · split at hi
      · cases hi; exact absurd rfl hd
      · cases hi
    · split at ha
      · next e =>
        subst e
        exact absurd (ih i hi _ hj c hm) hc
      · exact ih i hi j hj a ha
  induction h with
  | refl => exact hs
  | step _ h ih =>
    cases h with
    | @take i0 h1 h2 h3 =>
      intro i hi j hj a ha
      rw [List.getElem?_set] at hi ha
      split at hi
      · split at hi <;> cases hi
      · next hne =>
        split at ha
        · next e =>
          subst e
          exact absurd hi (h2 i (by omega))
        · exact ih i hi j hj a ha
    | early h1 h2 => exact other _ _ _ _ h1 (by decide) (by decide) ih
    | late h1 => exact other _ _ _ _ h1 (by decide) (by decide) ih
    | finish h1 h2 => exact other _ _ _ _ h1 (by decide) (by decide) ih

theorem Task.Steps.length {s t : List Task} (h : Task.Steps wait k s t) : t.length = s.length := by
  induction h with
  | refl => rfl
  | step _ h ih => cases h <;> rw [List.length_set] <;> exact ih

theorem replicate_inOrder (n i : Nat) (_ : (List.replicate n Task.queued)[i]? = some .queued) (j : Nat) (_ : i ≤ j) (a : Task)
    (h : (List.replicate n Task.queued)[j]? = some a) : a = .queued := by
  rw [List.getElem?_replicate] at h
  split at h
  · cases h; rfl
  · cases h

/-- Something can go on, unless a task waits for one that was skipped. -/
theorem Task.progress {n : Nat} {t : List Task} (h : Task.Steps wait k (List.replicate n .queued) t) (hw : ∀ i : Nat, ∀ p ∈ wait i, p < i) (hk : 0 < k)
    (hno : ∀ i : Nat, t[i]? = some .waiting → ∀ p ∈ wait i, t[p]? ≠ some .skipped) : (∀ a ∈ t, a.over = true) ∨ ∃ u, Task.Step wait k t u := by
  by_cases hall : ∃ i : Nat, ∃ a : Task, t[i]? = some a ∧ a.over = false
  · refine .inr ?_
    classical
    have hex : ∃ i : Nat, ∃ a : Task, t[i]? = some a ∧ a.over = false := hall
    let m := Nat.find hex
    obtain ⟨a, hm, ho⟩ := Nat.find_spec hex
    have hmin : ∀ j : Nat, j < m → ∀ b : Task, t[j]? = some b → b.over = true := by
      intro j hj b hb
      have := Nat.find_min hex hj
      cases hbo : b.over with
      | true => rfl
      | false => exact absurd ⟨b, hb, hbo⟩ this
    cases a with
    | queued =>
      refine ⟨_, .take hm (fun j hj e => by have := hmin j hj _ e; cases this) ?_⟩
      have hz : t.countP Task.busy = 0 := by
        rw [List.countP_eq_zero]
        intro b hb
        obtain ⟨j, hj⟩ := List.getElem?_of_mem hb
        by_cases hjm : j < m
        · have := hmin j hjm b hj
          cases b <;> simp_all [Task.busy, Task.over]
        · have := Task.Steps.inOrder h (replicate_inOrder n) m hm j (by omega) b hj
          rw [this]; decide
      omega
    | taken => exact ⟨_, .late hm⟩
    | waiting =>
      refine ⟨_, .finish hm fun p hp => ?_⟩
      have hlt := hw m p hp
      have hl : m < t.length := (List.getElem?_eq_some_iff.1 hm).1
      have hpl : p < t.length := by omega
      have e := List.getElem?_eq_getElem hpl
      have h1 := hmin p hlt _ e
      have h2 := hno m hm p hp
      rw [e] at h2 ⊢
      cases hc : t[p] <;> rw [hc] at h1 h2
      · cases h1
      · cases h1
      · cases h1
      · exact absurd rfl h2
    | ended => cases ho
    | skipped => cases ho
  · refine .inl fun a ha => ?_
    obtain ⟨i, hi⟩ := List.getElem?_of_mem ha
    cases hao : a.over with
    | true => rfl
    | false => exact absurd ⟨i, a, hi, hao⟩ hall

theorem countP_set {p : Task → Bool} : ∀ {s : List Task} {i : Nat} {a : Task} (b : Task), s[i]? = some a →
    (s.set i b).countP p + (if p a then 1 else 0) = s.countP p + (if p b then 1 else 0)
  | [], i, a, b, h => by simp at h
  | x :: s, 0, a, b, h => by
    simp at h; subst h
    simp only [List.set_cons_zero, List.countP_cons]
    omega
  | x :: s, i + 1, a, b, h => by
    rw [List.getElem?_cons_succ] at h
    have := countP_set (p := p) b h
    simp only [List.set_cons_succ, List.countP_cons]
    omega

theorem countP_two {p : Task → Bool} : ∀ {s : List Task} {i j : Nat} {a b : Task}, i < j → s[i]? = some a → s[j]? = some b → p a = true → p b = true → 2 ≤ s.countP p
  | [], i, j, a, b, _, h, _, _, _ => by simp at h
  | x :: s, i, 0, a, b, hij, _, _, _, _ => by omega
  | x :: s, 0, j + 1, a, b, _, hi, hj, ha, hb => by
    simp at hi; subst hi
    rw [List.getElem?_cons_succ] at hj
    have : 0 < s.countP p := List.countP_pos_iff.2 ⟨b, List.mem_of_getElem? hj, hb⟩
    simp only [List.countP_cons, ha, if_pos]
    omega
  | x :: s, i + 1, j + 1, a, b, hij, hi, hj, ha, hb => by
    rw [List.getElem?_cons_succ] at hi hj
    have := countP_two (Nat.lt_of_succ_lt_succ hij) hi hj ha hb
    simp only [List.countP_cons]
    omega

/-- With one thread, those before a waiting task have ended. -/
theorem Task.one {n : Nat} {t : List Task} (h : Task.Steps wait 1 (List.replicate n .queued) t) :
    t.countP Task.busy ≤ 1 ∧ ∀ i : Nat, t[i]? = some .waiting → ∀ j : Nat, j < i → t[j]? = some .ended := by
  induction h with
  | refl =>
    refine ⟨by rw [List.countP_replicate]; simp [Task.busy], fun i hi => ?_⟩
    rw [List.getElem?_replicate] at hi
    split at hi <;> cases hi
  | @step t u h0 h ih =>
    obtain ⟨ih1, ih2⟩ := ih
    cases h with
    | @take i0 h1 h2 h3 =>
      have hc := countP_set (p := Task.busy) .taken h1
      simp [Task.busy] at hc
      refine ⟨by omega, fun i hi => ?_⟩
      rw [List.getElem?_set] at hi
      split at hi
      · split at hi <;> cases hi
      · have : 0 < t.countP Task.busy := List.countP_pos_iff.2 ⟨_, List.mem_of_getElem? hi, rfl⟩
        omega
    | @early i0 h1 h2 =>
      have hc := countP_set (p := Task.busy) .waiting h1
      simp [Task.busy] at hc
      refine ⟨by omega, fun i hi j hj => ?_⟩
      rw [List.getElem?_set] at hi
      have hii : i = i0 := by
        split at hi
        · next e => exact e.symm
        · next hne =>
          rcases Nat.lt_or_gt_of_ne hne with z | z
          · have := countP_two z h1 hi (p := Task.busy) rfl rfl; omega
          · have := countP_two z hi h1 (p := Task.busy) rfl rfl; omega
      subst hii
      rw [List.getElem?_set_ne (by omega)]
      have hl : j < t.length := by have := (List.getElem?_eq_some_iff.1 h1).1; omega
      have e := List.getElem?_eq_getElem hl
      rw [e]
      cases hcj : t[j] with
      | queued => rw [hcj] at e; have := Task.Steps.inOrder h0 (replicate_inOrder n) j e i (by omega) _ h1; cases this
      | taken => rw [hcj] at e; have := countP_two hj e h1 (p := Task.busy) rfl rfl; omega
      | waiting => rw [hcj] at e; have := countP_two hj e h1 (p := Task.busy) rfl rfl; omega
      | ended => rfl
      | skipped => rw [hcj] at e; exact absurd (List.mem_of_getElem? e) h2
    | @late i0 h1 =>
      have hc := countP_set (p := Task.busy) .skipped h1
      simp [Task.busy] at hc
      refine ⟨by omega, fun i hi j hj => ?_⟩
      rw [List.getElem?_set] at hi
      split at hi
      · split at hi <;> cases hi
      · next hne =>
        rcases Nat.lt_or_gt_of_ne hne with z | z
        · have := countP_two z h1 hi (p := Task.busy) rfl rfl; omega
        · have := countP_two z hi h1 (p := Task.busy) rfl rfl; omega
    | @finish i0 h1 h2 =>
      have hc := countP_set (p := Task.busy) .ended h1
      simp [Task.busy] at hc
      refine ⟨by omega, fun i hi j hj => ?_⟩
      rw [List.getElem?_set] at hi
      split at hi
      · split at hi <;> cases hi
      · next hne =>
        rcases Nat.lt_or_gt_of_ne hne with z | z
        · have := countP_two z h1 hi (p := Task.busy) rfl rfl; omega
        · have := countP_two z hi h1 (p := Task.busy) rfl rfl; omega

end Tasks

end Verif.Ledger
