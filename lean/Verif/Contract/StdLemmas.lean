import Verif.Contract.Std
import Verif.VM.PropsVar
namespace Verif.Contract.Std
open Verif.VM (Val)
open Res

variable {α : Type}

/-- `gt` never aborts on elements with `P` and decides `¬ le`. -/
structure Decides (gt : α → α → Res Bool) (le : α → α → Prop) (P : α → Prop) : Prop where
  ok : ∀ a b, P a → P b → ∃ g, gt a b = .ok g ∧ (g = true ↔ ¬ le a b)
  total : ∀ a b, P a → P b → le a b ∨ le b a
  trans : ∀ a b c, P a → P b → P c → le a b → le b c → le a c

theorem Decides.refl {gt : α → α → Res Bool} {le : α → α → Prop} {P : α → Prop} (d : Decides gt le P) {a : α} (h : P a) :
    le a a := (d.total a a h h).elim id id

theorem pass_spec {gt : α → α → Res Bool} {le : α → α → Prop} {P : α → Prop} (d : Decides gt le P) :
    ∀ (m : Nat) (p q : List α), p.length = m + 1 → (∀ x ∈ p, P x) →
      ∃ p' z, pass gt m (p ++ q) = .ok (p' ++ z :: q) ∧ (p' ++ [z]).Perm p ∧ ∀ x ∈ p', le x z := by
  intro m
  induction m with
  | zero =>
    intro p q hl _
    match p, hl with
    | [a], _ => exact ⟨[], a, rfl, .refl _, fun x hx => absurd hx List.not_mem_nil⟩
  | succ m ih =>
    intro p q hl hP
    match p, hl with
    | a :: b :: t, hl =>
      have ha : P a := hP a (by simp)
      have hb : P b := hP b (by simp)
      obtain ⟨g, hg, hgt⟩ := d.ok a b ha hb
      cases g with
      | true =>
        have hn : ¬ le a b := hgt.1 rfl
        have hba : le b a := (d.total a b ha hb).resolve_left hn
        have hPa : ∀ x ∈ a :: t, P x := by
          intro x hx; rcases List.mem_cons.1 hx with rfl | hx
          · exact ha
          · exact hP x (by simp [hx])
        obtain ⟨p', z, h1, h2, h3⟩ := ih (a :: t) q (by simp at hl ⊢; omega) hPa
        refine ⟨b :: p', z, ?_, ?_, ?_⟩
        · show (gt a b >>= _) = _
          rw [hg]; simp only [Res.bind_ok, if_true]
          rw [show (a :: t.append q) = (a :: t) ++ q from rfl, h1]; rfl
        · exact (h2.cons b).trans (List.Perm.swap a b t)
        · intro x hx
          rcases List.mem_cons.1 hx with rfl | hx
          · have haz : a ∈ p' ++ [z] := h2.symm.subset (by simp)
            have hz : z ∈ a :: t := h2.subset (by simp)
            rcases List.mem_append.1 haz with h | h
            · exact d.trans _ _ _ hb ha (hPa z hz) hba (h3 a h)
            · rw [List.mem_singleton.1 h] at hba; exact hba
          · exact h3 x hx
      | false =>
        have hab : le a b := by
          by_cases h : le a b
          · exact h
          · exact absurd (hgt.2 h) (by simp)
        have hPb : ∀ x ∈ b :: t, P x := fun x hx => hP x (List.mem_cons_of_mem _ hx)
        obtain ⟨p', z, h1, h2, h3⟩ := ih (b :: t) q (by simp at hl ⊢; omega) hPb
        refine ⟨a :: p', z, ?_, h2.cons a, ?_⟩
        · show (gt a b >>= _) = _
          rw [hg]; simp only [Res.bind_ok, Bool.false_eq_true, if_false]
          rw [show (b :: t.append q) = (b :: t) ++ q from rfl, h1]; rfl
        · intro x hx
          rcases List.mem_cons.1 hx with rfl | hx
          · have hbz : b ∈ p' ++ [z] := h2.symm.subset (by simp)
            have hz : z ∈ b :: t := h2.subset (by simp)
            rcases List.mem_append.1 hbz with h | h
            · exact d.trans _ _ _ ha hb (hPb z hz) hab (h3 b h)
            · rw [List.mem_singleton.1 h] at hab; exact hab
          · exact h3 x hx

theorem passes_spec {gt : α → α → Res Bool} {le : α → α → Prop} {P : α → Prop} (d : Decides gt le P) :
    ∀ (m : Nat) (p q : List α), p.length = m + 1 → (∀ x ∈ p, P x) → q.Pairwise le →
      (∀ x ∈ p, ∀ y ∈ q, le x y) →
      ∃ t, passes gt m (p ++ q) = .ok t ∧ t.Perm (p ++ q) ∧ t.Pairwise le := by
  intro m
  induction m with
  | zero =>
    intro p q hl hP hq hpq
    refine ⟨p ++ q, rfl, .refl _, ?_⟩
    match p, hl with
    | [a], _ => exact List.pairwise_cons.2 ⟨fun y hy => hpq a (by simp) y hy, hq⟩
  | succ m ih =>
    intro p q hl hP hq hpq
    obtain ⟨p', z, h1, h2, h3⟩ := pass_spec d (m + 1) p q hl hP
    have hz : z ∈ p := h2.subset (by simp)
    have hp' : ∀ x ∈ p', x ∈ p := fun x hx => h2.subset (by simp [hx])
    have hlen : p'.length = m + 1 := by
      have := h2.length_eq; simp at this; omega
    obtain ⟨t, g1, g2, g3⟩ := ih p' (z :: q) hlen (fun x hx => hP x (hp' x hx))
      (List.pairwise_cons.2 ⟨fun y hy => hpq z hz y hy, hq⟩)
      (by
        intro x hx y hy
        rcases List.mem_cons.1 hy with rfl | hy
        · exact h3 x hx
        · exact hpq x (hp' x hx) y hy)
    refine ⟨t, ?_, ?_, g3⟩
    · show (pass gt (m + 1) (p ++ q) >>= _) = _
      rw [h1]; exact g1
    · refine g2.trans ?_
      rw [show p' ++ z :: q = (p' ++ [z]) ++ q by simp]
      exact h2.append_right q

theorem sort_spec {gt : α → α → Res Bool} {le : α → α → Prop} {P : α → Prop} (d : Decides gt le P) (l : List α)
    (h : ∀ x ∈ l, P x) : ∃ t, sort gt l = .ok t ∧ t.Perm l ∧ t.Pairwise le := by
  unfold sort
  by_cases hl : l.length ≤ 1
  · rw [if_pos hl]
    refine ⟨l, rfl, .refl _, ?_⟩
    match l, hl with
    | [], _ => exact .nil
    | [a], _ => exact List.pairwise_singleton _ _
  · rw [if_neg hl]
    obtain ⟨t, h1, h2, h3⟩ := passes_spec d (l.length - 1) l [] (by omega) h .nil
      (fun _ _ y hy => absurd hy List.not_mem_nil)
    rw [List.append_nil] at h1 h2
    exact ⟨t, h1, h2, h3⟩

theorem decides_nat : Decides gtNat (· ≤ ·) (fun _ => True) where
  ok a b _ _ := ⟨decide (b < a), rfl, by simp⟩
  total a b _ _ := Nat.le_total a b
  trans a b c _ _ _ h1 h2 := Nat.le_trans h1 h2

theorem compare_swap_eq (a b : Val) : VM.compare b a = (VM.compare a b).swap := VM.C15_antisymmetric a b

theorem compare_eq_plain {a b : Val} (ha : Plain a) : VM.compare a b = .eq ↔ a = b := by
  rw [VM.C15_equal_iff_same]
  constructor
  · intro h; cases h <;> first | rfl | exact absurd ha (by simp [Plain])
  · intro h; subst h; exact (VM.C15_equal_iff_same a a).1 (by
      cases a <;> simp [VM.compare, Val.code, VM.cmpN, (VM.memcmp_eq rfl).2])

/-- One type: the operator `>` on values of the type code `k`. -/
theorem decides_code (k : Nat) :
    Decides opGt (fun a b => ∃ x y, a = .leaf x ∧ b = .leaf y ∧ VM.compare x y ≠ .gt)
      (fun v => ∃ x, v = .leaf x ∧ Plain x ∧ x.code = k) where
  ok := by
    rintro _ _ ⟨x, rfl, hx, kx⟩ ⟨y, rfl, hy, ky⟩
    refine ⟨VM.compare x y == .gt, ?_, ?_⟩
    · simp [opGt, kx, ky]
    · constructor
      · rintro h ⟨x', y', e1, e2, h'⟩
        cases e1; cases e2; exact h' (by simpa using h)
      · intro h
        by_cases hg : VM.compare x y = .gt
        · simp [hg]
        · exact absurd ⟨x, y, rfl, rfl, hg⟩ h
  total := by
    rintro _ _ ⟨x, rfl, hx, kx⟩ ⟨y, rfl, hy, ky⟩
    cases h : VM.compare x y
    · exact .inl ⟨x, y, rfl, rfl, by simp [h]⟩
    · exact .inl ⟨x, y, rfl, rfl, by simp [h]⟩
    · exact .inr ⟨y, x, rfl, rfl, by rw [compare_swap_eq, h]; simp⟩
  trans := by
    rintro _ _ _ ⟨x, rfl, hx, kx⟩ ⟨y, rfl, hy, ky⟩ ⟨z, rfl, hz, kz⟩ ⟨x', y', e1, e2, h1⟩ ⟨y2, z', e3, e4, h2⟩
    cases e1; cases e2; cases e3; cases e4
    refine ⟨x, z, rfl, rfl, ?_⟩
    cases h : VM.compare x y
    · cases h' : VM.compare y z
      · rw [VM.C15_transitive x y z h h']; simp
      · rw [compare_eq_plain hy] at h'; subst h'; rw [h]; simp
      · exact absurd h' h2
    · rw [compare_eq_plain hx] at h; subst h; exact h2
    · exact absurd h h1

/-- The type code of a value that is not an array. -/
def codeOf : V → Option Nat
  | .leaf v => some v.code
  | .arr _ => none

theorem opGt_ok {a b : V} {g : Bool} (h : opGt a b = .ok g) : codeOf a = codeOf b ∧ codeOf a ≠ none := by
  cases a <;> cases b <;> simp only [opGt] at h
  · rename_i x y
    by_cases hc : x.code ≠ y.code
    · rw [if_pos hc] at h; cases h
    · have : x.code = y.code := by simpa using hc
      exact ⟨by simp [codeOf, this], by simp [codeOf]⟩
  all_goals cases h

/-- A pass that ends has compared every element with one of the same type. -/
theorem pass_codes : ∀ (m : Nat) (l t : List V), pass opGt m l = .ok t → 0 < m → l.length = m + 1 →
    ∃ k, ∀ x ∈ l, codeOf x = some k := by
  intro m
  induction m with
  | zero => intro l t _ h; omega
  | succ m ih =>
    intro l t h _ hl
    match l, hl with
    | a :: b :: l, hl =>
      simp only [pass] at h
      obtain ⟨g, hg, h⟩ := Res.bind_eq_ok.1 h
      obtain ⟨hc, hk⟩ := opGt_ok hg
      obtain ⟨k, hk⟩ := Option.ne_none_iff_exists'.1 hk
      have hrest : ∃ c t', codeOf c = some k ∧ pass opGt m (c :: l) = .ok t' := by
        cases g
        · simp only [Bool.false_eq_true, if_false] at h
          obtain ⟨t', h1, _⟩ := Res.bind_eq_ok.1 h
          exact ⟨b, t', by rw [← hc, hk], h1⟩
        · simp only [if_true] at h
          obtain ⟨t', h1, _⟩ := Res.bind_eq_ok.1 h
          exact ⟨a, t', hk, h1⟩
      obtain ⟨c, t', hck, h1⟩ := hrest
      refine ⟨k, ?_⟩
      intro x hx
      rcases List.mem_cons.1 hx with rfl | hx
      · exact hk
      rcases List.mem_cons.1 hx with rfl | hx
      · rw [← hc, hk]
      · have hm : 0 < m := by
          have := List.length_pos_of_mem hx; simp at hl; omega
        obtain ⟨k', hk'⟩ := ih (c :: l) t' h1 hm (by simp at hl ⊢; omega)
        have : k' = k := by
          have := hk' c (by simp); rw [hck] at this; exact (Option.some.inj this).symm
        rw [← this]; exact hk' x (List.mem_cons_of_mem _ hx)

theorem reverseFrom_eq (l : List α) : ∀ (n i : Nat) (out : List α), n + i = l.length →
    reverseFrom l n i out = .ok (out ++ (l.take n).reverse) := by
  intro n
  induction n with
  | zero => intro i out _; simp [reverseFrom]
  | succ n ih =>
    intro i out h
    have hk : l.length - i - 1 = n := by omega
    have hn : n < l.length := by omega
    simp only [reverseFrom, hk, List.getElem?_eq_getElem hn]
    rw [ih (i + 1) _ (by omega), List.take_add_one, List.getElem?_eq_getElem hn]
    simp only [Option.toList_some, List.reverse_append, List.reverse_singleton, List.append_assoc]

/-! ### Deep comparison -/

mutual
/-- No references, arrays by address or maps anywhere inside. -/
def AllPlain : V → Prop
  | .leaf v => Plain v
  | .arr l => AllPlainL l
def AllPlainL : List V → Prop
  | [] => True
  | a :: l => AllPlain a ∧ AllPlainL l
end

mutual
theorem equals_eq : ∀ (a b : V), AllPlain a → AllPlain b → (equals a b = true ↔ a = b)
  | .leaf a, .leaf b, ha, _ => by
    simp only [equals, beq_iff_eq, V.leaf.injEq]
    exact compare_eq_plain ha
  | .leaf _, .arr _, _, _ => by simp [equals]
  | .arr _, .leaf _, _, _ => by simp [equals]
  | .arr l, .arr r, ha, hb => by
    simp only [equals, V.arr.injEq]
    by_cases h : r.length ≠ l.length
    · rw [if_pos h]
      constructor
      · intro h; cases h
      · intro e; subst e; exact absurd rfl h
    · rw [if_neg h]; exact equalsL_eq l r ha hb (by simpa using h)
theorem equalsL_eq : ∀ (l r : List V), AllPlainL l → AllPlainL r → r.length = l.length → (equalsL l r = true ↔ l = r)
  | [], [], _, _, _ => by simp [equalsL]
  | [], _ :: _, _, _, h => by simp at h
  | _ :: _, [], _, _, h => by simp at h
  | a :: l, b :: r, ha, hb, h => by
    have h1 := equals_eq a b ha.1 hb.1
    have h2 := equalsL_eq l r ha.2 hb.2 (by simpa using h)
    simp only [equalsL, List.cons.injEq]
    cases he : equals a b
    · simp [he] at h1 ⊢; exact fun h => absurd h h1
    · simp [he] at h1 ⊢; rw [h2]; simp [h1]
end

theorem cmpPlain_leaf (a b : Val) :
    cmpPlain (.leaf a) (.leaf b) = if a.code ≠ b.code then .throw else .ok (VM.compare a b) := by
  simp only [cmpPlain, opLt, opGt]
  by_cases h : a.code ≠ b.code
  · simp only [if_pos h]; rfl
  · simp only [if_neg h, Res.bind_ok]
    cases VM.compare a b <;> rfl

mutual
theorem cmp_swap : ∀ (a b : V) (o : Ordering), cmp a b = .ok o → cmp b a = .ok o.swap
  | .leaf a, .leaf b, o, h => by
    simp only [cmp, cmpPlain_leaf] at h ⊢
    by_cases hc : a.code ≠ b.code
    · rw [if_pos hc] at h; cases h
    · rw [if_neg hc] at h
      rw [if_neg (fun e => hc (fun e' => e e'.symm))]
      cases h; rw [compare_swap_eq]
  | .leaf _, .arr _, o, h => by simp [cmp, cmpPlain, opLt] at h
  | .arr _, .leaf _, o, h => by simp [cmp, cmpPlain, opLt] at h
  | .arr l, .arr r, o, h => by
    simp only [cmp] at h ⊢
    by_cases hl : l.length ≠ r.length
    · rw [if_pos hl] at h
      rw [if_pos (fun e => hl e.symm)]
      cases h
      by_cases h1 : l.length < r.length
      · rw [if_pos h1, if_neg (by omega)]; rfl
      · rw [if_neg h1, if_pos (by omega)]; rfl
    · rw [if_neg hl] at h
      have hl : l.length = r.length := by simpa using hl
      rw [if_neg (by simp [hl])]
      exact cmpL_swap l r o hl h
theorem cmpL_swap : ∀ (l r : List V) (o : Ordering), l.length = r.length → cmpL l r = .ok o → cmpL r l = .ok o.swap
  | [], [], o, _, h => by simp only [cmpL] at h ⊢; cases h; rfl
  | [], _ :: _, _, h, _ => by simp at h
  | _ :: _, [], _, h, _ => by simp at h
  | a :: l, b :: r, o, hl, h => by
    simp only [cmpL] at h ⊢
    obtain ⟨x, hx, h⟩ := Res.bind_eq_ok.1 h
    rw [cmp_swap a b x hx]
    simp only [Res.bind_ok]
    by_cases hxe : x ≠ .eq
    · rw [if_pos hxe] at h; cases h
      rw [if_pos (by cases o <;> simp at hxe ⊢)]
    · rw [if_neg hxe] at h
      have : x = .eq := by simpa using hxe
      subst this
      rw [if_neg (by simp)]
      exact cmpL_swap l r o (by simpa using hl) h
end

mutual
theorem cmp_eq : ∀ (a b : V), AllPlain a → cmp a b = .ok .eq → a = b
  | .leaf a, .leaf b, ha, h => by
    simp only [cmp, cmpPlain_leaf] at h
    by_cases hc : a.code ≠ b.code
    · rw [if_pos hc] at h; cases h
    · rw [if_neg hc] at h; rw [(compare_eq_plain ha).1 (Res.ok.inj h)]
  | .leaf _, .arr _, _, h => by simp [cmp, cmpPlain, opLt] at h
  | .arr _, .leaf _, _, h => by simp [cmp, cmpPlain, opLt] at h
  | .arr l, .arr r, ha, h => by
    simp only [cmp] at h
    by_cases hl : l.length ≠ r.length
    · rw [if_pos hl] at h
      by_cases h1 : l.length < r.length
      · rw [if_pos h1] at h; cases h
      · rw [if_neg h1] at h; cases h
    · rw [if_neg hl] at h
      rw [cmpL_eq l r ha (by simpa using hl) h]
theorem cmpL_eq : ∀ (l r : List V), AllPlainL l → l.length = r.length → cmpL l r = .ok .eq → l = r
  | [], [], _, _, _ => rfl
  | [], _ :: _, _, h, _ => by simp at h
  | _ :: _, [], _, h, _ => by simp at h
  | a :: l, b :: r, ha, hl, h => by
    simp only [cmpL] at h
    obtain ⟨x, hx, h⟩ := Res.bind_eq_ok.1 h
    by_cases hxe : x ≠ .eq
    · rw [if_pos hxe] at h; exact absurd (Res.ok.inj h) hxe
    · rw [if_neg hxe] at h
      have : x = .eq := by simpa using hxe
      subst this
      rw [cmp_eq a b ha.1 hx, cmpL_eq l r ha.2 (by simpa using hl) h]
end

mutual
theorem cmp_refl : ∀ a : V, AllPlain a → cmp a a = .ok .eq
  | .leaf a, ha => by
    simp only [cmp, cmpPlain_leaf]
    rw [if_neg (by simp), (compare_eq_plain ha).2 rfl]
  | .arr l, ha => by
    simp only [cmp]
    rw [if_neg (by simp)]; exact cmpL_refl l ha
theorem cmpL_refl : ∀ l : List V, AllPlainL l → cmpL l l = .ok .eq
  | [], _ => rfl
  | a :: l, ha => by
    simp only [cmpL, cmp_refl a ha.1, Res.bind_ok]
    rw [if_neg (by simp)]; exact cmpL_refl l ha.2
end

mutual
theorem cmp_trans : ∀ (a b c : V), AllPlain a → AllPlain b → cmp a b = .ok .lt → cmp b c = .ok .lt → cmp a c = .ok .lt
  | .leaf a, .leaf b, .leaf c, _, _, h1, h2 => by
    simp only [cmp, cmpPlain_leaf] at h1 h2 ⊢
    by_cases k1 : a.code ≠ b.code
    · rw [if_pos k1] at h1; cases h1
    by_cases k2 : b.code ≠ c.code
    · rw [if_pos k2] at h2; cases h2
    rw [if_neg k1] at h1; rw [if_neg k2] at h2
    rw [if_neg (by simp at k1 k2 ⊢; rw [k1, k2])]
    rw [VM.C15_transitive a b c (Res.ok.inj h1) (Res.ok.inj h2)]
  | .leaf _, .arr _, _, _, _, h, _ => by simp [cmp, cmpPlain, opLt] at h
  | .arr _, .leaf _, _, _, _, h, _ => by simp [cmp, cmpPlain, opLt] at h
  | .leaf _, .leaf _, .arr _, _, _, _, h => by simp [cmp, cmpPlain, opLt] at h
  | .arr _, .arr _, .leaf _, _, _, _, h => by simp [cmp, cmpPlain, opLt] at h
  | .arr l, .arr r, .arr s, ha, hb, h1, h2 => by
    simp only [cmp] at h1 h2 ⊢
    by_cases k1 : l.length ≠ r.length
    · rw [if_pos k1] at h1
      have l1 : l.length < r.length := by
        by_cases h : l.length < r.length
        · exact h
        · rw [if_neg h] at h1; cases h1
      have l2 : r.length ≤ s.length := by
        by_cases k2 : r.length ≠ s.length
        · rw [if_pos k2] at h2
          by_cases h : r.length < s.length
          · omega
          · rw [if_neg h] at h2; cases h2
        · simp at k2; omega
      rw [if_pos (by omega), if_pos (by omega)]
    · rw [if_neg k1] at h1
      have k1 : l.length = r.length := by simpa using k1
      by_cases k2 : r.length ≠ s.length
      · rw [if_pos k2] at h2
        have l2 : r.length < s.length := by
          by_cases h : r.length < s.length
          · exact h
          · rw [if_neg h] at h2; cases h2
        rw [if_pos (by omega), if_pos (by omega)]
      · rw [if_neg k2] at h2
        have k2 : r.length = s.length := by simpa using k2
        rw [if_neg (by simp [k1, k2])]
        exact cmpL_trans l r s ha hb k1 k2 h1 h2
theorem cmpL_trans : ∀ (l r s : List V), AllPlainL l → AllPlainL r → l.length = r.length → r.length = s.length →
    cmpL l r = .ok .lt → cmpL r s = .ok .lt → cmpL l s = .ok .lt
  | [], _, _, _, _, _, _, h, _ => by simp [cmpL] at h
  | _ :: _, [], _, _, _, h, _, _, _ => by simp at h
  | _ :: _, _ :: _, [], _, _, _, h, _, _ => by simp at h
  | a :: l, b :: r, c :: s, ha, hb, k1, k2, h1, h2 => by
    simp only [cmpL] at h1 h2 ⊢
    obtain ⟨x, hx, h1⟩ := Res.bind_eq_ok.1 h1
    obtain ⟨y, hy, h2⟩ := Res.bind_eq_ok.1 h2
    by_cases hxe : x ≠ .eq
    · rw [if_pos hxe] at h1
      have hx' : x = .lt := Res.ok.inj h1
      subst hx'
      have hac : cmp a c = .ok .lt := by
        by_cases hye : y ≠ .eq
        · rw [if_pos hye] at h2
          have hy' : y = .lt := Res.ok.inj h2
          subst hy'
          exact cmp_trans a b c ha.1 hb.1 hx hy
        · have : y = .eq := by simpa using hye
          subst this
          rw [← cmp_eq b c hb.1 hy]; exact hx
      rw [hac]; rfl
    · rw [if_neg hxe] at h1
      have : x = .eq := by simpa using hxe
      subst this
      rw [cmp_eq a b ha.1 hx]
      rw [hy]
      simp only [Res.bind_ok]
      by_cases hye : y ≠ .eq
      · rw [if_pos hye] at h2 ⊢; exact h2
      · rw [if_neg hye] at h2 ⊢
        exact cmpL_trans l r s ha.2 hb.2 (by simpa using k1) (by simpa using k2) h1 h2
end

end Verif.Contract.Std
