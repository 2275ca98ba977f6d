import Verif.Node.Pool
/-
  Helper lemmas about the pool.
-/
namespace Verif.Node
open Verif

/-- The fees of the pending transactions of a sender. -/
def feesOf (s : Nat) (l : List PEntry) : Nat := ((l.filter fun e => e.tx.sender = some s).map (·.fee)).sum

theorem feesOf_cons (s : Nat) (e : PEntry) (l : List PEntry) : feesOf s (e :: l) = (if e.tx.sender = some s then e.fee else 0) + feesOf s l := by
  unfold feesOf
  by_cases h : e.tx.sender = some s
  · rw [List.filter_cons_of_pos (by simpa using h), if_pos h]; rfl
  · rw [List.filter_cons_of_neg (by simpa using h), if_neg h]; omega

theorem feesOf_perm {s : Nat} {l m : List PEntry} (h : l.Perm m) : feesOf s l = feesOf s m := ((h.filter _).map _).sum_nat

/-- What holds of the pool at any time. -/
structure Pool.Inv (body : Nat → PTx) (p : Pool) : Prop where
  nodup : (p.txs.map (·.tx.id)).Nodup
  body : ∀ e ∈ p.txs, e.tx = body e.tx.id
  small : ∀ e ∈ p.txs, e.fee < 2 ^ 32
  sender : ∀ e ∈ p.txs, e.tx.sender.isSome = true
  len : p.txs.length < 2 ^ 32
  fees : ∀ s, (p.fees s).getD 0 = feesOf s p.txs
  index : ∀ k i, p.index k i = true ↔ ∃ e ∈ p.txs, e.tx.id = i ∧ k ∈ e.tx.keys

variable {body : Nat → PTx} {p : Pool}

theorem find_some {l : List PEntry} {i : Nat} {e : PEntry} (h : l.find? (fun e => e.tx.id == i) = some e) : e ∈ l ∧ e.tx.id = i :=
  ⟨List.mem_of_find?_eq_some h, by simpa using List.find?_some h⟩

theorem find_none {l : List PEntry} {i : Nat} (h : l.find? (fun e => e.tx.id == i) = none) : ∀ e ∈ l, e.tx.id ≠ i := by
  intro e he
  simpa using List.find?_eq_none.1 h e he

theorem feesOf_le (s : Nat) : ∀ {l : List PEntry}, (∀ e ∈ l, e.fee < 2 ^ 32) → feesOf s l ≤ l.length * (2 ^ 32 - 1)
  | [], _ => by simp [feesOf]
  | e :: l, h => by
    rw [feesOf_cons, List.length_cons]
    have h1 := h e (List.mem_cons_self ..)
    have h2 := feesOf_le s fun x hx => h x (List.mem_cons_of_mem _ hx)
    split <;> omega

theorem feesOf_lt (s : Nat) {l : List PEntry} (h : ∀ e ∈ l, e.fee < 2 ^ 32) (hl : l.length < 2 ^ 32) : feesOf s l < 2 ^ 64 := by
  have := feesOf_le s h
  omega

/-- Without one entry. -/
theorem feesOf_remove {s i : Nat} : ∀ {l : List PEntry} {e : PEntry}, (l.map (·.tx.id)).Nodup → e ∈ l → e.tx.id = i →
    feesOf s l = feesOf s (l.filter fun o => o.tx.id ≠ i) + (if e.tx.sender = some s then e.fee else 0)
  | [], e, _, he, _ => by cases he
  | x :: l, e, hn, he, hi => by
    rw [List.map_cons, List.nodup_cons] at hn
    rcases List.mem_cons.1 he with rfl | he
    · rw [List.filter_cons_of_neg (by simp [hi]), feesOf_cons]
      have : l.filter (fun o => o.tx.id ≠ i) = l := List.filter_eq_self.2 fun o ho => by
        have : o.tx.id ≠ i := fun e' => hn.1 (List.mem_map.2 ⟨o, ho, by rw [e', hi]⟩)
        simpa using this
      rw [this]; omega
    · have hx : x.tx.id ≠ i := fun e' => hn.1 (List.mem_map.2 ⟨e, he, by rw [e', hi]⟩)
      rw [List.filter_cons_of_pos (by simpa using hx), feesOf_cons, feesOf_cons, feesOf_remove hn.2 he hi]
      omega

/-- With one entry replaced. -/
theorem feesOf_replace {s : Nat} {e' : PEntry} : ∀ {l : List PEntry} {e : PEntry}, (l.map (·.tx.id)).Nodup → e ∈ l → e.tx.id = e'.tx.id → e.tx = e'.tx →
    feesOf s (l.map fun o => if o.tx.id = e'.tx.id then e' else o) + (if e.tx.sender = some s then e.fee else 0) = feesOf s l + (if e.tx.sender = some s then e'.fee else 0)
  | [], e, _, he, _, _ => by cases he
  | x :: l, e, hn, he, hi, ht => by
    rw [List.map_cons, List.nodup_cons] at hn
    rcases List.mem_cons.1 he with rfl | he
    · rw [List.map_cons, if_pos hi, feesOf_cons, feesOf_cons, ← ht]
      have : l.map (fun o => if o.tx.id = e'.tx.id then e' else o) = l := by
        conv => rhs; rw [← List.map_id l]
        refine List.map_congr_left fun o ho => ?_
        have hne : o.tx.id ≠ e'.tx.id := fun z => hn.1 (List.mem_map.2 ⟨o, ho, by rw [z, hi]⟩)
        rw [if_neg hne]; rfl
      rw [← ht] at this
      rw [this]; omega
    · have hx : x.tx.id ≠ e'.tx.id := fun z => hn.1 (List.mem_map.2 ⟨e, he, by rw [z, hi]⟩)
      rw [List.map_cons, if_neg hx, feesOf_cons, feesOf_cons]
      have := feesOf_replace (s := s) hn.2 he hi ht
      omega

theorem sub64_exact {a b : Nat} (h : b ≤ a) (ha : a < 2 ^ 64) : sub64 a b = a - b := by
  unfold sub64
  omega

/-- The new total is that of the other transactions of the sender and the new one. -/
theorem newTotal_eq (h : p.Inv body) {e : PEntry} {s : Nat} (hb : e.tx = body e.tx.id) (hf : e.fee < 2 ^ 32) (hl : p.txs.length + 1 < 2 ^ 32) (hs : e.tx.sender = some s) :
    p.newTotal s e = feesOf s (p.txs.filter fun o => o.tx.id ≠ e.tx.id) + e.fee := by
  have hle := feesOf_le s h.small
  unfold Pool.newTotal
  dsimp only
  cases hfi : p.find e.tx.id with
  | none =>
    dsimp only
    have : p.txs.filter (fun o => o.tx.id ≠ e.tx.id) = p.txs := List.filter_eq_self.2 fun o ho => by
      simpa using find_none hfi o ho
    rw [h.fees, this]
    exact u64_of_lt (by omega)
  | some o =>
    dsimp only
    obtain ⟨h1, h2⟩ := find_some hfi
    have ho : o.tx.sender = some s := by rw [h.body o h1, h2, ← hb]; exact hs
    have hr := feesOf_remove (s := s) h.nodup h1 h2
    rw [if_pos ho] at hr
    have hsm := h.small o h1
    rw [h.fees, sub64_exact (by omega) (by omega), hr, Nat.add_sub_cancel]
    exact u64_of_lt (by omega)

theorem put_mem_ids {e : PEntry} {s i : Nat} : i ∈ (p.put s e).txs.map (·.tx.id) ↔ i = e.tx.id ∨ i ∈ p.txs.map (·.tx.id) := by
  unfold Pool.put
  dsimp only
  cases hf : p.find e.tx.id with
  | none => dsimp only; rw [List.map_cons, List.mem_cons]
  | some o =>
    dsimp only
    obtain ⟨h1, h2⟩ := find_some hf
    have : (p.txs.map fun o => if o.tx.id = e.tx.id then e else o).map (·.tx.id) = p.txs.map (·.tx.id) := by
      rw [List.map_map]
      refine List.map_congr_left fun o _ => ?_
      show (if o.tx.id = e.tx.id then e else o).tx.id = o.tx.id
      split
      · next z => exact z.symm
      · rfl
    rw [this]
    constructor
    · exact .inr
    · rintro (rfl | h)
      · exact List.mem_map.2 ⟨o, h1, h2⟩
      · exact h

theorem Pool.Inv.put (h : p.Inv body) {e : PEntry} {s : Nat} (hb : e.tx = body e.tx.id) (hf : e.fee < 2 ^ 32) (hl : p.txs.length + 1 < 2 ^ 32) (hs : e.tx.sender = some s) : (p.put s e).Inv body := by
  have hnt := newTotal_eq h hb hf hl hs
  cases hfi : p.find e.tx.id with
  | none =>
    have hne := find_none hfi
    have e1 : (p.put s e).txs = e :: p.txs := by unfold Pool.put; rw [hfi]
    have e2 : ∀ k i, (p.put s e).index k i = if i = e.tx.id ∧ k ∈ e.tx.keys then true else p.index k i := by intro k i; unfold Pool.put; rw [hfi]
    have e3 : p.txs.filter (fun o => o.tx.id ≠ e.tx.id) = p.txs := List.filter_eq_self.2 fun o ho => by simpa using hne o ho
    refine ⟨?_, ?_, ?_, ?_, by rw [e1]; exact hl, ?_, ?_⟩
    · rw [e1, List.map_cons, List.nodup_cons]
      exact ⟨fun hm => by obtain ⟨o, ho, z⟩ := List.mem_map.1 hm; exact hne o ho z, h.nodup⟩
    · intro o ho; rw [e1] at ho
      rcases List.mem_cons.1 ho with rfl | ho
      · exact hb
      · exact h.body o ho
    · intro o ho; rw [e1] at ho
      rcases List.mem_cons.1 ho with rfl | ho
      · exact hf
      · exact h.small o ho
    · intro o ho; rw [e1] at ho
      rcases List.mem_cons.1 ho with rfl | ho
      · rw [hs]; rfl
      · exact h.sender o ho
    · intro a
      rw [e1, feesOf_cons]
      show ((if a = s then some (p.newTotal s e) else p.fees a) : Option Nat).getD 0 = _
      by_cases ha : a = s
      · subst ha
        rw [if_pos rfl, hnt, e3, if_pos hs, Nat.add_comm]; rfl
      · rw [if_neg ha, if_neg (by rw [hs]; exact fun z => ha (Option.some.inj z).symm), Nat.zero_add]
        exact h.fees a
    · intro k i
      rw [e2, e1]
      split
      · next hc => exact ⟨fun _ => ⟨e, List.mem_cons_self .., hc.1.symm, hc.2⟩, fun _ => rfl⟩
      · next hc =>
        rw [h.index]
        constructor
        · rintro ⟨o, ho, k1, k2⟩; exact ⟨o, List.mem_cons_of_mem _ ho, k1, k2⟩
        · rintro ⟨o, ho, k1, k2⟩
          rcases List.mem_cons.1 ho with rfl | ho
          · exact absurd ⟨k1.symm, k2⟩ hc
          · exact ⟨o, ho, k1, k2⟩
  | some o =>
    obtain ⟨h1, h2⟩ := find_some hfi
    have ht : o.tx = e.tx := by rw [h.body o h1, h2, ← hb]
    have e1 : (p.put s e).txs = p.txs.map fun o => if o.tx.id = e.tx.id then e else o := by unfold Pool.put; rw [hfi]
    have e2 : (p.put s e).index = p.index := by unfold Pool.put; rw [hfi]
    have hmap : ∀ x ∈ p.txs, (if x.tx.id = e.tx.id then e else x).tx = x.tx := by
      intro x hx
      split
      · next z => rw [h.body x hx, z, ← hb]
      · rfl
    have hm : ∀ y ∈ (p.put s e).txs, y = e ∨ y ∈ p.txs := by
      intro y hy
      rw [e1] at hy
      obtain ⟨x, hx, rfl⟩ := List.mem_map.1 hy
      split
      · exact .inl rfl
      · exact .inr hx
    refine ⟨?_, ?_, ?_, ?_, by rw [e1, List.length_map]; exact h.len, ?_, ?_⟩
    · rw [e1, List.map_map]
      rw [show p.txs.map ((fun e : PEntry => e.tx.id) ∘ fun o => if o.tx.id = e.tx.id then e else o) = p.txs.map (·.tx.id) from List.map_congr_left fun x hx => by
        show (if x.tx.id = e.tx.id then e else x).tx.id = x.tx.id
        rw [hmap x hx]]
      exact h.nodup
    · intro y hy
      rcases hm y hy with rfl | hy
      · exact hb
      · exact h.body y hy
    · intro y hy
      rcases hm y hy with rfl | hy
      · exact hf
      · exact h.small y hy
    · intro y hy
      rcases hm y hy with rfl | hy
      · rw [hs]; rfl
      · exact h.sender y hy
    · intro a
      show ((if a = s then some (p.newTotal s e) else p.fees a) : Option Nat).getD 0 = _
      rw [e1]
      have hr := feesOf_replace (s := a) h.nodup h1 h2 ht
      have hrem := feesOf_remove (s := a) h.nodup h1 h2
      rw [ht] at hr hrem
      by_cases ha : a = s
      · subst ha
        rw [if_pos hs] at hr hrem
        rw [if_pos hs] at hr
        rw [if_pos rfl, hnt]
        show feesOf a _ + e.fee = _
        omega
      · have hne : ¬ e.tx.sender = some a := by rw [hs]; exact fun z => ha (Option.some.inj z).symm
        rw [if_neg hne] at hr hrem
        rw [if_neg hne] at hr
        rw [if_neg ha, h.fees]
        omega
    · intro k i
      rw [e2, h.index, e1]
      constructor
      · rintro ⟨x, hx, k1, k2⟩
        exact ⟨_, List.mem_map.2 ⟨x, hx, rfl⟩, by rw [hmap x hx]; exact k1, by rw [hmap x hx]; exact k2⟩
      · rintro ⟨y, hy, k1, k2⟩
        obtain ⟨x, hx, rfl⟩ := List.mem_map.1 hy
        rw [hmap x hx] at k1 k2
        exact ⟨x, hx, k1, k2⟩

theorem update_cases (bal : Nat → Nat) (force : Bool) (e : PEntry) (p : Pool) :
    p.update bal force e = (p, false) ∨ ∃ s, e.tx.sender = some s ∧ p.update bal force e = (p.put s e, true) := by
  unfold Pool.update
  cases hs : e.tx.sender with
  | none => exact .inl rfl
  | some s =>
    dsimp only
    split
    · exact .inl rfl
    · exact .inr ⟨s, rfl, rfl⟩

theorem Pool.Inv.update (h : p.Inv body) (bal : Nat → Nat) (force : Bool) {e : PEntry} (hb : e.tx = body e.tx.id) (hf : e.fee < 2 ^ 32) (hl : p.txs.length + 1 < 2 ^ 32) : (p.update bal force e).1.Inv body := by
  rcases update_cases bal force e p with h1 | ⟨s, h1, h2⟩
  · rw [h1]; exact h
  · rw [h2]; exact h.put hb hf hl h1

theorem erase_txs (i : Nat) (p : Pool) : (p.erase i).txs = p.txs.filter fun o => o.tx.id ≠ i := by
  unfold Pool.erase
  cases hf : p.find i with
  | none => exact (List.filter_eq_self.2 fun o ho => by simpa using find_none hf o ho).symm
  | some e => rfl

theorem Pool.Inv.erase (h : p.Inv body) (i : Nat) : (p.erase i).Inv body := by
  have et := erase_txs i p
  cases hf : p.find i with
  | none =>
    have : p.erase i = p := by unfold Pool.erase; rw [hf]
    rw [this]; exact h
  | some e =>
    obtain ⟨h1, h2⟩ := find_some hf
    have hsub : ∀ o ∈ (p.erase i).txs, o ∈ p.txs ∧ o.tx.id ≠ i := by
      intro o ho
      rw [et] at ho
      simpa using ho
    refine ⟨?_, fun o ho => h.body o (hsub o ho).1, fun o ho => h.small o (hsub o ho).1, fun o ho => h.sender o (hsub o ho).1, ?_, ?_, ?_⟩
    · rw [et]; exact (List.filter_sublist.map _).nodup h.nodup
    · rw [et]; exact Nat.lt_of_le_of_lt (List.length_filter_le _ _) h.len
    · intro a
      rw [et]
      have hr := feesOf_remove (s := a) h.nodup h1 h2
      have hfees := h.fees a
      cases hs : e.tx.sender with
      | none => have := h.sender e h1; rw [hs] at this; cases this
      | some s =>
        have ef : (p.erase i).fees = lessFee p.fees s e.fee := by unfold Pool.erase; rw [hf]; dsimp only; rw [hs]
        rw [ef]
        unfold lessFee
        rw [hs] at hr
        by_cases ha : a = s
        · subst ha
          rw [if_pos rfl]
          rw [if_pos rfl] at hr
          have hsm := h.small e h1
          have key : sub64 (feesOf a p.txs) e.fee = feesOf a (p.txs.filter fun o => o.tx.id ≠ i) := by
            rw [sub64_exact (by omega) (feesOf_lt a h.small h.len), hr, Nat.add_sub_cancel]
          cases hpf : p.fees a with
          | none =>
            rw [hpf] at hfees
            have h0 : 0 = feesOf a p.txs := hfees
            show 0 = _
            omega
          | some f =>
            rw [hpf] at hfees
            have hf' : f = feesOf a p.txs := hfees
            dsimp only
            rw [hf', key]
            split
            · next z => rw [z]; rfl
            · rfl
        · rw [if_neg ha]
          rw [if_neg (fun z => ha (Option.some.inj z).symm)] at hr
          rw [hfees, hr]; rfl
    · intro k j
      have ei : (p.erase i).index k j = if j = e.tx.id ∧ k ∈ e.tx.keys then false else p.index k j := by unfold Pool.erase; rw [hf]
      rw [ei, et]
      split
      · next hc =>
        refine ⟨fun z => Bool.noConfusion z, ?_⟩
        rintro ⟨o, ho, k1, _⟩
        have := (List.mem_filter.1 ho).2
        rw [k1, hc.1, h2] at this
        simp at this
      · next hc =>
        rw [h.index]
        constructor
        · rintro ⟨o, ho, k1, k2⟩
          refine ⟨o, List.mem_filter.2 ⟨ho, ?_⟩, k1, k2⟩
          simp only [ne_eq, decide_not, Bool.not_eq_eq_eq_not, Bool.not_true, decide_eq_false_iff_not]
          intro z
          refine hc ⟨by rw [← k1, z, h2], ?_⟩
          have : o.tx = e.tx := by rw [h.body o ho, h.body e h1, z, h2]
          rw [← this]; exact k2
        · rintro ⟨o, ho, k1, k2⟩
          exact ⟨o, (List.mem_filter.1 ho).1, k1, k2⟩

/-! ### Purging -/

def staticOf (l : List PEntry) : Nat := (l.map (·.staticCost)).sum

theorem staticOf_cons (e : PEntry) (l : List PEntry) : staticOf (e :: l) = e.staticCost + staticOf l := rfl

/-- What happens to one entry. -/
theorem purge_step {bal : Nat → Nat} {max : Nat} {q : Purge} {e : PEntry} (hs : ∀ s, e.tx.sender = some s → q.total s + e.fee < 2 ^ 64) (hc : q.size + e.staticCost < 2 ^ 64) :
    (∀ a, (q.step bal max e).total a = q.total a + (if e.tx.sender = some a then e.fee else 0)) ∧ q.size ≤ (q.step bal max e).size ∧ (q.step bal max e).size ≤ q.size + e.staticCost ∧
    (((q.step bal max e).pool = q.pool ∧ (q.step bal max e).size = q.size + e.staticCost ∧ (q.step bal max e).size ≤ max ∧ ∀ s, e.tx.sender = some s → q.total s + e.fee ≤ u64 (bal s)) ∨
     ((q.step bal max e).pool = q.pool.erase e.tx.id ∧ ((∃ s, e.tx.sender = some s ∧ q.total s + e.fee > u64 (bal s)) ∨ (q.step bal max e).size > max))) := by
  have hz : u64 (q.size + e.staticCost) = q.size + e.staticCost := u64_of_lt hc
  have hcnt : ∀ a, q.count e a = q.total a + (if e.tx.sender = some a then e.fee else 0) := by
    intro a
    unfold Purge.count
    cases hsd : e.tx.sender with
    | none => simp
    | some s =>
      dsimp only
      by_cases ha : a = s
      · subst ha; rw [if_pos rfl, if_pos rfl, u64_of_lt (hs a hsd)]
      · rw [if_neg ha, if_neg (fun z => ha (Option.some.inj z).symm)]; rfl
  have hov : q.over bal e = true ↔ ∃ s, e.tx.sender = some s ∧ q.total s + e.fee > u64 (bal s) := by
    unfold Purge.over
    cases hsd : e.tx.sender with
    | none => simp
    | some s =>
      dsimp only
      rw [hcnt s, if_pos hsd]
      simp
  have hpool : (q.step bal max e).pool = if (q.step bal max e).size > max ∨ q.over bal e = true then q.pool.erase e.tx.id else q.pool := rfl
  refine ⟨hcnt, ?_⟩
  by_cases ho : q.over bal e = true
  · have hsz : (q.step bal max e).size = q.size := by unfold Purge.step; simp [ho]
    rw [hpool, if_pos (.inr ho), hsz]
    exact ⟨Nat.le_refl _, Nat.le_add_right .., .inr ⟨rfl, .inl (hov.1 ho)⟩⟩
  · have hsz : (q.step bal max e).size = q.size + e.staticCost := by unfold Purge.step; simp [ho, hz]
    rw [hpool, hsz]
    refine ⟨Nat.le_add_right .., Nat.le_refl _, ?_⟩
    by_cases hm : q.size + e.staticCost > max
    · rw [if_pos (.inl hm)]; exact .inr ⟨rfl, .inr hm⟩
    · rw [if_neg (not_or.2 ⟨hm, ho⟩)]
      refine .inl ⟨rfl, rfl, by omega, fun s z => ?_⟩
      have : ¬ q.total s + e.fee > u64 (bal s) := fun y => ho (hov.2 ⟨s, z, y⟩)
      omega

theorem purge_fold {bal : Nat → Nat} {max : Nat} : ∀ (order : List PEntry) (q : Purge) (F : Nat → Nat) (C : Nat),
    (∀ s, q.total s + feesOf s order < 2 ^ 64) → q.size + staticOf order < 2 ^ 64 → (∀ s, F s ≤ q.total s ∧ F s ≤ u64 (bal s)) → C ≤ q.size → C ≤ max →
    ∃ kept dropped, (kept ++ dropped).Perm order ∧ (order.foldl (Purge.step bal max) q).pool = dropped.foldl (fun p e => p.erase e.tx.id) q.pool ∧
      (∀ s, F s + feesOf s kept ≤ u64 (bal s)) ∧ C + staticOf kept ≤ max ∧ (q.size > max → kept = []) ∧
      ∀ d ∈ dropped, (∃ s, d.tx.sender = some s ∧ q.total s + feesOf s order > u64 (bal s)) ∨
        (q.size + staticOf order > max ∧ (order.Pairwise (fun a b => b.tx.feeRatio ≤ a.tx.feeRatio) → ∀ k ∈ kept, d.tx.feeRatio ≤ k.tx.feeRatio))
  | [], q, F, C, _, _, hF, _, hC => ⟨[], [], .refl _, rfl, fun s => (hF s).2, hC, fun _ => rfl, fun _ h => nomatch h⟩
  | e :: l, q, F, C, hs, hc, hF, hC1, hC2 => by
    have hs' : ∀ s, e.tx.sender = some s → q.total s + e.fee < 2 ^ 64 := fun s z => by
      have := hs s
      rw [feesOf_cons, if_pos z] at this
      omega
    rw [staticOf_cons] at hc
    obtain ⟨t1, t2, t3, t4⟩ := purge_step (bal := bal) (max := max) (q := q) hs' (by omega)
    have n1 : ∀ s, (q.step bal max e).total s + feesOf s l < 2 ^ 64 := fun s => by
      have := hs s
      rw [feesOf_cons] at this
      rw [t1]; omega
    have tot : ∀ s, (q.step bal max e).total s + feesOf s l = q.total s + feesOf s (e :: l) := fun s => by rw [t1, feesOf_cons]; omega
    rcases t4 with ⟨k1, k2, k3, k4⟩ | ⟨k1, k2⟩
    · obtain ⟨kept, dropped, r1, r2, r3, r4, r5, r6⟩   := purge_fold (bal := bal) (max := max) l (q.step bal max e) (fun s => F s + if e.tx.sender = some s then e.fee else 0) (C + e.staticCost) n1 (by omega)
        (fun s => by
          have := hF s
          rw [t1]
          split
          · next z => exact ⟨by omega, by have := k4 s z; omega⟩
          · omega) (by rw [k2]; omega) (by rw [k2] at k3; omega)
      refine ⟨e :: kept, dropped, r1.cons e, ?_, ?_, ?_, ?_, ?_⟩
      · rw [List.foldl_cons, r2, k1]
      · intro s; rw [feesOf_cons]; have := r3 s; omega
      · rw [staticOf_cons]; omega
      · intro z; omega
      · intro d hd
        rcases r6 d hd with ⟨s, y1, y2⟩ | ⟨y1, y2⟩
        · exact .inl ⟨s, y1, by rw [tot] at y2; exact y2⟩
        · refine .inr ⟨by rw [staticOf_cons]; omega, fun hp k hk => ?_⟩
          rw [List.pairwise_cons] at hp
          rcases List.mem_cons.1 hk with rfl | hk
          · exact hp.1 d (r1.subset (List.mem_append_right _ hd))
          · exact y2 hp.2 k hk
    · obtain ⟨kept, dropped, r1, r2, r3, r4, r5, r6⟩   := purge_fold (bal := bal) (max := max) l (q.step bal max e) F C n1 (by omega)
        (fun s => by have := hF s; rw [t1]; omega) (by omega) hC2
      refine ⟨kept, e :: dropped, ?_, ?_, r3, r4, fun z => r5 (by omega), ?_⟩
      · exact (List.perm_middle).trans (r1.cons e)
      · rw [List.foldl_cons, r2, k1, List.foldl_cons]
      · intro d hd
        rcases List.mem_cons.1 hd with rfl | hd
        · rcases k2 with ⟨s, y1, y2⟩ | y
          · exact .inl ⟨s, y1, by rw [feesOf_cons, if_pos y1]; omega⟩
          · refine .inr ⟨by rw [staticOf_cons]; omega, fun _ k hk => ?_⟩
            rw [r5 y] at hk; cases hk
        · rcases r6 d hd with ⟨s, y1, y2⟩ | ⟨y1, y2⟩
          · exact .inl ⟨s, y1, by rw [tot] at y2; exact y2⟩
          · refine .inr ⟨by rw [staticOf_cons]; omega, fun hp => ?_⟩
            rw [List.pairwise_cons] at hp
            exact y2 hp.2

theorem eraseAll_txs : ∀ (l : List PEntry) (p : Pool), (l.foldl (fun p e => p.erase e.tx.id) p).txs = p.txs.filter fun o => o.tx.id ∉ l.map (·.tx.id)
  | [], p => (List.filter_eq_self.2 fun _ _ => rfl).symm
  | e :: l, p => by
    rw [List.foldl_cons, eraseAll_txs l, erase_txs, List.filter_filter]
    congr 1
    funext o
    rw [List.map_cons, Bool.eq_iff_iff]
    simp only [Bool.and_eq_true, decide_eq_true_eq, List.mem_cons, not_or]
    exact ⟨fun ⟨a, b⟩ => ⟨b, a⟩, fun ⟨a, b⟩ => ⟨b, a⟩⟩

theorem Pool.Inv.eraseAll : ∀ (l : List PEntry) {p : Pool}, p.Inv body → (l.foldl (fun p e => p.erase e.tx.id) p).Inv body
  | [], _, h => h
  | e :: l, _, h => Pool.Inv.eraseAll l (h.erase e.tx.id)

/-- Those kept are what is left in the pool. -/
theorem left_perm (hn : (p.txs.map (·.tx.id)).Nodup) {kept dropped : List PEntry} (h : (kept ++ dropped).Perm p.txs) :
    (p.txs.filter fun o => o.tx.id ∉ dropped.map (·.tx.id)).Perm kept := by
  have hn' : ((kept ++ dropped).map (·.tx.id)).Nodup := (h.map _).nodup_iff.2 hn
  refine (h.filter _).symm.trans ?_
  rw [List.filter_append]
  rw [List.map_append, List.nodup_append] at hn'
  have e1 : kept.filter (fun o => o.tx.id ∉ dropped.map (·.tx.id)) = kept := List.filter_eq_self.2 fun o ho => by
    simp only [decide_eq_true_eq]
    exact fun hm => hn'.2.2 _ (List.mem_map.2 ⟨o, ho, rfl⟩) _ hm rfl
  have e2 : dropped.filter (fun o => o.tx.id ∉ dropped.map (·.tx.id)) = [] := List.filter_eq_nil_iff.2 fun o ho => by
    simp only [decide_eq_true_eq, Decidable.not_not]
    exact List.mem_map.2 ⟨o, ho, rfl⟩
  rw [e1, e2, List.append_nil]

theorem staticOf_perm {l m : List PEntry} (h : l.Perm m) : staticOf l = staticOf m := (h.map _).sum_nat

theorem purge_inv {bal : Nat → Nat} {max : Nat} : ∀ (order : List PEntry) (q : Purge), q.pool.Inv body → (order.foldl (Purge.step bal max) q).pool.Inv body
  | [], _, h => h
  | e :: l, q, h => by
    refine purge_inv l _ ?_
    unfold Purge.step
    dsimp only
    by_cases hq : (if q.over bal e = true then q.size else u64 (q.size + e.staticCost)) > max ∨ q.over bal e = true
    all_goals first | rw [if_pos hq] | rw [if_neg hq]
    · exact h.erase _
    · exact h

theorem purge_sub {bal : Nat → Nat} {max : Nat} : ∀ (order : List PEntry) (q : Purge), (order.foldl (Purge.step bal max) q).pool.txs.Sublist q.pool.txs
  | [], _ => List.Sublist.refl _
  | e :: l, q => by
    refine (purge_sub l _).trans ?_
    unfold Purge.step
    dsimp only
    by_cases hq : (if q.over bal e = true then q.size else u64 (q.size + e.staticCost)) > max ∨ q.over bal e = true
    all_goals first | rw [if_pos hq] | rw [if_neg hq]
    · rw [erase_txs]; exact List.filter_sublist
    · exact List.Sublist.refl _

/-! ### All of it -/

theorem Pool.Inv.empty : ({} : Pool).Inv body where
  nodup := .nil
  body := fun _ h => nomatch h
  small := fun _ h => nomatch h
  sender := fun _ h => nomatch h
  len := by decide
  fees := fun _ => rfl
  index := fun _ _ => ⟨fun h => Bool.noConfusion h, fun ⟨_, h, _⟩ => by cases h⟩

theorem update_len (bal : Nat → Nat) (force : Bool) (e : PEntry) (p : Pool) : (p.update bal force e).1.txs.length ≤ p.txs.length + 1 := by
  rcases update_cases bal force e p with h | ⟨s, _, h⟩
  · rw [h]; exact Nat.le_succ _
  · rw [h]
    unfold Pool.put
    dsimp only
    split
    · rw [List.length_map]; exact Nat.le_succ _
    · exact Nat.le_refl _

theorem update_force {bal : Nat → Nat} {e : PEntry} {s : Nat} (h : e.tx.sender = some s) (p : Pool) : p.update bal true e = (p.put s e, true) := by
  unfold Pool.update
  rw [h]
  simp

theorem Pool.Inv.readd : ∀ (l : List PEntry) {p : Pool}, p.Inv body → (∀ e ∈ l, e.tx = body e.tx.id ∧ e.fee < 2 ^ 32) → p.txs.length + l.length + 1 < 2 ^ 32 →
    (l.foldl (fun p e => (p.update (fun _ => 0) true e).1) p).Inv body
  | [], _, h, _, _ => h
  | e :: l, p, h, hb, hl => by
    rw [List.length_cons] at hl
    obtain ⟨h1, h2⟩ := hb e (List.mem_cons_self ..)
    have := update_len (fun _ => 0) true e p
    exact Pool.Inv.readd l (h.update _ _ h1 h2 (by omega)) (fun x hx => hb x (List.mem_cons_of_mem _ hx)) (by dsimp only; omega)

/-- Everything put back is in the pool, and nothing else is new. -/
theorem readd_ids {i : Nat} : ∀ (l : List PEntry) {p : Pool}, (∀ e ∈ l, e.tx.sender.isSome = true) →
    (i ∈ (l.foldl (fun p e => (p.update (fun _ => 0) true e).1) p).txs.map (·.tx.id) ↔ i ∈ p.txs.map (·.tx.id) ∨ i ∈ l.map (·.tx.id))
  | [], p, _ => by simp
  | e :: l, p, hs => by
    obtain ⟨s, h1⟩ := Option.isSome_iff_exists.1 (hs e (List.mem_cons_self ..))
    rw [List.foldl_cons, readd_ids l fun x hx => hs x (List.mem_cons_of_mem _ hx), update_force h1, put_mem_ids, List.map_cons, List.mem_cons]
    constructor
    · rintro ((h | h) | h)
      · exact .inr (.inl h)
      · exact .inl h
      · exact .inr (.inr h)
    · rintro (h | h | h)
      · exact .inl (.inr h)
      · exact .inl (.inl h)
      · exact .inr h

/-- What holds of pool and chain at any time. -/
structure PState.Inv (body : Nat → PTx) (s : PState) : Prop where
  pool : s.pool.Inv body
  blocks : ∀ blk ∈ s.chain, ∀ e ∈ blk, e.tx = body e.tx.id ∧ e.fee < 2 ^ 32 ∧ e.tx.sender.isSome = true
  once : s.executed.Nodup
  apart : ∀ e ∈ s.pool.txs, e.tx.id ∉ s.executed

theorem executed_cons (blk : List PEntry) (rest : List (List PEntry)) (p : Pool) : ({ pool := p, chain := blk :: rest } : PState).executed = blk.map (·.tx.id) ++ ({ pool := p, chain := rest } : PState).executed := by
  unfold PState.executed
  rw [List.flatMap_cons, List.map_append]; rfl

theorem PState.Inv.run {s : PState} (h : s.Inv body) : ∀ {o : POp}, o.Ok body s → (o.run s).Inv body
  | .add bal e, ⟨h1, h2, h3, h4⟩ => by
    refine ⟨h.pool.update bal false h1 h2 h4, h.blocks, h.once, ?_⟩
    intro x hx
    show x.tx.id ∉ s.executed
    have hx : x ∈ (s.pool.update bal false e).1.txs := hx
    rcases update_cases bal false e s.pool with z | ⟨a, _, z⟩
    · rw [z] at hx; exact h.apart x hx
    · rw [z] at hx
      rcases put_mem_ids.1 (List.mem_map.2 ⟨x, hx, rfl⟩) with y | y
      · rw [y]; exact h3
      · obtain ⟨x', hx', y⟩ := List.mem_map.1 y
        rw [← y]; exact h.apart x' hx'
  | .erase i, _ => ⟨h.pool.erase i, h.blocks, h.once, fun x hx => by
      have hx : x ∈ (s.pool.erase i).txs := hx
      rw [erase_txs] at hx
      exact h.apart x (List.mem_filter.1 hx).1⟩
  | .purge bal max order, _ => ⟨purge_inv order _ h.pool, h.blocks, h.once, fun x hx => h.apart x ((purge_sub order _).subset hx)⟩
  | .apply blk, ⟨h1, h2⟩ => by
    refine ⟨Pool.Inv.eraseAll blk h.pool, ?_, ?_, ?_⟩
    · intro b hb
      rcases List.mem_cons.1 hb with rfl | hb
      · exact fun e he => ⟨(h1 e he).1, (h1 e he).2.1, (h1 e he).2.2.1⟩
      · exact h.blocks b hb
    · show ({ pool := _, chain := blk :: s.chain } : PState).executed.Nodup
      rw [executed_cons, List.nodup_append]
      refine ⟨h2, h.once, ?_⟩
      intro a ha b hb e
      obtain ⟨x, hx, rfl⟩ := List.mem_map.1 ha
      exact (h1 x hx).2.2.2 (e ▸ hb)
    · intro x hx
      have hx : x ∈ (blk.foldl (fun p e => p.erase e.tx.id) s.pool).txs := hx
      rw [eraseAll_txs] at hx
      show x.tx.id ∉ ({ pool := _, chain := blk :: s.chain } : PState).executed
      rw [executed_cons, List.mem_append, not_or]
      exact ⟨by simpa using (List.mem_filter.1 hx).2, h.apart x (List.mem_filter.1 hx).1⟩
  | .revert back, hl => by
    show (s.revert back).Inv body
    unfold PState.revert
    cases hc : s.chain with
    | nil => exact h
    | cons blk rest =>
      dsimp only
      have hb := h.blocks blk (by rw [hc]; exact List.mem_cons_self ..)
      have hon : s.executed = blk.map (·.tx.id) ++ ({ pool := s.pool, chain := rest } : PState).executed := by
        rw [← executed_cons, ← hc]
      have honce := h.once
      rw [hon, List.nodup_append] at honce
      refine ⟨?_, fun b hb => h.blocks b (by rw [hc]; exact List.mem_cons_of_mem _ hb), honce.2.1, ?_⟩
      · dsimp only
        split
        · exact Pool.Inv.readd blk h.pool (fun e he => ⟨(hb e he).1, (hb e he).2.1⟩) (hl blk rest hc)
        · exact h.pool
      · intro x hx
        dsimp only at hx
        have old : ∀ i, i ∈ s.pool.txs.map (·.tx.id) → i ∉ ({ pool := s.pool, chain := rest } : PState).executed := by
          intro i hi hm
          obtain ⟨y, hy, rfl⟩ := List.mem_map.1 hi
          exact h.apart y hy (by rw [hon]; exact List.mem_append_right _ hm)
        show x.tx.id ∉ ({ pool := s.pool, chain := rest } : PState).executed
        split at hx
        · have := (readd_ids blk fun e he => (hb e he).2.2).1 (List.mem_map.2 ⟨x, hx, rfl⟩)
          rcases this with z | z
          · exact old _ z
          · exact fun hm => honce.2.2 _ z _ hm rfl
        · exact old _ (List.mem_map.2 ⟨x, hx, rfl⟩)

theorem PReach.inv {s : PState} (h : PReach body s) : s.Inv body := by
  induction h with
  | init => exact ⟨.empty, fun _ h => (nomatch h), .nil, fun _ h => (nomatch h)⟩
  | step _ ho ih => exact ih.run ho

end Verif.Node
