import Verif.Contract.Swap
/-
  Helper lemmas for the exchange contract.
-/
namespace Verif.Contract

/-! ### Checked arithmetic -/

theorem cadd_ok {a b r : Nat} (h : cadd a b = .ok r) : r = a + b ∧ a + b < 2 ^ 256 := by
  unfold cadd at h
  split at h
  · exact ⟨(Res.ok.inj h).symm, by assumption⟩
  · cases h

theorem csub_ok {a b r : Nat} (h : csub a b = .ok r) : r = a - b ∧ b ≤ a := by
  unfold csub at h
  split at h
  · exact ⟨(Res.ok.inj h).symm, by assumption⟩
  · cases h

theorem cmul_ok {a b r : Nat} (h : cmul a b = .ok r) : r = a * b ∧ a * b < 2 ^ 256 := by
  unfold cmul at h
  split at h
  · exact ⟨(Res.ok.inj h).symm, by assumption⟩
  · cases h

theorem cdiv_ok {a b r : Nat} (h : cdiv a b = .ok r) : r = a / b ∧ b ≠ 0 := by
  unfold cdiv at h
  split at h
  · cases h
  · exact ⟨(Res.ok.inj h).symm, by assumption⟩

/-! ### Two-element arrays -/

theorem P2.get_set (p : P2) (i j : Bool) (v : Nat) :
    (p.set i v).get j = if j = i then v else p.get j := by
  cases i <;> cases j <;> rfl

theorem P2.get_set_self (p : P2) (i : Bool) (v : Nat) : (p.set i v).get i = v := by
  cases i <;> rfl

theorem P2.get_set_not (p : P2) (i : Bool) (v : Nat) : (p.set i v).get (!i) = p.get (!i) := by
  cases i <;> rfl

theorem P2.get_zero (i : Bool) : P2.zero.get i = 0 := by cases i <;> rfl

/-! ### Sums -/

theorem sum_set {α : Type} (f : α → Nat) : ∀ (l : List α) (j : Nat) (a b : α), l[j]? = some a →
    ((l.set j b).map f).sum + f a = (l.map f).sum + f b
  | [], j, a, b, h => by simp at h
  | x :: l, 0, a, b, h => by
    have : x = a := by simpa using h
    subst this
    simp only [List.set_cons_zero, List.map_cons, List.sum_cons]
    omega
  | x :: l, j + 1, a, b, h => by
    have h' : l[j]? = some a := by simpa using h
    have := sum_set f l j a b h'
    simp only [List.set_cons_succ, List.map_cons, List.sum_cons]
    omega

theorem le_sum {α : Type} (f : α → Nat) : ∀ (l : List α) (a : α), a ∈ l → f a ≤ (l.map f).sum
  | x :: l, a, h => by
    simp only [List.map_cons, List.sum_cons]
    rcases List.mem_cons.1 h with rfl | h
    · omega
    · have := le_sum f l a h
      omega

/-- What the user contributes to a sum over all users. -/
def contrib (g : User → Nat) (l : List (Nat × User)) (k : Nat) : Nat :=
  match lookupU l k with
  | some u => g u
  | none => 0

theorem sum_insertU (g : User → Nat) (k : Nat) (v : User) : ∀ l : List (Nat × User),
    ((insertU l k v).map (fun x => g x.2)).sum + contrib g l k
      = (l.map (fun x => g x.2)).sum + g v
  | [] => by simp [insertU, contrib, lookupU]
  | (a, u) :: l => by
    unfold insertU contrib lookupU
    by_cases h : a = k
    · rw [if_pos h, if_pos h]
      simp only [List.map_cons, List.sum_cons]
      omega
    · rw [if_neg h, if_neg h]
      have := sum_insertU g k v l
      unfold contrib at this
      simp only [List.map_cons, List.sum_cons]
      omega

theorem contrib_le_sum (g : User → Nat) (k : Nat) : ∀ l : List (Nat × User),
    contrib g l k ≤ (l.map (fun x => g x.2)).sum
  | [] => by simp [contrib, lookupU]
  | (a, u) :: l => by
    have := contrib_le_sum g k l
    unfold contrib lookupU
    by_cases h : a = k
    · rw [if_pos h]
      simp only [List.map_cons, List.sum_cons]
      omega
    · rw [if_neg h]
      unfold contrib at this
      simp only [List.map_cons, List.sum_cons]
      omega

theorem lookup_insertU (k : Nat) (v : User) : ∀ (l : List (Nat × User)) (a : Nat),
    lookupU (insertU l k v) a = if a = k then some v else lookupU l a
  | [], a => by
    unfold insertU lookupU
    by_cases h : a = k
    · rw [if_pos h.symm, if_pos h]
    · rw [if_neg (fun e => h e.symm), if_neg h]; rfl
  | (b, u) :: l, a => by
    unfold insertU
    have ih := lookup_insertU k v l a
    by_cases h : b = k
    · rw [if_pos h]
      by_cases h2 : b = a
      · subst h2; subst h
        simp [lookupU]
      · rw [if_neg (show a ≠ k from fun e => h2 (h.trans e.symm))]
        simp [lookupU, h2]
    · rw [if_neg h]
      by_cases h2 : b = a
      · subst h2
        rw [if_neg h]
        simp [lookupU]
      · simp only [lookupU, if_neg h2]
        exact ih

/-! ### The invariant -/

/-- What a pool owes on one side: its balance and the fees not yet claimed. -/
def reserve (i : Bool) (p : Pool) : Nat := p.bal.get i + (p.paid.get i - p.claimed.get i)

/-- The liquidity a user has in pool `j`. -/
def shareIn (j : Nat) (i : Bool) (u : User) : Nat := if u.pool = j then u.bal.get i else 0

structure SInv (s : Swap) (slack : Bool → Nat) : Prop where
  claimed : ∀ (j : Nat) (p : Pool), s.pools[j]? = some p → ∀ i, p.claimed.get i ≤ p.paid.get i
  solvent : ∀ i, (s.pools.map (reserve i)).sum + slack i ≤ s.coins.get i
  totals : ∀ (j : Nat) (p : Pool), s.pools[j]? = some p → ∀ i,
    (s.users.map (fun x => shareIn j i x.2)).sum = p.tot.get i
  fees : ∀ a u (p : Pool), lookupU s.users a = some u → s.pools[u.pool]? = some p → ∀ i,
    0 < u.bal.get i → u.lastPaid.get i ≤ p.paid.get i
  valid : ∀ a u, lookupU s.users a = some u → u.pool < s.pools.length

/-- The context is a view of the state. -/
structure View (s : Swap) (me : Nat) (x : Ctx) : Prop where
  pool : s.pools[x.idx]? = some x.pool
  coins : x.coins = s.coins
  uidx : x.user.pool = x.idx
  here : ∀ i, contrib (shareIn x.idx i) s.users me = x.user.bal.get i
  other : ∀ j i, j ≠ x.idx → contrib (shareIn j i) s.users me = 0

/-- How an operation may change the context. -/
structure CtxRel (d d' : Bool → Nat) (x y : Ctx) : Prop where
  idx : y.idx = x.idx
  uidx : y.user.pool = x.user.pool
  claimed : (∀ i, x.pool.claimed.get i ≤ x.pool.paid.get i) →
    ∀ i, y.pool.claimed.get i ≤ y.pool.paid.get i
  paid : y.pool.paid = x.pool.paid
  solvent : (∀ i, x.pool.claimed.get i ≤ x.pool.paid.get i) → ∀ i,
    reserve i y.pool + d' i + x.coins.get i ≤ reserve i x.pool + d i + y.coins.get i
  totals : ∀ i, y.pool.tot.get i + x.user.bal.get i = x.pool.tot.get i + y.user.bal.get i
  fees : (∀ i, 0 < x.user.bal.get i → x.user.lastPaid.get i ≤ x.pool.paid.get i) →
    ∀ i, 0 < y.user.bal.get i → y.user.lastPaid.get i ≤ y.pool.paid.get i

theorem CtxRel.refl (d : Bool → Nat) (x : Ctx) : CtxRel d d x x :=
  ⟨rfl, rfl, fun h => h, rfl, fun _ _ => Nat.le_refl _, fun _ => rfl, fun h => h⟩

theorem CtxRel.trans {d d' d'' : Bool → Nat} {x y z : Ctx} (h1 : CtxRel d d' x y)
    (h2 : CtxRel d' d'' y z) : CtxRel d d'' x z := by
  refine ⟨h2.idx.trans h1.idx, h2.uidx.trans h1.uidx, fun h => h2.claimed (h1.claimed h),
    h2.paid.trans h1.paid, fun h i => ?_, fun i => ?_, fun h => h2.fees (h1.fees h)⟩
  · have a := h1.solvent h i
    have b := h2.solvent (h1.claimed h) i
    omega
  · have a := h1.totals i
    have b := h2.totals i
    omega

theorem store_inv {s : Swap} {me : Nat} {x y : Ctx} {d d' : Bool → Nat} (hs : SInv s d)
    (hv : View s me x) (hr : CtxRel d d' x y)
    (hfee : ∀ i, 0 < y.user.bal.get i → y.user.lastPaid.get i ≤ y.pool.paid.get i) :
    SInv (storeCtx s me y) d' := by
  have hlt : x.idx < s.pools.length := by
    have := hv.pool
    rw [List.getElem?_eq_some_iff] at this
    exact this.1
  have get : ∀ j p, (storeCtx s me y).pools[j]? = some p →
      (j = x.idx ∧ p = y.pool) ∨ (j ≠ x.idx ∧ s.pools[j]? = some p) := by
    intro j p h
    unfold storeCtx at h
    dsimp only at h
    rw [hr.idx, List.getElem?_set] at h
    split at h
    · rename_i e
      exact Or.inl ⟨e.symm, (Option.some.inj h).symm⟩
    · rename_i e
      exact Or.inr ⟨fun hh => e hh.symm, h⟩
  have hcl := hs.claimed _ _ hv.pool
  refine ⟨?_, ?_, ?_, ?_, ?_⟩
  · intro j p h i
    rcases get j p h with ⟨-, rfl⟩ | ⟨-, h⟩
    · exact hr.claimed hcl i
    · exact hs.claimed j p h i
  · intro i
    have h1 := hs.solvent i
    have h2 := hr.solvent hcl i
    have h3 := sum_set (reserve i) s.pools x.idx x.pool y.pool hv.pool
    rw [hv.coins] at h2
    show ((s.pools.set y.idx y.pool).map (reserve i)).sum + d' i ≤ y.coins.get i
    rw [hr.idx]
    omega
  · intro j p h i
    have h1 := sum_insertU (shareIn j i) me y.user s.users
    show ((insertU s.users me y.user).map (fun x => shareIn j i x.2)).sum = p.tot.get i
    rcases get j p h with ⟨rfl, rfl⟩ | ⟨hne, h⟩
    · have h2 := hs.totals _ _ hv.pool i
      have h3 := hr.totals i
      have h4 := hv.here i
      have h5 : shareIn x.idx i y.user = y.user.bal.get i := by
        unfold shareIn; rw [if_pos (hr.uidx.trans hv.uidx)]
      omega
    · have h2 := hs.totals j p h i
      have h4 := hv.other j i hne
      have h5 : shareIn j i y.user = 0 := by
        unfold shareIn; rw [if_neg (fun e => hne (e.symm.trans (hr.uidx.trans hv.uidx)))]
      omega
  · intro a u p hu hp i hb
    have hu' : lookupU (insertU s.users me y.user) a = some u := hu
    rw [lookup_insertU] at hu'
    split at hu'
    · have e := Option.some.inj hu'
      subst e
      rcases get _ p hp with ⟨-, rfl⟩ | ⟨hne, -⟩
      · exact hfee i hb
      · exact absurd (hr.uidx.trans hv.uidx) hne
    · rcases get _ p hp with ⟨he, rfl⟩ | ⟨-, h⟩
      · have := hs.fees a u x.pool hu' (by rw [he]; exact hv.pool) i hb
        rw [hr.paid]
        exact this
      · exact hs.fees a u p hu' h i hb
  · intro a u hu
    have hu' : lookupU (insertU s.users me y.user) a = some u := hu
    rw [lookup_insertU] at hu'
    show u.pool < (s.pools.set y.idx y.pool).length
    rw [List.length_set]
    split at hu'
    · have e := Option.some.inj hu'
      subst e
      rw [hr.uidx, hv.uidx]
      exact hlt
    · exact hs.valid a u hu'

theorem load_view {s : Swap} {me : Nat} {x : Ctx} (h : loadCtx s me = .ok x) : View s me x := by
  unfold loadCtx at h
  split at h
  · cases h
  · rename_i u hu
    split at h
    · cases h
    · rename_i p hp
      have e := (Res.ok.inj h).symm
      subst e
      refine ⟨hp, rfl, rfl, fun i => ?_, fun j i hj => ?_⟩
      · unfold contrib shareIn; rw [hu]; simp
      · unfold contrib shareIn; rw [hu]
        exact if_neg fun e => hj e.symm

theorem load_fees {s : Swap} {me : Nat} {x : Ctx} {d : Bool → Nat} (hs : SInv s d)
    (h : loadCtx s me = .ok x) :
    ∀ i, 0 < x.user.bal.get i → x.user.lastPaid.get i ≤ x.pool.paid.get i := by
  unfold loadCtx at h
  split at h
  · cases h
  · rename_i u hu
    split at h
    · cases h
    · rename_i p hp
      have e := (Res.ok.inj h).symm
      subst e
      exact fun i => hs.fees me u p hu hp i

/-! ### The operations -/

theorem sendC_ok {x y : Ctx} {dst amount : Nat} {i : Bool} (h : sendC x dst i amount = .ok y) :
    amount ≤ x.coins.get i ∧ y = { x with coins := x.coins.set i (x.coins.get i - amount), outs := x.outs ++ [⟨dst, i, amount⟩] } := by
  unfold sendC at h
  rw [Res.chk_bind] at h
  obtain ⟨left, h1, h2⟩ := Res.bind_eq_ok.1 h.2
  obtain ⟨e, hle⟩ := csub_ok h1
  subst e
  exact ⟨hle, (Res.ok.inj h2).symm⟩

theorem earned_le {p : Pool} {u : User} {i : Bool} {r : Nat} (h : earned p u i = .ok r) :
    r ≤ p.paid.get i - p.claimed.get i := by
  unfold earned at h
  split at h
  · obtain ⟨total, -, h⟩ := Res.bind_eq_ok.1 h
    split at h
    · obtain ⟨a1, -, h⟩ := Res.bind_eq_ok.1 h
      obtain ⟨a2, -, h⟩ := Res.bind_eq_ok.1 h
      obtain ⟨a3, -, h⟩ := Res.bind_eq_ok.1 h
      obtain ⟨a4, -, h⟩ := Res.bind_eq_ok.1 h
      obtain ⟨a5, h5, h⟩ := Res.bind_eq_ok.1 h
      obtain ⟨rfl, -⟩ := csub_ok h5
      rw [← Res.ok.inj h]
      exact Nat.min_le_right ..
    · rw [← Res.ok.inj h]; exact Nat.zero_le _
  · rw [← Res.ok.inj h]; exact Nat.zero_le _

theorem payoutSide_rel {me : Nat} {i : Bool} {amount : Nat} {x y : Ctx} (d : Bool → Nat)
    (ha : amount ≤ x.pool.paid.get i - x.pool.claimed.get i)
    (h : payoutSide me i amount x = .ok y) : CtxRel d d x y := by
  unfold payoutSide at h
  split at h
  · obtain ⟨z, h2, h⟩ := Res.bind_eq_ok.1 h
    obtain ⟨cl, h1, h2⟩ := Res.bind_eq_ok.1 h2
    obtain ⟨rfl, -⟩ := cadd_ok h1
    obtain ⟨hle, rfl⟩ := sendC_ok h2
    have e := (Res.ok.inj h).symm
    subst e
    dsimp only at hle
    refine ⟨rfl, rfl, fun hc j => ?_, rfl, fun hc j => ?_, fun j => rfl, fun hf j hj => ?_⟩
    · dsimp only
      rw [P2.get_set]
      have := hc i
      split
      · rename_i e; subst e; omega
      · exact hc j
    · unfold reserve
      dsimp only
      rw [P2.get_set, P2.get_set]
      have := hc i
      split
      · rename_i e; subst e; omega
      · omega
    · dsimp only at hj ⊢
      rw [P2.get_set]
      split
      · rename_i e; subst e; exact Nat.le_refl _
      · exact hf j hj
  · rw [Res.bind_ok] at h
    have e := (Res.ok.inj h).symm
    subst e
    refine ⟨rfl, rfl, fun hc => hc, rfl, fun hc j => Nat.le_refl _, fun j => rfl, fun hf j hj => ?_⟩
    dsimp only at hj ⊢
    rw [P2.get_set]
    split
    · rename_i e; subst e; exact Nat.le_refl _
    · exact hf j hj

theorem payoutSide_pool {me : Nat} {i : Bool} {amount : Nat} {x y : Ctx}
    (h : payoutSide me i amount x = .ok y) :
    y.pool.paid = x.pool.paid ∧ y.pool.claimed.get (!i) = x.pool.claimed.get (!i)
      ∧ y.user.bal = x.user.bal ∧ y.pool.tot = x.pool.tot ∧ y.pool.bal = x.pool.bal
      ∧ y.user.unlock = x.user.unlock ∧ y.idx = x.idx := by
  unfold payoutSide at h
  split at h
  · obtain ⟨z, h2, h⟩ := Res.bind_eq_ok.1 h
    obtain ⟨cl, h1, h2⟩ := Res.bind_eq_ok.1 h2
    obtain ⟨hle, rfl⟩ := sendC_ok h2
    have e := (Res.ok.inj h).symm
    subst e
    exact ⟨rfl, P2.get_set_not .., rfl, rfl, rfl, rfl, rfl⟩
  · rw [Res.bind_ok] at h
    have e := (Res.ok.inj h).symm
    subst e
    exact ⟨rfl, rfl, rfl, rfl, rfl, rfl, rfl⟩

theorem payoutC_rel {me : Nat} {x y : Ctx} (d : Bool → Nat) (h : payoutC me x = .ok y) :
    CtxRel d d x y := by
  unfold payoutC at h
  obtain ⟨a, h1, h⟩ := Res.bind_eq_ok.1 h
  obtain ⟨b, h2, h⟩ := Res.bind_eq_ok.1 h
  obtain ⟨z, h3, h⟩ := Res.bind_eq_ok.1 h
  refine (payoutSide_rel d (earned_le h1) h3).trans (payoutSide_rel d ?_ h)
  obtain ⟨k1, k2, -⟩ := payoutSide_pool h3
  have := earned_le h2
  rw [k1, show z.pool.claimed.get true = x.pool.claimed.get true from k2]
  exact this

theorem payoutC_same {me : Nat} {x y : Ctx} (h : payoutC me x = .ok y) :
    y.user.bal = x.user.bal ∧ y.pool.tot = x.pool.tot ∧ y.pool.bal = x.pool.bal
      ∧ y.user.unlock = x.user.unlock ∧ y.idx = x.idx := by
  unfold payoutC at h
  obtain ⟨a, h1, h⟩ := Res.bind_eq_ok.1 h
  obtain ⟨b, h2, h⟩ := Res.bind_eq_ok.1 h
  obtain ⟨z, h3, h⟩ := Res.bind_eq_ok.1 h
  obtain ⟨-, -, a1, a2, a3, a4, a5⟩ := payoutSide_pool h3
  obtain ⟨-, -, b1, b2, b3, b4, b5⟩ := payoutSide_pool h
  exact ⟨b1.trans a1, b2.trans a2, b3.trans a3, b4.trans a4, b5.trans a5⟩

/-- Slack `n` on side `i` on top of `d`. -/
def plus (d : Bool → Nat) (i : Bool) (n : Nat) : Bool → Nat := fun j => if j = i then d j + n else d j

theorem creditC_rel {height : Nat} {i : Bool} {amount : Nat} {x y : Ctx} (d : Bool → Nat)
    (h : creditC height i amount x = .ok y) : CtxRel (plus d i amount) d x y
      ∧ ∀ j, y.user.lastPaid.get j = y.pool.paid.get j := by
  unfold creditC at h
  obtain ⟨b, h1, h⟩ := Res.bind_eq_ok.1 h
  obtain ⟨t, h2, h⟩ := Res.bind_eq_ok.1 h
  obtain ⟨ub, h3, h⟩ := Res.bind_eq_ok.1 h
  obtain ⟨un, h4, h⟩ := Res.bind_eq_ok.1 h
  obtain ⟨rfl, -⟩ := cadd_ok h1
  obtain ⟨rfl, -⟩ := cadd_ok h2
  obtain ⟨rfl, -⟩ := cadd_ok h3
  have e := (Res.ok.inj h).symm
  subst e
  refine ⟨⟨rfl, rfl, fun hc => hc, rfl, fun _ j => ?_, fun j => ?_, fun _ j _ => Nat.le_refl _⟩,
    fun _ => rfl⟩
  · unfold reserve plus
    dsimp only
    rw [P2.get_set]
    split
    · rename_i e; subst e; omega
    · omega
  · dsimp only
    rw [P2.get_set, P2.get_set]
    split
    · rename_i e; subst e; omega
    · omega

theorem addLiquidC_inv {s s' : Swap} {me height idx amount : Nat} {i : Bool} {d : Bool → Nat}
    (hs : SInv s (plus d i amount)) (h : addLiquidC s me height i idx amount = .ok s') :
    SInv s' d := by
  unfold addLiquidC at h
  obtain ⟨y, h1, h⟩ := Res.bind_eq_ok.1 h
  obtain ⟨z, h2, h⟩ := Res.bind_eq_ok.1 h
  have e := (Res.ok.inj h).symm
  subst e
  obtain ⟨hr, hf⟩ := creditC_rel d h2
  have done : ∀ x, View s me x → CtxRel (plus d i amount) (plus d i amount) x y →
      SInv (storeCtx s me z) d := fun x hv hxy =>
    store_inv hs hv (hxy.trans hr) (fun j _ => by rw [hf j]; exact Nat.le_refl _)
  split at h1
  · cases h1
  · rename_i p hp
    split at h1
    · rename_i hu
      have e := (Res.ok.inj h1).symm
      refine done y ?_ (.refl _ _)
      subst e
      refine ⟨hp, rfl, rfl, fun j => ?_, fun k j _ => ?_⟩
      · unfold contrib; rw [hu]; exact (P2.get_zero j).symm
      · unfold contrib; rw [hu]
    · rename_i u hu
      split at h1
      · split at h1
        · rename_i hidx
          refine done ⟨idx, p, u, s.coins, s.outs⟩ ⟨hp, rfl, hidx.symm, fun j => ?_, fun k j hk => ?_⟩
            (payoutC_rel _ h1)
          · unfold contrib shareIn; rw [hu]; exact if_pos hidx.symm
          · unfold contrib shareIn; rw [hu]; exact if_neg fun e => hk (e.symm.trans hidx.symm)
        · cases h1
      · rename_i hz
        have e := (Res.ok.inj h1).symm
        refine done y ?_ (.refl _ _)
        have hz' : ∀ j, u.bal.get j = 0 := by
          intro j
          cases j <;> omega
        subst e
        refine ⟨hp, rfl, rfl, fun j => ?_, fun k j _ => ?_⟩
        · unfold contrib shareIn; rw [hu]; dsimp only; rw [hz' j]; exact ite_self _
        · unfold contrib shareIn; rw [hu]; dsimp only; rw [hz' j]; exact ite_self _

/-! ### Removing liquidity -/

theorem takeOut_ok {me : Nat} {i : Bool} {amount : Nat} {doSend : Bool} {x y : Ctx}
    (h : takeOut me i amount doSend x = .ok y) :
    y.user = x.user ∧ y.idx = x.idx ∧ y.pool.tot = x.pool.tot ∧ y.pool.paid = x.pool.paid
    ∧ y.pool.claimed = x.pool.claimed ∧ amount ≤ x.pool.bal.get i
    ∧ (∀ j, y.pool.bal.get j = if j = i then x.pool.bal.get j - amount else x.pool.bal.get j)
    ∧ (∀ j, y.coins.get j = if j = i ∧ doSend = true then x.coins.get j - amount else x.coins.get j)
    ∧ (doSend = true → amount ≤ x.coins.get i) := by
  unfold takeOut at h
  split at h
  · split at h
    · rename_i hd
      obtain ⟨z, h1, h⟩ := Res.bind_eq_ok.1 h
      obtain ⟨b, h2, h⟩ := Res.bind_eq_ok.1 h
      obtain ⟨hle, rfl⟩ := sendC_ok h1
      obtain ⟨rfl, hb⟩ := csub_ok h2
      have e := (Res.ok.inj h).symm
      subst e
      dsimp only at hb
      refine ⟨rfl, rfl, rfl, rfl, rfl, hb, fun j => ?_, fun j => ?_, fun _ => hle⟩
      · dsimp only
        rw [P2.get_set]
        split
        · rename_i e; subst e; rfl
        · rfl
      · dsimp only
        rw [P2.get_set]
        by_cases e : j = i
        · subst e; rw [if_pos rfl, if_pos ⟨rfl, hd⟩]
        · rw [if_neg e, if_neg (fun hh => e hh.1)]
    · rename_i hd
      rw [Res.bind_ok] at h
      obtain ⟨b, h2, h⟩ := Res.bind_eq_ok.1 h
      obtain ⟨rfl, hb⟩ := csub_ok h2
      have e := (Res.ok.inj h).symm
      subst e
      refine ⟨rfl, rfl, rfl, rfl, rfl, hb, fun j => ?_, fun j => ?_, fun hh => absurd hh hd⟩
      · dsimp only
        rw [P2.get_set]
        split
        · rename_i e; subst e; rfl
        · rfl
      · rw [if_neg (fun hh => hd hh.2)]
  · rename_i h0
    have hz : amount = 0 := by omega
    subst hz
    have e := (Res.ok.inj h).symm
    subst e
    refine ⟨rfl, rfl, rfl, rfl, rfl, Nat.zero_le _, fun j => ?_, fun j => ?_, fun _ => Nat.zero_le _⟩
    · split <;> rfl
    · split <;> rfl

/-- What removing without sending leaves behind. -/
def keep (doSend : Bool) (n : Nat) : Nat := if doSend then 0 else n

theorem remLiquidC_rel {me : Nat} {i : Bool} {amount ret tr : Nat} {doSend : Bool} {x y : Ctx}
    (d : Bool → Nat) (h : remLiquidC me i amount doSend x = .ok ((ret, tr), y)) :
    CtxRel d (plus (plus d i (keep doSend ret)) (!i) (keep doSend tr)) x y
    ∧ remAmounts x.pool i amount = .ok (ret, tr)
    ∧ (∀ j, y.user.bal.get j = if j = i then x.user.bal.get j - amount else x.user.bal.get j)
    ∧ y.user.unlock = x.user.unlock ∧ y.pool.bal.get i = x.pool.bal.get i - ret
    ∧ y.pool.bal.get (!i) = x.pool.bal.get (!i) - tr := by
  unfold remLiquidC at h
  obtain ⟨⟨ret', tr'⟩, h0, h⟩ := Res.bind_eq_ok.1 h
  dsimp only at h
  obtain ⟨z, h1, h⟩ := Res.bind_eq_ok.1 h
  obtain ⟨w, h2, h⟩ := Res.bind_eq_ok.1 h
  obtain ⟨ub, h3, h⟩ := Res.bind_eq_ok.1 h
  obtain ⟨t, h4, h⟩ := Res.bind_eq_ok.1 h
  obtain ⟨rfl, hub⟩ := csub_ok h3
  obtain ⟨rfl, ht⟩ := csub_ok h4
  have e := Res.ok.inj h
  injection e with e1 e2
  injection e1 with e1 e3
  subst e1; subst e3; subst e2
  obtain ⟨a1, a2, a3, a4, a5, a6, a7, a8, a9⟩ := takeOut_ok h1
  obtain ⟨b1, b2, b3, b4, b5, b6, b7, b8, b9⟩ := takeOut_ok h2
  have hn : ∀ b : Bool, (!b) ≠ b := by decide
  have hn' : ∀ b : Bool, b ≠ !b := by decide
  rw [a7 (!i), if_neg (hn i)] at b6
  refine ⟨⟨b2.trans a2, ?_, fun hc j => ?_, b4.trans a4, fun hc j => ?_, fun j => ?_, fun hf j hj => ?_⟩,
    h0, fun j => ?_, ?_, ?_, ?_⟩
  · dsimp only; rw [b1, a1]
  · dsimp only; rw [b5, a5, b4, a4]; exact hc j
  · dsimp only [reserve, plus, keep]
    have hc1 := a8 j
    have hc2 := b8 j
    have hb1 := a7 j
    have hb2 := b7 j
    rw [b5, a5, b4, a4]
    rw [b1, a1] at hub
    by_cases hj : j = i
    · subst hj
      rw [if_pos rfl] at hb1
      rw [if_neg (hn' j)] at hb2
      rw [if_neg (fun hh => hn' j hh.1)] at hc2
      rw [if_neg (hn' j), if_pos rfl, hc2, hb2, hb1]
      cases doSend
      · rw [if_neg (fun hh => Bool.noConfusion hh.2)] at hc1
        rw [hc1]
        simp only [Bool.false_eq_true, if_false]
        omega
      · have := a9 rfl
        rw [if_pos ⟨rfl, rfl⟩] at hc1
        rw [hc1, if_pos rfl]
        omega
    · have hj' : j = !i := by revert hj; cases i <;> cases j <;> decide
      subst hj'
      rw [if_neg hj] at hb1
      rw [if_pos rfl] at hb2
      rw [if_neg (fun hh => hj hh.1)] at hc1
      rw [if_pos rfl, if_neg hj, hb2, hb1, hc2]
      cases doSend
      · rw [if_neg (fun hh : _ ∧ _ => Bool.noConfusion hh.2), hc1]
        simp only [Bool.false_eq_true, if_false]
        omega
      · have := b9 rfl
        rw [hc1] at this
        rw [if_pos (And.intro rfl rfl), hc1]
        simp only [if_true]
        omega
  · dsimp only
    rw [P2.get_set, P2.get_set, b1, a1, b3, a3]
    rw [b1, a1] at hub
    rw [b3, a3] at ht
    split
    · rename_i e; subst e; omega
    · omega
  · dsimp only at hj ⊢
    rw [P2.get_set, b1, a1] at hj
    rw [b1, a1, b4, a4]
    apply hf j
    split at hj
    · rename_i e; subst e; omega
    · exact hj
  · dsimp only
    rw [P2.get_set, b1, a1]
    split
    · rename_i e; subst e; rfl
    · rfl
  · dsimp only; rw [b1, a1]
  · dsimp only; rw [b7 i, if_neg (hn' i), a7 i, if_pos rfl]
  · dsimp only; rw [b7 (!i), if_pos rfl, a7 (!i), if_neg (hn i)]

theorem CtxRel.weaken {d d' d'' : Bool → Nat} {x y : Ctx} (h : CtxRel d d' x y)
    (hd : ∀ i, d'' i ≤ d' i) : CtxRel d d'' x y := by
  refine ⟨h.idx, h.uidx, h.claimed, h.paid, fun hc i => ?_, h.totals, h.fees⟩
  have a := h.solvent hc i
  have b := hd i
  omega

theorem remLiquidCtx_rel {me height : Nat} {i : Bool} {amount : Nat} {dry : Bool} {x y : Ctx}
    {r : Nat × Nat} (d : Bool → Nat) (h : remLiquidCtx me height i amount dry x = .ok (r, y)) :
    CtxRel d d x y ∧ amount ≤ x.user.bal.get i ∧ (dry = true ∨ x.user.unlock ≤ height)
      ∧ remAmounts x.pool i amount = .ok r := by
  unfold remLiquidCtx at h
  rw [Res.chk_bind, Res.chk_bind, Res.chk_bind] at h
  obtain ⟨-, hl, ha, h⟩ := h
  obtain ⟨hr, h0, -⟩ := remLiquidC_rel d h
  refine ⟨hr.weaken (fun j => ?_), ha, hl, h0⟩
  unfold plus
  split <;> split <;> omega

theorem remAllSide_rel {me height : Nat} {dry i : Bool} {x y : Ctx} (d : Bool → Nat)
    (h : remAllSide me height dry i x = .ok y) : CtxRel d d x y := by
  unfold remAllSide at h
  split at h
  · obtain ⟨⟨r, z⟩, h1, h⟩ := Res.bind_eq_ok.1 h
    have e := (Res.ok.inj h).symm
    subst e
    exact (remLiquidCtx_rel d h1).1
  · have e := (Res.ok.inj h).symm
    subst e
    exact .refl _ _

theorem switchOut_rel {me : Nat} {i : Bool} {acc acc' : P2} {x y : Ctx}
    (h : switchOut me i acc x = .ok (acc', y)) : CtxRel acc.get acc'.get x y := by
  unfold switchOut at h
  split at h
  · obtain ⟨⟨⟨ret, tr⟩, z⟩, h1, h⟩ := Res.bind_eq_ok.1 h
    dsimp only at h
    obtain ⟨a, h2, h⟩ := Res.bind_eq_ok.1 h
    obtain ⟨b, h3, h⟩ := Res.bind_eq_ok.1 h
    obtain ⟨rfl, -⟩ := cadd_ok h2
    obtain ⟨rfl, -⟩ := cadd_ok h3
    have e := Res.ok.inj h
    injection e with e1 e2
    subst e1; subst e2
    refine (remLiquidC_rel acc.get h1).1.weaken (fun j => ?_)
    unfold plus keep
    cases i <;> cases j <;> simp [P2.get, P2.set]
  · have e := Res.ok.inj h
    injection e with e1 e2
    subst e1; subst e2
    exact .refl _ _

/-! ### Trading -/

theorem quote_ok {p : Pool} {i : Bool} {a fee tr act : Nat} (h : quote p i a = .ok (fee, tr, act)) :
    tr = p.bal.get (!i) - p.bal.get i * p.bal.get (!i) / (p.bal.get i + a)
    ∧ fee = min (tr * p.rate / 2 ^ 64 + 1) tr ∧ act = tr - fee ∧ tr ≤ p.bal.get (!i) ∧ fee ≤ tr := by
  unfold quote at h
  dsimp only at h
  obtain ⟨n, h1, h⟩ := Res.bind_eq_ok.1 h
  obtain ⟨dd, h2, h⟩ := Res.bind_eq_ok.1 h
  obtain ⟨q, h3, h⟩ := Res.bind_eq_ok.1 h
  obtain ⟨t, h4, h⟩ := Res.bind_eq_ok.1 h
  obtain ⟨f, h5, h⟩ := Res.bind_eq_ok.1 h
  obtain ⟨g, h6, h⟩ := Res.bind_eq_ok.1 h
  obtain ⟨c, h7, h⟩ := Res.bind_eq_ok.1 h
  obtain ⟨rfl, -⟩ := cmul_ok h1
  obtain ⟨rfl, -⟩ := cadd_ok h2
  obtain ⟨rfl, -⟩ := cdiv_ok h3
  obtain ⟨rfl, -⟩ := csub_ok h4
  obtain ⟨rfl, -⟩ := cmul_ok h5
  obtain ⟨rfl, -⟩ := cadd_ok h6
  obtain ⟨rfl, hle⟩ := csub_ok h7
  have e := Res.ok.inj h
  injection e with e1 e2
  injection e2 with e2 e3
  subst e1; subst e2; subst e3
  refine ⟨rfl, ?_, rfl, Nat.sub_le _ _, hle⟩
  rw [Nat.shiftRight_eq_div_pow]

/-- What the chosen quote means: it is the quote of one of the pools. -/
theorem bestQuote_ok {i : Bool} {a : Nat} {all : List Pool} : ∀ (l : List Pool) (j : Nat)
    (best : Option Quote) (q : Quote),
    (∀ k p, l[k]? = some p → all[j + k]? = some p) →
    (∀ b, best = some b → 0 < b.actual ∧ ∃ p, all[b.idx]? = some p ∧ 0 < p.bal.get (!i)
      ∧ quote p i a = .ok (b.fee, b.trade, b.actual)) →
    bestQuote i a l j best = .ok (some q) →
    0 < q.actual ∧ ∃ p, all[q.idx]? = some p ∧ 0 < p.bal.get (!i)
      ∧ quote p i a = .ok (q.fee, q.trade, q.actual)
  | [], j, best, q, _, hb, h => by
    unfold bestQuote at h
    exact hb q (Res.ok.inj h)
  | p :: l, j, best, q, hl, hb, h => by
    have hl' : ∀ k p, l[k]? = some p → all[j + 1 + k]? = some p := by
      intro k p' hk
      have := hl (k + 1) p' (by simpa using hk)
      rwa [show j + 1 + k = j + (k + 1) by omega]
    unfold bestQuote at h
    split at h
    · rename_i hp
      obtain ⟨⟨fee, tr, act⟩, h1, h⟩ := Res.bind_eq_ok.1 h
      dsimp only at h
      refine bestQuote_ok l (j + 1) _ q hl' ?_ h
      intro b hbb
      split at hbb
      · rename_i hact
        have e := Option.some.inj hbb
        subst e
        exact ⟨Nat.lt_of_le_of_lt (Nat.zero_le _) hact, p, by simpa using hl 0 p (by simp), hp, h1⟩
      · exact hb b hbb
    · exact bestQuote_ok l (j + 1) best q hl' hb h

theorem bestQuote_main {i : Bool} {a : Nat} {l : List Pool} {q : Quote}
    (h : bestQuote i a l 0 none = .ok (some q)) :
    0 < q.actual ∧ ∃ p, l[q.idx]? = some p ∧ 0 < p.bal.get (!i)
      ∧ quote p i a = .ok (q.fee, q.trade, q.actual) :=
  bestQuote_ok l 0 none q (fun k p hk => by simpa using hk) (fun b hb => by cases hb) h

/-- The pool after a trade with quote `q`. -/
def tradedPool (p : Pool) (i : Bool) (a : Nat) (q : Quote) : Pool :=
  { p with bal := (p.bal.set i (p.bal.get i + a)).set (!i) (p.bal.get (!i) - q.trade),
           paid := p.paid.set (!i) (p.paid.get (!i) + q.fee) }

theorem applyQuote_ok {i : Bool} {a : Nat} {q : Quote} {s s' : Swap} {p : Pool}
    (hp : s.pools[q.idx]? = some p) (h : applyQuote i a q s = .ok s') :
    s'.pools = s.pools.set q.idx (tradedPool p i a q) ∧ s'.users = s.users ∧ s'.coins = s.coins
      ∧ s'.outs = s.outs ∧ q.trade ≤ p.bal.get (!i) := by
  unfold applyQuote at h
  rw [hp] at h
  dsimp only at h
  obtain ⟨v, h1, h⟩ := Res.bind_eq_ok.1 h
  obtain ⟨bi, h2, h⟩ := Res.bind_eq_ok.1 h
  obtain ⟨bk, h3, h⟩ := Res.bind_eq_ok.1 h
  obtain ⟨pk, h4, h⟩ := Res.bind_eq_ok.1 h
  obtain ⟨rfl, -⟩ := cadd_ok h2
  obtain ⟨rfl, hle⟩ := csub_ok h3
  obtain ⟨rfl, -⟩ := cadd_ok h4
  have e := (Res.ok.inj h).symm
  subst e
  rw [P2.get_set_not] at hle
  refine ⟨?_, rfl, rfl, rfl, hle⟩
  unfold tradedPool
  rw [P2.get_set_not]

theorem tradedPool_get (p : Pool) (i : Bool) (a : Nat) (q : Quote) :
    (tradedPool p i a q).bal.get i = p.bal.get i + a
    ∧ (tradedPool p i a q).bal.get (!i) = p.bal.get (!i) - q.trade
    ∧ (tradedPool p i a q).paid.get i = p.paid.get i
    ∧ (tradedPool p i a q).paid.get (!i) = p.paid.get (!i) + q.fee
    ∧ (tradedPool p i a q).tot = p.tot ∧ (tradedPool p i a q).claimed = p.claimed := by
  cases i <;> exact ⟨rfl, rfl, rfl, rfl, rfl, rfl⟩

/-- Trading turns slack on side `i` into slack on the other side. -/
theorem applyQuote_inv {i : Bool} {a : Nat} {q : Quote} {s s' : Swap} {p : Pool} {d : Bool → Nat}
    (hp : s.pools[q.idx]? = some p) (hq : quote p i a = .ok (q.fee, q.trade, q.actual))
    (hs : SInv s (plus d i a)) (h : applyQuote i a q s = .ok s') :
    SInv s' (plus d (!i) q.actual) := by
  obtain ⟨e1, e2, e3, -, htr⟩ := applyQuote_ok hp h
  obtain ⟨-, -, hact, -, hfee⟩ := quote_ok hq
  obtain ⟨t1, t2, t3, t4, t5, t6⟩ := tradedPool_get p i a q
  have hlt : q.idx < s.pools.length := by
    rw [List.getElem?_eq_some_iff] at hp; exact hp.1
  have hpaid : ∀ j, p.paid.get j ≤ (tradedPool p i a q).paid.get j := by
    intro j
    by_cases hj : j = i
    · subst hj; rw [t3]; exact Nat.le_refl _
    · have hj' : j = !i := by revert hj; cases i <;> cases j <;> decide
      subst hj'; rw [t4]; omega
  have get : ∀ j p', s'.pools[j]? = some p' →
      (j = q.idx ∧ p' = tradedPool p i a q) ∨ (j ≠ q.idx ∧ s.pools[j]? = some p') := by
    intro j p' h
    rw [e1, List.getElem?_set] at h
    split at h
    · rename_i e
      exact Or.inl ⟨e.symm, (Option.some.inj h).symm⟩
    · rename_i e
      exact Or.inr ⟨fun hh => e hh.symm, h⟩
  refine ⟨?_, ?_, ?_, ?_, fun x u hu => by
    rw [e1, List.length_set]; rw [e2] at hu; exact hs.valid x u hu⟩
  · intro j p' h i'
    rcases get j p' h with ⟨-, rfl⟩ | ⟨-, h⟩
    · rw [t6]
      exact Nat.le_trans (hs.claimed _ _ hp i') (hpaid i')
    · exact hs.claimed j p' h i'
  · intro j
    have h1 := hs.solvent j
    have h3 := sum_set (reserve j) s.pools q.idx p (tradedPool p i a q) hp
    rw [e1, e3]
    have hc := hs.claimed _ _ hp j
    by_cases hj : j = i
    · subst hj
      have hk : j ≠ !j := by cases j <;> decide
      have hr : reserve j (tradedPool p j a q) = reserve j p + a := by
        unfold reserve; rw [t1, t3, t6]; omega
      unfold plus at h1 ⊢
      rw [if_pos rfl] at h1
      rw [if_neg hk]
      omega
    · have hj' : j = !i := by revert hj; cases i <;> cases j <;> decide
      subst hj'
      have hr : reserve (!i) (tradedPool p i a q) + q.trade = reserve (!i) p + q.fee := by
        unfold reserve; rw [t2, t4, t6]; omega
      unfold plus at h1 ⊢
      rw [if_neg hj] at h1
      rw [if_pos rfl]
      omega
  · intro j p' h i'
    rw [e2]
    rcases get j p' h with ⟨rfl, rfl⟩ | ⟨-, h⟩
    · rw [t5]; exact hs.totals _ _ hp i'
    · exact hs.totals j p' h i'
  · intro x u p' hu hp' i' hb
    rw [e2] at hu
    rcases get _ p' hp' with ⟨he, rfl⟩ | ⟨-, h⟩
    · exact Nat.le_trans (hs.fees x u p hu (by rw [he]; exact hp) i' hb) (hpaid i')
    · exact hs.fees x u p' hu h i' hb

theorem SInv.congr {s : Swap} {d d' : Bool → Nat} (h : SInv s d) (hd : ∀ i, d' i ≤ d i) :
    SInv s d' := by
  refine ⟨h.claimed, fun i => ?_, h.totals, h.fees, h.valid⟩
  have a := h.solvent i
  have b := hd i
  omega

theorem tradeLoop_inv {i : Bool} {chunk : Nat} : ∀ (n : Nat) (s s' : Swap)
    (left total left' total' : Nat),
    SInv s (plus (plus (fun _ => 0) i left) (!i) total) →
    tradeLoop i chunk n s left total = .ok (s', left', total') →
    SInv s' (plus (plus (fun _ => 0) i left') (!i) total')
  | 0, s, s', left, total, left', total', hs, h => by
    unfold tradeLoop at h
    have e := Res.ok.inj h
    injection e with e1 e2
    injection e2 with e2 e3
    subst e1; subst e2; subst e3
    exact hs
  | n + 1, s, s', left, total, left', total', hs, h => by
    unfold tradeLoop at h
    split at h
    · dsimp only at h
      obtain ⟨bq, hb, h⟩ := Res.bind_eq_ok.1 h
      cases bq with
      | none => exact tradeLoop_inv n s s' left total left' total' hs h
      | some q =>
        dsimp only at h
        obtain ⟨t, h1, h⟩ := Res.bind_eq_ok.1 h
        obtain ⟨z, h2, h⟩ := Res.bind_eq_ok.1 h
        obtain ⟨l, h3, h⟩ := Res.bind_eq_ok.1 h
        obtain ⟨rfl, -⟩ := cadd_ok h1
        obtain ⟨rfl, hle⟩ := csub_ok h3
        obtain ⟨-, p, hp, -, hq⟩ := bestQuote_main hb
        refine tradeLoop_inv n z s' _ _ left' total' ?_ h
        have := applyQuote_inv (d := plus (plus (fun _ => 0) i (left - min chunk left)) (!i) total)
          hp hq (hs.congr (fun j => ?_)) h2
        · refine this.congr (fun j => ?_)
          unfold plus
          cases i <;> cases j <;> simp <;> omega
        · unfold plus
          cases i <;> cases j <;> simp <;> omega
    · have e := Res.ok.inj h
      injection e with e1 e2
      injection e2 with e2 e3
      subst e1; subst e2; subst e3
      exact hs

/-! ### All calls -/

theorem credit_inv {s : Swap} {d : Bool → Nat} (hs : SInv s d) (tok : Bool) (amount : Nat) :
    SInv (credit s tok amount) (plus d tok amount) := by
  refine ⟨hs.claimed, fun i => ?_, hs.totals, hs.fees, hs.valid⟩
  have := hs.solvent i
  unfold credit plus
  dsimp only
  rw [P2.get_set]
  split
  · rename_i e; subst e; omega
  · exact this

theorem side_ok {i : Nat} {b : Bool} (h : side i = .ok b) : i = if b then 1 else 0 := by
  unfold side at h
  split at h
  · have := Res.ok.inj h; subst this; assumption
  · split at h
    · have := Res.ok.inj h; subst this; assumption
    · cases h

theorem swapExec_inv {s s' : Swap} {c : SwapCall} (hs : SInv s (fun _ => 0))
    (h : swapExec s c = .ok s') : SInv s' (fun _ => 0) := by
  cases c with
  | transfer tok amount =>
    have e := (Res.ok.inj h).symm
    subst e
    exact (credit_inv hs tok amount).congr (fun i => Nat.zero_le _)
  | addLiquid me height i idx tok amount =>
    dsimp only [swapExec] at h
    unfold addLiquid at h
    obtain ⟨b, h1, h⟩ := Res.bind_eq_ok.1 h
    rw [Res.chk_bind] at h
    obtain ⟨rfl, h⟩ := h
    exact addLiquidC_inv (credit_inv hs tok amount) h
  | payout me =>
    dsimp only [swapExec] at h
    unfold payout at h
    obtain ⟨x, h1, h⟩ := Res.bind_eq_ok.1 h
    obtain ⟨y, h2, h⟩ := Res.bind_eq_ok.1 h
    have e := (Res.ok.inj h).symm
    subst e
    have hr := payoutC_rel (fun _ => 0) h2
    exact store_inv hs (load_view h1) hr (hr.fees (load_fees hs h1))
  | remLiquid me height i amount dry =>
    dsimp only [swapExec] at h
    unfold remLiquid at h
    obtain ⟨b, h0, h⟩ := Res.bind_eq_ok.1 h
    obtain ⟨x, h1, h⟩ := Res.bind_eq_ok.1 h
    obtain ⟨⟨r, y⟩, h2, h⟩ := Res.bind_eq_ok.1 h
    have e := (Res.ok.inj h).symm
    subst e
    have hr := (remLiquidCtx_rel (fun _ => 0) h2).1
    exact store_inv hs (load_view h1) hr (hr.fees (load_fees hs h1))
  | remAll me height dry =>
    dsimp only [swapExec] at h
    unfold remAllLiquid at h
    obtain ⟨x, h1, h⟩ := Res.bind_eq_ok.1 h
    obtain ⟨y, h2, h⟩ := Res.bind_eq_ok.1 h
    obtain ⟨z, h3, h⟩ := Res.bind_eq_ok.1 h
    obtain ⟨w, h4, h⟩ := Res.bind_eq_ok.1 h
    have e := (Res.ok.inj h).symm
    subst e
    have hr := ((payoutC_rel (fun _ => 0) h2).trans (remAllSide_rel _ h3)).trans (remAllSide_rel _ h4)
    exact store_inv hs (load_view h1) hr (hr.fees (load_fees hs h1))
  | switchPool me height idx =>
    dsimp only [swapExec] at h
    unfold switchPool at h
    rw [Res.chk_bind] at h
    obtain ⟨-, h⟩ := h
    obtain ⟨x, h1, h⟩ := Res.bind_eq_ok.1 h
    rw [Res.chk_bind] at h
    obtain ⟨-, h⟩ := h
    obtain ⟨y, h2, h⟩ := Res.bind_eq_ok.1 h
    obtain ⟨⟨acc, z⟩, h3, h⟩ := Res.bind_eq_ok.1 h
    obtain ⟨⟨acc', w⟩, h4, h⟩ := Res.bind_eq_ok.1 h
    obtain ⟨v, h5, h⟩ := Res.bind_eq_ok.1 h
    have hz : P2.zero.get = fun _ => 0 := by funext i; exact P2.get_zero i
    have r0 := payoutC_rel (fun _ => 0) h2
    have r1 := switchOut_rel h3
    have r2 := switchOut_rel h4
    rw [hz] at r1
    have hr := (r0.trans r1).trans r2
    have s1 := store_inv hs (load_view h1) hr (hr.fees (load_fees hs h1))
    have step : ∀ (i : Bool) (n : Nat) (d : Bool → Nat) (a b : Swap), SInv a (plus d i n) →
        switchIn me height idx i n a = .ok b → SInv b d := by
      intro i n d a b ha hab
      unfold switchIn at hab
      split at hab
      · exact addLiquidC_inv ha hab
      · have e := (Res.ok.inj hab).symm
        subst e
        exact ha.congr (fun j => by unfold plus; split <;> omega)
    refine step true (acc'.get true) _ v s' (step false (acc'.get false) _ _ v (s1.congr fun j => ?_) h5) h
    unfold plus
    cases j <;> simp
  | trade i dst m n tok amount =>
    dsimp only [swapExec] at h
    unfold trade at h
    obtain ⟨b, h0, h⟩ := Res.bind_eq_ok.1 h
    rw [Res.chk_bind, Res.chk_bind] at h
    obtain ⟨-, rfl, h⟩ := h
    obtain ⟨n1, -, h⟩ := Res.bind_eq_ok.1 h
    obtain ⟨n2, -, h⟩ := Res.bind_eq_ok.1 h
    obtain ⟨chunk, -, h⟩ := Res.bind_eq_ok.1 h
    obtain ⟨⟨z, left, total⟩, h1, h⟩ := Res.bind_eq_ok.1 h
    dsimp only at h
    rw [Res.chk_bind, Res.chk_bind, Res.chk_bind, Res.chk_bind] at h
    obtain ⟨rfl, -, -, -, h⟩ := h
    obtain ⟨cc, h2, h⟩ := Res.bind_eq_ok.1 h
    obtain ⟨rfl, hle⟩ := csub_ok h2
    have e := (Res.ok.inj h).symm
    subst e
    have hz := tradeLoop_inv n _ z amount 0 0 total
      ((credit_inv hs tok amount).congr (fun j => by unfold plus; cases tok <;> cases j <;> simp)) h1
    refine ⟨hz.claimed, fun j => ?_, hz.totals, hz.fees, hz.valid⟩
    have := hz.solvent j
    dsimp only
    rw [P2.get_set]
    unfold plus at this
    split
    · rename_i e; subst e
      rw [if_pos rfl] at this
      split at this <;> omega
    · omega

theorem swapInit_inv : SInv swapInit (fun _ => 0) := by
  have hp : ∀ (j : Nat) (p : Pool), swapInit.pools[j]? = some p →
      p.bal = .zero ∧ p.tot = .zero ∧ p.paid = .zero ∧ p.claimed = .zero := by
    intro j p h
    have hm := List.mem_of_getElem? h
    unfold swapInit at hm
    rw [List.mem_map] at hm
    obtain ⟨r, -, rfl⟩ := hm
    exact ⟨rfl, rfl, rfl, rfl⟩
  refine ⟨fun j p h i => ?_, fun i => ?_, fun j p h i => ?_, fun a u p hu => (by cases hu),
    fun a u hu => (by cases hu)⟩
  · obtain ⟨-, -, h3, h4⟩ := hp j p h
    rw [h3, h4]; exact Nat.le_refl _
  · cases i <;> decide
  · obtain ⟨-, h2, -, -⟩ := hp j p h
    rw [h2, P2.get_zero]; rfl

theorem swapStep_inv {s : Swap} {c : SwapCall} (hs : SInv s (fun _ => 0)) :
    SInv (swapStep s c) (fun _ => 0) := by
  unfold swapStep
  split
  · rename_i s' h; exact swapExec_inv hs h
  · exact hs

theorem swapRun_inv : ∀ (l : List SwapCall) {s : Swap}, SInv s (fun _ => 0) →
    SInv (swapRun s l) (fun _ => 0)
  | [], _, hs => hs
  | c :: l, _, hs => swapRun_inv l (swapStep_inv (c := c) hs)

end Verif.Contract
