/-
  C146: the liquidity that a node reports for a user is the one that the exchange has.
-/
import Verif.Index.Liquid
import Verif.Contract.PropsSwap

namespace Verif.Index

open Verif.Contract

/-! ### the record -/

theorem find_put (k k' : Nat × Nat) (v : P2) : ∀ r : Liquid, findL k' (putL k v r) = if k' = k then some v else findL k' r
  | [] => by
    show (if k = k' then some v else none) = _
    by_cases h : k' = k
    · rw [if_pos h, if_pos h.symm]
    · rw [if_neg h, if_neg fun e => h e.symm]; rfl
  | (a, b) :: r => by
    unfold putL
    by_cases h : a = k
    · rw [if_pos h]
      show (if a = k' then some v else findL k' r) = if k' = k then some v else if a = k' then some b else findL k' r
      by_cases h' : k' = k
      · rw [if_pos h', if_pos (h.trans h'.symm)]
      · rw [if_neg h', if_neg fun e => h' (e.symm.trans h), if_neg fun e => h' (e.symm.trans h)]
    · rw [if_neg h]
      show (if a = k' then some b else findL k' (putL k v r)) = if k' = k then some v else if a = k' then some b else findL k' r
      rw [find_put k k' v r]
      by_cases h' : a = k'
      · rw [if_pos h', if_pos h', if_neg fun e => h (h'.trans e)]
      · rw [if_neg h', if_neg h']

theorem bal_put (k k' : Nat × Nat) (v : P2) (r : Liquid) : balL k' (putL k v r) = if k' = k then v else balL k' r := by
  unfold balL
  rw [find_put]
  by_cases h : k' = k
  · rw [if_pos h, if_pos h]
  · rw [if_neg h, if_neg h]

/-! ### the exchange -/

theorem held_of {s : Swap} {me : Nat} {u : User} (h : lookupU s.users me = some u) (i : Bool) : held s me i = u.bal.get i := by
  unfold held
  rw [h]

theorem held_users {s s' : Swap} (h : s'.users = s.users) (me : Nat) (i : Bool) : held s' me i = held s me i := by
  unfold held
  rw [h]

theorem held_store (s : Swap) (me a : Nat) (y : Ctx) (i : Bool) :
    held (storeCtx s me y) a i = if a = me then y.user.bal.get i else held s a i := by
  unfold held
  rw [lookup_store]
  by_cases h : a = me
  · rw [if_pos h, if_pos h]
  · rw [if_neg h, if_neg h]

theorem credit_users (s : Swap) (tok : Bool) (n : Nat) : (credit s tok n).users = s.users := rfl

/-- `_add_liquid` adds to the liquidity of the caller, on one side. -/
theorem add_held {s s' : Swap} {me height idx amount : Nat} {i : Bool} (h : addLiquidC s me height i idx amount = .ok s')
    (a : Nat) (j : Bool) : held s' a j = held s a j + if a = me ∧ j = i then amount else 0 := by
  unfold addLiquidC at h
  obtain ⟨y, h1, h⟩ := Res.bind_eq_ok.1 h
  obtain ⟨z, h2, h⟩ := Res.bind_eq_ok.1 h
  have e := (Res.ok.inj h).symm
  subst e
  rw [held_store]
  by_cases ha : a = me
  · subst ha
    rw [if_pos rfl]
    have hy : y.user.bal.get j = held s a j := by
      unfold held
      split at h1
      · cases h1
      · split at h1
        · rename_i hn
          have e := (Res.ok.inj h1).symm
          subst e
          rw [hn]
          exact P2.get_zero j
        · rename_i v hv
          rw [hv]
          split at h1
          · split at h1
            · rw [(payoutC_same h1).1]
            · cases h1
          · have e := (Res.ok.inj h1).symm
            subst e
            rfl
    unfold creditC at h2
    obtain ⟨k1, -, h2⟩ := Res.bind_eq_ok.1 h2
    obtain ⟨k2, -, h2⟩ := Res.bind_eq_ok.1 h2
    obtain ⟨k3, g3, h2⟩ := Res.bind_eq_ok.1 h2
    obtain ⟨k4, -, h2⟩ := Res.bind_eq_ok.1 h2
    obtain ⟨e3, -⟩ := cadd_ok g3
    have e := (Res.ok.inj h2).symm
    subst e
    dsimp only
    rw [P2.get_set, e3]
    by_cases hj : j = i
    · subst hj; rw [if_pos rfl, if_pos ⟨rfl, rfl⟩, hy]
    · rw [if_neg hj, if_neg fun z => hj z.2, hy]; rfl
  · rw [if_neg ha, if_neg fun z => ha z.1]; rfl

theorem load_held {s : Swap} {me : Nat} {x : Ctx} (h : loadCtx s me = .ok x) (j : Bool) : x.user.bal.get j = held s me j :=
  (held_of (loadCtx_some h).1 j).symm

theorem rem_ctx {me height amount : Nat} {i dry : Bool} {x y : Ctx} {r : Nat × Nat}
    (h : remLiquidCtx me height i amount dry x = .ok (r, y)) : amount ≤ x.user.bal.get i ∧
    ∀ j, y.user.bal.get j = if j = i then x.user.bal.get j - amount else x.user.bal.get j := by
  unfold remLiquidCtx at h
  rw [Res.chk_bind, Res.chk_bind, Res.chk_bind] at h
  obtain ⟨-, -, ha, h⟩ := h
  obtain ⟨r1, r2⟩ := r
  exact ⟨ha, (remLiquidC_rel (fun _ => 0) h).2.2.1⟩

theorem all_side {me height : Nat} {i dry : Bool} {x y : Ctx} (h : remAllSide me height dry i x = .ok y) :
    ∀ j, y.user.bal.get j = if j = i then 0 else x.user.bal.get j := by
  intro j
  unfold remAllSide at h
  by_cases hp : x.user.bal.get i > 0
  · rw [if_pos hp] at h
    obtain ⟨⟨r, z⟩, h1, h⟩ := Res.bind_eq_ok.1 h
    have e := (Res.ok.inj h).symm
    subst e
    rw [(rem_ctx h1).2 j]
    by_cases hj : j = i
    · subst hj; rw [if_pos rfl, if_pos rfl, Nat.sub_self]
    · rw [if_neg hj, if_neg hj]
  · rw [if_neg hp] at h
    have e := (Res.ok.inj h).symm
    subst e
    by_cases hj : j = i
    · subst hj; rw [if_pos rfl]; omega
    · rw [if_neg hj]

/-- A call changes nothing for others than the caller. -/
theorem held_other {s s' : Swap} {c : SwapCall} (h : swapExec s c = .ok s') {a : Nat} (ha : caller c ≠ some a) (j : Bool) :
    held s' a j = held s a j := by
  cases c with
  | transfer tok amount =>
    have e := (Res.ok.inj h).symm
    subst e
    rfl
  | addLiquid me height i idx tok amount =>
    have hm : a ≠ me := fun e => ha (congrArg some e.symm)
    dsimp only [swapExec] at h
    unfold addLiquid at h
    obtain ⟨b, _, h⟩ := Res.bind_eq_ok.1 h
    rw [Res.chk_bind] at h
    rw [add_held h.2, if_neg fun z => hm z.1]
    rfl
  | payout me =>
    have hm : a ≠ me := fun e => ha (congrArg some e.symm)
    dsimp only [swapExec] at h
    unfold payout at h
    obtain ⟨x, _, h⟩ := Res.bind_eq_ok.1 h
    obtain ⟨y, _, h⟩ := Res.bind_eq_ok.1 h
    have e := (Res.ok.inj h).symm
    subst e
    rw [held_store, if_neg hm]
  | remLiquid me height i amount dry =>
    have hm : a ≠ me := fun e => ha (congrArg some e.symm)
    dsimp only [swapExec] at h
    unfold remLiquid at h
    obtain ⟨b, _, h⟩ := Res.bind_eq_ok.1 h
    obtain ⟨x, _, h⟩ := Res.bind_eq_ok.1 h
    obtain ⟨⟨r, y⟩, _, h⟩ := Res.bind_eq_ok.1 h
    have e := (Res.ok.inj h).symm
    subst e
    rw [held_store, if_neg hm]
  | remAll me height dry =>
    have hm : a ≠ me := fun e => ha (congrArg some e.symm)
    dsimp only [swapExec] at h
    unfold remAllLiquid at h
    obtain ⟨x, _, h⟩ := Res.bind_eq_ok.1 h
    obtain ⟨y, _, h⟩ := Res.bind_eq_ok.1 h
    obtain ⟨z, _, h⟩ := Res.bind_eq_ok.1 h
    obtain ⟨w, _, h⟩ := Res.bind_eq_ok.1 h
    have e := (Res.ok.inj h).symm
    subst e
    rw [held_store, if_neg hm]
  | switchPool me height idx =>
    have hm : a ≠ me := fun e => ha (congrArg some e.symm)
    dsimp only [swapExec] at h
    unfold switchPool at h
    rw [Res.chk_bind] at h
    obtain ⟨-, h⟩ := h
    obtain ⟨x, _, h⟩ := Res.bind_eq_ok.1 h
    rw [Res.chk_bind] at h
    obtain ⟨_, h⟩ := h
    obtain ⟨y, _, h⟩ := Res.bind_eq_ok.1 h
    obtain ⟨⟨acc, z⟩, _, h⟩ := Res.bind_eq_ok.1 h
    obtain ⟨⟨acc', w⟩, _, h⟩ := Res.bind_eq_ok.1 h
    obtain ⟨v, h5, h⟩ := Res.bind_eq_ok.1 h
    have one : ∀ (i : Bool) (n : Nat) (p q : Swap), switchIn me height idx i n p = .ok q → held q a j = held p a j := by
      intro i n p q hh
      unfold switchIn at hh
      by_cases hp : n > 0
      · rw [if_pos hp] at hh
        rw [add_held hh, if_neg fun z => hm z.1]
        rfl
      · rw [if_neg hp] at hh
        have e := (Res.ok.inj hh).symm
        subst e
        rfl
    rw [one _ _ _ _ h, one _ _ _ _ h5, held_store, if_neg hm]
  | trade i dst m n tok amount =>
    dsimp only [swapExec] at h
    unfold trade at h
    obtain ⟨b, h0, h⟩ := Res.bind_eq_ok.1 h
    rw [Res.chk_bind, Res.chk_bind] at h
    obtain ⟨-, -, h⟩ := h
    obtain ⟨n1, -, h⟩ := Res.bind_eq_ok.1 h
    obtain ⟨n2, -, h⟩ := Res.bind_eq_ok.1 h
    obtain ⟨chunk, -, h⟩ := Res.bind_eq_ok.1 h
    obtain ⟨⟨z, left, total⟩, h1, h⟩ := Res.bind_eq_ok.1 h
    dsimp only at h
    rw [Res.chk_bind, Res.chk_bind, Res.chk_bind, Res.chk_bind] at h
    obtain ⟨-, -, -, -, h⟩ := h
    obtain ⟨cc, h2, h⟩ := Res.bind_eq_ok.1 h
    have e := (Res.ok.inj h).symm
    subst e
    have hu : z.users = (credit s tok amount).users := tradeLoop_users _ _ _ _ _ _ _ h1
    exact held_users (s := s) (show z.users = s.users from hu) a j

/-! ### both together -/

theorem side_lt {i : Nat} {b : Bool} (h : side i = .ok b) : i < 2 ∧ (i == 1) = b := by
  have := side_ok h
  cases b with
  | true => rw [if_pos rfl] at this; subst this; exact ⟨by decide, rfl⟩
  | false => rw [if_neg Bool.false_ne_true] at this; subst this; exact ⟨by decide, rfl⟩

theorem minus_mod {x n : Nat} (h : n ≤ x) : (x % 2 ^ 128 + (2 ^ 128 - n % 2 ^ 128)) % 2 ^ 128 = (x - n) % 2 ^ 128 := by
  omega

/-- The record of a user is that of the exchange after a call that is recorded as it is. -/
theorem record_step {s s' : Swap} {c : Call} (h : swapExec s c.call = .ok s') {me : Nat} (hm : caller c.call = some me)
    (hp : c.plain = true) {r : Liquid} (hr : ∀ i, (balL (me, c.addr) r).get i = held s me i % 2 ^ 128) (j : Bool) :
    (balL (me, c.addr) (record c r)).get j = held s' me j % 2 ^ 128 := by
  obtain ⟨addr, self, call, bare⟩ := c
  have hs : self = false := by
    cases self with
    | false => rfl
    | true => unfold Call.plain at hp; cases hp
  subst hs
  have hk : ∀ a, (⟨addr, false, call, bare⟩ : Call).key a = (a, addr) := fun _ => rfl
  dsimp only at h hm hr ⊢
  cases call with
  | transfer => cases hm
  | trade => cases hm
  | switchPool => unfold Call.plain at hp; cases hp
  | addLiquid a height i idx tok amount =>
    cases hm
    dsimp only [swapExec] at h
    unfold addLiquid at h
    obtain ⟨b, h1, h⟩ := Res.bind_eq_ok.1 h
    rw [Res.chk_bind] at h
    obtain ⟨hl, hb⟩ := side_lt h1
    unfold record
    dsimp only
    rw [if_pos hl, hk, bal_put, if_pos rfl, hb, add_held h.2]
    unfold plusAt
    rw [P2.get_set, hr]
    have e : held (credit s tok amount) me j = held s me j := rfl
    rw [e]
    by_cases hj : j = b
    · subst hj; rw [if_pos rfl, if_pos ⟨rfl, rfl⟩, Nat.mod_add_mod]
    · rw [if_neg hj, if_neg fun z => hj z.2, hr]; rfl
  | payout a =>
    cases hm
    dsimp only [swapExec] at h
    unfold payout at h
    obtain ⟨x, h1, h⟩ := Res.bind_eq_ok.1 h
    obtain ⟨y, h2, h⟩ := Res.bind_eq_ok.1 h
    have e := (Res.ok.inj h).symm
    subst e
    show (balL (me, addr) r).get j = _
    rw [held_store, if_pos rfl, (payoutC_same h2).1, load_held h1, hr]
  | remLiquid a height i amount dry =>
    cases hm
    dsimp only [swapExec] at h
    unfold remLiquid at h
    obtain ⟨b, h1, h⟩ := Res.bind_eq_ok.1 h
    obtain ⟨x, h2, h⟩ := Res.bind_eq_ok.1 h
    obtain ⟨⟨q, y⟩, h3, h⟩ := Res.bind_eq_ok.1 h
    have e := (Res.ok.inj h).symm
    subst e
    obtain ⟨hl, hb⟩ := side_lt h1
    obtain ⟨g1, g2⟩ := rem_ctx h3
    unfold record
    dsimp only
    rw [if_pos hl, hk, bal_put, if_pos rfl, hb, held_store, if_pos rfl, g2]
    unfold minusAt
    rw [P2.get_set, hr]
    rw [load_held h2] at g1
    by_cases hj : j = b
    · subst hj; rw [if_pos rfl, if_pos rfl, load_held h2, minus_mod g1]
    · rw [if_neg hj, if_neg hj, load_held h2, hr]
  | remAll a height dry =>
    cases hm
    dsimp only [swapExec] at h
    unfold remAllLiquid at h
    obtain ⟨x, h1, h⟩ := Res.bind_eq_ok.1 h
    obtain ⟨y, h2, h⟩ := Res.bind_eq_ok.1 h
    obtain ⟨z, h3, h⟩ := Res.bind_eq_ok.1 h
    obtain ⟨w, h4, h⟩ := Res.bind_eq_ok.1 h
    have e := (Res.ok.inj h).symm
    subst e
    have hn : bare = false := by
      cases bare with
      | false => rfl
      | true => unfold Call.plain at hp; cases hp
    subst hn
    unfold record
    dsimp only
    rw [if_neg Bool.false_ne_true, hk, bal_put, if_pos rfl, held_store, if_pos rfl, P2.get_zero, all_side h4, all_side h3]
    cases j <;> rfl

/-- Calls do not touch the record of others, nor that for another exchange. -/
theorem record_other {c : Call} {me addr : Nat} (h : caller c.call ≠ some me ∨ (if c.self then 0 else c.addr) ≠ addr)
    (r : Liquid) : balL (me, addr) (record c r) = balL (me, addr) r := by
  have hk : ∀ a, caller c.call = some a → (me, addr) ≠ c.key a := by
    intro a ha e
    have e1 : me = a := congrArg (·.1) e
    have e2 : addr = if c.self then 0 else c.addr := congrArg (·.2) e
    rcases h with h | h
    · exact h (ha.trans (congrArg some e1.symm))
    · exact h e2.symm
  unfold record
  cases hc : c.call with
  | transfer => rfl
  | trade => rfl
  | payout => rfl
  | switchPool => rfl
  | addLiquid a height i idx tok amount =>
    dsimp only
    by_cases hi : i < 2
    · rw [if_pos hi, bal_put, if_neg (hk a (by rw [hc]; rfl))]
    · rw [if_neg hi]
  | remLiquid a height i amount dry =>
    dsimp only
    by_cases hi : i < 2
    · rw [if_pos hi, bal_put, if_neg (hk a (by rw [hc]; rfl))]
    · rw [if_neg hi]
  | remAll a height dry =>
    dsimp only
    cases c.bare with
    | true => rfl
    | false => rw [if_neg Bool.false_ne_true, bal_put, if_neg (hk a (by rw [hc]; rfl))]

theorem run_held (me addr : Nat) (h0 : addr ≠ 0) : ∀ (cs : List Call) (w : World),
    (∀ c ∈ cs, caller c.call = some me → c.addr = addr → c.plain = true) →
    (∀ i, (balL (me, addr) w.liquid).get i = held (w.swaps addr) me i % 2 ^ 128) →
    ∀ i, (balL (me, addr) (cs.foldl World.step w).liquid).get i = held ((cs.foldl World.step w).swaps addr) me i % 2 ^ 128
  | [], _, _, h => h
  | c :: cs, w, hp, h => by
    refine run_held me addr h0 cs (w.step c) (fun c hc => hp c (List.mem_cons_of_mem _ hc)) fun i => ?_
    unfold World.step
    cases hx : swapExec (w.swaps c.addr) c.call with
    | throw => exact h i
    | ub => exact h i
    | ok s =>
      dsimp only
      by_cases ha : addr = c.addr
      · rw [if_pos ha]
        by_cases hm : caller c.call = some me
        · have hc := hp c List.mem_cons_self hm ha.symm
          subst ha
          exact record_step hx hm hc h i
        · rw [record_other (.inl hm), held_other hx hm, h]
          rw [ha]
      · rw [if_neg ha, record_other, h]
        refine .inr fun e => ?_
        cases hs : c.self with
        | true => rw [hs, if_pos rfl] at e; exact h0 e.symm
        | false => rw [hs, if_neg Bool.false_ne_true] at e; exact ha e.symm

/-- **C146.** After any calls of anyone to any exchanges: what is recorded for a user at an exchange is the liquidity that
    the exchange has for them, if they never switched pools there, named the exchange by its address and gave
    `rem_all_liquid` its argument. -/
theorem C146_recorded_partial (cs : List Call) (me addr : Nat) (h0 : addr ≠ 0)
    (hp : ∀ c ∈ cs, caller c.call = some me → c.addr = addr → c.plain = true) (i : Bool) :
    (balL (me, addr) (World.run cs).liquid).get i = held ((World.run cs).swaps addr) me i % 2 ^ 128 :=
  run_held me addr h0 cs World.init hp (fun i => by cases i <;> rfl) i

theorem record_keys {c : Call} {r : Liquid} {e : (Nat × Nat) × P2} (h : e ∈ record c r) :
    e ∈ r ∨ ∃ me, caller c.call = some me ∧ e.1 = c.key me := by
  have put : ∀ (k : Nat × Nat) (v : P2) (l : Liquid), e ∈ putL k v l → e ∈ l ∨ e.1 = k := by
    intro k v l
    induction l with
    | nil => intro h; rw [List.mem_singleton.1 h]; exact .inr rfl
    | cons x l ih =>
      intro h
      obtain ⟨a, b⟩ := x
      unfold putL at h
      by_cases ha : a = k
      · rw [if_pos ha] at h
        rcases List.mem_cons.1 h with h | h
        · rw [h]; exact .inr ha
        · exact .inl (List.mem_cons_of_mem _ h)
      · rw [if_neg ha] at h
        rcases List.mem_cons.1 h with h | h
        · rw [h]; exact .inl List.mem_cons_self
        · exact (ih h).imp (List.mem_cons_of_mem _) id
  unfold record at h
  cases hc : c.call with
  | transfer => rw [hc] at h; exact .inl h
  | trade => rw [hc] at h; exact .inl h
  | payout => rw [hc] at h; exact .inl h
  | switchPool => rw [hc] at h; exact .inl h
  | addLiquid a height i idx tok amount =>
    rw [hc] at h
    dsimp only at h
    by_cases hi : i < 2
    · rw [if_pos hi] at h
      exact (put _ _ _ h).imp id fun e => ⟨a, rfl, e⟩
    · rw [if_neg hi] at h; exact .inl h
  | remLiquid a height i amount dry =>
    rw [hc] at h
    dsimp only at h
    by_cases hi : i < 2
    · rw [if_pos hi] at h
      exact (put _ _ _ h).imp id fun e => ⟨a, rfl, e⟩
    · rw [if_neg hi] at h; exact .inl h
  | remAll a height dry =>
    rw [hc] at h
    dsimp only at h
    cases hb : c.bare with
    | true => rw [hb] at h; exact .inl h
    | false =>
      rw [hb, if_neg Bool.false_ne_true] at h
      exact (put _ _ _ h).imp id fun e => ⟨a, rfl, e⟩

theorem run_keys {me : Nat} {P : Nat → Prop} : ∀ (cs : List Call) (w : World),
    (∀ c ∈ cs, caller c.call = some me → P (if c.self then 0 else c.addr)) →
    (∀ e ∈ w.liquid, e.1.1 = me → P e.1.2) → ∀ e ∈ (cs.foldl World.step w).liquid, e.1.1 = me → P e.1.2
  | [], _, _, h => h
  | c :: cs, w, hp, h => by
    refine run_keys cs (w.step c) (fun c hc => hp c (List.mem_cons_of_mem _ hc)) fun e he hm => ?_
    unfold World.step at he
    cases hx : swapExec (w.swaps c.addr) c.call with
    | throw => rw [hx] at he; exact h e he hm
    | ub => rw [hx] at he; exact h e he hm
    | ok s =>
      rw [hx] at he
      rcases record_keys he with he | ⟨a, ha, hk⟩
      · exact h e he hm
      · rw [hk] at hm ⊢
        have hm : a = me := hm
        subst hm
        exact hp c List.mem_cons_self ha

/-- **C146.** A wallet is told the sum over its addresses, for every exchange, under the same conditions. -/
theorem C146_reported_partial (cs : List Call) (exists_ : Nat → Bool) (addresses : List Nat)
    (hp : ∀ c ∈ cs, ∀ me ∈ addresses, caller c.call = some me → c.plain = true ∧ exists_ c.addr = true)
    (h0 : exists_ 0 = false) :
    ∃ f, liquidityBy exists_ addresses (World.run cs).liquid = some f ∧ ∀ addr, exists_ addr = true → ∀ i,
      f addr i = (addresses.map fun a => held ((World.run cs).swaps addr) a i % 2 ^ 128).sum % 2 ^ 128 := by
  refine ⟨total addresses (World.run cs).liquid, ?_, fun addr ha i => ?_⟩
  · unfold liquidityBy
    rw [if_pos]
    rw [List.all_eq_true]
    intro e he
    by_cases hm : e.1.1 ∈ addresses
    · have := run_keys (me := e.1.1) (P := fun a => exists_ a = true) cs World.init
        (fun c hc hcall => by
          obtain ⟨p, q⟩ := hp c hc _ hm hcall
          cases hs : c.self with
          | false => exact q
          | true => unfold Call.plain at p; rw [hs] at p; cases p)
        (fun e he _ => absurd he List.not_mem_nil) e he rfl
      rw [this, Bool.or_true]
    · rw [Bool.or_eq_true]
      refine .inl ?_
      have : addresses.contains e.1.1 = false := by
        cases hb : addresses.contains e.1.1 with
        | false => rfl
        | true => exact absurd (List.contains_iff_mem.1 hb) hm
      rw [this]
      rfl
  · unfold total
    congr 2
    refine List.map_congr_left fun a hmem => ?_
    exact C146_recorded_partial cs a addr (fun e => by rw [e, h0] at ha; cases ha)
      (fun c hc hcall _ => (hp c hc a hmem hcall).1) i

/-! ### concrete cases, and where it is false -/

/-- A call to the exchange 5 by its address. -/
def to5 (c : SwapCall) : Call := ⟨5, false, c, false⟩

def exCalls : List Call :=
  [to5 (.addLiquid 7 100 0 0 false 1000), to5 (.addLiquid 7 100 1 0 true 5000), to5 (.addLiquid 8 100 1 0 true 10),
   to5 (.remLiquid 7 9000 0 400 false), to5 (.remLiquid 7 9000 0 4000 false), to5 (.remAll 8 9000 false)]

example : (liquidityBy (· == 5) [7, 8] (World.run exCalls).liquid).map (fun f => (f 5 false, f 5 true)) =
    some (600, 5000) := by decide +kernel

example : ∃ f, liquidityBy (· == 5) [7, 8] (World.run exCalls).liquid = some f ∧ ∀ addr, (addr == 5) = true → ∀ i,
    f addr i = ([7, 8].map fun a => held ((World.run exCalls).swaps addr) a i % 2 ^ 128).sum % 2 ^ 128 :=
  C146_reported_partial exCalls _ _ (by
    intro c hc me _ hx
    clear hx
    have : c.plain = true ∧ c.addr = 5 := by
      revert c
      unfold exCalls
      simp only [List.mem_cons, List.not_mem_nil, or_false, forall_eq_or_imp, forall_eq]
      exact ⟨⟨rfl, rfl⟩, ⟨rfl, rfl⟩, ⟨rfl, rfl⟩, ⟨rfl, rfl⟩, ⟨rfl, rfl⟩, ⟨rfl, rfl⟩⟩
    rw [this.2]
    exact ⟨this.1, rfl⟩) rfl

/-- **C146.** False after `rem_all_liquid` without argument: the node goes on to report what was taken out. -/
theorem C146_remove_all : ∃ cs : List Call,
    cs = [to5 (.addLiquid 7 100 0 0 false 1000), ⟨5, false, .remAll 7 9000 false, true⟩] ∧
    held ((World.run cs).swaps 5) 7 false = 0 ∧ (balL (7, 5) (World.run cs).liquid).get false = 1000 :=
  ⟨_, rfl, by decide +kernel, by decide +kernel⟩

/-- **C146.** False after `switch_pool`: a part of the liquidity has become the other coin.  When this is taken out, the
    record falls below zero, and an amount near 2^128 is reported. -/
theorem C146_switch : ∃ cs : List Call,
    cs = [to5 (.addLiquid 7 100 0 0 false 1000), to5 (.addLiquid 8 100 1 0 true 1000),
      to5 (.trade 1 9 none 1 true 100), to5 (.switchPool 7 9000 1)] ∧
    (held ((World.run cs).swaps 5) 7 false, held ((World.run cs).swaps 5) 7 true) = (909, 100) ∧
    balL (7, 5) (World.run cs).liquid = ⟨1000, 0⟩ ∧
    balL (7, 5) (World.run (cs ++ [to5 (.remLiquid 7 20000 1 100 false)])).liquid = ⟨1000, 2 ^ 128 - 100⟩ :=
  ⟨_, rfl, by decide +kernel, by decide +kernel, by decide +kernel⟩

/-- **C146.** False when liquidity is added by the transaction that deploys the exchange: it is recorded for the zero
    address, which is not that of an exchange, and from then on every query for the user throws. -/
theorem C146_deploy : ∃ cs : List Call, cs = [⟨5, true, .addLiquid 7 100 0 0 false 1000, false⟩] ∧
    held ((World.run cs).swaps 5) 7 false = 1000 ∧ balL (7, 5) (World.run cs).liquid = ⟨0, 0⟩ ∧
    (liquidityBy (· == 5) [7] (World.run cs).liquid).isNone = true :=
  ⟨_, rfl, by decide +kernel, by decide +kernel, by decide +kernel⟩

end Verif.Index
