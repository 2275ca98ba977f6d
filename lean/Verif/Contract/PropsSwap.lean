import Verif.Contract.SwapLemmas
/-
  C40, C41, C50, C51, C52: the exchange contract.
-/
namespace Verif.Contract

/-! ### C40: solvency -/

/-- C40. After any sequence of calls by anybody (successful or not), the contract holds, of each of
    the two tokens, at least the sum of all pool balances and all unclaimed fees; no pool has paid
    out more fees than it took; and the liquidity of every pool is the sum of what its users have. -/
theorem C40_solvent (calls : List SwapCall) :
    let s := swapRun swapInit calls
    (∀ i, (s.pools.map (fun p => p.bal.get i + (p.paid.get i - p.claimed.get i))).sum ≤ s.coins.get i)
    ∧ (∀ (j : Nat) (p : Pool), s.pools[j]? = some p → ∀ i,
        p.claimed.get i ≤ p.paid.get i
        ∧ (s.users.map (fun x => if x.2.pool = j then x.2.bal.get i else 0)).sum = p.tot.get i) := by
  have h := swapRun_inv calls swapInit_inv
  exact ⟨fun i => h.solvent i, fun j p hp i => ⟨h.claimed j p hp i, h.totals j p hp i⟩⟩

theorem div_share {b a t r : Nat} (hr : r = b * a / t) : r * t ≤ b * a := by
  subst hr; exact Nat.div_mul_le_self ..

theorem remAmounts_share {p : Pool} {i : Bool} {amount ret tr : Nat}
    (h : remAmounts p i amount = .ok (ret, tr)) :
    0 < p.tot.get i ∧ ret * p.tot.get i ≤ p.bal.get i * amount
    ∧ tr * p.tot.get i ≤ (p.bal.get (!i) - p.tot.get (!i)) * amount := by
  unfold remAmounts at h
  dsimp only at h
  obtain ⟨n, h1, h'⟩ := Res.bind_eq_ok.1 h
  clear h
  obtain ⟨r, h2, h⟩ := Res.bind_eq_ok.1 h'
  clear h'
  obtain ⟨rfl, -⟩ := cmul_ok h1
  obtain ⟨hr, ht⟩ := cdiv_ok h2
  have ht' : 0 < p.tot.get i := Nat.pos_of_ne_zero ht
  have hz : 0 * p.tot.get i ≤ (p.bal.get (!i) - p.tot.get (!i)) * amount := by
    rw [Nat.zero_mul]; exact Nat.zero_le _
  split at h
  · split at h
    · obtain ⟨d, h3, k⟩ := Res.bind_eq_ok.1 h
      clear h
      obtain ⟨m, h4, k'⟩ := Res.bind_eq_ok.1 k
      clear k
      obtain ⟨t, h5, h⟩ := Res.bind_eq_ok.1 k'
      clear k'
      obtain ⟨rfl, -⟩ := csub_ok h3
      obtain ⟨rfl, -⟩ := cmul_ok h4
      obtain ⟨ht5, -⟩ := cdiv_ok h5
      have e := Res.ok.inj h
      injection e with e1 e2
      subst e1; subst e2
      exact ⟨ht', div_share hr, div_share ht5⟩
    · have e := Res.ok.inj h
      injection e with e1 e2
      subst e1; subst e2
      exact ⟨ht', div_share hr, hz⟩
  · rename_i hge
    split at h
    · have e := Res.ok.inj h
      injection e with e1 e2
      subst e1; subst e2
      refine ⟨ht', ?_, hz⟩
      rw [Nat.mul_comm]
      exact Nat.mul_le_mul_right _ (by omega)
    · have e := Res.ok.inj h
      injection e with e1 e2
      subst e1; subst e2
      exact ⟨ht', div_share hr, hz⟩

theorem loadCtx_some {s : Swap} {me : Nat} {x : Ctx} (h : loadCtx s me = .ok x) :
    lookupU s.users me = some x.user ∧ s.pools[x.user.pool]? = some x.pool ∧ x.idx = x.user.pool
      ∧ x.coins = s.coins ∧ x.outs = s.outs := by
  unfold loadCtx at h
  split at h
  · cases h
  · rename_i u hu
    split at h
    · cases h
    · rename_i p hp
      have e := (Res.ok.inj h).symm
      subst e
      exact ⟨hu, hp, rfl, rfl, rfl⟩

theorem loadCtx_of {s : Swap} {me : Nat} {u : User} {p : Pool} (hu : lookupU s.users me = some u)
    (hp : s.pools[u.pool]? = some p) : loadCtx s me = .ok ⟨u.pool, p, u, s.coins, s.outs⟩ := by
  unfold loadCtx
  rw [hu]
  dsimp only
  rw [hp]

/-- C40, share. Removing liquidity gives at most the proportional share of the pool: with `b`, `t`
    the balance and the total liquidity of the token, and `b'`, `t'` afterwards, `b/t ≤ b'/t'`, so
    nobody else's share shrinks. Of the other token only what was bought above the liquidity of that
    token can be taken. What leaves the contract is at most what leaves the pool, and the user had
    that liquidity. -/
theorem C40_share (s s' : Swap) (me height i amount : Nat) (b dry : Bool)
    (hi : side i = .ok b) (h : remLiquid s me height i amount dry = .ok s') :
    ∃ u p p', lookupU s.users me = some u ∧ s.pools[u.pool]? = some p ∧ s'.pools[u.pool]? = some p'
      ∧ amount ≤ u.bal.get b ∧ p'.tot.get b + amount = p.tot.get b
      ∧ p.bal.get b * p'.tot.get b ≤ p'.bal.get b * p.tot.get b
      ∧ min (p.bal.get (!b)) (p.tot.get (!b)) ≤ p'.bal.get (!b) := by
  unfold remLiquid at h
  rw [hi, Res.bind_ok] at h
  obtain ⟨x, h1, h⟩ := Res.bind_eq_ok.1 h
  obtain ⟨⟨r, y⟩, h2, h⟩ := Res.bind_eq_ok.1 h
  have e := (Res.ok.inj h).symm
  subst e
  obtain ⟨l1, l2, l3, -, -⟩ := loadCtx_some h1
  unfold remLiquidCtx at h2
  rw [Res.chk_bind, Res.chk_bind, Res.chk_bind] at h2
  obtain ⟨-, -, ha, h2⟩ := h2
  obtain ⟨ret, tr⟩ := r
  obtain ⟨hr, h0, hub, -, hb1, hb2⟩ := remLiquidC_rel (fun _ => 0) h2
  obtain ⟨ht, hs1, hs2⟩ := remAmounts_share h0
  have htot := hr.totals b
  rw [hub b, if_pos rfl] at htot
  have hlt : x.user.pool < s.pools.length := by
    rw [List.getElem?_eq_some_iff] at l2; exact l2.1
  refine ⟨x.user, x.pool, y.pool, l1, l2, ?_, ha, by omega, ?_, ?_⟩
  · show (s.pools.set y.idx y.pool)[x.user.pool]? = some y.pool
    rw [hr.idx, l3, List.getElem?_set, if_pos rfl, if_pos hlt]
  · have htot' : y.pool.tot.get b = x.pool.tot.get b - amount := by omega
    rw [hb1, htot', Nat.mul_sub, Nat.sub_mul]
    omega
  · rw [hb2]
    generalize x.pool.bal.get (!b) = B at *
    generalize x.pool.tot.get (!b) = T at *
    generalize x.pool.tot.get b = t at *
    have hle : amount ≤ t := by omega
    have : tr ≤ B - T := by
      have h3 : tr * t ≤ (B - T) * t := Nat.le_trans hs2 (Nat.mul_le_mul_left _ hle)
      exact Nat.le_of_mul_le_mul_right h3 ht
    omega

/-! ### C50: liquidity can be withdrawn -/

theorem pool_le_coins {s : Swap} {d : Bool → Nat} (hs : SInv s d) {j : Nat} {p : Pool}
    (hp : s.pools[j]? = some p) (i : Bool) : p.bal.get i ≤ s.coins.get i := by
  have h1 := hs.solvent i
  have h2 := le_sum (reserve i) s.pools p (List.mem_of_getElem? hp)
  have h3 : p.bal.get i ≤ reserve i p := Nat.le_add_right _ _
  omega

theorem sendC_succeeds {x : Ctx} {dst amount : Nat} {i : Bool} (h1 : amount < 2 ^ 128)
    (h2 : amount ≤ x.coins.get i) : ∃ y, sendC x dst i amount = .ok y ∧ y.pool = x.pool
      ∧ y.coins.get (!i) = x.coins.get (!i) ∧ y.user = x.user := by
  unfold sendC Res.chk csub
  rw [if_pos h1, Res.bind_ok, if_pos h2, Res.bind_ok]
  exact ⟨_, rfl, rfl, P2.get_set_not .., rfl⟩

theorem takeOut_succeeds {me : Nat} {i : Bool} {amount : Nat} {x : Ctx} (h1 : amount < 2 ^ 128)
    (h2 : amount ≤ x.coins.get i) (h3 : amount ≤ x.pool.bal.get i) :
    ∃ y, takeOut me i amount true x = .ok y := by
  unfold takeOut
  split
  · obtain ⟨y, hy, hp, -⟩ := sendC_succeeds (dst := me) h1 h2
    refine ⟨{ y with pool := { y.pool with bal := y.pool.bal.set i (y.pool.bal.get i - amount) } }, ?_⟩
    rw [if_pos rfl, hy, Res.bind_ok]
    unfold csub
    rw [hp, if_pos h3, Res.bind_ok]
  · exact ⟨x, rfl⟩

theorem mul_lt_256 {a b : Nat} (ha : a < 2 ^ 128) (hb : b < 2 ^ 128) : a * b < 2 ^ 256 := by
  have h1 : a * b ≤ 2 ^ 128 * b := Nat.mul_le_mul_right _ (Nat.le_of_lt ha)
  have h2 : 2 ^ 128 * b < 2 ^ 128 * 2 ^ 128 := Nat.mul_lt_mul_of_pos_left hb (by decide)
  have h3 : (2 : Nat) ^ 128 * 2 ^ 128 = 2 ^ 256 := by decide
  omega

theorem remAmounts_succeeds {p : Pool} {i : Bool} {amount : Nat} (ht : amount ≤ p.tot.get i)
    (h0 : 0 < amount) (ha : amount < 2 ^ 128) (hb : ∀ j, p.bal.get j < 2 ^ 128) :
    ∃ ret tr, remAmounts p i amount = .ok (ret, tr) := by
  have htot : p.tot.get i ≠ 0 := by omega
  unfold remAmounts
  dsimp only
  unfold cmul cdiv csub
  rw [if_pos (mul_lt_256 (hb i) ha), Res.bind_ok, if_neg htot, Res.bind_ok]
  by_cases c1 : p.bal.get i < p.tot.get i
  · rw [if_pos c1]
    by_cases c2 : p.bal.get (!i) > p.tot.get (!i)
    · have := hb (!i)
      rw [if_pos c2, if_pos (Nat.le_of_lt c2), Res.bind_ok,
        if_pos (mul_lt_256 (by omega) ha), Res.bind_ok, if_neg htot, Res.bind_ok]
      exact ⟨_, _, rfl⟩
    · rw [if_neg c2]
      exact ⟨_, _, rfl⟩
  · rw [if_neg c1]
    by_cases c2 : p.bal.get (!i) < p.tot.get (!i)
    · rw [if_pos c2]
      exact ⟨_, _, rfl⟩
    · rw [if_neg c2]
      exact ⟨_, _, rfl⟩

/-- C50. In every reachable state a user whose lock has expired can withdraw any part of their
    liquidity (below 2^128 per call): the call never aborts, whatever other users did. Balances on
    chain are 128-bit numbers. -/
theorem C50_withdraw_succeeds (calls : List SwapCall) (me height amount : Nat) (b : Bool) (u : User)
    (hu : lookupU (swapRun swapInit calls).users me = some u)
    (h0 : 0 < amount) (hle : amount ≤ u.bal.get b) (ha : amount < 2 ^ 128)
    (hunlock : u.unlock ≤ height)
    (hcoins : ∀ j, (swapRun swapInit calls).coins.get j < 2 ^ 128) :
    ∃ s', swapExec (swapRun swapInit calls)
      (.remLiquid me height (if b then 1 else 0) amount false) = .ok s' := by
  have hs := swapRun_inv calls swapInit_inv
  generalize swapRun swapInit calls = s at *
  have hlt := hs.valid me u hu
  have hp : s.pools[u.pool]? = some s.pools[u.pool] := List.getElem?_eq_getElem hlt
  generalize hP : s.pools[u.pool] = p at *
  have hbal : ∀ j, p.bal.get j ≤ s.coins.get j := pool_le_coins hs hp
  have htot : u.bal.get b ≤ p.tot.get b := by
    have h1 := hs.totals _ _ hp b
    have h2 := contrib_le_sum (shareIn u.pool b) me s.users
    unfold contrib at h2
    rw [hu] at h2
    dsimp only at h2
    unfold shareIn at h2 h1
    rw [if_pos rfl] at h2
    omega
  obtain ⟨ret, tr, hrt⟩ := remAmounts_succeeds (p := p) (i := b) (amount := amount) (by omega) h0 ha
    (fun j => Nat.lt_of_le_of_lt (hbal j) (hcoins j))
  obtain ⟨hpos, hs1, hs2⟩ := remAmounts_share hrt
  have hret : ret ≤ p.bal.get b := by
    have : ret * p.tot.get b ≤ p.bal.get b * p.tot.get b :=
      Nat.le_trans hs1 (Nat.mul_le_mul_left _ (by omega))
    exact Nat.le_of_mul_le_mul_right this hpos
  have htr : tr ≤ p.bal.get (!b) := by
    have : tr * p.tot.get b ≤ (p.bal.get (!b) - p.tot.get (!b)) * p.tot.get b :=
      Nat.le_trans hs2 (Nat.mul_le_mul_left _ (by omega))
    have := Nat.le_of_mul_le_mul_right this hpos
    omega
  have hb1 := hbal b
  have hb2 := hbal (!b)
  have hc1 := hcoins b
  have hc2 := hcoins (!b)
  obtain ⟨y, hy⟩ := takeOut_succeeds (me := me) (i := b) (amount := ret)
    (x := ⟨u.pool, p, u, s.coins, s.outs⟩) (by omega) (by dsimp only; omega) (by dsimp only; omega)
  obtain ⟨a1, a2, a3, a4, a5, a6, a7, a8, a9⟩ := takeOut_ok hy
  have hn : (!b) ≠ b := by cases b <;> decide
  have hyb := a7 (!b)
  have hyc := a8 (!b)
  rw [if_neg hn] at hyb
  rw [if_neg (fun hh => hn hh.1)] at hyc
  dsimp only at hyb hyc a1 a3
  obtain ⟨z, hz⟩ := takeOut_succeeds (me := me) (i := !b) (amount := tr) (x := y) (by omega)
    (by omega) (by omega)
  obtain ⟨b1, b2, b3, -⟩ := takeOut_ok hz
  have hside : side (if b then 1 else 0) = .ok b := by cases b <;> rfl
  dsimp only [swapExec]
  unfold remLiquid
  rw [hside, Res.bind_ok, loadCtx_of hu hp, Res.bind_ok]
  unfold remLiquidCtx Res.chk
  dsimp only
  rw [if_pos (by omega), Res.bind_ok, if_pos (Or.inr hunlock), Res.bind_ok, if_pos hle, Res.bind_ok]
  unfold remLiquidC
  dsimp only
  rw [hrt, Res.bind_ok]
  rw [Bool.not_false, hy, Res.bind_ok, hz, Res.bind_ok]
  unfold csub
  rw [b1, a1, if_pos hle, Res.bind_ok, b3, a3, if_pos (by omega), Res.bind_ok]
  exact ⟨_, rfl⟩

/-! ### C51: the lock -/

/-- The caller of a liquidity call, its height, and whether it is a dry run. -/
def removalBy : SwapCall → Option (Nat × Nat × Bool)
  | .remLiquid me height _ _ dry => some (me, height, dry)
  | .remAll me height dry => some (me, height, dry)
  | .switchPool me height _ => some (me, height, false)
  | _ => none

theorem lookup_store (s : Swap) (me a : Nat) (y : Ctx) :
    lookupU (storeCtx s me y).users a = if a = me then some y.user else lookupU s.users a :=
  lookup_insertU me y.user s.users a

theorem addLiquidC_bal {s s' : Swap} {me height idx amount : Nat} {i : Bool}
    (h : addLiquidC s me height i idx amount = .ok s') (a : Nat) (u : User)
    (hu : lookupU s.users a = some u) :
    ∃ u', lookupU s'.users a = some u' ∧ ∀ j, u.bal.get j ≤ u'.bal.get j := by
  unfold addLiquidC at h
  obtain ⟨y, h1, h⟩ := Res.bind_eq_ok.1 h
  obtain ⟨z, h2, h⟩ := Res.bind_eq_ok.1 h
  have e := (Res.ok.inj h).symm
  subst e
  rw [lookup_store]
  by_cases ha : a = me
  · rw [if_pos ha]
    refine ⟨z.user, rfl, fun j => ?_⟩
    subst ha
    have hy : y.user.bal = u.bal := by
      split at h1
      · cases h1
      · split at h1
        · rename_i hn; rw [hu] at hn; cases hn
        · rename_i v hv
          rw [hu] at hv
          have := Option.some.inj hv
          subst this
          split at h1
          · split at h1
            · exact (payoutC_same h1).1
            · cases h1
          · have e := (Res.ok.inj h1).symm
            subst e
            rfl
    unfold creditC at h2
    obtain ⟨k1, -, h2⟩ := Res.bind_eq_ok.1 h2
    obtain ⟨k2, -, h2⟩ := Res.bind_eq_ok.1 h2
    obtain ⟨k3, g3, h2⟩ := Res.bind_eq_ok.1 h2
    obtain ⟨k4, -, h2⟩ := Res.bind_eq_ok.1 h2
    obtain ⟨e3, -⟩ := cadd_ok g3
    have e := (Res.ok.inj h2).symm
    subst e
    dsimp only
    rw [P2.get_set, e3, hy]
    split
    · rename_i e; subst e; omega
    · omega
  · rw [if_neg ha]
    exact ⟨u, hu, fun j => Nat.le_refl _⟩

theorem tradeLoop_users {i : Bool} {chunk : Nat} : ∀ (n : Nat) (s s' : Swap)
    (left total left' total' : Nat),
    tradeLoop i chunk n s left total = .ok (s', left', total') → s'.users = s.users
  | 0, s, s', left, total, left', total', h => by
    unfold tradeLoop at h
    have e := Res.ok.inj h
    injection e with e1 e2
    rw [e1]
  | n + 1, s, s', left, total, left', total', h => by
    unfold tradeLoop at h
    split at h
    · dsimp only at h
      obtain ⟨bq, hb, h⟩ := Res.bind_eq_ok.1 h
      cases bq with
      | none => exact tradeLoop_users n s s' left total left' total' h
      | some q =>
        dsimp only at h
        obtain ⟨t, h1, h⟩ := Res.bind_eq_ok.1 h
        obtain ⟨z, h2, h⟩ := Res.bind_eq_ok.1 h
        obtain ⟨l, h3, h⟩ := Res.bind_eq_ok.1 h
        obtain ⟨-, p, hp, -, hq⟩ := bestQuote_main hb
        rw [tradeLoop_users n z s' _ _ left' total' h, (applyQuote_ok hp h2).2.1]
    · have e := Res.ok.inj h
      injection e with e1 e2
      rw [e1]

/-- C51. Liquidity is locked: a user's liquidity only ever decreases through that user's own call, at
    or after the unlock height, or through a call marked as dry run. -/
theorem C51_lock (s s' : Swap) (c : SwapCall) (h : swapExec s c = .ok s') (a : Nat) (u : User)
    (hu : lookupU s.users a = some u) (j : Bool)
    (hdec : ∀ u', lookupU s'.users a = some u' → u'.bal.get j < u.bal.get j) :
    ∃ height dry, removalBy c = some (a, height, dry) ∧ (dry = true ∨ u.unlock ≤ height) := by
  have keepu : ∀ s'' : Swap, s'.users = s''.users → lookupU s''.users a = some u → False := by
    intro s'' he hl
    have := hdec u (by rw [he]; exact hl)
    omega
  cases c with
  | transfer tok amount =>
    have e := (Res.ok.inj h).symm
    subst e
    exact (keepu s rfl hu).elim
  | addLiquid me height i idx tok amount =>
    dsimp only [swapExec] at h
    unfold addLiquid at h
    obtain ⟨b, h1, h⟩ := Res.bind_eq_ok.1 h
    rw [Res.chk_bind] at h
    obtain ⟨u', k1, k2⟩ := addLiquidC_bal h.2 a u hu
    have := hdec u' k1
    have := k2 j
    omega
  | payout me =>
    dsimp only [swapExec] at h
    unfold payout at h
    obtain ⟨x, h1, h⟩ := Res.bind_eq_ok.1 h
    obtain ⟨y, h2, h⟩ := Res.bind_eq_ok.1 h
    have e := (Res.ok.inj h).symm
    subst e
    obtain ⟨l1, -⟩ := loadCtx_some h1
    obtain ⟨k1, -⟩ := payoutC_same h2
    by_cases ha : a = me
    · subst ha
      rw [hu] at l1
      have := Option.some.inj l1
      have := hdec y.user (by rw [lookup_store, if_pos rfl])
      rw [k1] at this
      subst u
      omega
    · have := hdec u (by rw [lookup_store, if_neg ha]; exact hu)
      omega
  | remLiquid me height i amount dry =>
    dsimp only [swapExec] at h
    unfold remLiquid at h
    obtain ⟨b, h0, h⟩ := Res.bind_eq_ok.1 h
    obtain ⟨x, h1, h⟩ := Res.bind_eq_ok.1 h
    obtain ⟨⟨r, y⟩, h2, h⟩ := Res.bind_eq_ok.1 h
    have e := (Res.ok.inj h).symm
    subst e
    obtain ⟨l1, -⟩ := loadCtx_some h1
    obtain ⟨-, -, hl, -⟩ := remLiquidCtx_rel (fun _ => 0) h2
    by_cases ha : a = me
    · subst ha
      rw [hu] at l1
      have e := Option.some.inj l1
      subst e
      exact ⟨height, dry, rfl, hl⟩
    · have := hdec u (by rw [lookup_store, if_neg ha]; exact hu)
      omega
  | remAll me height dry =>
    dsimp only [swapExec] at h
    unfold remAllLiquid at h
    obtain ⟨x, h1, h⟩ := Res.bind_eq_ok.1 h
    obtain ⟨y, h2, h⟩ := Res.bind_eq_ok.1 h
    obtain ⟨z, h3, h⟩ := Res.bind_eq_ok.1 h
    obtain ⟨w, h4, h⟩ := Res.bind_eq_ok.1 h
    have e := (Res.ok.inj h).symm
    subst e
    obtain ⟨l1, -⟩ := loadCtx_some h1
    by_cases ha : a = me
    · subst ha
      rw [hu] at l1
      have e := Option.some.inj l1
      subst e
      refine ⟨height, dry, rfl, ?_⟩
      obtain ⟨p1, -, -, p4, -⟩ := payoutC_same h2
      have side : ∀ (i : Bool) (v w : Ctx), remAllSide a height dry i v = .ok w →
          (dry = true ∨ v.user.unlock ≤ height) ∨ (w = v) := by
        intro i v w hh
        unfold remAllSide at hh
        split at hh
        · obtain ⟨⟨r, q⟩, g1, g⟩ := Res.bind_eq_ok.1 hh
          exact Or.inl (remLiquidCtx_rel (fun _ => 0) g1).2.2.1
        · exact Or.inr (Res.ok.inj hh).symm
      rcases side false y z h3 with g | g
      · rw [p4] at g; exact g
      · subst g
        rcases side true z w h4 with g | g
        · rw [p4] at g; exact g
        · subst g
          have := hdec w.user (by rw [lookup_store, if_pos rfl])
          rw [p1] at this
          omega
    · have := hdec u (by rw [lookup_store, if_neg ha]; exact hu)
      omega
  | switchPool me height idx =>
    dsimp only [swapExec] at h
    unfold switchPool at h
    rw [Res.chk_bind] at h
    obtain ⟨-, h⟩ := h
    obtain ⟨x, h1, h⟩ := Res.bind_eq_ok.1 h
    rw [Res.chk_bind] at h
    obtain ⟨hl, h⟩ := h
    obtain ⟨y, h2, h⟩ := Res.bind_eq_ok.1 h
    obtain ⟨⟨acc, z⟩, h3, h⟩ := Res.bind_eq_ok.1 h
    obtain ⟨⟨acc', w⟩, h4, h⟩ := Res.bind_eq_ok.1 h
    obtain ⟨v, h5, h⟩ := Res.bind_eq_ok.1 h
    obtain ⟨l1, -⟩ := loadCtx_some h1
    by_cases ha : a = me
    · subst ha
      rw [hu] at l1
      have e := Option.some.inj l1
      subst e
      exact ⟨height, false, rfl, Or.inr hl⟩
    · exfalso
      have step : ∀ (i : Bool) (n : Nat) (p q : Swap) (t : User),
          switchIn me height idx i n p = .ok q → lookupU p.users a = some t →
          ∃ t', lookupU q.users a = some t' ∧ ∀ j, t.bal.get j ≤ t'.bal.get j := by
        intro i n p q t hh ht
        unfold switchIn at hh
        split at hh
        · exact addLiquidC_bal hh a t ht
        · have e := (Res.ok.inj hh).symm
          subst e
          exact ⟨t, ht, fun _ => Nat.le_refl _⟩
      obtain ⟨t1, q1, q2⟩ := step _ _ _ _ u h5 (by rw [lookup_store, if_neg ha]; exact hu)
      obtain ⟨t2, q3, q4⟩ := step _ _ _ _ t1 h q1
      have a1 := hdec t2 q3
      have a2 := q2 j
      have a3 := q4 j
      omega
  | trade i dst m n tok amount =>
    dsimp only [swapExec] at h
    unfold trade at h
    obtain ⟨b, h0, h⟩ := Res.bind_eq_ok.1 h
    rw [Res.chk_bind, Res.chk_bind] at h
    obtain ⟨-, -, h⟩ := h
    obtain ⟨n1, -, h⟩ := Res.bind_eq_ok.1 h
    obtain ⟨n2, -, h⟩ := Res.bind_eq_ok.1 h
    obtain ⟨chunk, -, h⟩ := Res.bind_eq_ok.1 h
    obtain ⟨⟨z, left, total⟩, h1, h⟩ := Res.bind_eq_ok.1 h
    dsimp only at h
    rw [Res.chk_bind, Res.chk_bind, Res.chk_bind, Res.chk_bind] at h
    obtain ⟨-, -, -, -, h⟩ := h
    obtain ⟨cc, h2, h⟩ := Res.bind_eq_ok.1 h
    have e := (Res.ok.inj h).symm
    subst e
    have hz := tradeLoop_users _ _ _ _ _ _ _ h1
    exact (keepu s hz hu).elim

/-- C51, counterpart: adding liquidity (again) locks all of the user's liquidity for 8640 blocks. -/
theorem C51_add_locks (s s' : Swap) (me height i idx : Nat) (tok : Bool) (amount : Nat)
    (h : swapExec s (.addLiquid me height i idx tok amount) = .ok s') :
    ∃ u, lookupU s'.users me = some u ∧ u.unlock = height + 8640 ∧ u.pool = idx := by
  dsimp only [swapExec] at h
  unfold addLiquid at h
  obtain ⟨b, h1, h⟩ := Res.bind_eq_ok.1 h
  rw [Res.chk_bind] at h
  obtain ⟨-, h⟩ := h
  unfold addLiquidC at h
  obtain ⟨y, h2, h⟩ := Res.bind_eq_ok.1 h
  obtain ⟨z, h3, h⟩ := Res.bind_eq_ok.1 h
  have e := (Res.ok.inj h).symm
  subst e
  refine ⟨z.user, by rw [lookup_store, if_pos rfl], ?_, ?_⟩
  · unfold creditC at h3
    obtain ⟨k1, -, h3⟩ := Res.bind_eq_ok.1 h3
    obtain ⟨k2, -, h3⟩ := Res.bind_eq_ok.1 h3
    obtain ⟨k3, -, h3⟩ := Res.bind_eq_ok.1 h3
    obtain ⟨k4, g4, h3⟩ := Res.bind_eq_ok.1 h3
    have e := (Res.ok.inj h3).symm
    subst e
    exact (cadd_ok g4).1
  · rw [(creditC_rel (fun _ => 0) h3).1.uidx]
    split at h2
    · cases h2
    · split at h2
      · have e := (Res.ok.inj h2).symm
        subst e; rfl
      · split at h2
        · split at h2
          · rename_i hi
            rw [(payoutC_rel (fun _ => 0) h2).uidx]
            exact hi.symm
          · cases h2
        · have e := (Res.ok.inj h2).symm
          subst e; rfl

/-- The dry run is not dry: the call of user 7 below is marked as dry run and made long before the
    unlock height; it sends nothing, and afterwards the user has no liquidity any more. -/
theorem C51_dry_run_burns :
    let s := swapRun swapInit [.addLiquid 7 100 0 0 false 1000, .addLiquid 7 100 1 0 true 5000]
    let s' := swapRun s [.remAll 7 101 true]
    (lookupU s.users 7).map (·.bal) = some ⟨1000, 5000⟩
    ∧ (lookupU s'.users 7).map (·.bal) = some ⟨0, 0⟩
    ∧ s'.outs = [] ∧ s'.coins = ⟨1000, 5000⟩ ∧ s'.pools.map (·.bal) = [.zero, .zero, .zero, .zero] := by
  decide +kernel

/-! ### C41: trading -/

theorem traded_product {p : Pool} {i : Bool} {a fee tr act : Nat}
    (h : quote p i a = .ok (fee, tr, act)) (hact : 0 < act) :
    p.bal.get i * p.bal.get (!i) ≤ (p.bal.get i + a) * (p.bal.get (!i) - tr + fee) ∧ 1 ≤ fee := by
  obtain ⟨htr, hfee, hact', hle, hfle⟩ := quote_ok h
  have h1 : 1 ≤ fee := by
    rw [hfee]
    omega
  refine ⟨?_, h1⟩
  generalize p.bal.get i = x at *
  generalize p.bal.get (!i) = y at *
  have hd : x * y / (x + a) ≤ y := by
    by_cases hz : x + a = 0
    · rw [hz, Nat.div_zero]; exact Nat.zero_le _
    · have : x * y ≤ y * (x + a) := by
        rw [Nat.mul_comm x y]; exact Nat.mul_le_mul_left _ (by omega)
      exact Nat.div_le_of_le_mul (by rw [Nat.mul_comm (x + a)]; exact this)
  have hy : y - tr = x * y / (x + a) := by omega
  rw [hy]
  by_cases hz : x + a = 0
  · have : x = 0 := by omega
    rw [this, Nat.zero_mul]; exact Nat.zero_le _
  · have h2 := Nat.div_add_mod (x * y) (x + a)
    have h3 := Nat.mod_lt (x * y) (Nat.pos_of_ne_zero hz)
    have h4 : (x + a) * (x * y / (x + a) + 1) ≤ (x + a) * (x * y / (x + a) + fee) :=
      Nat.mul_le_mul_left _ (by omega)
    rw [Nat.mul_add, Nat.mul_one] at h4
    omega

/-- What a trade may do to a pool: the other side's fees grow by `f`, and the product counting those
    fees does not shrink. -/
def TradeOk (i : Bool) (p p' : Pool) : Prop :=
  ∃ f, p'.paid.get (!i) = p.paid.get (!i) + f ∧ p.bal.get i ≤ p'.bal.get i
    ∧ p.bal.get i * p.bal.get (!i) ≤ p'.bal.get i * (p'.bal.get (!i) + f)

theorem TradeOk.refl (i : Bool) (p : Pool) : TradeOk i p p := ⟨0, rfl, Nat.le_refl _, Nat.le_refl _⟩

theorem TradeOk.trans {i : Bool} {p q r : Pool} (h1 : TradeOk i p q) (h2 : TradeOk i q r) :
    TradeOk i p r := by
  obtain ⟨f, a1, a2, a3⟩ := h1
  obtain ⟨g, b1, b2, b3⟩ := h2
  refine ⟨f + g, by omega, by omega, ?_⟩
  have h4 : q.bal.get i * f ≤ r.bal.get i * f := Nat.mul_le_mul_right _ b2
  rw [Nat.mul_add] at a3 b3 ⊢
  rw [Nat.mul_add]
  omega

theorem tradeLoop_product {i : Bool} {chunk : Nat} : ∀ (n : Nat) (s s' : Swap)
    (left total left' total' : Nat),
    tradeLoop i chunk n s left total = .ok (s', left', total') →
    ∀ (j : Nat) (p : Pool), s.pools[j]? = some p → ∃ p', s'.pools[j]? = some p' ∧ TradeOk i p p'
  | 0, s, s', left, total, left', total', h, j, p, hp => by
    unfold tradeLoop at h
    have e := Res.ok.inj h
    injection e with e1 e2
    subst e1
    exact ⟨p, hp, .refl i p⟩
  | n + 1, s, s', left, total, left', total', h, j, p, hp => by
    unfold tradeLoop at h
    split at h
    · dsimp only at h
      obtain ⟨bq, hb, h⟩ := Res.bind_eq_ok.1 h
      cases bq with
      | none => exact tradeLoop_product n s s' left total left' total' h j p hp
      | some q =>
        dsimp only at h
        obtain ⟨t, h1, h⟩ := Res.bind_eq_ok.1 h
        obtain ⟨z, h2, h⟩ := Res.bind_eq_ok.1 h
        obtain ⟨l, h3, h⟩ := Res.bind_eq_ok.1 h
        obtain ⟨hact, p0, hp0, -, hq⟩ := bestQuote_main hb
        have hz := (applyQuote_ok hp0 h2).1
        have hlt : q.idx < s.pools.length := by
          rw [List.getElem?_eq_some_iff] at hp0; exact hp0.1
        by_cases hj : j = q.idx
        · subst hj
          rw [hp0] at hp
          have e := Option.some.inj hp
          subst e
          obtain ⟨p', k1, k2⟩ := tradeLoop_product n z s' _ _ left' total' h q.idx
            (tradedPool p0 i (min chunk left) q)
            (by rw [hz, List.getElem?_set, if_pos rfl, if_pos hlt])
          refine ⟨p', k1, TradeOk.trans ?_ k2⟩
          obtain ⟨t1, t2, -, t4, -⟩ := tradedPool_get p0 i (min chunk left) q
          refine ⟨q.fee, t4, by rw [t1]; omega, ?_⟩
          rw [t1, t2]
          exact (traded_product hq hact).1
        · exact tradeLoop_product n z s' _ _ left' total' h j p
            (by rw [hz, List.getElem?_set, if_neg (fun e => hj e.symm)]; exact hp)
    · have e := Res.ok.inj h
      injection e with e1 e2
      subst e1
      exact ⟨p, hp, .refl i p⟩

/-- C41, what holds. One trade call (any number of chunks, over all pools) leaves the product of the
    two balances of every pool at least as large as before, provided the fee taken by this trade is
    counted as part of the pool. Missing: the fee is not part of the balance later trades see, so
    the property for sequences of trades does not follow, and it is false
    (`C41_round_trip_profit`). -/
theorem C41_product_with_fee_partial (s s' : Swap) (i dst n : Nat) (m : Option Nat) (tok b : Bool)
    (amount : Nat) (hi : side i = .ok b)
    (h : swapExec s (.trade i dst m n tok amount) = .ok s') :
    ∀ (j : Nat) (p : Pool), s.pools[j]? = some p → ∃ p', s'.pools[j]? = some p'
      ∧ p.paid.get (!b) ≤ p'.paid.get (!b)
      ∧ p.bal.get b * p.bal.get (!b)
        ≤ p'.bal.get b * (p'.bal.get (!b) + (p'.paid.get (!b) - p.paid.get (!b))) := by
  intro j p hp
  dsimp only [swapExec] at h
  unfold trade at h
  rw [hi, Res.bind_ok, Res.chk_bind, Res.chk_bind] at h
  obtain ⟨-, -, h⟩ := h
  obtain ⟨n1, -, h⟩ := Res.bind_eq_ok.1 h
  obtain ⟨n2, -, h⟩ := Res.bind_eq_ok.1 h
  obtain ⟨chunk, -, h⟩ := Res.bind_eq_ok.1 h
  obtain ⟨⟨z, left, total⟩, h1, h⟩ := Res.bind_eq_ok.1 h
  dsimp only at h
  rw [Res.chk_bind, Res.chk_bind, Res.chk_bind, Res.chk_bind] at h
  obtain ⟨-, -, -, -, h⟩ := h
  obtain ⟨cc, h2, h⟩ := Res.bind_eq_ok.1 h
  have e := (Res.ok.inj h).symm
  subst e
  obtain ⟨p', k1, f, k2, -, k4⟩ := tradeLoop_product _ _ _ _ _ _ _ h1 j p hp
  refine ⟨p', k1, by omega, ?_⟩
  rw [show p'.paid.get (!b) - p.paid.get (!b) = f by omega]
  exact k4

/-- C41, one trade is never better than the exact price: for what is handed out the trader pays at
    least the amount given by the constant-product formula on the balances before. -/
theorem C41_price (p : Pool) (i : Bool) (a fee tr act : Nat)
    (h : quote p i a = .ok (fee, tr, act)) (hact : 0 < act) :
    act * (p.bal.get i + a) ≤ a * p.bal.get (!i) := by
  obtain ⟨h1, h2⟩ := traded_product h hact
  obtain ⟨-, -, hact', hle, hfle⟩ := quote_ok h
  generalize p.bal.get i = x at *
  generalize p.bal.get (!i) = y at *
  have h3 : y - tr + fee = y - act := by omega
  rw [h3, Nat.mul_sub] at h1
  have h4 : act * (x + a) ≤ (x + a) * y := by
    rw [Nat.mul_comm]; exact Nat.mul_le_mul_left _ (by omega)
  rw [Nat.add_mul] at h1
  rw [Nat.add_mul] at h4
  rw [Nat.mul_comm act] at *
  omega

/-- The state in which the two witnesses start: user 1 provides 10 units of the token and 1000000
    units of the currency. -/
def swapStart : Swap :=
  swapRun swapInit [.addLiquid 1 0 0 0 false 10, .addLiquid 1 0 1 0 true 1000000]

/-- C41 is false: this trade lowers the product of the balances from 10000000 to 8888896. -/
theorem C41_product_can_fall :
    (swapStart.pools.map (·.bal)).head? = some ⟨10, 1000000⟩
    ∧ ((swapRun swapStart [.trade 1 2 none 1 true 111112]).pools.map (·.bal)).head?
        = some ⟨8, 1111112⟩
    ∧ 8 * 1111112 < 10 * 1000000 := by
  decide +kernel

/-- C41 is false for sequences: trader 2 buys one unit of the token for 111112, sells it again for
    123395, and has gained 12283; what the pool and its unclaimed fees hold has shrunk to 10 and
    987717. -/
theorem C41_round_trip_profit :
    let s := swapRun swapStart [.trade 1 2 none 1 true 111112, .trade 0 2 none 1 false 1]
    s.outs = [⟨2, false, 1⟩, ⟨2, true, 123395⟩] ∧ s.coins = ⟨10, 987717⟩ := by
  decide +kernel

/-- Liquidity of one token only is taken entirely by the smallest possible trade. -/
theorem C41_one_sided_drain :
    let s := swapRun swapInit [.addLiquid 1 0 1 0 true 1000000, .trade 0 2 none 1 false 1]
    s.outs = [⟨2, true, 999499⟩] ∧ (s.pools.map (·.bal)).head? = some ⟨1, 0⟩ := by
  decide +kernel

/-! ### Concrete cases -/

/-- Two users, trades in both directions, fees, withdrawal after the lock. -/
def exCalls : List SwapCall :=
  [.addLiquid 1 10 0 1 false 1000000, .addLiquid 1 11 1 1 true 5000000, .addLiquid 2 20 0 1 false 500000,
   .trade 0 9 (some 1) 3 false 10000, .trade 1 9 none 2 true 70000, .payout 1]

example : (swapRun swapInit exCalls).coins = ⟨1489024, 5036886⟩
    ∧ (lookupU (swapRun swapInit exCalls).users 2).map (·.unlock) = some 8660
    ∧ (swapRun swapInit exCalls).outs.length = 4 := by decide +kernel

example : ∃ s', swapExec (swapRun swapInit exCalls) (.remLiquid 2 8660 0 400000 false) = .ok s'
    ∧ s'.outs.length = 6 := by
  refine ⟨_, by rfl, by decide +kernel⟩

end Verif.Contract
