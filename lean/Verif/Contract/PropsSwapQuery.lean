/-
  C177: what a node tells of an exchange is what a transaction gives.
-/
import Verif.Contract.SwapQuery

namespace Verif.Contract

/-! ### trades -/

theorem quote_sum {p : Pool} {i : Bool} {a : Nat} {r : Nat × Nat × Nat} (h : quote p i a = .ok r) : r.2.1 = r.2.2 + r.1 := by
  unfold quote at h
  obtain ⟨_, _, h⟩ := Res.bind_eq_ok.1 h
  obtain ⟨_, _, h⟩ := Res.bind_eq_ok.1 h
  obtain ⟨_, _, h⟩ := Res.bind_eq_ok.1 h
  obtain ⟨tr, _, h⟩ := Res.bind_eq_ok.1 h
  obtain ⟨_, _, h⟩ := Res.bind_eq_ok.1 h
  obtain ⟨f, _, h⟩ := Res.bind_eq_ok.1 h
  obtain ⟨act, h1, h⟩ := Res.bind_eq_ok.1 h
  cases h
  have := csub_ok h1
  show tr = act + min f tr
  omega

/-- Such a choice. -/
def SumOk (b : Option Quote) : Prop := ∀ q, b = some q → q.trade = q.actual + q.fee

theorem bestQuote_sum (i : Bool) (a : Nat) : ∀ (l : List Pool) (j : Nat) (b r : Option Quote),
    bestQuote i a l j b = .ok r → SumOk b → SumOk r
  | [], _, _, _, h, hb => by cases h; exact hb
  | p :: l, j, b, r, h, hb => by
    unfold bestQuote at h
    by_cases hp : p.bal.get (!i) > 0
    · rw [if_pos hp] at h
      obtain ⟨⟨fee, tr, act⟩, h1, h⟩ := Res.bind_eq_ok.1 h
      refine bestQuote_sum i a l _ _ r h ?_
      by_cases ha : act > bestActual b
      · rw [if_pos ha]; rintro q ⟨⟩; exact quote_sum h1
      · rw [if_neg ha]; exact hb
    · rw [if_neg hp] at h
      exact bestQuote_sum i a l _ _ r h hb

theorem applyQuote_facts {i : Bool} {a : Nat} {q : Quote} {s s' : Swap} (h : applyQuote i a q s = .ok s') :
    s'.volume.get (!i) = s.volume.get (!i) + q.trade ∧ s.volume.get (!i) + q.trade < 2 ^ 256 ∧ s'.coins = s.coins ∧
    s'.outs = s.outs ∧ ∀ c, applyQuote i a q { s with coins := c } = .ok { s' with coins := c } := by
  unfold applyQuote at h
  cases hp : s.pools[q.idx]? with
  | none => simp only [hp] at h; cases h
  | some p =>
    simp only [hp] at h
    obtain ⟨v, h1, h⟩ := Res.bind_eq_ok.1 h
    obtain ⟨bi, h2, h⟩ := Res.bind_eq_ok.1 h
    obtain ⟨bk, h3, h⟩ := Res.bind_eq_ok.1 h
    obtain ⟨pk, h4, h⟩ := Res.bind_eq_ok.1 h
    cases h
    obtain ⟨e, hl⟩ := cadd_ok h1
    refine ⟨?_, hl, rfl, rfl, fun c => ?_⟩
    · show (s.volume.set (!i) v).get (!i) = _
      rw [P2.get_set_self, e]
    · unfold applyQuote
      simp only [hp, h1, Res.bind_ok, h2, h3, h4]

theorem loopR_facts (i : Bool) (ch : Nat) : ∀ (n : Nat) (s : Swap) (left tot : Nat) (out : P2) (r : Swap × Nat × Nat × P2),
    tradeLoopR i ch n s left tot out = .ok r → out.get false = tot + out.get true →
    tradeLoop i ch n s left tot = .ok (r.1, r.2.1, r.2.2.1) ∧ r.2.2.2.get false = r.2.2.1 + r.2.2.2.get true ∧
    r.1.volume.get (!i) + out.get false = s.volume.get (!i) + r.2.2.2.get false ∧ r.1.coins = s.coins ∧ r.1.outs = s.outs
  | 0, s, left, tot, out, r, h, ho => by cases h; exact ⟨rfl, ho, rfl, rfl, rfl⟩
  | n + 1, s, left, tot, out, r, h, ho => by
    unfold tradeLoopR at h
    unfold tradeLoop
    by_cases hl : left > 0
    · rw [if_pos hl] at h ⊢
      obtain ⟨b, h1, h⟩ := Res.bind_eq_ok.1 h
      simp only [h1, Res.bind_ok]
      cases b with
      | none => exact loopR_facts i ch n s left tot out r h ho
      | some q =>
        have hq : q.trade = q.actual + q.fee := bestQuote_sum i _ s.pools 0 none _ h1 (by rintro q ⟨⟩) q rfl
        obtain ⟨t', h2, h⟩ := Res.bind_eq_ok.1 h
        obtain ⟨o0, h3, h⟩ := Res.bind_eq_ok.1 h
        obtain ⟨o1, h4, h⟩ := Res.bind_eq_ok.1 h
        obtain ⟨s1, h5, h⟩ := Res.bind_eq_ok.1 h
        obtain ⟨l1, h6, h⟩ := Res.bind_eq_ok.1 h
        have e2 := (cadd_ok h2).1
        have e3 := (cadd_ok h3).1
        have e4 := (cadd_ok h4).1
        obtain ⟨a1, a2, a3, a4, a5⟩ := applyQuote_facts h5
        obtain ⟨b1, b2, b3, b4, b5⟩ := loopR_facts i ch n s1 l1 t' ⟨o0, o1⟩ r h (by show o0 = t' + o1; omega)
        simp only [h2, Res.bind_ok, h5, h6]
        have b3 : r.1.volume.get (!i) + o0 = s1.volume.get (!i) + r.2.2.2.get false := b3
        exact ⟨b1, b2, by omega, b4.trans a3, b5.trans a4⟩
    · rw [if_neg hl] at h ⊢
      cases h; exact ⟨rfl, ho, rfl, rfl, rfl⟩

theorem loopR_of (i : Bool) (ch : Nat) : ∀ (n : Nat) (s : Swap) (left tot : Nat) (out : P2) (r : Swap × Nat × Nat),
    tradeLoop i ch n s left tot = .ok r → out.get false = tot + out.get true → out.get false ≤ s.volume.get (!i) →
    ∃ o, tradeLoopR i ch n s left tot out = .ok (r.1, r.2.1, r.2.2, o)
  | 0, s, left, tot, out, r, h, _, _ => by cases h; exact ⟨out, rfl⟩
  | n + 1, s, left, tot, out, r, h, ho, hv => by
    unfold tradeLoop at h
    unfold tradeLoopR
    by_cases hl : left > 0
    · rw [if_pos hl] at h ⊢
      obtain ⟨b, h1, h⟩ := Res.bind_eq_ok.1 h
      simp only [h1, Res.bind_ok]
      cases b with
      | none => exact loopR_of i ch n s left tot out r h ho hv
      | some q =>
        have hq : q.trade = q.actual + q.fee := bestQuote_sum i _ s.pools 0 none _ h1 (by rintro q ⟨⟩) q rfl
        obtain ⟨t', h2, h⟩ := Res.bind_eq_ok.1 h
        obtain ⟨s1, h5, h⟩ := Res.bind_eq_ok.1 h
        obtain ⟨l1, h6, h⟩ := Res.bind_eq_ok.1 h
        have e2 := (cadd_ok h2).1
        obtain ⟨a1, a2, a3, a4, a5⟩ := applyQuote_facts h5
        have h3 : cadd (out.get false) q.trade = .ok (out.get false + q.trade) := if_pos (by omega)
        have h4 : cadd (out.get true) q.fee = .ok (out.get true + q.fee) := if_pos (by omega)
        obtain ⟨o, ho'⟩ := loopR_of i ch n s1 l1 t' ⟨out.get false + q.trade, out.get true + q.fee⟩ r h
          (by show out.get false + q.trade = t' + (out.get true + q.fee); omega)
          (by show out.get false + q.trade ≤ _; omega)
        exact ⟨o, by simp only [h2, Res.bind_ok, h3, h4, h5, h6, ho']⟩
    · rw [if_neg hl] at h ⊢
      cases h; exact ⟨out, rfl⟩

theorem loop_coins (i : Bool) (ch : Nat) (c : P2) : ∀ (n : Nat) (s : Swap) (left tot : Nat) (r : Swap × Nat × Nat),
    tradeLoop i ch n s left tot = .ok r →
    tradeLoop i ch n { s with coins := c } left tot = .ok ({ r.1 with coins := c }, r.2)
  | 0, s, left, tot, r, h => by cases h; rfl
  | n + 1, s, left, tot, r, h => by
    unfold tradeLoop at h ⊢
    by_cases hl : left > 0
    · rw [if_pos hl] at h ⊢
      obtain ⟨b, h1, h⟩ := Res.bind_eq_ok.1 h
      simp only [h1, Res.bind_ok]
      cases b with
      | none => exact loop_coins i ch c n s left tot r h
      | some q =>
        obtain ⟨t', h2, h⟩ := Res.bind_eq_ok.1 h
        obtain ⟨s1, h5, h⟩ := Res.bind_eq_ok.1 h
        obtain ⟨l1, h6, h⟩ := Res.bind_eq_ok.1 h
        simp only [h2, Res.bind_ok, (applyQuote_facts h5).2.2.2.2 c, h6]
        exact loop_coins i ch c n s1 l1 t' r h
    · rw [if_neg hl] at h ⊢
      cases h; rfl

theorem side_of {i : Nat} (h : i < 2) : side i = .ok (decide (i = 1)) := by
  rcases (by omega : i = 0 ∨ i = 1) with rfl | rfl <;> rfl

/-- What is needed for an estimate. -/
theorem estimate_parts {s : Swap} {self i amount n : Nat} {r : Nat × Nat} (h : estimate s self i amount n = .ok r) :
    i < 2 ∧ n > 0 ∧ ∃ n1 n2 ch r', cadd amount n = .ok n1 ∧ csub n1 1 = .ok n2 ∧ cdiv n2 n = .ok ch ∧
      tradeLoopR (decide (i = 1)) ch n s amount 0 .zero = .ok r' ∧ r'.2.1 = 0 ∧ r'.2.2.1 > 0 ∧ r'.2.2.1 < 2 ^ 128 ∧
      r'.2.2.1 ≤ r'.1.coins.get (!decide (i = 1)) ∧ r = (r'.2.2.2.get false - r'.2.2.2.get true, r'.2.2.2.get true) := by
  unfold estimate at h
  by_cases hi : i ≥ 2
  · rw [if_pos hi] at h; cases h
  rw [if_neg hi] at h
  obtain ⟨r1, h, hr⟩ := Res.bind_eq_ok.1 h
  unfold tradeR at h
  rw [side_of (by omega), Res.bind_ok, Res.chk_bind, Res.chk_bind] at h
  obtain ⟨hn, _, h⟩ := h
  obtain ⟨n1, h1, h⟩ := Res.bind_eq_ok.1 h
  obtain ⟨n2, h2, h⟩ := Res.bind_eq_ok.1 h
  obtain ⟨ch, h3, h⟩ := Res.bind_eq_ok.1 h
  obtain ⟨r', h4, h⟩ := Res.bind_eq_ok.1 h
  rw [Res.chk_bind, Res.chk_bind, Res.chk_bind, Res.chk_bind] at h
  obtain ⟨k1, _, k2, k3, h⟩ := h
  obtain ⟨c, h5, h⟩ := Res.bind_eq_ok.1 h
  cases h
  exact ⟨by omega, hn, n1, n2, ch, r', h1, h2, h3, h4, k1, k2, k3, (csub_ok h5).2, (Res.ok.inj hr).symm⟩

/-- **C177.** If the estimate is an amount and a fee, a trade of that amount in the same state gives exactly the amount to
    the recipient, unless a higher minimum is asked for; the volume of the exchange grows by both. -/
theorem C177_trade {s : Swap} {self i amount n x f : Nat} (h : estimate s self i amount n = .ok (x, f)) (dst : Nat) :
    ∃ s', (∀ m : Option Nat, swapExec s (.trade i dst m n (decide (i = 1)) amount) =
        if m.all (fun k => decide (k ≤ x)) then .ok s' else .throw) ∧
      s'.outs = s.outs ++ [⟨dst, !decide (i = 1), x⟩] ∧
      s'.volume.get (!decide (i = 1)) = s.volume.get (!decide (i = 1)) + x + f ∧ 0 < x := by
  obtain ⟨hi, hn, n1, n2, ch, ⟨s1, l1, t1, o1⟩, h1, h2, h3, h4, k1, k2, k3, k4, e⟩ := estimate_parts h
  have hb := side_of hi
  generalize decide (i = 1) = b at *
  obtain ⟨a1, a2, a3, a4, a5⟩ := loopR_facts b ch n s amount 0 .zero _ h4 rfl
  dsimp only at k1 k2 k3 k4 a1 a2 a3 a4 a5 e
  injection e with e1 e2
  have a3 : s1.volume.get (!b) + 0 = s.volume.get (!b) + o1.get false := by
    have : P2.zero.get false = 0 := rfl
    rw [this] at a3; exact a3
  have hx : t1 = x := by omega
  subst hx; subst k1
  have hc : (s.coins.set b (s.coins.get b + amount)).get (!b) = s1.coins.get (!b) := by
    rw [P2.get_set_not, a4]
  have hs : csub (s1.coins.get (!b)) t1 = .ok (s1.coins.get (!b) - t1) := if_pos k4
  have l := loop_coins b ch (s.coins.set b (s.coins.get b + amount)) n s amount 0 _ a1
  refine ⟨{ s1 with
      coins := (s.coins.set b (s.coins.get b + amount)).set (!b) (s1.coins.get (!b) - t1)
      outs := s1.outs ++ [⟨dst, !b, t1⟩] }, fun m => ?_, ?_, ?_, k2⟩
  · show trade (credit s b amount) i dst m n b amount = _
    unfold trade credit
    rw [hb]
    unfold Res.chk
    simp only [Res.bind_ok, if_pos hn, h1, h2, h3, l, if_true]
    have hm : minOk m t1 = m.all (fun k => decide (k ≤ t1)) := by
      cases m with
      | none => rfl
      | some k =>
        show decide (k = 0 ∨ t1 ≥ k) = decide (k ≤ t1)
        rw [decide_eq_decide]; omega
    rw [hm]
    by_cases hh : m.all (fun k => decide (k ≤ t1)) = true
    · rw [if_pos hh, if_pos hh, Res.bind_ok, if_pos k2, Res.bind_ok, if_pos k3, Res.bind_ok, hc, hs]; rfl
    · rw [if_neg hh, if_neg hh]; rfl
  · show s1.outs ++ _ = _
    rw [a5]
  · show s1.volume.get (!b) = _
    omega

/-- **C177.** And if a trade succeeds there is an estimate. -/
theorem C177_estimated {s s' : Swap} {i dst n amount : Nat} {tok : Bool} {m : Option Nat} (self : Nat)
    (h : swapExec s (.trade i dst m n tok amount) = .ok s') : ∃ x f, estimate s self i amount n = .ok (x, f) := by
  have h : trade (credit s tok amount) i dst m n tok amount = .ok s' := h
  unfold trade at h
  obtain ⟨b, hb, h⟩ := Res.bind_eq_ok.1 h
  rw [Res.chk_bind, Res.chk_bind] at h
  obtain ⟨hn, ht, h⟩ := h
  subst ht
  obtain ⟨n1, h1, h⟩ := Res.bind_eq_ok.1 h
  obtain ⟨n2, h2, h⟩ := Res.bind_eq_ok.1 h
  obtain ⟨ch, h3, h⟩ := Res.bind_eq_ok.1 h
  obtain ⟨⟨s1, l1, t1⟩, h0, h⟩ := Res.bind_eq_ok.1 h
  rw [Res.chk_bind, Res.chk_bind, Res.chk_bind, Res.chk_bind] at h
  obtain ⟨k1, _, k2, k3, h⟩ := h
  obtain ⟨c, h5, h⟩ := Res.bind_eq_ok.1 h
  have h4 := loop_coins tok ch s.coins n (credit s tok amount) amount 0 _ h0
  have h4 : tradeLoop tok ch n s amount 0 = .ok ({ s1 with coins := s.coins }, l1, t1) := h4
  obtain ⟨o, h6⟩ := loopR_of tok ch n s amount 0 .zero _ h4 rfl (Nat.zero_le _)
  have hi : i < 2 := by
    unfold side at hb
    by_cases e : i = 0
    · omega
    · rw [if_neg e] at hb
      by_cases e1 : i = 1
      · omega
      · rw [if_neg e1] at hb; cases hb
  have hd : decide (i = 1) = tok := by
    rw [side_of hi] at hb; exact Res.ok.inj hb
  have hc : t1 ≤ s.coins.get (!tok) := by
    obtain ⟨o', h6'⟩ := loopR_of tok ch n (credit s tok amount) amount 0 .zero (s1, l1, t1)
      h0 rfl (Nat.zero_le _)
    have e := (loopR_facts tok ch n (credit s tok amount) amount 0 .zero _ h6' rfl).2.2.2.1
    have h5 := (csub_ok h5).2
    have e : s1.coins = (credit s tok amount).coins := e
    rw [e] at h5
    unfold credit at h5
    dsimp only at h5
    rw [P2.get_set_not] at h5; exact h5
  refine ⟨o.get false - o.get true, o.get true, ?_⟩
  unfold estimate
  rw [if_neg (by omega), hd]
  unfold tradeR
  have k1 : l1 = 0 := k1
  have hs : csub (s.coins.get (!tok)) t1 = .ok (s.coins.get (!tok) - t1) := if_pos hc
  have k2 : t1 > 0 := k2
  have k3 : t1 < 2 ^ 128 := k3
  unfold Res.chk
  simp only [hb, Res.bind_ok, if_pos hn, h1, h2, h3, h6, if_true, if_pos k1, if_pos k2, if_pos k3, hs, minOk]

/-- **C177.** With an index other than 0 and 1 the node reads outside of an array. -/
theorem C177_outside (s : Swap) (self i amount n : Nat) (h : 2 ≤ i) : estimate s self i amount n = .ub := if_pos h

/-! ### withdrawals -/

/-- What was sent to someone. -/
def sent (l : List Out) (who : Nat) (tok : Bool) : Nat :=
  ((l.filter fun o => decide (o.to = who ∧ o.tok = tok)).map (·.amount)).sum

theorem sent_append (l m : List Out) (who : Nat) (tok : Bool) : sent (l ++ m) who tok = sent l who tok + sent m who tok := by
  unfold sent; rw [List.filter_append, List.map_append, List.sum_append]

theorem sent_one (who : Nat) (i j : Bool) (a : Nat) : sent [⟨who, i, a⟩] who j = if j = i then a else 0 := by
  unfold sent
  by_cases h : j = i
  · subst h; simp
  · rw [if_neg h]
    have : ¬ (i = j) := fun e => h e.symm
    simp [this]

/-- The same but for the coins and what was sent. -/
structure Alike (x y : Ctx) : Prop where
  idx : y.idx = x.idx
  pool : y.pool = x.pool
  user : y.user = x.user

theorem takeOut_dry {me : Nat} {i : Bool} {a : Nat} {x x' y : Ctx} (h : takeOut me i a true x = .ok y) (hx : Alike x x') :
    (∃ y', takeOut me i a false x' = .ok y' ∧ Alike y y') ∧ a < 2 ^ 128 ∧
    ∀ j, sent y.outs me j = sent x.outs me j + if j = i then a else 0 := by
  unfold takeOut at h ⊢
  by_cases ha : a > 0
  · rw [if_pos ha] at h ⊢
    obtain ⟨z, h1, h⟩ := Res.bind_eq_ok.1 h
    rw [if_pos rfl] at h1
    obtain ⟨b, h2, h⟩ := Res.bind_eq_ok.1 h
    have hlt : a < 2 ^ 128 := by
      unfold sendC at h1; rw [Res.chk_bind] at h1; exact h1.1
    obtain ⟨_, rfl⟩ := sendC_ok h1
    cases h
    refine ⟨⟨{ x' with pool := { x'.pool with bal := x'.pool.bal.set i b } }, ?_, ⟨hx.idx, ?_, hx.user⟩⟩, hlt, fun j => ?_⟩
    · have h2 : csub (x'.pool.bal.get i) a = .ok b := by rw [hx.pool]; exact h2
      simp only [Res.bind_ok, h2, Bool.false_eq_true, if_false]
    · show ({ x'.pool with bal := _ } : Pool) = _
      rw [hx.pool]
    · show sent (x.outs ++ [⟨me, i, a⟩]) me j = _
      rw [sent_append, sent_one]
  · rw [if_neg ha] at h ⊢
    cases h
    exact ⟨⟨x', rfl, hx⟩, by omega, fun j => by
      have : a = 0 := by omega
      subst this
      by_cases e : j = i
      · rw [if_pos e]; rfl
      · rw [if_neg e]; rfl⟩

theorem rem_dry {me h0 h1 : Nat} {i : Bool} {a : Nat} {x x' : Ctx} {r : (Nat × Nat) × Ctx}
    (h : remLiquidCtx me h0 i a false x = .ok r) (hx : Alike x x') :
    (∃ y', remLiquidCtx me h1 i a true x' = .ok (r.1, y') ∧ Alike r.2 y') ∧ r.1.1 < 2 ^ 128 ∧ r.1.2 < 2 ^ 128 ∧
    (∀ j, sent r.2.outs me j = sent x.outs me j + if j = i then r.1.1 else r.1.2) ∧
    (∀ j, j ≠ i → r.2.user.bal.get j = x.user.bal.get j) := by
  obtain ⟨⟨ret, tr⟩, y⟩ := r
  unfold remLiquidCtx at h ⊢
  rw [Res.chk_bind, Res.chk_bind, Res.chk_bind] at h
  obtain ⟨k1, _, k3, h⟩ := h
  unfold remLiquidC at h
  obtain ⟨⟨ret', tr'⟩, h0, h⟩ := Res.bind_eq_ok.1 h
  dsimp only at h
  obtain ⟨z, h1, h⟩ := Res.bind_eq_ok.1 h
  obtain ⟨w, h2, h⟩ := Res.bind_eq_ok.1 h
  obtain ⟨ub, h3, h⟩ := Res.bind_eq_ok.1 h
  obtain ⟨t, h4, h⟩ := Res.bind_eq_ok.1 h
  cases h
  obtain ⟨⟨z', e1, az⟩, l1, s1⟩ := takeOut_dry h1 hx
  obtain ⟨⟨w', e2, aw⟩, l2, s2⟩ := takeOut_dry h2 az
  have u1 := (takeOut_ok h1).1
  have u2 := (takeOut_ok h2).1
  refine ⟨⟨{ w' with
      pool := { w'.pool with tot := w'.pool.tot.set i t }
      user := { w'.user with bal := w'.user.bal.set i ub } }, ?_, ⟨aw.idx, ?_, ?_⟩⟩, l1, l2, fun j => ?_, fun j hj => ?_⟩
  · have k3 : a ≤ x'.user.bal.get i := by rw [hx.user]; exact k3
    have h0 : remAmounts x'.pool i a = .ok (ret, tr) := by rw [hx.pool]; exact h0
    have h3 : csub (w'.user.bal.get i) a = .ok ub := by rw [aw.user]; exact h3
    have h4 : csub (w'.pool.tot.get i) a = .ok t := by rw [aw.pool]; exact h4
    unfold Res.chk remLiquidC
    simp only [if_pos k1, Res.bind_ok, if_pos k3, h0, Bool.not_true, e1, e2, h3, h4, true_or, if_true]
  · show ({ w'.pool with tot := _ } : Pool) = _
    rw [aw.pool]
  · show ({ w'.user with bal := _ } : User) = _
    rw [aw.user]
  · show sent w.outs me j = _
    rw [s2, s1]
    cases i <;> cases j <;> simp
  · show (w.user.bal.set i ub).get j = _
    rw [P2.get_set, if_neg hj, u2, u1]

theorem earned_fees {me : Nat} {x y : Ctx} (h : payoutC me x = .ok y) : ∃ a b, earned x.pool x.user false = .ok a ∧
    earned x.pool x.user true = .ok b ∧ ∀ j, sent y.outs me j = sent x.outs me j + (⟨a, b⟩ : P2).get j := by
  unfold payoutC at h
  obtain ⟨a, h1, h⟩ := Res.bind_eq_ok.1 h
  obtain ⟨b, h2, h⟩ := Res.bind_eq_ok.1 h
  obtain ⟨z, h3, h4⟩ := Res.bind_eq_ok.1 h
  have key : ∀ {i : Bool} {n : Nat} {p q : Ctx}, payoutSide me i n p = .ok q →
      ∀ j, sent q.outs me j = sent p.outs me j + if j = i then n else 0 := by
    intro i n p q hq j
    unfold payoutSide at hq
    obtain ⟨z, k1, k2⟩ := Res.bind_eq_ok.1 hq
    cases k2
    show sent z.outs me j = _
    by_cases hn : n > 0
    · rw [if_pos hn] at k1
      obtain ⟨cl, _, k1⟩ := Res.bind_eq_ok.1 k1
      obtain ⟨_, rfl⟩ := sendC_ok k1
      show sent (p.outs ++ [⟨me, i, n⟩]) me j = _
      rw [sent_append, sent_one]
    · rw [if_neg hn] at k1
      cases k1
      have : n = 0 := by omega
      subst this
      by_cases e : j = i
      · rw [if_pos e]; rfl
      · rw [if_neg e]; rfl
  refine ⟨a, b, h1, h2, fun j => ?_⟩
  rw [key h4, key h3]
  cases j <;> simp [P2.get]

/-- The second half of `rem_all_liquid`, really and dry. -/
theorem remAll_both {me h0 h1 : Nat} {x x1 x2 : Ctx} (k1 : remAllSide me h0 false false x = .ok x1)
    (k2 : remAllSide me h0 false true x1 = .ok x2) : ∃ e : P2, ∃ r1 : P2 × Ctx, ∃ y,
      remAllSideR me h1 true false (.zero, x) = .ok r1 ∧ remAllSideR me h1 true true r1 = .ok (e, y) ∧
      ∀ j, sent x2.outs me j = sent x.outs me j + e.get j := by
  -- the first side
  have s1 : ∃ (a b : Nat) (y1 : Ctx), remAllSideR me h1 true false (.zero, x) = .ok (⟨a, b⟩, y1) ∧ Alike x1 y1 ∧
      a < 2 ^ 128 ∧ b < 2 ^ 128 ∧ ∀ j, sent x1.outs me j = sent x.outs me j + if j = false then a else b := by
    unfold remAllSide at k1
    unfold remAllSideR
    dsimp only
    by_cases hb : x.user.bal.get false > 0
    · rw [if_pos hb] at k1 ⊢
      obtain ⟨⟨⟨ret, tr⟩, y⟩, k, k1⟩ := Res.bind_eq_ok.1 k1
      cases k1
      obtain ⟨⟨y', e1, al⟩, l1, l2, ss, _⟩ := rem_dry (h1 := h1) k ⟨rfl, rfl, rfl⟩
      dsimp only at l1 l2 ss al e1
      refine ⟨ret, tr, y', ?_, al, l1, l2, ss⟩
      have c1 : cadd (P2.zero.get false) ret = .ok ret := by
        unfold cadd; rw [P2.get_zero, Nat.zero_add, if_pos (by omega)]
      have c2 : cadd (P2.zero.get (!false)) tr = .ok tr := by
        unfold cadd; rw [P2.get_zero, Nat.zero_add, if_pos (by omega)]
      simp only [e1, Res.bind_ok, c1, c2]; rfl
    · rw [if_neg hb] at k1 ⊢
      cases k1
      exact ⟨0, 0, x, rfl, ⟨rfl, rfl, rfl⟩, by omega, by omega, fun j => by cases j <;> rfl⟩
  obtain ⟨a, b, y1, r1, al, la, lb, ss1⟩ := s1
  unfold remAllSide at k2
  by_cases hb : x1.user.bal.get true > 0
  · rw [if_pos hb] at k2
    obtain ⟨⟨⟨ret, tr⟩, y⟩, k, k2⟩ := Res.bind_eq_ok.1 k2
    cases k2
    obtain ⟨⟨y', e1, al2⟩, l1, l2, ss, _⟩ := rem_dry (h1 := h1) k al
    dsimp only at l1 l2 ss al2 e1
    refine ⟨⟨a + tr, b + ret⟩, _, y', r1, ?_, fun j => ?_⟩
    · unfold remAllSideR
      dsimp only
      rw [if_pos (by rw [al.user]; exact hb), al.user]
      have c1 : cadd ((⟨a, b⟩ : P2).get true) ret = .ok (b + ret) := if_pos (by show b + ret < _; omega)
      have c2 : cadd ((⟨a, b⟩ : P2).get (!true)) tr = .ok (a + tr) := if_pos (by show a + tr < _; omega)
      simp only [e1, Res.bind_ok, c1, c2]; rfl
    · rw [ss, ss1]
      cases j
      · show _ + a + tr = _ + (a + tr); omega
      · show _ + b + ret = _ + (b + ret); omega
  · rw [if_neg hb] at k2
    cases k2
    refine ⟨⟨a, b⟩, _, y1, r1, ?_, fun j => ?_⟩
    · unfold remAllSideR
      dsimp only
      rw [if_neg (by rw [al.user]; exact hb)]
    · rw [ss1]; cases j <;> rfl

/-- **C177.** Whoever takes out all liquidity gets exactly what the node told as fees earned and as equivalent of the
    liquidity before, of each token, also if the node told it when the liquidity was still locked. -/
theorem C177_withdraw {s s' : Swap} {me height : Nat} (h : swapExec s (.remAll me height false) = .ok s') (h1 : Nat) :
    ∃ f e, feesEarned s me = .ok f ∧ equivalent s me h1 = .ok e ∧
      ∀ j, sent s'.outs me j = sent s.outs me j + f.get j + e.get j := by
  have h : remAllLiquid s me height false = .ok s' := h
  unfold remAllLiquid at h
  obtain ⟨x0, k0, h⟩ := Res.bind_eq_ok.1 h
  obtain ⟨x, kp, h⟩ := Res.bind_eq_ok.1 h
  obtain ⟨x1, k1, h⟩ := Res.bind_eq_ok.1 h
  obtain ⟨x2, k2, h⟩ := Res.bind_eq_ok.1 h
  cases h
  obtain ⟨a, b, ea, eb, sp⟩ := earned_fees kp
  obtain ⟨e, r1, y, f1, f2, ss⟩ := remAll_both (h1 := h1) k1 k2
  have ho : x0.outs = s.outs := by
    unfold loadCtx at k0
    cases hu : lookupU s.users me with
    | none => simp only [hu] at k0; cases k0
    | some u =>
      simp only [hu] at k0
      cases hp : s.pools[u.pool]? with
      | none => simp only [hp] at k0; cases k0
      | some p => simp only [hp] at k0; cases k0; rfl
  refine ⟨⟨a, b⟩, e, ?_, ?_, fun j => ?_⟩
  · unfold feesEarned; simp only [k0, Res.bind_ok, ea, eb]
  · unfold equivalent remAllR; simp only [k0, Res.bind_ok, kp, f1, f2]
  · show sent x2.outs me j = _
    rw [ss, sp, ho]

theorem insertU_twice (k : Nat) (u v : User) : ∀ l : List (Nat × User), insertU (insertU l k u) k v = insertU l k v
  | [] => by simp [insertU]
  | (a, w) :: l => by
    by_cases h : a = k
    · simp [insertU, h]
    · simp [insertU, h, insertU_twice k u v l]

theorem store_store {s : Swap} {me : Nat} {x y : Ctx} (h : y.idx = x.idx) :
    storeCtx (storeCtx s me x) me y = storeCtx s me y := by
  unfold storeCtx
  dsimp only
  rw [insertU_twice, h, List.set_set]

theorem load_store {s : Swap} {me : Nat} {x : Ctx} (h : x.user.pool = x.idx) (hl : x.idx < s.pools.length) :
    loadCtx (storeCtx s me x) me = .ok x := by
  unfold loadCtx storeCtx
  dsimp only
  rw [lookup_insertU, if_pos rfl]
  dsimp only
  rw [h, List.getElem?_set_self hl]

theorem rem_same {me h : Nat} {i : Bool} {a : Nat} {x : Ctx} {r : (Nat × Nat) × Ctx}
    (e : remLiquidCtx me h i a false x = .ok r) : r.2.idx = x.idx ∧ r.2.user.pool = x.user.pool ∧
      ∀ j, j ≠ i → r.2.user.bal.get j = x.user.bal.get j := by
  have k := (rem_dry (h1 := 0) e ⟨rfl, rfl, rfl⟩).2.2.2.2
  unfold remLiquidCtx at e
  rw [Res.chk_bind, Res.chk_bind, Res.chk_bind] at e
  obtain ⟨⟨ret, tr⟩, y⟩ := r
  have q := (remLiquidC_rel (fun _ => 0) e.2.2.2).1
  exact ⟨q.idx, q.uidx, k⟩

theorem remCall_eq {s : Swap} {me h : Nat} {i : Bool} {x : Ctx} (hu : x.user.pool = x.idx) (hl : x.idx < s.pools.length) :
    remCall me h (if i then 1 else 0) (x.user.bal.get i) (storeCtx s me x) =
      (remAllSide me h false i x >>= fun y => .ok (storeCtx s me y)) := by
  unfold remCall remAllSide
  have hs : side (if i then 1 else 0) = .ok i := by cases i <;> rfl
  by_cases ha : x.user.bal.get i > 0
  · rw [if_pos ha, if_pos (by omega)]
    unfold remLiquid
    rw [hs, Res.bind_ok, load_store hu hl, Res.bind_ok]
    cases e : remLiquidCtx me h i (x.user.bal.get i) false x with
    | ok r =>
      obtain ⟨⟨ret, tr⟩, y⟩ := r
      simp only [Res.bind_ok]
      rw [store_store (rem_same e).1]
    | throw => rfl
    | ub => rfl
  · rw [if_neg ha, if_neg (by omega)]; rfl

theorem side_same {me h : Nat} {i : Bool} {x y : Ctx} (e : remAllSide me h false i x = .ok y) :
    y.idx = x.idx ∧ y.user.pool = x.user.pool ∧ ∀ j, j ≠ i → y.user.bal.get j = x.user.bal.get j := by
  unfold remAllSide at e
  by_cases ha : x.user.bal.get i > 0
  · rw [if_pos ha] at e
    obtain ⟨⟨⟨ret, tr⟩, z⟩, k, e⟩ := Res.bind_eq_ok.1 e
    cases e
    exact rem_same k
  · rw [if_neg ha] at e; cases e; exact ⟨rfl, rfl, fun _ _ => rfl⟩

/-- **C177.** The transaction that a wallet makes to take out liquidity, asked for all of it, does the same as the method
    for that purpose: fees are paid out as well. -/
theorem C177_wallet {s : Swap} {me height : Nat} {u : User} (hu : lookupU s.users me = some u) :
    walletRemove s me height u.bal = swapExec s (.remAll me height false) := by
  show _ = remAllLiquid s me height false
  unfold walletRemove payout remAllLiquid
  cases h0 : loadCtx s me with
  | throw => rfl
  | ub => rfl
  | ok x0 =>
    have hx0 : x0.user = u ∧ x0.user.pool = x0.idx ∧ x0.idx < s.pools.length := by
      unfold loadCtx at h0
      simp only [hu] at h0
      cases hp : s.pools[u.pool]? with
      | none => simp only [hp] at h0; cases h0
      | some p =>
        simp only [hp] at h0; cases h0
        exact ⟨rfl, rfl, (List.getElem?_eq_some_iff.1 hp).1⟩
    obtain ⟨q1, q2, q3⟩ := hx0
    simp only [Res.bind_ok]
    cases h1 : payoutC me x0 with
    | throw => rfl
    | ub => rfl
    | ok x =>
      simp only [Res.bind_ok]
      obtain ⟨p1, _, _, _, p5⟩ := payoutC_same h1
      have p6 := (payoutC_rel (fun _ => 0) h1).uidx
      have p2 : x.user.pool = x.idx := by rw [p6, p5, q2]
      have p3 : x.idx < s.pools.length := by rw [p5]; exact q3
      have hb : u.bal = x.user.bal := by rw [p1, q1]
      rw [hb]
      have e1 := remCall_eq (h := height) (i := false) p2 p3 (me := me)
      rw [if_neg (by decide)] at e1
      rw [e1]
      cases h2 : remAllSide me height false false x with
      | throw => rfl
      | ub => rfl
      | ok x1 =>
        simp only [Res.bind_ok]
        obtain ⟨r1, r2, r3⟩ := side_same h2
        have e2 := remCall_eq (s := s) (h := height) (i := true) (x := x1) (me := me) (by rw [r2, r1]; exact p2)
          (by rw [r1]; exact p3)
        rw [if_pos rfl, r3 true (by decide)] at e2
        exact e2

/-! ### an example -/

/-- Two with liquidity in one pool, and some trades. -/
def exSwap : Swap := swapRun swapInit [.addLiquid 5 10 0 0 false 1000000, .addLiquid 5 10 1 0 true 2000000,
  .addLiquid 6 11 0 0 false 500000, .trade 0 9 none 4 false 30000]

/-- The hypotheses of the theorems above are met by it: trades have estimates and holders have fees and something to
    take out. -/
example : estimate exSwap 1 1 50000 4 = .ok (38026, 20) ∧ estimate exSwap 1 0 50000 4 = .ok (62020, 32) ∧
    feesEarned exSwap 5 = .ok ⟨0, 20⟩ ∧ equivalent exSwap 5 0 = .ok ⟨1030000, 1960782⟩ := by decide +kernel

def exAfter : Res Swap := swapExec exSwap (.remAll 5 9000 false)

example : (match exAfter with | .ok s' => (sent s'.outs 5 true, sent s'.outs 5 false) | _ => (0, 0)) = (1960802, 1030000) := by
  decide +kernel

end Verif.Contract
