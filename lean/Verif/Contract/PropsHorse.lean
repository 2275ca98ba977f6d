import Verif.Contract.HorseLemmas
/-
  C69: crypto_horse_race.js, a market for tokens on several "horses".
-/
namespace Verif.Contract

open Res

theorem sum_set_nat {l : List Nat} {i b v : Nat} (h : l[i]? = some b) : (l.set i v).sum + b = l.sum + v := by
  have := sum_set (fun x => x) l i b v h
  simpa using this

theorem le_sum_nat {l : List Nat} {i b : Nat} (h : l[i]? = some b) : b ≤ l.sum := by
  have := le_sum (fun x => x) l b (List.mem_of_getElem? h)
  simpa using this

theorem arriveDep_bal {S : Type} {e : Env} {w : W S} {c a : Nat} (h : e.dep = some (c, a)) :
    (arriveDep e w).bal c = w.bal c + a ∧ (arriveDep e w).got c = w.got c + a := by
  unfold arriveDep; rw [h]; exact ⟨upd_self _ _ _, upd_self _ _ _⟩

theorem arrive_mono {S : Type} (c a : Nat) (w : W S) (x : Nat) :
    w.bal x ≤ (arrive c a w).bal x ∧ w.got x ≤ (arrive c a w).got x := by
  show w.bal x ≤ upd _ _ _ x ∧ w.got x ≤ upd _ _ _ x
  by_cases h : x = c
  · subst h; rw [upd_self, upd_self]; omega
  · rw [upd_ne _ h, upd_ne _ h]; omega

theorem arriveDep_mono {S : Type} (e : Env) (w : W S) (x : Nat) :
    w.bal x ≤ (arriveDep e w).bal x ∧ w.got x ≤ (arriveDep e w).got x := by
  unfold arriveDep; split
  · exact ⟨Nat.le_refl _, Nat.le_refl _⟩
  · exact arrive_mono _ _ _ _

/-- The settings of the market. -/
structure RaceCfg (w w' : W Race) : Prop where
  currency : w'.st.currency = w.st.currency
  precision : w'.st.precision = w.st.precision
  scale : w'.st.scale = w.st.scale
  length : w'.st.balance.length = w.st.balance.length

/-- The money side of a call: balances and payments. -/
theorem race_money {e : Env} {c : RaceCall} {w w' : W Race} (h : raceExec e c (arriveDep e w) = .ok w') :
    RaceCfg w w' ∧ (Kept w → Kept w') ∧
    (∀ M, w.st.balance.sum + M ≤ w.bal w.st.currency → w'.st.balance.sum + M ≤ w'.bal w.st.currency) ∧
    (∀ x, w.got x ≤ w'.got x) ∧ (∀ x, x ≠ w.st.currency → paid w'.pays x = paid w.pays x) := by
  have hst := arriveDep_st e w
  have hpays := arriveDep_pays e w
  cases c with
  | buy i =>
    obtain ⟨u, amount, tokens, b, hb⟩ := buy_ok h
    have hd := hb.dep
    have hbal := hb.bal
    rw [hst] at hd hbal
    have hr := hb.res
    rw [hr]
    refine ⟨⟨by rw [← hst]; rfl, by rw [← hst]; rfl, by rw [← hst]; rfl, ?_⟩,
      fun k => (k.arriveDep e).congr rfl rfl rfl, fun M hM => ?_, fun x => (arriveDep_mono e w x).2, fun x _ => ?_⟩
    · show (List.set _ _ _).length = _; rw [List.length_set, hst]
    · show (List.set _ _ _).sum + M ≤ (arriveDep e w).bal w.st.currency
      rw [(arriveDep_bal hd).1, hst]
      have := sum_set_nat (v := b + amount) hbal
      omega
    · show paid (arriveDep e w).pays x = _; rw [hpays]
  | sell i amount =>
    obtain ⟨u, ret, b, hs⟩ := sell_ok h
    have hbal := hs.bal
    rw [hst] at hbal
    have hsent := hs.sent
    have hst' : w'.st = (Race.after (arriveDep e w) (setWallet (arriveDep e w).st.wallets u i ((arriveDep e w).st.wallets u i - amount)) ((arriveDep e w).st.balance.set i (b - ret))).st := hsent.st
    have hk : Kept w → Kept (Race.after (arriveDep e w) (setWallet (arriveDep e w).st.wallets u i ((arriveDep e w).st.wallets u i - amount)) ((arriveDep e w).st.balance.set i (b - ret))) :=
      fun k => (k.arriveDep e).congr rfl rfl rfl
    refine ⟨⟨by rw [hst', ← hst]; rfl, by rw [hst', ← hst]; rfl, by rw [hst', ← hst]; rfl, ?_⟩, fun k => (hk k).sent hsent, fun M hM => ?_, fun x => ?_, fun x hx => ?_⟩
    · rw [hst']; show (List.set _ _ _).length = _; rw [List.length_set, hst]
    · rw [hst']
      show (List.set _ _ _).sum + M ≤ _
      have h1 := hsent.bal w.st.currency
      have h2 : (arriveDep e w).st.currency = w.st.currency := by rw [hst]
      rw [paid_sends, if_pos h2] at h1
      have h3 := (arriveDep_mono e w w.st.currency).1
      have h4 : w'.bal w.st.currency + ret = (arriveDep e w).bal w.st.currency := h1
      rw [hst]
      have := sum_set_nat (v := b - ret) hbal
      have := hs.enough
      omega
    · rw [hsent.got]; exact (arriveDep_mono e w x).2
    · rw [hsent.pays, paid_append, paid_sends, if_neg (by rw [hst]; exact fun h => hx h.symm)]
      show paid (arriveDep e w).pays x + 0 = _; rw [hpays]; rfl
  | transfer target amount i =>
    obtain ⟨u, hm⟩ := transfer_ok h
    have hr := hm.res
    rw [hr]
    refine ⟨⟨by rw [← hst]; rfl, by rw [← hst]; rfl, by rw [← hst]; rfl, ?_⟩,
      fun k => (k.arriveDep e).congr rfl rfl rfl, fun M hM => ?_, fun x => (arriveDep_mono e w x).2, fun x _ => ?_⟩
    · show (arriveDep e w).st.balance.length = _; rw [hst]
    · show (arriveDep e w).st.balance.sum + M ≤ (arriveDep e w).bal w.st.currency
      have := (arriveDep_mono e w w.st.currency).1
      rw [hst]; omega
    · show paid (arriveDep e w).pays x = _; rw [hpays]

/-- C69: after any history, the market holds the balances of all horses; only its currency ever leaves it. -/
theorem C69_solvent (horses currency precision scale activation : Nat) (history : List (Ev RaceCall)) :
    let w := runEv raceExec (raceInit horses currency precision scale activation) history
    w.st.balance.sum ≤ w.bal currency ∧ (∀ c, w.got c = w.bal c + paid w.pays c) ∧
    ∀ c, c ≠ currency → paid w.pays c = 0 := by
  have key := runEv_inv_of (exec := raceExec) (P := fun _ _ => True)
    (I := fun w => w.st.currency = currency ∧ w.st.balance.sum ≤ w.bal currency ∧ Kept w ∧
      ∀ c, c ≠ currency → paid w.pays c = 0)
    (fun w c a h => ⟨h.1, Nat.le_trans h.2.1 (arrive_mono c a w currency).1, h.2.2.1.arrive c a, h.2.2.2⟩)
    (fun e c w w' _ h hx => by
      obtain ⟨h1, h2, h3, -, h5⟩ := race_money hx
      rw [h.1] at h3 h5
      exact ⟨h1.currency.trans h.1, h3 0 h.2.1, h2 h.2.2.1, fun x hx => (h5 x hx).trans (h.2.2.2 x hx)⟩)
    history (raceInit horses currency precision scale activation) (fun _ _ _ => trivial)
    ⟨rfl, by simp [raceInit, fresh], Kept.fresh _, fun _ _ => rfl⟩
  exact key.2

/-- C69: a wallet only shrinks by a sale or transfer its owner makes, by the amount stated there. -/
theorem C69_wallet_call (e : Env) (c : RaceCall) (w w' : W Race) (h : raceExec e c (arriveDep e w) = .ok w')
    (u i : Nat) (hlt : w'.st.wallets u i < w.st.wallets u i) :
    e.user = some u ∧ ∃ amount, w'.st.wallets u i + amount = w.st.wallets u i ∧
      (c = .sell i amount ∨ ∃ target, target ≠ u ∧ c = .transfer target amount i) := by
  have hst := arriveDep_st e w
  cases c with
  | buy j =>
    obtain ⟨v, amount, tokens, b, hb⟩ := buy_ok h
    rw [hb.res] at hlt
    have hlt : setWallet (arriveDep e w).st.wallets v j ((arriveDep e w).st.wallets v j + tokens) u i < _ := hlt
    rw [hst] at hlt
    unfold setWallet at hlt
    split at hlt
    · rename_i hh; obtain ⟨rfl, rfl⟩ := hh; omega
    · omega
  | sell j amount =>
    obtain ⟨v, ret, b, hs⟩ := sell_ok h
    have e1 : w'.st.wallets u i = setWallet w.st.wallets v j (w.st.wallets v j - amount) u i := by
      rw [hs.sent.st]; show setWallet (arriveDep e w).st.wallets v j _ u i = _; rw [hst]
    have ho := hs.owned
    rw [hst] at ho
    rw [e1] at hlt ⊢
    unfold setWallet at hlt ⊢
    split at hlt
    · rename_i hh
      obtain ⟨rfl, rfl⟩ := hh
      refine ⟨hs.user, amount, ?_, .inl rfl⟩
      rw [if_pos ⟨rfl, rfl⟩]; omega
    · omega
  | transfer target amount j =>
    obtain ⟨v, hm⟩ := transfer_ok h
    have e1 : w'.st.wallets u i = setWallet (setWallet w.st.wallets v j (w.st.wallets v j - amount)) target j
      (setWallet w.st.wallets v j (w.st.wallets v j - amount) target j + amount) u i := by
      rw [hm.res]
      show setWallet (setWallet (arriveDep e w).st.wallets v j _) target j _ u i = _; rw [hst]
    have ho := hm.owned
    rw [hst] at ho
    rw [e1] at hlt ⊢
    by_cases ht : u = target ∧ i = j
    · obtain ⟨rfl, rfl⟩ := ht
      unfold setWallet at hlt
      rw [if_pos ⟨rfl, rfl⟩] at hlt
      split at hlt
      · rename_i hh; obtain ⟨rfl, -⟩ := hh; omega
      · omega
    · have e2 : ∀ f x, setWallet f target j x u i = f u i := fun f x => if_neg ht
      rw [e2] at hlt ⊢
      unfold setWallet at hlt ⊢
      split at hlt
      · rename_i hh
        obtain ⟨rfl, rfl⟩ := hh
        refine ⟨hm.user, amount, ?_, .inr ⟨target, fun h => ht ⟨h.symm, rfl⟩, rfl⟩⟩
        rw [if_pos ⟨rfl, rfl⟩]; omega
      · omega

/-- C69: nobody else can take a user's tokens: without calls of that user the wallet never shrinks. -/
theorem C69_wallet (w : W Race) (u i : Nat) (history : List (Ev RaceCall))
    (h : ∀ e c, Ev.call e c ∈ history → e.user ≠ some u) :
    w.st.wallets u i ≤ (runEv raceExec w history).st.wallets u i := by
  refine runEv_inv_of (exec := raceExec) (P := fun e _ => e.user ≠ some u)
    (I := fun w' => w.st.wallets u i ≤ w'.st.wallets u i) (fun _ _ _ h => h) ?_ history w h (Nat.le_refl _)
  intro e c x x' hP hx hex
  by_cases hlt : x'.st.wallets u i < x.st.wallets u i
  · exact absurd (C69_wallet_call e c x x' hex u i hlt).1 hP
  · omega

/-- C69: a transfer neither creates nor destroys tokens, also when it goes to the sender. -/
theorem C69_transfer (e : Env) (target amount i j u : Nat) (w w' : W Race) (l : List Nat) (hl : l.Nodup)
    (hu : e.user = some u) (h1 : u ∈ l) (h2 : target ∈ l)
    (h : raceExec e (.transfer target amount i) (arriveDep e w) = .ok w') :
    held l w'.st.wallets j = held l w.st.wallets j ∧ w'.st.balance = w.st.balance := by
  have hst := arriveDep_st e w
  obtain ⟨v, hm⟩ := transfer_ok h
  have hv : v = u := by have := hm.user; rw [hu] at this; cases this; rfl
  subst hv
  rw [hm.res]
  refine ⟨?_, by show (arriveDep e w).st.balance = _; rw [hst]⟩
  show held l (setWallet (setWallet (arriveDep e w).st.wallets v i _) target i _) j = _
  have ho := hm.owned
  rw [hst] at ho ⊢
  by_cases hj : j = i
  · subst hj
    have e1 := held_set (f := setWallet w.st.wallets v j (w.st.wallets v j - amount)) (i := j)
      (v := setWallet w.st.wallets v j (w.st.wallets v j - amount) target j + amount) hl h2
    have e2 := held_set (f := w.st.wallets) (i := j) (v := w.st.wallets v j - amount) hl h1
    omega
  · rw [held_other hj, held_other hj]

/-- C69: the price grows with the balance. -/
theorem C69_price_monotone (precision x x' p p' : Nat) (hx : x ≤ x') (hb : x' < 2 ^ 190)
    (h : calcPrice precision x = .ok p) (h' : calcPrice precision x' = .ok p') : p ≤ p' := by
  rw [calcPrice_ok (by omega) h, calcPrice_ok hb h']; exact priceAt_mono hx

/-! ### No money machine -/

/-- Tokens a horse with this balance can have sold at most, if every coin bought at its own price. -/
def phi (precision scale : Nat) : Nat → ℚ
  | 0 => 0
  | b + 1 => phi precision scale b + (scale : ℚ) / (max (priceAt precision (b + 1)) 1 : Nat)

theorem phi_ge {p s B Q : Nat} (hQ : 0 < Q) : ∀ d, (∀ b, b ≤ B + d → max (priceAt p b) 1 ≤ Q) →
    phi p s B + (d : ℚ) * s / Q ≤ phi p s (B + d)
  | 0, _ => by simp
  | d + 1, h => by
    have ih := phi_ge (s := s) (B := B) hQ d (fun b hb => h b (by omega))
    show _ ≤ phi p s (B + d) + (s : ℚ) / (max (priceAt p (B + d + 1)) 1 : Nat)
    have h1 : ((max (priceAt p (B + d + 1)) 1 : Nat) : ℚ) ≤ Q := by exact_mod_cast h _ (by omega)
    have h2 : (0 : ℚ) < (max (priceAt p (B + d + 1)) 1 : Nat) := by exact_mod_cast (by omega : 0 < max (priceAt p (B + d + 1)) 1)
    have h3 : (s : ℚ) / Q ≤ (s : ℚ) / (max (priceAt p (B + d + 1)) 1 : Nat) :=
      div_le_div_of_nonneg_left (by exact_mod_cast Nat.zero_le s) h2 h1
    have h4 : ((d + 1 : Nat) : ℚ) * s / Q = d * s / Q + s / Q := by push_cast; rw [add_mul, one_mul, add_div]
    rw [h4]; linarith

theorem phi_le {p s B Q : Nat} (hQ : 0 < Q) : ∀ d, (∀ b, B < b → Q ≤ max (priceAt p b) 1) →
    phi p s (B + d) ≤ phi p s B + (d : ℚ) * s / Q
  | 0, _ => by simp
  | d + 1, h => by
    have ih := phi_le (s := s) (B := B) hQ d h
    show phi p s (B + d) + (s : ℚ) / (max (priceAt p (B + d + 1)) 1 : Nat) ≤ _
    have h1 : (Q : ℚ) ≤ (max (priceAt p (B + d + 1)) 1 : Nat) := by exact_mod_cast h _ (by omega)
    have h2 : (0 : ℚ) < Q := by exact_mod_cast hQ
    have h3 : (s : ℚ) / (max (priceAt p (B + d + 1)) 1 : Nat) ≤ (s : ℚ) / Q :=
      div_le_div_of_nonneg_left (by exact_mod_cast Nat.zero_le s) h2 h1
    have h4 : ((d + 1 : Nat) : ℚ) * s / Q = d * s / Q + s / Q := by push_cast; rw [add_mul, one_mul, add_div]
    rw [h4]; linarith

theorem phi_lt {p s B : Nat} (hs : 0 < s) : ∀ d, phi p s B < phi p s (B + (d + 1))
  | 0 => by
    show _ < phi p s B + _
    have : (0 : ℚ) < (s : ℚ) / (max (priceAt p (B + 1)) 1 : Nat) :=
      div_pos (by exact_mod_cast hs) (by exact_mod_cast (by omega : 0 < max (priceAt p (B + 1)) 1))
    exact lt_add_of_pos_right _ this
  | d + 1 => by
    refine lt_trans (phi_lt hs d) ?_
    show _ < phi p s (B + (d + 1)) + _
    have : (0 : ℚ) < (s : ℚ) / (max (priceAt p (B + (d + 1) + 1)) 1 : Nat) :=
      div_pos (by exact_mod_cast hs) (by exact_mod_cast (by omega : 0 < max (priceAt p (B + (d + 1) + 1)) 1))
    exact lt_add_of_pos_right _ this

/-- Buying gives at most the tokens `phi` allows. -/
theorem phi_buy {p s b a t : Nat} (hp : priceAt p (b + a) ≠ 0) (ht : t = a * s / priceAt p (b + a)) :
    (t : ℚ) ≤ phi p s (b + a) - phi p s b := by
  have h0 : 0 < priceAt p (b + a) := Nat.pos_of_ne_zero hp
  have h1 := phi_ge (p := p) (s := s) (B := b) h0 a (fun x hx => by
    have := priceAt_mono (p := p) hx; omega)
  have h2 : t * priceAt p (b + a) ≤ a * s := by rw [ht]; exact Nat.div_mul_le_self _ _
  have h3 : (t : ℚ) ≤ (a : ℚ) * s / (priceAt p (b + a) : Nat) := by
    rw [le_div_iff₀ (by exact_mod_cast h0)]; exact_mod_cast h2
  linarith

/-- Selling takes at least the tokens `phi` asks for. -/
theorem phi_sell {p s b t q ret : Nat} (hle : t * priceAt p b / s ≤ b) (hret : ret ≤ b)
    (hq : q = priceAt p (b - t * priceAt p b / s)) (hr : ret = t * q / s) :
    phi p s b - phi p s (b - ret) ≤ t := by
  by_cases h0 : ret = 0
  · rw [h0, Nat.sub_zero, sub_self]; exact_mod_cast Nat.zero_le t
  · have hq0 : 0 < q := by
      rcases Nat.eq_zero_or_pos q with h | h
      · rw [h, Nat.mul_zero, Nat.zero_div] at hr; exact absurd hr h0
      · exact h
    have hqp : q ≤ priceAt p b := by rw [hq]; exact priceAt_mono (Nat.sub_le _ _)
    have hlo : b - t * priceAt p b / s ≤ b - ret := by
      rw [hr]
      have : t * q / s ≤ t * priceAt p b / s := Nat.div_le_div_right (Nat.mul_le_mul_left _ hqp)
      omega
    have h1 := phi_le (p := p) (s := s) (B := b - ret) hq0 ret (fun x hx => by
      have : q ≤ priceAt p x := by rw [hq]; exact priceAt_mono (by omega)
      omega)
    rw [Nat.sub_add_cancel hret] at h1
    have h2 : ret * s ≤ t * q := by rw [hr]; exact Nat.div_mul_le_self _ _
    have h3 : (ret : ℚ) * s / q ≤ t := by
      rw [div_le_iff₀ (by exact_mod_cast hq0)]; exact_mod_cast h2
    linarith

/-- The token side of a call: what the users `l` hold grows by no more than `phi`. -/
theorem race_tokens {e : Env} {c : RaceCall} {w w' : W Race} {l : List Nat} {p s : Nat} (hl : l.Nodup)
    (hu : ∀ u, e.user = some u → u ∈ l) (ht : ∀ t a i, c = .transfer t a i → t ∈ l)
    (hp : w.st.precision = p) (hs : w.st.scale = s)
    (hsum : w.st.balance.sum ≤ w.bal w.st.currency)
    (hb : (arriveDep e w).bal w.st.currency < 2 ^ 190)
    (h : raceExec e c (arriveDep e w) = .ok w') (j : Nat) :
    (held l w'.st.wallets j : ℚ) - held l w.st.wallets j ≤
      phi p s (w'.st.balance.getD j 0) - phi p s (w.st.balance.getD j 0) := by
  have hst := arriveDep_st e w
  cases c with
  | buy i =>
    obtain ⟨u, amount, tokens, b, hx⟩ := buy_ok h
    obtain ⟨q, h1, h2, h3⟩ := hx.price
    have hbal := hx.bal
    have hdep := hx.dep
    rw [hst, hp] at h1
    rw [hst, hs] at h3
    rw [hst] at hbal hdep
    have hbd := (arriveDep_bal (w := w) hdep).1
    have hle := le_sum_nat hbal
    have hpr := calcPrice_ok (by omega) h1
    subst hpr
    have ew : w'.st.wallets = setWallet w.st.wallets u i (w.st.wallets u i + tokens) := by
      rw [hx.res]; show setWallet (arriveDep e w).st.wallets u i _ = _; rw [hst]
    have eb : w'.st.balance = w.st.balance.set i (b + amount) := by
      rw [hx.res]; show (arriveDep e w).st.balance.set i _ = _; rw [hst]
    rw [ew, eb]
    by_cases hj : j = i
    · subst hj
      have hlt : j < w.st.balance.length := (List.getElem?_eq_some_iff.1 hbal).1
      have e1 := held_set (f := w.st.wallets) (i := j) (v := w.st.wallets u j + tokens) hl (hu u hx.user)
      have e2 : held l (setWallet w.st.wallets u j (w.st.wallets u j + tokens)) j = held l w.st.wallets j + tokens := by omega
      have e3 : (w.st.balance.set j (b + amount)).getD j 0 = b + amount := by
        rw [List.getD_eq_getElem?_getD, List.getElem?_set_self hlt]; rfl
      have e4 : w.st.balance.getD j 0 = b := by rw [List.getD_eq_getElem?_getD, hbal]; rfl
      rw [e2, e3, e4]
      have := phi_buy h2 h3
      push_cast
      linarith
    · have e3 : (w.st.balance.set i (b + amount)).getD j 0 = w.st.balance.getD j 0 := by
        rw [List.getD_eq_getElem?_getD, List.getD_eq_getElem?_getD, List.getElem?_set_ne (fun h => hj h.symm)]
      rw [held_other hj, e3]; simp
  | sell i amount =>
    obtain ⟨u, ret, b, hx⟩ := sell_ok h
    obtain ⟨pp, q, h1, h2, h3, h4⟩ := hx.price
    have hbal := hx.bal
    have hown := hx.owned
    have hs0 := hx.scale
    rw [hst] at hbal hown
    rw [hst, hs] at hs0 h2 h4
    rw [hst, hp] at h1
    rw [hst, hp, hs] at h3
    have hle := le_sum_nat hbal
    have hmo := (arriveDep_mono e w w.st.currency).1
    have hpr := calcPrice_ok (by omega) h1
    subst hpr
    have hqr := calcPrice_ok (Nat.lt_of_le_of_lt (Nat.sub_le _ _) (by omega)) h3
    have ew : w'.st.wallets = setWallet w.st.wallets u i (w.st.wallets u i - amount) := by
      rw [hx.sent.st]; show setWallet (arriveDep e w).st.wallets u i _ = _; rw [hst]
    have eb : w'.st.balance = w.st.balance.set i (b - ret) := by
      rw [hx.sent.st]; show (arriveDep e w).st.balance.set i _ = _; rw [hst]
    rw [ew, eb]
    by_cases hj : j = i
    · subst hj
      have hlt : j < w.st.balance.length := (List.getElem?_eq_some_iff.1 hbal).1
      have e1 := held_set (f := w.st.wallets) (i := j) (v := w.st.wallets u j - amount) hl (hu u hx.user)
      have e2 : held l (setWallet w.st.wallets u j (w.st.wallets u j - amount)) j + amount = held l w.st.wallets j := by omega
      have e3 : (w.st.balance.set j (b - ret)).getD j 0 = b - ret := by
        rw [List.getD_eq_getElem?_getD, List.getElem?_set_self hlt]; rfl
      have e4 : w.st.balance.getD j 0 = b := by rw [List.getD_eq_getElem?_getD, hbal]; rfl
      rw [e3, e4, ← e2]
      have := phi_sell h2 hx.enough hqr h4
      push_cast
      linarith
    · have e3 : (w.st.balance.set i (b - ret)).getD j 0 = w.st.balance.getD j 0 := by
        rw [List.getD_eq_getElem?_getD, List.getD_eq_getElem?_getD, List.getElem?_set_ne (fun h => hj h.symm)]
      rw [held_other hj, e3]; simp
  | transfer target amount i =>
    obtain ⟨u, hm⟩ := transfer_ok h
    obtain ⟨e1, e2⟩ := C69_transfer e target amount i j u w w' l hl hm.user (hu u hm.user) (ht _ _ _ rfl) h
    rw [e1, e2]; simp

/-- C69: in any reachable state, let any group `l` of users act alone for any history. If at the end the group
    holds of every horse at least the tokens it held at the start, it has not been paid more than the coins it brought
    in: there is no sequence of purchases, sales and transfers that makes money out of the market.
    The total of the currency is assumed below 2^190; amounts in the node are below 2^128. -/
theorem C69_no_profit (horses currency precision scale activation : Nat) (past history : List (Ev RaceCall))
    (hs : 0 < scale) (l : List Nat) (hl : l.Nodup)
    (hu : ∀ e c u, Ev.call e c ∈ history → e.user = some u → u ∈ l)
    (ht : ∀ e t a i, Ev.call e (.transfer t a i) ∈ history → t ∈ l) :
    let w0 := runEv raceExec (raceInit horses currency precision scale activation) past
    let w := runEv raceExec w0 history
    w.got currency < 2 ^ 190 →
    (∀ i, held l w0.st.wallets i ≤ held l w.st.wallets i) →
    (∀ i : Nat, ∀ b b', w0.st.balance[i]? = some b → w.st.balance[i]? = some b' → b ≤ b') ∧
    paid w.pays currency + w0.got currency ≤ paid w0.pays currency + w.got currency := by
  intro w0 w hgot hheld
  -- the past
  have base := runEv_inv_of (exec := raceExec) (P := fun _ _ => True)
    (I := fun w => RaceCfg (raceInit horses currency precision scale activation) w ∧
      w.st.balance.sum ≤ w.bal currency ∧ Kept w)
    (fun w c a h => ⟨⟨h.1.currency, h.1.precision, h.1.scale, h.1.length⟩,
      Nat.le_trans h.2.1 (arrive_mono c a w currency).1, h.2.2.arrive c a⟩)
    (fun e c w w' _ h hx => by
      obtain ⟨h1, h2, h3, -, -⟩ := race_money hx
      have hc : w.st.currency = currency := h.1.currency
      rw [hc] at h3
      exact ⟨⟨h1.currency.trans h.1.currency, h1.precision.trans h.1.precision, h1.scale.trans h.1.scale,
        h1.length.trans h.1.length⟩, h3 0 h.2.1, h2 h.2.2⟩)
    past (raceInit horses currency precision scale activation) (fun _ _ _ => trivial)
    ⟨⟨rfl, rfl, rfl, rfl⟩, by simp [raceInit, fresh], Kept.fresh _⟩
  have key := runEv_inv_of (exec := raceExec)
    (P := fun e c => (∀ u, e.user = some u → u ∈ l) ∧ ∀ t a i, c = .transfer t a i → t ∈ l)
    (I := fun x => RaceCfg (raceInit horses currency precision scale activation) x ∧
      x.st.balance.sum ≤ x.bal currency ∧ Kept x ∧ w0.got currency ≤ x.got currency ∧
      (∀ M, w0.st.balance.sum + M ≤ w0.bal currency → x.st.balance.sum + M ≤ x.bal currency) ∧
      (x.got currency < 2 ^ 190 → ∀ j, (held l x.st.wallets j : ℚ) - held l w0.st.wallets j ≤
        phi precision scale (x.st.balance.getD j 0) - phi precision scale (w0.st.balance.getD j 0)))
    (fun x c a h => by
      have hm := arrive_mono c a x currency
      refine ⟨⟨h.1.currency, h.1.precision, h.1.scale, h.1.length⟩, Nat.le_trans h.2.1 hm.1,
        h.2.2.1.arrive c a, Nat.le_trans h.2.2.2.1 hm.2, fun M hM => Nat.le_trans (h.2.2.2.2.1 M hM) hm.1, fun hg => ?_⟩
      exact h.2.2.2.2.2 (Nat.lt_of_le_of_lt hm.2 hg))
    (fun e c x x' hP h hx => by
      obtain ⟨h1, h2, h3, h4, -⟩ := race_money hx
      have hc : x.st.currency = currency := h.1.currency
      rw [hc] at h3
      refine ⟨⟨h1.currency.trans h.1.currency, h1.precision.trans h.1.precision, h1.scale.trans h.1.scale,
        h1.length.trans h.1.length⟩, h3 0 h.2.1, h2 h.2.2.1, Nat.le_trans h.2.2.2.1 (h4 _),
        fun M hM => h3 M (h.2.2.2.2.1 M hM), fun hg j => ?_⟩
      have hgA : (arriveDep e x).got currency ≤ x'.got currency := by
        cases c with
        | buy i => obtain ⟨_, _, _, _, hb⟩ := buy_ok hx; rw [hb.res]; exact Nat.le_refl _
        | sell i a => obtain ⟨_, _, _, hb⟩ := sell_ok hx; rw [hb.sent.got]; exact Nat.le_refl _
        | transfer t a i => obtain ⟨_, hb⟩ := transfer_ok hx; rw [hb.res]; exact Nat.le_refl _
      have hkA := h.2.2.1.arriveDep e currency
      have hp : x.st.precision = precision := h.1.precision
      have hsc : x.st.scale = scale := h.1.scale
      have step := race_tokens (l := l) hl hP.1 hP.2 hp hsc (by rw [hc]; exact h.2.1) (by rw [hc]; omega) hx j
      have ih := h.2.2.2.2.2 (Nat.lt_of_le_of_lt (h4 currency) hg) j
      linarith)
    history w0 (fun e c hm => ⟨fun u hu' => hu e c u hm hu', fun t a i hc => ht e t a i (hc ▸ hm)⟩)
    ⟨base.1, base.2.1, base.2.2, Nat.le_refl _, fun M h => h, fun _ j => by simp⟩
  have base' : RaceCfg (raceInit horses currency precision scale activation) w0 ∧
      w0.st.balance.sum ≤ w0.bal currency ∧ Kept w0 := base
  clear base
  rename' base' => base
  have hw : runEv raceExec w0 history = w := rfl
  rw [hw] at key
  obtain ⟨k1, k2, k3, k4, k5, k6⟩ := key
  have mono : ∀ j, w0.st.balance.getD j 0 ≤ w.st.balance.getD j 0 := by
    intro j
    by_cases hlt : w.st.balance.getD j 0 < w0.st.balance.getD j 0
    · obtain ⟨d, hd⟩ := Nat.exists_eq_add_of_lt hlt
      have h1 := k6 hgot j
      have h2 := phi_lt (p := precision) (B := w.st.balance.getD j 0) hs d
      have h3 : ((held l w0.st.wallets j : Nat) : ℚ) ≤ held l w.st.wallets j := by exact_mod_cast hheld j
      rw [hd] at h1
      have h2 : phi precision scale (w.st.balance.getD j 0) < phi precision scale (w.st.balance.getD j 0 + d + 1) := h2
      have h1 : ((held l w.st.wallets j : Nat) : ℚ) - held l w0.st.wallets j ≤
        phi precision scale (w.st.balance.getD j 0) - phi precision scale (w.st.balance.getD j 0 + d + 1) := h1
      linarith
    · omega
  have hlen : w0.st.balance.length = w.st.balance.length := base.1.length.trans k1.length.symm
  refine ⟨fun i b b' h1 h2 => ?_, ?_⟩
  · have := mono i
    rw [List.getD_eq_getElem?_getD, List.getD_eq_getElem?_getD, h1, h2] at this
    exact this
  · have hsum : w0.st.balance.sum ≤ w.st.balance.sum := by
      have gen : ∀ (a b : List Nat), a.length = b.length → (∀ j, a.getD j 0 ≤ b.getD j 0) → a.sum ≤ b.sum := by
        intro a
        induction a with
        | nil => intro b _ _; exact Nat.zero_le _
        | cons x a ih =>
          intro b hb hm
          cases b with
          | nil => cases hb
          | cons y b =>
            have := ih b (by simpa using hb) (fun j => hm (j + 1))
            have h0 : x ≤ y := hm 0
            simp only [List.sum_cons]; omega
      exact gen _ _ hlen mono
    have h1 := k5 (w0.bal currency - w0.st.balance.sum) (by have := base.2.1; omega)
    have h2 := base.2.2 currency
    have h3 := k3 currency
    have h4 := base.2.1
    omega

/-- C69: buying and at once selling back the tokens bought, or some of them, never returns more than the deposit. -/
theorem C69_round_trip (e e' : Env) (i amount u deposit : Nat) (w w1 w2 : W Race)
    (hd : e.dep = some (w.st.currency, deposit)) (hu : e.user = some u) (hu' : e'.user = some u)
    (hb : ∀ b, w.st.balance[i]? = some b → b + deposit < 2 ^ 190)
    (h1 : raceExec e (.buy i) (arriveDep e w) = .ok w1)
    (h2 : raceExec e' (.sell i amount) (arriveDep e' w1) = .ok w2)
    (ha : w.st.wallets u i + amount ≤ w1.st.wallets u i) :
    ∃ l, w2.pays = w.pays ++ l ∧ (∀ p ∈ l, p.to = u) ∧ paid l w.st.currency ≤ deposit := by
  have hst := arriveDep_st e w
  have hst1 := arriveDep_st e' w1
  obtain ⟨v, d, tokens, b, hx⟩ := buy_ok h1
  obtain ⟨v', ret, b', hy⟩ := sell_ok h2
  have e1 := hx.user; rw [hu] at e1; cases e1
  have e2 := hy.user; rw [hu'] at e2; cases e2
  have hdep := hx.dep; rw [hst, hd] at hdep
  have hdd : deposit = d := by injection hdep with h; injection h
  subst hdd
  have hbal := hx.bal; rw [hst] at hbal
  have eb : w1.st.balance = w.st.balance.set i (b + deposit) := by
    rw [hx.res]; show (arriveDep e w).st.balance.set i _ = _; rw [hst]
  have ew : w1.st.wallets u i = w.st.wallets u i + tokens := by
    rw [hx.res]; show setWallet (arriveDep e w).st.wallets u i _ u i = _; rw [hst]; exact if_pos ⟨rfl, rfl⟩
  have ecur : w1.st.currency = w.st.currency := by rw [hx.res, ← hst]; rfl
  have epre : w1.st.precision = w.st.precision := by rw [hx.res, ← hst]; rfl
  have esc : w1.st.scale = w.st.scale := by rw [hx.res, ← hst]; rfl
  have hlt : i < w.st.balance.length := (List.getElem?_eq_some_iff.1 hbal).1
  have hb' := hy.bal
  rw [hst1, eb, List.getElem?_set_self hlt] at hb'
  cases hb'
  have hbound := hb b hbal
  obtain ⟨q, g1, g2, g3⟩ := hx.price
  obtain ⟨p, r, k1, k2, k3, k4⟩ := hy.price
  rw [hst] at g1 g3
  rw [hst1, epre] at k1
  rw [hst1, esc] at k4
  rw [hst1, epre, esc] at k3
  have m1 := calcPrice_ok hbound g1
  have m2 := calcPrice_ok hbound k1
  have m3 := calcPrice_ok (Nat.lt_of_le_of_lt (Nat.sub_le _ _) hbound) k3
  have hrq : r ≤ q := by rw [m3, m1]; exact priceAt_mono (Nat.sub_le _ _)
  have hret : ret ≤ deposit := by
    rw [k4]
    have hs0 := hy.scale
    rw [hst1, esc] at hs0
    refine Nat.div_le_of_le_mul ?_
    have a1 : amount ≤ tokens := by omega
    have a2 : tokens * q ≤ deposit * w.st.scale := by rw [g3]; exact Nat.div_mul_le_self _ _
    calc amount * r ≤ tokens * q := Nat.mul_le_mul a1 hrq
      _ ≤ deposit * w.st.scale := a2
      _ = w.st.scale * deposit := Nat.mul_comm _ _
  refine ⟨sends e' u ret w.st.currency, ?_, fun x hx' => ?_, ?_⟩
  · rw [hy.sent.pays, hst1, ecur]
    show (arriveDep e' w1).pays ++ _ = _
    rw [arriveDep_pays, hx.res]
    show (arriveDep e w).pays ++ _ = _
    rw [arriveDep_pays]
  · rw [(mem_sends hx').1]
  · rw [paid_sends, if_pos rfl]; exact hret

/-! ### Examples -/

def raceStart : W Race := raceInit 3 7 1 1000 10

/-- Two purchases, one sale, a transfer. -/
def raceDemo : List (Ev RaceCall) :=
  [.call ⟨some 1, 9, some (7, 10000)⟩ (.buy 0), .call ⟨some 1, 10, some (7, 10000)⟩ (.buy 0),
   .call ⟨some 2, 11, some (7, 30000)⟩ (.buy 0), .call ⟨some 3, 11, none⟩ (.sell 0 1),
   .call ⟨some 2, 12, none⟩ (.transfer 1 50000 0), .call ⟨some 1, 13, none⟩ (.sell 0 120000)]

example : (runEv raceExec raceStart raceDemo).st.balance = [24880, 0, 0] ∧
    (runEv raceExec raceStart raceDemo).bal 7 = 24880 ∧
    (runEv raceExec raceStart raceDemo).st.wallets 1 0 = 30000 ∧
    (runEv raceExec raceStart raceDemo).st.wallets 2 0 = 100000 := by decide +kernel

/-- A user who buys and sells everything back gets nearly all back. -/
example : ((runEv raceExec raceStart [.call ⟨some 1, 10, some (7, 1000000)⟩ (.buy 0),
    .call ⟨some 1, 11, some (7, 10000)⟩ (.buy 0), .call ⟨some 1, 11, none⟩ (.sell 0 9950)]).pays.map (·.amount)) =
    [9950] := by decide +kernel

end Verif.Contract
