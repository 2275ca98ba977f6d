import Verif.Contract.HorseRace
import Verif.Contract.PropsCustody
import Mathlib.Tactic.Linarith
import Mathlib.Algebra.Order.Field.Rat
/-
  The price of crypto_horse_race.js: the loop is Newton's iteration for the square root; it is monotone in the
  balance for any number of iterations, converged or not.
-/
namespace Verif.Contract

open Res

/-- One step of Newton's iteration for the root of `x`. -/
def nstep (x y : Nat) : Nat := (y * y + x) / (2 * y)

def newton (x : Nat) : Nat → Nat → Nat
  | 0, y => y
  | n + 1, y => newton x n (nstep x y)

theorem priceStep_eq {x y : Nat} (hy : 0 < y) (hyx : y ≤ x) (hx : x < 2 ^ 190) :
    priceStep x y = .ok (nstep x y) := by
  have key : ∀ K, 0 < K → (y * K + x * K / y) / (2 * K) = nstep x y := by
    intro K hK
    have h1 : y * K + x * K / y = (x * K + y * (y * K)) / y := by
      rw [Nat.add_mul_div_left _ _ hy]; omega
    rw [h1, Nat.div_div_eq_div_mul]
    have h2 : x * K + y * (y * K) = (y * y + x) * K := by rw [Nat.add_mul, Nat.mul_assoc]; omega
    have h3 : y * (2 * K) = 2 * y * K := by ac_rfl
    rw [h2, h3, Nat.mul_div_mul_right _ _ hK]; rfl
  have hd : x * 2 ^ 64 / y ≤ x * 2 ^ 64 := Nat.div_le_self _ _
  unfold priceStep cdiv cadd
  rw [u256_of_lt (by omega), u256_of_lt (by omega), if_neg (by omega), bind_ok, if_pos (by omega), bind_ok]
  have := key (2 ^ 64) (by decide)
  have e : 2 * 2 ^ 64 = 2 ^ 65 := by decide
  rw [e] at this
  rw [this]

theorem nstep_le {x y : Nat} (hy : 0 < y) (hyx : y ≤ x) : nstep x y ≤ x := by
  unfold nstep
  refine Nat.div_le_of_le_mul ?_
  nlinarith

theorem nstep_pos {x y : Nat} (hy : 0 < y) (hyx : y ≤ x) : 0 < nstep x y := by
  unfold nstep
  refine (Nat.le_div_iff_mul_le (by omega)).2 ?_
  nlinarith

theorem priceLoop_eq {x : Nat} (hx : x < 2 ^ 190) : ∀ (n y : Nat), 0 < y → y ≤ x →
    priceLoop x n y = .ok (newton x n y)
  | 0, _, _, _ => rfl
  | n + 1, y, hy, hyx => by
    unfold priceLoop
    rw [if_pos hy, priceStep_eq hy hyx hx, bind_ok]
    exact priceLoop_eq hx n _ (nstep_pos hy hyx) (nstep_le hy hyx)

theorem newton_le {x : Nat} : ∀ (n y : Nat), 0 < y → y ≤ x → newton x n y ≤ x
  | 0, _, _, h => h
  | n + 1, _, hy, hyx => newton_le n _ (nstep_pos hy hyx) (nstep_le hy hyx)

/-- A step never goes below a root. -/
theorem le_nstep {x y s : Nat} (hy : 0 < y) (hs : s * s ≤ x) : s ≤ nstep x y := by
  unfold nstep
  refine (Nat.le_div_iff_mul_le (by omega)).2 ?_
  rcases Nat.le_total s y with h | h
  · obtain ⟨d, rfl⟩ := Nat.exists_eq_add_of_le h; nlinarith
  · obtain ⟨d, rfl⟩ := Nat.exists_eq_add_of_le h; nlinarith

theorem nstep_root {x y : Nat} (hy : 0 < y) : x < (nstep x y + 1) * (nstep x y + 1) := by
  by_cases h : (nstep x y + 1) * (nstep x y + 1) ≤ x
  · have := le_nstep hy h; omega
  · omega

theorem nstep_mono {x x' y y' : Nat} (hx : x < x') (hy : 0 < y) (hyy : y ≤ y') (hr : x < (y + 1) * (y + 1)) :
    nstep x y ≤ nstep x' y' := by
  have hm : nstep x y * (2 * y) ≤ y * y + x := Nat.div_mul_le_self _ _
  by_cases h1 : x' ≤ y * y
  · have h2 : nstep x y ≤ y := by
      unfold nstep
      refine Nat.div_le_of_le_mul ?_
      nlinarith
    show _ ≤ (y' * y' + x') / (2 * y')
    refine (Nat.le_div_iff_mul_le (by omega)).2 ?_
    obtain ⟨d, rfl⟩ := Nat.exists_eq_add_of_le hyy
    generalize nstep x y = r at *
    nlinarith
  · refine le_nstep (by omega) ?_
    by_cases h2 : nstep x y ≤ y
    · exact Nat.le_trans (Nat.mul_le_mul h2 h2) (by omega)
    · have h3 : nstep x y < y + 2 := by
        unfold nstep
        refine (Nat.div_lt_iff_lt_mul (by omega)).2 ?_
        nlinarith
      have h4 : nstep x y = y + 1 := by omega
      rw [h4] at hm ⊢
      nlinarith

theorem newton_mono {x x' : Nat} (hx : x < x') : ∀ (n y y' : Nat), 0 < y → y ≤ x → y ≤ y' →
    x < (y + 1) * (y + 1) → newton x n y ≤ newton x' n y'
  | 0, _, _, _, _, h, _ => h
  | n + 1, _, _, hy, hyx, h, hr =>
    newton_mono hx n _ _ (nstep_pos hy hyx) (nstep_le hy hyx) (nstep_mono hx hy h hr) (nstep_root hy)

/-- The price as a plain function of the balance. -/
def root20 (x : Nat) : Nat := if x = 0 then 0 else newton x 20 x

def priceAt (precision x : Nat) : Nat := root20 (x / precision) * precision

theorem root20_mono {x x' : Nat} (h : x ≤ x') : root20 x ≤ root20 x' := by
  unfold root20
  by_cases h0 : x = 0
  · rw [if_pos h0]; exact Nat.zero_le _
  · rw [if_neg h0, if_neg (by omega)]
    rcases Nat.eq_or_lt_of_le h with rfl | h
    · exact Nat.le_refl _
    · exact newton_mono h 20 x x' (by omega) (Nat.le_refl _) (by omega) (by nlinarith)

theorem priceAt_mono {p x x' : Nat} (h : x ≤ x') : priceAt p x ≤ priceAt p x' :=
  Nat.mul_le_mul_right _ (root20_mono (Nat.div_le_div_right h))

theorem calcPrice_ok {p x r : Nat} (hx : x < 2 ^ 190) (h : calcPrice p x = .ok r) : r = priceAt p x := by
  obtain ⟨q, h1, h⟩ := bind_eq_ok.1 h
  obtain ⟨y, h2, h⟩ := bind_eq_ok.1 h
  obtain ⟨hq, -⟩ := cdiv_ok h1
  obtain ⟨hr, -⟩ := cmul_ok h
  have hq' : q ≤ x := by rw [hq]; exact Nat.div_le_self _ _
  have hy : y = root20 q := by
    unfold root20
    by_cases h0 : q = 0
    · rw [if_pos h0]; rw [h0] at h2; exact (Res.ok.inj h2).symm
    · rw [if_neg h0]
      rw [priceLoop_eq (by omega) 20 q (by omega) (Nat.le_refl _)] at h2
      exact (Res.ok.inj h2).symm
  rw [hr, hy, hq]; rfl

/-! ### What the methods do -/

theorem horse_ok {s : Race} {i b : Nat} (h : horse s i = .ok b) : s.balance[i]? = some b := by
  unfold horse at h
  split at h
  · rename_i hb; cases h; exact hb
  · cases h

theorem theUser_ok {e : Env} {u : Nat} (h : theUser e = .ok u) : e.user = some u := by
  unfold theUser at h
  split at h
  · rename_i hb; cases h; exact hb
  · cases h

/-- `w` with new wallets and balances. -/
def Race.after (w : W Race) (wallets : Nat → Nat → Nat) (balance : List Nat) : W Race :=
  { w with st := { w.st with wallets := wallets, balance := balance } }

/-- Buying `amount` of horse `i`, seen from outside. -/
structure Bought (e : Env) (i : Nat) (w w' : W Race) (u amount tokens b : Nat) : Prop where
  user : e.user = some u
  active : w.st.activation ≤ e.height
  dep : e.dep = some (w.st.currency, amount)
  bal : w.st.balance[i]? = some b
  price : ∃ p, calcPrice w.st.precision (b + amount) = .ok p ∧ p ≠ 0 ∧ tokens = amount * w.st.scale / p
  res : w' = Race.after w (setWallet w.st.wallets u i (w.st.wallets u i + tokens)) (w.st.balance.set i (b + amount))

theorem buy_ok {e : Env} {i : Nat} {w w' : W Race} (h : raceExec e (.buy i) w = .ok w') :
    ∃ u amount tokens b, Bought e i w w' u amount tokens b := by
  obtain ⟨-, h⟩ := chk_bind.1 h
  obtain ⟨ha, h⟩ := chk_bind.1 h
  obtain ⟨amount, h1, h⟩ := bind_eq_ok.1 h
  obtain ⟨price, h2, h⟩ := bind_eq_ok.1 h
  obtain ⟨n, h3, h⟩ := bind_eq_ok.1 h
  obtain ⟨tokens, h4, h⟩ := bind_eq_ok.1 h
  obtain ⟨u, h5, h⟩ := bind_eq_ok.1 h
  obtain ⟨hv, h6, h⟩ := bind_eq_ok.1 h
  obtain ⟨b, h7, h⟩ := bind_eq_ok.1 h
  obtain ⟨b', h8, h⟩ := bind_eq_ok.1 h
  obtain ⟨b0, g1, h2⟩ := bind_eq_ok.1 h2
  obtain ⟨x, g2, h2⟩ := bind_eq_ok.1 h2
  have e1 := horse_ok h7
  have e2 := horse_ok g1
  rw [e1] at e2; cases e2
  obtain ⟨rfl, -⟩ := cadd_ok g2
  obtain ⟨rfl, -⟩ := cmul_ok h3
  obtain ⟨ht, hp⟩ := cdiv_ok h4
  obtain ⟨rfl, -⟩ := cadd_ok h6
  obtain ⟨rfl, -⟩ := cadd_ok h8
  exact ⟨u, amount, tokens, b, theUser_ok h5, ha, depositIn_ok h1, e1, ⟨price, h2, hp, ht⟩, (Res.ok.inj h).symm⟩

/-- Selling `amount` tokens of horse `i` for `ret`. -/
structure Sold (e : Env) (i amount : Nat) (w w' : W Race) (u ret b : Nat) : Prop where
  user : e.user = some u
  owned : amount ≤ w.st.wallets u i
  bal : w.st.balance[i]? = some b
  enough : ret ≤ b
  price : ∃ p q, calcPrice w.st.precision b = .ok p ∧ amount * p / w.st.scale ≤ b ∧
    calcPrice w.st.precision (b - amount * p / w.st.scale) = .ok q ∧ ret = amount * q / w.st.scale
  scale : w.st.scale ≠ 0
  sent : Sent (Race.after w (setWallet w.st.wallets u i (w.st.wallets u i - amount)) (w.st.balance.set i (b - ret))) w'
    (sends e u ret w.st.currency)

theorem sell_ok {e : Env} {i amount : Nat} {w w' : W Race} (h : raceExec e (.sell i amount) w = .ok w') :
    ∃ u ret b, Sold e i amount w w' u ret b := by
  obtain ⟨-, h⟩ := chk_bind.1 h
  obtain ⟨-, h⟩ := chk_bind.1 h
  obtain ⟨u, h1, h⟩ := bind_eq_ok.1 h
  obtain ⟨h2, h⟩ := chk_bind.1 h
  obtain ⟨price, h3, h⟩ := bind_eq_ok.1 h
  obtain ⟨n, h4, h⟩ := bind_eq_ok.1 h
  obtain ⟨ret, h5, h⟩ := bind_eq_ok.1 h
  obtain ⟨b, h6, h⟩ := bind_eq_ok.1 h
  obtain ⟨b', h7, h⟩ := bind_eq_ok.1 h
  obtain ⟨b0, g1, h3⟩ := bind_eq_ok.1 h3
  obtain ⟨p, g2, h3⟩ := bind_eq_ok.1 h3
  obtain ⟨m, g3, h3⟩ := bind_eq_ok.1 h3
  obtain ⟨q, g4, h3⟩ := bind_eq_ok.1 h3
  obtain ⟨x, g5, h3⟩ := bind_eq_ok.1 h3
  have e1 := horse_ok h6
  have e2 := horse_ok g1
  rw [e1] at e2; cases e2
  obtain ⟨rfl, -⟩ := cmul_ok h4
  obtain ⟨hr, hs⟩ := cdiv_ok h5
  obtain ⟨rfl, hle⟩ := csub_ok h7
  obtain ⟨rfl, -⟩ := cmul_ok g3
  obtain ⟨rfl, -⟩ := cdiv_ok g4
  obtain ⟨rfl, hle2⟩ := csub_ok g5
  exact ⟨u, ret, b, theUser_ok h1, h2, e1, hle, ⟨p, price, g2, hle2, h3, hr⟩, hs, (send_sent h).1⟩

/-- Moving `amount` tokens of horse `i` to `target`. -/
structure Moved (e : Env) (target amount i : Nat) (w w' : W Race) (u : Nat) : Prop where
  user : e.user = some u
  owned : amount ≤ w.st.wallets u i
  res : w' = Race.after w
    (setWallet (setWallet w.st.wallets u i (w.st.wallets u i - amount)) target i
      (setWallet w.st.wallets u i (w.st.wallets u i - amount) target i + amount)) w.st.balance

theorem transfer_ok {e : Env} {target amount i : Nat} {w w' : W Race}
    (h : raceExec e (.transfer target amount i) w = .ok w') : ∃ u, Moved e target amount i w w' u := by
  obtain ⟨-, h⟩ := chk_bind.1 h
  obtain ⟨-, h⟩ := chk_bind.1 h
  obtain ⟨u, h1, h⟩ := bind_eq_ok.1 h
  obtain ⟨h2, h⟩ := chk_bind.1 h
  obtain ⟨t, h3, h⟩ := bind_eq_ok.1 h
  obtain ⟨rfl, -⟩ := cadd_ok h3
  exact ⟨u, theUser_ok h1, h2, (Res.ok.inj h).symm⟩

/-! ### Sums of wallets -/

/-- Tokens of horse `i` held by the users `l`. -/
def held (l : List Nat) (f : Nat → Nat → Nat) (i : Nat) : Nat := (l.map fun u => f u i).sum

theorem held_other {l : List Nat} {f : Nat → Nat → Nat} {u i v j : Nat} (h : j ≠ i) :
    held l (setWallet f u i v) j = held l f j := by
  unfold held
  congr 1
  refine List.map_congr_left fun x _ => ?_
  exact if_neg (fun hh => h hh.2)

theorem held_notin {f : Nat → Nat → Nat} {u i v : Nat} : ∀ {l : List Nat}, u ∉ l →
    held l (setWallet f u i v) i = held l f i := by
  intro l h
  unfold held
  congr 1
  refine List.map_congr_left fun x hx => ?_
  exact if_neg (fun hh : x = u ∧ i = i => h (hh.1 ▸ hx))

theorem held_set {f : Nat → Nat → Nat} {u i v : Nat} : ∀ {l : List Nat}, l.Nodup → u ∈ l →
    held l (setWallet f u i v) i + f u i = held l f i + v
  | x :: l, hn, hu => by
    have hn' := List.nodup_cons.1 hn
    have e1 : ∀ g, held (x :: l) g i = g x i + held l g i := fun g => rfl
    rw [e1, e1]
    by_cases hx : x = u
    · subst hx
      rw [held_notin hn'.1]
      have : setWallet f x i v x i = v := if_pos ⟨rfl, rfl⟩
      rw [this]; omega
    · have ih := held_set (f := f) (i := i) (v := v) hn'.2 ((List.mem_cons.1 hu).resolve_left (fun h => hx h.symm))
      have : setWallet f u i v x i = f x i := if_neg (fun h => hx h.1)
      rw [this]; omega

end Verif.Contract
