import Verif.Contract.PropsSwap
import Verif.Contract.SwapShown
/-
  C185: what the node tells about exchange contracts is what the contract has.
-/
namespace Verif.Contract

/-! ### what never falls -/

/-- Volumes and fees taken never fall. -/
def Grow (s s' : Swap) : Prop :=
  (∀ i, s.volume.get i ≤ s'.volume.get i) ∧ ∀ i, (s.pools.map (·.paid.get i)).sum ≤ (s'.pools.map (·.paid.get i)).sum

theorem Grow.refl (s : Swap) : Grow s s := ⟨fun _ => Nat.le_refl _, fun _ => Nat.le_refl _⟩

theorem Grow.trans {a b c : Swap} (h : Grow a b) (k : Grow b c) : Grow a c :=
  ⟨fun i => Nat.le_trans (h.1 i) (k.1 i), fun i => Nat.le_trans (h.2 i) (k.2 i)⟩

theorem store_grow {s : Swap} {me : Nat} {x y : Ctx} (hx : s.pools[x.idx]? = some x.pool) (hi : y.idx = x.idx) (hp : y.pool.paid = x.pool.paid) :
    Grow s (storeCtx s me y) := by
  refine ⟨fun _ => Nat.le_refl _, fun i => ?_⟩
  have h := sum_set (fun p : Pool => p.paid.get i) s.pools x.idx x.pool y.pool hx
  change _ ≤ ((s.pools.set y.idx y.pool).map fun p : Pool => p.paid.get i).sum
  rw [hi]
  rw [hp] at h
  omega

theorem add_grow {s s' : Swap} {me height idx amount : Nat} {i : Bool} (h : addLiquidC s me height i idx amount = .ok s') : Grow s s' := by
  unfold addLiquidC at h
  obtain ⟨y, h1, h⟩ := Res.bind_eq_ok.1 h
  obtain ⟨z, h2, h⟩ := Res.bind_eq_ok.1 h
  have e := (Res.ok.inj h).symm
  subst e
  obtain ⟨hr, -⟩ := creditC_rel (fun _ => 0) h2
  split at h1
  · cases h1
  · rename_i p hp
    split at h1
    · have e := (Res.ok.inj h1).symm
      exact store_grow (x := y) (by rw [e]; exact hp) hr.idx hr.paid
    · rename_i u hu
      split at h1
      · split at h1
        · have r := payoutC_rel (fun _ => 0) h1
          exact store_grow (x := ⟨idx, p, u, s.coins, s.outs⟩) hp (hr.idx.trans r.idx) (hr.paid.trans r.paid)
        · cases h1
      · have e := (Res.ok.inj h1).symm
        exact store_grow (x := y) (by rw [e]; exact hp) hr.idx hr.paid

theorem quote_grow {i : Bool} {a : Nat} {q : Quote} {s s' : Swap} (h : applyQuote i a q s = .ok s') : Grow s s' := by
  unfold applyQuote at h
  dsimp only at h
  split at h
  · cases h
  · rename_i p hp
    obtain ⟨v, h1, h⟩ := Res.bind_eq_ok.1 h
    obtain ⟨bi, h2, h⟩ := Res.bind_eq_ok.1 h
    obtain ⟨bk, h3, h⟩ := Res.bind_eq_ok.1 h
    obtain ⟨pk, h4, h⟩ := Res.bind_eq_ok.1 h
    have e := (Res.ok.inj h).symm
    subst e
    obtain ⟨e1, -⟩ := cadd_ok h1
    obtain ⟨e4, -⟩ := cadd_ok h4
    refine ⟨fun j => ?_, fun j => ?_⟩
    · change _ ≤ (s.volume.set (!i) v).get j
      rw [P2.get_set]
      by_cases k : j = !i
      · rw [if_pos k, k, e1]; exact Nat.le_add_right _ _
      · rw [if_neg k]; exact Nat.le_refl _
    · have h := sum_set (fun p : Pool => p.paid.get j) s.pools q.idx p
        { p with bal := (p.bal.set i bi).set (!i) bk, paid := p.paid.set (!i) pk } hp
      have g : p.paid.get j ≤ (p.paid.set (!i) pk).get j := by
        rw [P2.get_set]
        by_cases k : j = !i
        · rw [if_pos k, k, e4]; exact Nat.le_add_right _ _
        · rw [if_neg k]; exact Nat.le_refl _
      dsimp only at h ⊢
      omega

theorem loop_grow {i : Bool} {ch : Nat} : ∀ (n : Nat) (s s' : Swap) (left tot left' tot' : Nat),
    tradeLoop i ch n s left tot = .ok (s', left', tot') → Grow s s'
  | 0, s, s', left, tot, left', tot', h => by
    unfold tradeLoop at h
    have e := Res.ok.inj h
    injection e with e1 e2
    rw [e1]; exact Grow.refl _
  | n + 1, s, s', left, tot, left', tot', h => by
    unfold tradeLoop at h
    split at h
    · dsimp only at h
      obtain ⟨bq, hb, h⟩ := Res.bind_eq_ok.1 h
      cases bq with
      | none => exact loop_grow n s s' left tot left' tot' h
      | some q =>
        dsimp only at h
        obtain ⟨t, h1, h⟩ := Res.bind_eq_ok.1 h
        obtain ⟨z, h2, h⟩ := Res.bind_eq_ok.1 h
        obtain ⟨l, h3, h⟩ := Res.bind_eq_ok.1 h
        exact (quote_grow h2).trans (loop_grow n z s' _ _ left' tot' h)
    · have e := Res.ok.inj h
      injection e with e1 e2
      rw [e1]; exact Grow.refl _

theorem exec_grow {s s' : Swap} {c : SwapCall} (h : swapExec s c = .ok s') : Grow s s' := by
  cases c with
  | transfer tok amount =>
    have e := (Res.ok.inj h).symm
    subst e
    exact Grow.refl _
  | addLiquid me height i idx tok amount =>
    dsimp only [swapExec] at h
    unfold addLiquid at h
    obtain ⟨b, h1, h⟩ := Res.bind_eq_ok.1 h
    rw [Res.chk_bind] at h
    exact (add_grow h.2 : Grow (credit s tok amount) s')
  | payout me =>
    dsimp only [swapExec] at h
    unfold payout at h
    obtain ⟨x, h1, h⟩ := Res.bind_eq_ok.1 h
    obtain ⟨y, h2, h⟩ := Res.bind_eq_ok.1 h
    have e := (Res.ok.inj h).symm
    subst e
    have hr := payoutC_rel (fun _ => 0) h2
    exact store_grow (load_view h1).pool hr.idx hr.paid
  | remLiquid me height i amount dry =>
    dsimp only [swapExec] at h
    unfold remLiquid at h
    obtain ⟨b, h0, h⟩ := Res.bind_eq_ok.1 h
    obtain ⟨x, h1, h⟩ := Res.bind_eq_ok.1 h
    obtain ⟨⟨r, y⟩, h2, h⟩ := Res.bind_eq_ok.1 h
    have e := (Res.ok.inj h).symm
    subst e
    have hr := (remLiquidCtx_rel (fun _ => 0) h2).1
    exact store_grow (load_view h1).pool hr.idx hr.paid
  | remAll me height dry =>
    dsimp only [swapExec] at h
    unfold remAllLiquid at h
    obtain ⟨x, h1, h⟩ := Res.bind_eq_ok.1 h
    obtain ⟨y, h2, h⟩ := Res.bind_eq_ok.1 h
    obtain ⟨z, h3, h⟩ := Res.bind_eq_ok.1 h
    obtain ⟨w, h4, h⟩ := Res.bind_eq_ok.1 h
    have e := (Res.ok.inj h).symm
    subst e
    have hr := ((payoutC_rel (fun _ => 0) h2).trans (remAllSide_rel _ h3)).trans (remAllSide_rel _ h4)
    exact store_grow (load_view h1).pool hr.idx hr.paid
  | switchPool me height idx =>
    dsimp only [swapExec] at h
    unfold switchPool at h
    rw [Res.chk_bind] at h
    obtain ⟨-, h⟩ := h
    obtain ⟨x, h1, h⟩ := Res.bind_eq_ok.1 h
    rw [Res.chk_bind] at h
    obtain ⟨-, h⟩ := h
    obtain ⟨y, h2, h⟩ := Res.bind_eq_ok.1 h
    obtain ⟨⟨acc, z⟩, h3, h⟩ := Res.bind_eq_ok.1 h
    obtain ⟨⟨acc', w⟩, h4, h⟩ := Res.bind_eq_ok.1 h
    obtain ⟨v, h5, h⟩ := Res.bind_eq_ok.1 h
    have hz : P2.zero.get = fun _ => 0 := by funext i; exact P2.get_zero i
    have r0 := payoutC_rel (fun _ => 0) h2
    have r1 := switchOut_rel h3
    have r2 := switchOut_rel h4
    rw [hz] at r1
    have hr := (r0.trans r1).trans r2
    have s1 : Grow s (storeCtx s me w) := store_grow (load_view h1).pool hr.idx hr.paid
    have step : ∀ (i : Bool) (n : Nat) (a b : Swap), switchIn me height idx i n a = .ok b → Grow a b := by
      intro i n a b hab
      unfold switchIn at hab
      split at hab
      · exact add_grow hab
      · have e := (Res.ok.inj hab).symm
        subst e
        exact Grow.refl _
    exact (s1.trans (step _ _ _ _ h5)).trans (step _ _ _ _ h)
  | trade i dst m n tok amount =>
    dsimp only [swapExec] at h
    unfold trade at h
    obtain ⟨b, h0, h⟩ := Res.bind_eq_ok.1 h
    rw [Res.chk_bind, Res.chk_bind] at h
    obtain ⟨-, -, h⟩ := h
    obtain ⟨n1, -, h⟩ := Res.bind_eq_ok.1 h
    obtain ⟨n2, -, h⟩ := Res.bind_eq_ok.1 h
    obtain ⟨chunk, -, h⟩ := Res.bind_eq_ok.1 h
    obtain ⟨⟨z, left, total⟩, h1, h⟩ := Res.bind_eq_ok.1 h
    dsimp only at h
    rw [Res.chk_bind, Res.chk_bind, Res.chk_bind, Res.chk_bind] at h
    obtain ⟨-, -, -, -, h⟩ := h
    obtain ⟨cc, h2, h⟩ := Res.bind_eq_ok.1 h
    have e := (Res.ok.inj h).symm
    subst e
    exact (loop_grow _ _ _ _ _ _ _ h1 : Grow (credit s tok amount) z)

theorem run_grow : ∀ (l : List SwapCall) (s : Swap), Grow s (swapRun s l)
  | [], s => Grow.refl s
  | c :: l, s => by
    have h : Grow s (swapStep s c) := by
      unfold swapStep
      split
      · rename_i s' h; exact exec_grow h
      · exact Grow.refl s
    exact h.trans (run_grow l _)

theorem run_append (l m : List SwapCall) (s : Swap) : swapRun s (l ++ m) = swapRun (swapRun s l) m := by
  induction l generalizing s with
  | nil => rfl
  | cons c l ih => exact ih _

/-! ### what is shown -/

theorem toU128_of {n : Nat} (h : n < 2 ^ 128) : toU128 n = .ok n := if_neg (fun k => k (Nat.div_eq_of_lt h))

theorem both_of {f : Bool → Res Nat} {g : Bool → Nat} (h : ∀ i, f i = .ok (g i)) : both f = .ok ⟨g false, g true⟩ := by
  unfold both
  rw [h false, Res.bind_ok, h true, Res.bind_ok]

theorem readPair_of {p : P2} (h : ∀ i, p.get i < 2 ^ 128) : readPair p = .ok p := both_of (g := p.get) fun i => toU128_of (h i)

/-- The pool as it is shown when everything fits. -/
def plain (p : Pool) : PoolInfo := ⟨p.bal, p.tot, p.paid, p.claimed⟩

theorem poolInfos_of : ∀ l : List Pool, (∀ p ∈ l, ∀ i, p.bal.get i < 2 ^ 128 ∧ p.tot.get i < 2 ^ 128 ∧ p.paid.get i < 2 ^ 128 ∧ p.claimed.get i < 2 ^ 128) →
    poolInfos l = .ok (l.map plain)
  | [], _ => rfl
  | p :: l, h => by
    have h0 := h p (List.mem_cons_self)
    unfold poolInfos poolInfo
    rw [readPair_of fun i => (h0 i).1, Res.bind_ok, readPair_of fun i => (h0 i).2.2.1, Res.bind_ok, readPair_of fun i => (h0 i).2.2.2, Res.bind_ok,
      readPair_of fun i => (h0 i).2.1, Res.bind_ok, Res.bind_ok, poolInfos_of l fun q hq => h q (List.mem_cons_of_mem _ hq), Res.bind_ok]
    rfl

theorem fold_sum (f : PoolInfo → P2) : ∀ (l : List PoolInfo) (a : P2), (∀ i, a.get i + (l.map fun p => (f p).get i).sum < 2 ^ 128) →
    ∀ i, (l.foldl (fun a p => add128 a (f p)) a).get i = a.get i + (l.map fun p => (f p).get i).sum
  | [], a, _, i => rfl
  | p :: l, a, h, i => by
    have e : ∀ i, (add128 a (f p)).get i = a.get i + (f p).get i := by
      intro i
      have k := h i
      rw [List.map_cons, List.sum_cons] at k
      cases i with
      | false => exact Nat.mod_eq_of_lt (show a.t + (f p).t < _ from by change a.t + ((f p).t + _) < _ at k; omega)
      | true => exact Nat.mod_eq_of_lt (show a.c + (f p).c < _ from by change a.c + ((f p).c + _) < _ at k; omega)
    rw [List.foldl_cons, fold_sum f l _ (fun j => by have k := h j; rw [List.map_cons, List.sum_cons] at k; rw [e j]; omega) i, e i,
      List.map_cons, List.sum_cons, Nat.add_assoc]

theorem over_sum (f : PoolInfo → P2) (g : Pool → P2) (hf : ∀ p, f (plain p) = g p) (l : List Pool) (h : ∀ i, (l.map fun p => (g p).get i).sum < 2 ^ 128) (i : Bool) :
    (overPools f (l.map plain)).get i = (l.map fun p => (g p).get i).sum := by
  have e : ∀ i, ((l.map plain).map fun p => (f p).get i) = l.map fun p => (g p).get i := by
    intro i
    rw [List.map_map]
    exact List.map_congr_left fun p _ => by change (f (plain p)).get i = _; rw [hf]
  have k := fold_sum f (l.map plain) .zero (fun i => by rw [P2.get_zero, Nat.zero_add, e]; exact h i) i
  rw [P2.get_zero, Nat.zero_add, e] at k
  exact k

theorem fold256 (i : Bool) : ∀ (l : List Pool) (a : Nat), a + (l.map (·.paid.get i)).sum < 2 ^ 256 →
    l.foldl (fun a p => (a + p.paid.get i) % 2 ^ 256) a = a + (l.map (·.paid.get i)).sum
  | [], a, _ => rfl
  | p :: l, a, h => by
    rw [List.map_cons, List.sum_cons] at h
    rw [List.foldl_cons, Nat.mod_eq_of_lt (by omega), fold256 i l _ (by omega), List.map_cons, List.sum_cons, Nat.add_assoc]

theorem diff_of {a b : Nat} (h : b ≤ a) (ha : a < 2 ^ 256) : (a + 2 ^ 256 - b) % 2 ^ 256 = a - b := by
  have e : a + 2 ^ 256 - b = (a - b) + 2 ^ 256 := by omega
  rw [e, Nat.add_mod_right, Nat.mod_eq_of_lt (by omega)]

theorem pair_get (g : Bool → Nat) (i : Bool) : (P2.mk (g false) (g true)).get i = g i := by cases i <;> rfl

/-- The numbers of the contract are within 128 bits, as far as they are shown. -/
structure Fits (s : Swap) : Prop where
  coins : ∀ i, s.coins.get i < 2 ^ 128
  volume : ∀ i, s.volume.get i < 2 ^ 128
  tot : ∀ i, (s.pools.map (·.tot.get i)).sum < 2 ^ 128
  paid : ∀ i, 365 * (s.pools.map (·.paid.get i)).sum < 2 ^ 128

/-- The contract at an earlier time: it was not there, or it had seen the first of its calls. -/
def Before (calls : List SwapCall) (past : Option Swap) : Prop :=
  past = none ∨ ∃ n, past = some (swapRun swapInit (calls.take n))

/-- What had been traded, and taken as fees, by an earlier time. -/
def volumeAt (i : Bool) : Option Swap → Nat
  | none => 0
  | some s => s.volume.get i

def feesAt (i : Bool) : Option Swap → Nat
  | none => 0
  | some s => (s.pools.map (·.paid.get i)).sum

theorem before_grow {calls : List SwapCall} {past : Option Swap} (h : Before calls past) (i : Bool) :
    volumeAt i past ≤ (swapRun swapInit calls).volume.get i ∧ feesAt i past ≤ ((swapRun swapInit calls).pools.map (·.paid.get i)).sum := by
  rcases h with h | ⟨n, h⟩
  · rw [h]; exact ⟨Nat.zero_le _, Nat.zero_le _⟩
  · have g := run_grow (calls.drop n) (swapRun swapInit (calls.take n))
    rw [← run_append, List.take_append_drop] at g
    rw [h]
    exact ⟨g.1 i, g.2 i⟩

theorem since_of {calls : List SwapCall} {past : Option Swap} (h : Before calls past) (hf : Fits (swapRun swapInit calls)) (i : Bool) :
    volumeSince (swapRun swapInit calls).volume past i = .ok ((swapRun swapInit calls).volume.get i - volumeAt i past) := by
  have g := (before_grow h i).1
  have k := hf.volume i
  cases past with
  | none => rfl
  | some s =>
    change s.volume.get i ≤ _ at g
    change toU128 _ = .ok (_ - s.volume.get i)
    rw [diff_of g (by omega)]
    exact toU128_of (by omega)

theorem yearly_of {calls : List SwapCall} {past : Option Swap} (h : Before calls past) (hf : Fits (swapRun swapInit calls)) (now : P2)
    (hn : ∀ i, now.get i = ((swapRun swapInit calls).pools.map (·.paid.get i)).sum) (m : Nat) (hm : m ≤ 365) (i : Bool) :
    yearly m now past i = .ok (m * (now.get i - feesAt i past)) := by
  have g := (before_grow h i).2
  have k := hf.paid i
  rw [← hn i] at g k
  have e : prevPaid i past = feesAt i past := by
    cases past with
    | none => rfl
    | some s =>
      change (s.pools.map (·.paid.get i)).sum ≤ _ at g
      have q := fold256 i s.pools 0 (by omega)
      rw [Nat.zero_add] at q
      exact q
  have b : m * (now.get i - feesAt i past) < 2 ^ 128 := by
    have b1 : m * (now.get i - feesAt i past) ≤ 365 * now.get i := Nat.mul_le_mul hm (Nat.sub_le _ _)
    omega
  unfold yearly
  rw [e, diff_of g (by omega), Nat.mod_eq_of_lt (by omega)]
  exact toU128_of b

/-- What the information about a contract should say. -/
structure Says (s : Swap) (day week : Option Swap) (r : SwapInfo) : Prop where
  wallet : r.wallet = s.coins
  balance : ∀ i, r.balance.get i = (s.pools.map (·.bal.get i)).sum
  volume : r.volume = s.volume
  paid : ∀ i, r.paid.get i = (s.pools.map (·.paid.get i)).sum
  claimed : ∀ i, r.claimed.get i = (s.pools.map (·.claimed.get i)).sum
  tot : ∀ i, r.tot.get i = (s.pools.map (·.tot.get i)).sum
  volDay : ∀ i, r.volume1.get i + volumeAt i day = s.volume.get i
  volWeek : ∀ i, r.volume7.get i + volumeAt i week = s.volume.get i
  yield1 : ∀ i, r.yearly1.get i + 365 * feesAt i day = 365 * r.paid.get i
  yield7 : ∀ i, r.yearly7.get i + 52 * feesAt i week = 52 * r.paid.get i
  pools : r.pools.map (fun p => (p.bal, p.tot, p.paid, p.claimed)) = s.pools.map (fun p => (p.bal, p.tot, p.paid, p.claimed))

theorem sum_le_sum {f g : Pool → Nat} : ∀ l : List Pool, (∀ p ∈ l, f p ≤ g p) → (l.map f).sum ≤ (l.map g).sum
  | [], _ => Nat.le_refl _
  | p :: l, h => by
    have a := h p (List.mem_cons_self)
    have b := sum_le_sum l fun q hq => h q (List.mem_cons_of_mem _ hq)
    rw [List.map_cons, List.sum_cons, List.map_cons, List.sum_cons]
    omega

theorem claimed_le {calls : List SwapCall} (i : Bool) : ∀ p ∈ (swapRun swapInit calls).pools, p.claimed.get i ≤ p.paid.get i := by
  intro p hp
  obtain ⟨j, hj⟩ := List.mem_iff_getElem?.1 hp
  exact (swapRun_inv calls swapInit_inv).claimed j p hj i

theorem bal_le {calls : List SwapCall} (i : Bool) :
    ((swapRun swapInit calls).pools.map (·.bal.get i)).sum ≤ (swapRun swapInit calls).coins.get i := by
  refine Nat.le_trans (sum_le_sum _ fun p _ => ?_) ((C40_solvent calls).1 i)
  exact Nat.le_add_right _ _

theorem info_of {s : Swap} {day week : Option Swap} {v v1 v7 y1 y7 : P2} {l : List PoolInfo} (h0 : readPair s.volume = .ok v) (hp : poolInfos s.pools = .ok l)
    (h1 : both (volumeSince v day) = .ok v1) (h7 : both (volumeSince v week) = .ok v7) (g1 : both (yearly 365 (overPools PoolInfo.paid l) day) = .ok y1)
    (g7 : both (yearly 52 (overPools PoolInfo.paid l) week) = .ok y7) :
    getSwapInfo s day week = .ok ⟨s.coins, overPools PoolInfo.bal l, v, overPools PoolInfo.paid l, overPools PoolInfo.claimed l, overPools PoolInfo.tot l,
      v1, v7, y1, y7, l⟩ := by
  unfold getSwapInfo
  rw [h0, Res.bind_ok, hp, Res.bind_ok]
  dsimp only
  rw [h1, Res.bind_ok, h7, Res.bind_ok, g1, Res.bind_ok, g7, Res.bind_ok]

/-- C185. After any calls by anybody, as long as the numbers fit, the node shows the contract, and every number is the right one: what the contract
    holds, the sums over its pools and the numbers of each pool, and what was traded and taken as fees since a day and a week ago. -/
theorem C185_info (calls : List SwapCall) {day week : Option Swap} (h1 : Before calls day) (h7 : Before calls week)
    (hf : Fits (swapRun swapInit calls)) :
    ∃ r, getSwapInfo (swapRun swapInit calls) day week = .ok r ∧ Says (swapRun swapInit calls) day week r := by
  have hbal : ∀ i, ((swapRun swapInit calls).pools.map (·.bal.get i)).sum < 2 ^ 128 := fun i => Nat.lt_of_le_of_lt (bal_le i) (hf.coins i)
  have hpaid : ∀ i, ((swapRun swapInit calls).pools.map (·.paid.get i)).sum < 2 ^ 128 := fun i => by have := hf.paid i; omega
  have hcl : ∀ i, ((swapRun swapInit calls).pools.map (·.claimed.get i)).sum < 2 ^ 128 := fun i =>
    Nat.lt_of_le_of_lt (sum_le_sum _ (claimed_le i)) (hpaid i)
  have hp : poolInfos (swapRun swapInit calls).pools = .ok ((swapRun swapInit calls).pools.map plain) := by
    refine poolInfos_of _ fun p hp i => ⟨?_, ?_, ?_, ?_⟩
    · exact Nat.lt_of_le_of_lt (le_sum (fun p : Pool => p.bal.get i) _ p hp) (hbal i)
    · exact Nat.lt_of_le_of_lt (le_sum (fun p : Pool => p.tot.get i) _ p hp) (hf.tot i)
    · exact Nat.lt_of_le_of_lt (le_sum (fun p : Pool => p.paid.get i) _ p hp) (hpaid i)
    · exact Nat.lt_of_le_of_lt (le_sum (fun p : Pool => p.claimed.get i) _ p hp) (hcl i)
  have ep := over_sum PoolInfo.paid Pool.paid (fun _ => rfl) _ hpaid
  have v1 := both_of (since_of h1 hf)
  have v7 := both_of (since_of h7 hf)
  have y1 := both_of (yearly_of h1 hf _ ep 365 (by omega))
  have y7 := both_of (yearly_of h7 hf _ ep 52 (by omega))
  have g := info_of (readPair_of hf.volume) hp v1 v7 y1 y7
  refine ⟨_, g, ?_⟩
  · refine ⟨rfl, over_sum PoolInfo.bal Pool.bal (fun _ => rfl) _ hbal, rfl, ep, over_sum PoolInfo.claimed Pool.claimed (fun _ => rfl) _ hcl,
      over_sum PoolInfo.tot Pool.tot (fun _ => rfl) _ hf.tot, fun i => ?_, fun i => ?_, fun i => ?_, fun i => ?_, ?_⟩
    · dsimp only
      rw [pair_get fun i => _ - volumeAt i day]
      exact Nat.sub_add_cancel (before_grow h1 i).1
    · dsimp only
      rw [pair_get fun i => _ - volumeAt i week]
      exact Nat.sub_add_cancel (before_grow h7 i).1
    · have g := (before_grow h1 i).2
      dsimp only
      rw [pair_get fun i => 365 * (_ - feesAt i day)]
      rw [← Nat.mul_add, Nat.sub_add_cancel (by rw [ep i]; exact g)]
    · have g := (before_grow h7 i).2
      dsimp only
      rw [pair_get fun i => 52 * (_ - feesAt i week)]
      rw [← Nat.mul_add, Nat.sub_add_cancel (by rw [ep i]; exact g)]
    · dsimp only
      rw [List.map_map]
      rfl

theorem sum_add (f g : Pool → Nat) : ∀ l : List Pool, (l.map fun p => f p + g p).sum = (l.map f).sum + (l.map g).sum
  | [] => rfl
  | p :: l => by
    have e := sum_add f g l
    rw [List.map_cons, List.sum_cons, List.map_cons, List.sum_cons, List.map_cons, List.sum_cons, e]
    omega

/-- C185. What is shown is backed: the wallet shown holds the balance shown and all fees shown as paid and not claimed. -/
theorem C185_backed (calls : List SwapCall) {day week : Option Swap} (h1 : Before calls day) (h7 : Before calls week)
    (hf : Fits (swapRun swapInit calls)) {r : SwapInfo} (h : getSwapInfo (swapRun swapInit calls) day week = .ok r) (i : Bool) :
    r.claimed.get i ≤ r.paid.get i ∧ r.balance.get i + r.paid.get i ≤ r.wallet.get i + r.claimed.get i := by
  obtain ⟨q, hq, hs⟩ := C185_info calls h1 h7 hf
  rw [hq] at h
  have e := Res.ok.inj h
  subst e
  rw [hs.claimed, hs.paid, hs.balance, hs.wallet]
  refine ⟨sum_le_sum _ (claimed_le i), ?_⟩
  have k := (C40_solvent calls).1 i
  have a := sum_add (fun p => p.bal.get i) (fun p => p.paid.get i) (swapRun swapInit calls).pools
  have b := sum_add (fun p => p.bal.get i + (p.paid.get i - p.claimed.get i)) (fun p => p.claimed.get i) (swapRun swapInit calls).pools
  have c : ((swapRun swapInit calls).pools.map fun p => p.bal.get i + p.paid.get i).sum ≤
      ((swapRun swapInit calls).pools.map fun p => p.bal.get i + (p.paid.get i - p.claimed.get i) + p.claimed.get i).sum :=
    sum_le_sum _ fun p hp => by have := claimed_le i p hp; omega
  omega

/-! ### users -/

theorem readPair_ok {p q : P2} (h : readPair p = .ok q) : q = p ∧ ∀ i, p.get i < 2 ^ 128 := by
  have key : ∀ {n r : Nat}, toU128 n = .ok r → r = n ∧ n < 2 ^ 128 := by
    intro n r h
    unfold toU128 at h
    by_cases k : n / 2 ^ 128 ≠ 0
    · rw [if_pos k] at h; cases h
    · rw [if_neg k] at h
      exact ⟨(Res.ok.inj h).symm, Nat.lt_of_div_eq_zero (by decide) (Classical.not_not.1 k)⟩
  unfold readPair both at h
  obtain ⟨a, h1, h⟩ := Res.bind_eq_ok.1 h
  obtain ⟨b, h2, h⟩ := Res.bind_eq_ok.1 h
  have e := (Res.ok.inj h).symm
  obtain ⟨e1, k1⟩ := key h1
  obtain ⟨e2, k2⟩ := key h2
  refine ⟨by rw [e, e1, e2]; rfl, fun i => ?_⟩
  cases i
  · exact k1
  · exact k2

/-- C185. One who never added liquidity is shown with nothing and in no pool. -/
theorem C185_unknown {s : Swap} {user : Nat} (h : lookupU s.users user = none) (height : Nat) :
    getUserInfo s user height = .ok ⟨none, .zero, .zero, .zero, .zero, .zero, 0⟩ := by
  unfold getUserInfo
  rw [h]

/-- C185. What is shown of somebody with liquidity: the pool is one of the contract, the balance is a part of what the pool is shown to owe to its
    users, the fees and the amounts are what the contract would pay, and from the height shown on every part of the balance can be taken out. -/
theorem C185_user (calls : List SwapCall) {user height : Nat} {r : UserInfo} {j : Nat}
    (h : getUserInfo (swapRun swapInit calls) user height = .ok r) (hj : r.pool = some j) :
    (∃ p, (swapRun swapInit calls).pools[j]? = some p ∧ ∀ i, r.bal.get i ≤ p.tot.get i) ∧
    feesEarned (swapRun swapInit calls) user = .ok r.earned ∧ equivalent (swapRun swapInit calls) user height = .ok r.equivalent ∧
    ∃ u, lookupU (swapRun swapInit calls).users user = some u ∧ u.bal = r.bal ∧ u.lastPaid = r.lastPaid ∧ u.lastTot = r.lastTot ∧
      r.unlock = u.unlock % 2 ^ 32 ∧
      (u.unlock < 2 ^ 32 → (∀ i, (swapRun swapInit calls).coins.get i < 2 ^ 128) → ∀ (b : Bool) (amount at' : Nat), 0 < amount → amount ≤ r.bal.get b →
        r.unlock ≤ at' → ∃ s', swapExec (swapRun swapInit calls) (.remLiquid user at' (if b then 1 else 0) amount false) = .ok s') := by
  unfold getUserInfo at h
  cases hu : lookupU (swapRun swapInit calls).users user with
  | none =>
    rw [hu] at h
    have e := (Res.ok.inj h).symm
    rw [e] at hj
    cases hj
  | some u =>
    rw [hu] at h
    dsimp only at h
    obtain ⟨a, h1, h⟩ := Res.bind_eq_ok.1 h
    obtain ⟨b, h2, h⟩ := Res.bind_eq_ok.1 h
    obtain ⟨c, h3, h⟩ := Res.bind_eq_ok.1 h
    obtain ⟨d, h4, h⟩ := Res.bind_eq_ok.1 h
    obtain ⟨q, h5, h⟩ := Res.bind_eq_ok.1 h
    obtain ⟨e1, k1⟩ := readPair_ok h1
    obtain ⟨e2, -⟩ := readPair_ok h2
    obtain ⟨e3, -⟩ := readPair_ok h3
    have e := (Res.ok.inj h).symm
    subst e
    have ej : u.pool = j := Option.some.inj hj
    have hs := swapRun_inv calls swapInit_inv
    have hlt := hs.valid user u hu
    have hp : (swapRun swapInit calls).pools[u.pool]? = some (swapRun swapInit calls).pools[u.pool] := List.getElem?_eq_getElem hlt
    refine ⟨⟨_, (by rw [← ej]; exact hp), fun i => ?_⟩, h4, h5, u, rfl, e1.symm, e3.symm, e2.symm, rfl, fun hl hc x amount at' h0 hle hat => ?_⟩
    · have k := (C40_solvent calls).2 u.pool _ hp i
      have l := contrib_le_sum (shareIn u.pool i) user (swapRun swapInit calls).users
      unfold contrib at l
      rw [hu] at l
      dsimp only at l
      unfold shareIn at l
      rw [if_pos rfl] at l
      dsimp only
      rw [e1, ← k.2]
      exact l
    · dsimp only at hle hat
      rw [e1] at hle
      rw [Nat.mod_eq_of_lt hl] at hat
      exact C50_withdraw_succeeds calls user at' amount x u hu h0 hle (Nat.lt_of_le_of_lt hle (k1 x)) hat hc

/-! ### the list -/

/-- C185. The order of the list is one that sorting may use: nothing comes before itself, the order is transitive, and so is being level. Exchanges
    with liquidity of both tokens come before those without, and the higher yield comes first. -/
theorem C185_order (a b c : (Nat × Nat) × Nat) :
    swapBefore a a = false ∧ (swapBefore a b = true → swapBefore b c = true → swapBefore a c = true) ∧
    (swapBefore a b = false → swapBefore b a = false → swapBefore b c = false → swapBefore c b = false →
      swapBefore a c = false ∧ swapBefore c a = false) ∧
    (swapBefore a b = true ↔ (0 < a.1.1 ∧ 0 < a.1.2) ∧ (0 < b.1.1 ∧ 0 < b.1.2 → b.2 < a.2)) := by
  have key : ∀ x y : (Nat × Nat) × Nat, swapBefore x y = true ↔ (0 < x.1.1 ∧ 0 < x.1.2) ∧ (0 < y.1.1 ∧ 0 < y.1.2 → y.2 < x.2) := by
    intro x y
    unfold swapBefore
    by_cases h : x.1.1 = 0 ∨ x.1.2 = 0
    · rw [if_pos h]
      exact ⟨fun k => (nomatch k), fun k => by omega⟩
    · rw [if_neg h]
      by_cases g : y.1.1 = 0 ∨ y.1.2 = 0
      · rw [if_pos g]
        exact ⟨fun _ => ⟨by omega, fun k => by omega⟩, fun _ => rfl⟩
      · rw [if_neg g, decide_eq_true_iff]
        exact ⟨fun k => ⟨by omega, fun _ => k⟩, fun k => k.2 (by omega)⟩
  have no : ∀ x y : (Nat × Nat) × Nat, swapBefore x y = false ↔ ¬((0 < x.1.1 ∧ 0 < x.1.2) ∧ (0 < y.1.1 ∧ 0 < y.1.2 → y.2 < x.2)) := by
    intro x y
    rw [← key x y, Bool.not_eq_true]
  rw [key a b, key b c, key a c, no a a, no a b, no b a, no b c, no c b, no a c, no c a]
  obtain ⟨⟨a1, a2⟩, a3⟩ := a
  obtain ⟨⟨b1, b2⟩, b3⟩ := b
  obtain ⟨⟨c1, c2⟩, c3⟩ := c
  dsimp only
  exact ⟨by omega, by omega, by omega, by omega⟩

/-! ### an example -/

/-- Two users, trades in both directions; the day began before the trades. -/
example : Before exCalls (some (swapRun swapInit (exCalls.take 4))) ∧ Before exCalls none := ⟨Or.inr ⟨4, rfl⟩, Or.inl rfl⟩

example : Fits (swapRun swapInit exCalls) := by
  constructor <;> decide +kernel

def exInfo : Res SwapInfo := getSwapInfo (swapRun swapInit exCalls) (some (swapRun swapInit (exCalls.take 4))) none

example : exInfo = .ok ⟨⟨1489024, 5036886⟩, ⟨1489013, 5036886⟩, ⟨20987, 33114⟩, ⟨54, 84⟩, ⟨43, 84⟩, ⟨1500000, 5000000⟩, ⟨20987, 0⟩, ⟨20987, 33114⟩,
    ⟨19710, 0⟩, ⟨2808, 4368⟩,
    [⟨.zero, .zero, .zero, .zero⟩, ⟨⟨1489013, 5036886⟩, ⟨1500000, 5000000⟩, ⟨54, 84⟩, ⟨43, 84⟩⟩, ⟨.zero, .zero, .zero, .zero⟩,
      ⟨.zero, .zero, .zero, .zero⟩]⟩ := by decide +kernel

example : getUserInfo (swapRun swapInit exCalls) 2 30 =
    .ok ⟨some 1, ⟨500000, 0⟩, ⟨1500000, 5000000⟩, .zero, ⟨11, 0⟩, ⟨496337, 12295⟩, 8660⟩ := by decide +kernel

example : lookupU (swapRun swapInit exCalls).users 3 = none := by decide +kernel

end Verif.Contract
