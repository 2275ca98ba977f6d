import Verif.Wallet.Samples
/-
  C73: balances between refreshes, and pending transactions.
-/
namespace Verif.Wallet
open Verif

theorem keeps_run {mine : Addr → Bool} (evs : List Ev) : ∀ (w : W) (a : Acct),
    Keeps mine w a (fun _ => 0) → (∀ e ∈ evs, e.Ok mine) →
    Keeps mine (w.run evs) (a.run mine evs) (fun _ => 0) := by
  induction evs with
  | nil => intro w a h _; exact h
  | cons e evs ih =>
    intro w a h hok
    have he := hok e List.mem_cons_self
    refine ih (w.step e) (a.step mine e) ?_ (fun x hx => hok x (List.mem_cons_of_mem _ hx))
    cases e with
    | refresh b hist n => exact keeps_refresh h he
    | submit tx => exact keeps_submit h he
    | reset =>
      refine ⟨fun k => by simp [W.step, W.resetCache, Acct.step, Acct.pending, at0, AMap.find],
        ⟨AMap.ok_nil, by simp [W.step, W.resetCache]⟩, ⟨AMap.ok_nil, fun k => rfl⟩, h.mine, by simp [Acct.step],
        AMap.ok_nil, AMap.ok_nil, ?_, by simp [W.step, W.resetCache], by simp [Acct.step]⟩
      intro i x
      simp [W.step, W.resetCache, Acct.step, AMap.find]

/-- C73.  After any history of refreshes, sends and resets, the balance the wallet spends from is, for every
address and currency, the balance last reported by the node less what the transactions take that were sent
since and are neither confirmed nor expired as of the last refresh (zero if they take more). -/
theorem C73_available {w : W} (h : w.balance = [] ∧ w.reserved = [] ∧ w.pendingTx = [] ∧ w.pendingMap = [])
    (evs : List Ev) (hok : ∀ e ∈ evs, e.Ok w.owns) (k : Key) :
    (w.run evs).bal k = ((⟨fun _ => 0, []⟩ : Acct).run w.owns evs).reported k
      - ((⟨fun _ => 0, []⟩ : Acct).run w.owns evs).pending k := by
  obtain ⟨h1, h2, h3, h4⟩ := h
  have start : Keeps w.owns w ⟨fun _ => 0, []⟩ (fun _ => 0) := by
    refine ⟨fun k => by rw [h1]; rfl, ⟨by rw [h1]; exact AMap.ok_nil, by rw [h1]; simp⟩,
      ⟨by rw [h2]; exact AMap.ok_nil, fun k => by rw [h2]; rfl⟩, fun _ => rfl, by simp, by rw [h4]; exact AMap.ok_nil,
      by rw [h3]; exact AMap.ok_nil, ?_, by rw [h4]; simp, by simp⟩
    intro i x
    rw [h3]; simp [AMap.find]
  have := (keeps_run evs w _ start hok).bal k
  unfold at0 at this
  unfold W.bal
  rw [this]
  simp

/-- C73.  Transactions completed and sent in a row, with no refresh in between, never draw more together
from an address than its balance at the start. -/
theorem C73_no_overdraw {E : Env} (hsrt : SortOk E.srt) (rs : List Req) : ∀ {w : W}, KInv E w → w.num ≠ 0 → w.BalOk →
    (∀ k, w.bal k ≠ 0 → w.owns k.1 = true) →
    (∀ r ∈ rs, r.tx.inputs = [] ∧ Fits r.tx r.deposit ∧ r.tx.solutions.length + w.num ≤ 65535) →
    ∀ k, (((sendAll E w rs).2.map fun t => drawn t.inputs k).sum) ≤ w.bal k := by
  suffices key : ∀ w, Ready E w →
      (∀ r ∈ rs, r.tx.inputs = [] ∧ Fits r.tx r.deposit ∧ r.tx.solutions.length + w.num ≤ 65535) →
      ∀ k, (((sendAll E w rs).2.map fun t => drawn t.inputs k).sum) ≤ w.bal k by
    intro w h1 h2 h3 h4 h5
    exact key w ⟨h1, h2, h3, h4⟩ h5
  induction rs with
  | nil => intro w _ _ k; simp [sendAll]
  | cons r rs ih =>
    intro w hw hrs k
    obtain ⟨hin, hfit, hlen⟩ := hrs r List.mem_cons_self
    have hrest : ∀ w' : W, w'.num = w.num →
        ∀ r ∈ rs, r.tx.inputs = [] ∧ Fits r.tx r.deposit ∧ r.tx.solutions.length + w'.num ≤ 65535 := by
      intro w' hn' r hr
      rw [hn']
      exact hrs r (List.mem_cons_of_mem _ hr)
    unfold sendAll
    -- the wallet after `complete`
    have hafter : Ready E (w.complete E r.opts r.deposit r.tx).1 ∧
        (w.complete E r.opts r.deposit r.tx).1.num = w.num ∧
        ∀ k, (w.complete E r.opts r.deposit r.tx).1.bal k = w.bal k := by
      rcases complete_cases hw.kinv hw.num r.opts r.deposit r.tx with ⟨_, _, hc⟩ | ⟨u, p, hr, _, hc⟩
      · rw [hc]; exact ⟨hw, rfl, fun _ => rfl⟩
      · rw [hc]
        obtain ⟨q1, q2⟩ := hw.lock hr
        refine ⟨q1, ?_, q2⟩
        dsimp only
        split
        · exact hr.same.1
        · rfl
    obtain ⟨ha1, ha2, ha3⟩ := hafter
    cases hc : w.complete E r.opts r.deposit r.tx with
    | mk w1 res =>
      rw [hc] at ha1 ha2 ha3
      dsimp only at ha1 ha2 ha3
      have skip : (((sendAll E w1 rs).2.map fun t => drawn t.inputs k).sum) ≤ w.bal k := by
        rw [← ha3 k]; exact ih w1 ha1 (hrest w1 ha2) k
      cases res with
      | throw => exact skip
      | ub => exact skip
      | ok t =>
        dsimp only
        cases hu : w1.updateFrom t with
        | throw => exact skip
        | ub => exact skip
        | ok w2 =>
          dsimp only
          obtain ⟨hr2, hle⟩ := ha1.updateFrom hu
          by_cases hp : (w1.pendingTx.find t.id).isSome = true
          · rw [if_pos hp]
            have hw2 : w2 = w1 := by
              unfold W.updateFrom at hu
              rw [if_pos hp] at hu
              cases hu; rfl
            rw [hw2]
            exact skip
          · rw [if_neg hp, List.map_cons, List.sum_cons]
            obtain ⟨own, pay, hown⟩ := updateFrom_pay0 (mapOk_balOk.2 ha1.bal) (by simpa using hp) hu
            have hih := ih w2 hr2 (hrest w2 (by rw [pay.same.2.1, ha2])) k
            -- what this transaction draws
            obtain ⟨u, p, t0, take, st, hr, _, _, hfun, hsig⟩ :=
              complete_ok hsrt hw.kinv hw.num hw.bal (o := r.opts) (dep := r.deposit) (tx := r.tx) (tx' := t) hfit hlen
                (by rw [hc])
            have hdraw : drawn t.inputs k = take k := by
              rw [hsig.drawn, hfun.draw]
              show drawn r.tx.inputs k + take k = take k
              rw [hin]; simp
            have htake := hfun.room k
            rw [hr.bal] at htake
            have hbal := pay.bal k
            have hb1 : at0 w1.balance k = w.bal k := ha3 k
            have hb2 : at0 w2.balance k = w2.bal k := rfl
            have ho := hown k
            by_cases h0 : w.bal k = 0
            · omega
            · have hm : w1.owns k.1 = true := ha1.mine k (by rw [ha3]; exact h0)
              rw [drawn_filter (mine := w1.owns) t.inputs hm] at ho
              omega

/-! ### examples -/

/-- Two tokens reported, one transaction of 30 sent, then a refresh that does not see it yet. -/
example : ((exOpen.resetCache.run [.refresh [((1105, 9), 60)] [] 10,
      .submit { id := 4, expires := 20, inputs := [{ address := 1105, contract := 9, amount := 30 }] },
      .refresh [((1105, 9), 60)] [] 11]).bal (1105, 9),
    (exOpen.resetCache.run [.refresh [((1105, 9), 60)] [] 10,
      .submit { id := 4, expires := 20, inputs := [{ address := 1105, contract := 9, amount := 30 }] },
      .refresh [((1105, 9), 60)] [] 21]).bal (1105, 9),
    (exOpen.resetCache.run [.refresh [((1105, 9), 60)] [] 10,
      .submit { id := 4, expires := 20, inputs := [{ address := 1105, contract := 9, amount := 30 }] },
      .refresh [((1105, 9), 30)] [4] 12]).bal (1105, 9)) = (30, 60, 30) := by decide +kernel

example : ∀ e ∈ [Ev.refresh [((1105, 9), 60)] [] 10,
      .submit { id := 4, expires := 20, inputs := [{ address := 1105, contract := 9, amount := 30 }] }],
    e.Ok exOpen.resetCache.owns := by
  intro e he
  simp only [List.mem_cons, List.not_mem_nil, or_false] at he
  rcases he with rfl | rfl
  · exact ⟨by unfold AMap.Ok; decide, by decide⟩
  · intro fee _ k
    have h1 := drawn_le_inSum (List.filter (fun i : TxIn => exOpen.resetCache.owns i.address)
      [{ address := 1105, contract := 9, amount := 30 }]) k.1 k.2
    have h2 : inSum (List.filter (fun i : TxIn => exOpen.resetCache.owns i.address)
      [{ address := 1105, contract := 9, amount := 30 }]) k.2 ≤ 30 := by
      rw [show List.filter (fun i : TxIn => exOpen.resetCache.owns i.address)
        [{ address := 1105, contract := 9, amount := 30 }] = [{ address := 1105, contract := 9, amount := 30 }] from by decide]
      simp only [inSum_cons, inSum_nil]
      split <;> omega
    unfold takes
    simp only [reduceCtorEq, false_and, if_false, Nat.zero_add]
    show drawn _ (k.1, k.2) < _
    omega

/-- Two sends of 70 from a balance of 100: the second one fails. -/
example : ((sendAll exE exOpen [⟨{ nonce := some 1 }, [], exTx⟩, ⟨{ nonce := some 2 }, [], exTx⟩]).2.map fun t => drawn t.inputs (1105, 9))
    = [60] := by decide +kernel

example : (∀ k, exOpen.bal k ≠ 0 → exOpen.owns k.1 = true) ∧
    exTx.inputs = [] ∧ Fits exTx [] ∧ exTx.solutions.length + exOpen.num ≤ 65535 := by
  refine ⟨?_, rfl, exFits, by decide⟩
  intro k hk
  have : (exOpen.balance.find k).isSome = true := by
    cases h : exOpen.balance.find k with
    | none => unfold W.bal at hk; rw [h] at hk; exact absurd rfl hk
    | some _ => rfl
  obtain ⟨v, hv⟩ := Option.isSome_iff_exists.1 this
  have hm := AMap.find_mem hv
  have hall : ∀ e ∈ exOpen.balance, exOpen.owns e.1.1 = true := by decide
  exact hall _ hm

end Verif.Wallet
