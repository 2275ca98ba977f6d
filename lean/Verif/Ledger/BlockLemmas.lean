import Verif.Ledger.LedgerLemmas
/-
  Blocks whose transactions were all accepted.
-/
namespace Verif.Ledger
open Verif Verif.Chain

/-- A block that passed: the loop over its transactions, and every transaction with the result it came
    with. -/
structure BlockOk (depends : Addr → Option (List Addr)) (w : World) (g0 : Sto) (txs : List Tx) (x : Ctx) : Prop where
  funds : checkFunds depends w.bal Ctx.empty [] txs = .ok x
  valid : ∀ v ∈ (seqRun (w.withCtx x) g0 txs).2, v ≠ .reject

/-- Less than `n` of the token `q` exist. -/
def SupplyBelow (b : Bals) (q n : Nat) : Prop := ∀ L, L.Nodup → over (fun a => (b a q).getD 0) L < n

variable {depends : Addr → Option (List Addr)} {w : World} {g0 : Sto} {txs : List Tx} {x : Ctx}

theorem BlockOk.accepted (h : BlockOk depends w g0 txs x) {i : Nat} {tx : Tx} (hi : txs[i]? = some tx) :
    ∃ (a : Addr) (r : ExecRes) (wr : Option Writes), tx.sender = some a ∧ tx.result = some r ∧ (validate (w.withCtx x) tx).run (stoAt (w.withCtx x) g0 txs i) = .accept r wr := by
  have hv := h.valid _ (List.mem_of_getElem? (verdicts_seq (w.withCtx x) txs g0 i tx hi))
  obtain ⟨a, r, hs, hr⟩ := checkFunds_result txs _ _ _ h.funds tx (List.mem_of_getElem? hi)
  unfold verdictAt at hv
  cases e : (validate (w.withCtx x) tx).run (stoAt (w.withCtx x) g0 txs i) with
  | reject => exact absurd e hv
  | accept r' wr =>
    obtain ⟨_, _, _, _, _, _, _, _, _, _, _, _, _, _, _, _, h1 | h1⟩ := validate_accept e
    · rw [hr] at h1; cases h1
    · rw [hr] at h1; cases h1; exact ⟨a, r, wr, hs, hr, rfl⟩

/-- Inputs of the transactions that did not fail. -/
def okInputs (tx : Tx) : List TxIn :=
  match tx.result with
  | some r => if r.didFail then [] else tx.inputs
  | none => []

theorem take_flat {α : Type} (f : Tx → List α) {n : Nat} {tx : Tx} (h : txs[n]? = some tx) :
    (txs.take (n + 1)).flatMap f = (txs.take n).flatMap f ++ f tx := by
  rw [List.take_add_one, h, List.flatMap_append]
  simp

theorem take_flat_none {α : Type} (f : Tx → List α) {n : Nat} (h : txs[n]? = none) :
    (txs.take (n + 1)).flatMap f = (txs.take n).flatMap f := by
  rw [List.take_add_one, h]
  simp

theorem sumIn_flat_mono {f : Tx → List TxIn} (q n : Nat) : sumIn q ((txs.take n).flatMap f) ≤ sumIn q (txs.flatMap f) := by
  conv => rhs; rw [← List.take_append_drop n txs]
  rw [List.flatMap_append, sumIn_append]
  omega

theorem spentBy_flat_mono {f : Tx → List TxIn} (a q n : Nat) : spentBy a q ((txs.take n).flatMap f) ≤ spentBy a q (txs.flatMap f) := by
  conv => rhs; rw [← List.take_append_drop n txs]
  rw [List.flatMap_append, spentBy_append]
  omega

theorem ok_le_plain (q : Addr) (hr : ∀ tx ∈ txs, ∃ a r, tx.sender = some a ∧ tx.result = some r) : sumIn q (txs.flatMap okInputs) ≤ sumIn q (txs.flatMap plainDebits) := by
  induction txs with
  | nil => exact Nat.le_refl _
  | cons tx l ih =>
    rw [List.flatMap_cons, List.flatMap_cons, sumIn_append, sumIn_append]
    refine Nat.add_le_add ?_ (ih fun t ht => hr t (List.mem_cons_of_mem _ ht))
    obtain ⟨a, r, h1, h2⟩ := hr tx (List.mem_cons_self ..)
    unfold okInputs plainDebits
    rw [h1, h2]
    simp only [sumIn]
    omega

theorem BlockOk.inputs_below (h : BlockOk depends w g0 txs x) {q n : Nat} (hs : SupplyBelow w.bal q n) : sumIn q (txs.flatMap okInputs) < n := by
  refine Nat.lt_of_le_of_lt (ok_le_plain q (checkFunds_result txs _ _ _ h.funds)) ?_
  have hn := uniq_nodup ((txs.flatMap plainDebits).map (·.addr))
  rw [← over_spent q hn fun y hy => mem_uniq.2 (List.mem_map.2 ⟨y, hy, rfl⟩)]
  exact Nat.lt_of_le_of_lt (over_le fun a _ => checkFunds_spent txs _ _ _ h.funds a q) (hs _ hn)

theorem SupplyBelow.one {b : Bals} {q n : Nat} (h : SupplyBelow b q n) (a : Addr) : (b a q).getD 0 < n := by
  have := h [a] (by simp)
  simpa [over] using this

/-- What contracts see of their balances, after the first `n` transactions. -/
theorem BlockOk.contracts (h : BlockOk depends w g0 txs x) (hg : g0.bal = w.bal) {q : Addr} (hs : SupplyBelow w.bal q (2 ^ 127)) : ∀ n,
    (∀ c, ((stoAt (w.withCtx x) g0 txs n).bal c q).getD 0 + spentBy c q ((txs.take n).flatMap execDebits) ≤
      (w.bal c q).getD 0 + recvBy c q ((txs.take n).flatMap txCredits)) ∧
    (∀ L : List Addr, L.Nodup → over (fun c => ((stoAt (w.withCtx x) g0 txs n).bal c q).getD 0) L + over (fun c => spentBy c q ((txs.take n).flatMap execDebits)) L ≤
      over (fun c => (w.bal c q).getD 0) L + sumIn q ((txs.take n).flatMap okInputs)) := by
  intro n
  induction n with
  | zero =>
    simp only [List.take_zero, List.flatMap_nil, spentBy, recvBy, sumIn, Nat.add_zero]
    have e : (stoAt (w.withCtx x) g0 txs 0).bal = w.bal := hg
    rw [e]
    refine ⟨fun c => Nat.le_refl _, fun L _ => ?_⟩
    rw [← over_add]
    exact Nat.le_refl _
  | succ n ih =>
    cases hn : txs[n]? with
    | none => rw [stoAt_none _ g0 txs hn, take_flat_none _ hn, take_flat_none _ hn, take_flat_none _ hn]; exact ih
    | some tx =>
      obtain ⟨a, r, wr, hsn, hr, hv⟩ := h.accepted hn
      obtain ⟨i1, i2⟩ := ih
      rw [stoAt_succ _ g0 txs hn, take_flat _ hn, take_flat _ hn, take_flat _ hn, sumIn_append]
      unfold verdictAt
      rw [hv]
      have e1 : execDebits tx = if r.didFail then [] else r.inputs := by unfold execDebits; rw [hr]
      have e2 : txCredits tx = if r.didFail then [] else tx.outputs ++ r.outputs := by unfold txCredits; rw [hr]
      have e3 : okInputs tx = if r.didFail then [] else tx.inputs := by unfold okInputs; rw [hr]
      cases hd : r.didFail with
      | true =>
        rw [hd] at e1 e2 e3
        have hw := ((C26_failed_leaves_nothing hv).1 hd).2.2.1
        subst hw
        rw [e1, e2, e3]
        simp only [if_true, List.append_nil, sumIn, Nat.add_zero]
        exact ⟨i1, i2⟩
      | false =>
        rw [hd] at e1 e2 e3
        simp only [Bool.false_eq_true, if_false] at e1 e2 e3
        have hfit : Fits (stoAt (w.withCtx x) g0 txs n) tx q := by
          intro c
          have h1 := i2 [c] (by simp)
          simp only [over, List.map_cons, List.map_nil, List.sum_cons, List.sum_nil] at h1
          have h2 := hs.one c
          have h3 := h.inputs_below hs
          have h4 : sumIn q ((txs.take (n + 1)).flatMap okInputs) ≤ sumIn q (txs.flatMap okInputs) := sumIn_flat_mono q (n + 1)
          rw [take_flat _ hn, sumIn_append, e3] at h4
          omega
        obtain ⟨d, k1, k2⟩ := accepted_contract hv ((checkFunds_ready h.funds).locked w (List.mem_of_getElem? hn)) q hfit hd
        rw [e1, e2, e3]
        refine ⟨fun c => ?_, fun L hL => ?_⟩
        · have := i1 c
          have := (k2 c).1
          rw [spentBy_append, recvBy_append, recvBy_append]
          omega
        · have h1 := i2 L hL
          have h2 := k1 L hL
          have h3 := over_le (L := L) fun c _ => (k2 c).2
          rw [over_add, over_add] at h3
          have e : (fun c => spentBy c q ((txs.take n).flatMap execDebits ++ r.inputs)) = fun c => spentBy c q ((txs.take n).flatMap execDebits) + spentBy c q r.inputs :=
            funext fun c => spentBy_append ..
          rw [e, over_add]
          omega

/-- What executions of a block take, of one token. -/
theorem BlockOk.exec_total (h : BlockOk depends w g0 txs x) (hg : g0.bal = w.bal) {q n : Nat} (hs : SupplyBelow w.bal q n) (hn : n ≤ 2 ^ 127) :
    sumIn q (txs.flatMap execDebits) + 1 < n + n := by
  have hs' : SupplyBelow w.bal q (2 ^ 127) := fun L hL => Nat.lt_of_lt_of_le (hs L hL) hn
  have hnd := uniq_nodup ((txs.flatMap execDebits).map (·.addr))
  have h1 := (h.contracts hg hs' txs.length).2 _ hnd
  rw [List.take_length, over_spent q hnd fun y hy => mem_uniq.2 (List.mem_map.2 ⟨y, hy, rfl⟩)] at h1
  have h2 := hs _ hnd
  have h3 := h.inputs_below hs
  omega

theorem BlockOk.fits (h : BlockOk depends w g0 txs x) (hg : g0.bal = w.bal) {q : Addr} (hs : SupplyBelow w.bal q (2 ^ 127)) {n : Nat} {tx : Tx} {r : ExecRes} (hn : txs[n]? = some tx)
    (hr : tx.result = some r) (hd : r.didFail = false) : Fits (stoAt (w.withCtx x) g0 txs n) tx q := by
  intro c
  have h1 := (h.contracts hg hs n).2 [c] (by simp)
  simp only [over, List.map_cons, List.map_nil, List.sum_cons, List.sum_nil] at h1
  have h2 := hs.one c
  have h3 := h.inputs_below hs
  have h4 : sumIn q ((txs.take (n + 1)).flatMap okInputs) ≤ sumIn q (txs.flatMap okInputs) := sumIn_flat_mono q (n + 1)
  have e3 : okInputs tx = tx.inputs := by unfold okInputs; rw [hr]; simp [hd]
  rw [take_flat _ hn, sumIn_append, e3] at h4
  omega

/-- Debits are fee and inputs, and the inputs of the execution. -/
theorem debits_split {l : List Tx} (hr : ∀ tx ∈ l, ∃ a r, tx.sender = some a ∧ tx.result = some r) (a q : Addr) :
    spentBy a q (l.flatMap txDebits) = spentBy a q (l.flatMap plainDebits) + spentBy a q (l.flatMap execDebits) := by
  induction l with
  | nil => rfl
  | cons tx l ih =>
    simp only [List.flatMap_cons, spentBy_append]
    rw [ih fun t ht => hr t (List.mem_cons_of_mem _ ht)]
    obtain ⟨b, r, h1, h2⟩ := hr tx (List.mem_cons_self ..)
    have : spentBy a q (txDebits tx) = spentBy a q (plainDebits tx) + spentBy a q (execDebits tx) := by
      unfold txDebits plainDebits execDebits
      rw [h1, h2]
      cases hd : r.didFail <;> simp [hd, spentBy, spentBy_append] <;> omega
    omega

/-- Execution inputs are of contracts the block runs. -/
theorem BlockOk.exec_runs (h : BlockOk depends w g0 txs x) {y : TxIn} (hy : y ∈ txs.flatMap execDebits) : ∃ tx ∈ txs, (w.withCtx x).mayRun tx.id y.addr := by
  obtain ⟨tx, htx, hy⟩ := List.mem_flatMap.1 hy
  obtain ⟨i, hi⟩ := List.getElem?_of_mem htx
  obtain ⟨a, r, wr, hsn, hr, hv⟩ := h.accepted hi
  refine ⟨tx, htx, ?_⟩
  have hin := (validate_loc ((checkFunds_ready h.funds).locked w htx)).result (stoAt (w.withCtx x) g0 txs i)
  rw [hv] at hin
  refine hin.inputs r wr rfl y ?_
  unfold execDebits at hy
  rw [hr] at hy
  dsimp only at hy
  split at hy
  · cases hy
  · exact hy

theorem debits_split_sum {l : List Tx} (hr : ∀ tx ∈ l, ∃ a r, tx.sender = some a ∧ tx.result = some r) (q : Addr) :
    sumIn q (l.flatMap txDebits) = sumIn q (l.flatMap plainDebits) + sumIn q (l.flatMap execDebits) := by
  induction l with
  | nil => rfl
  | cons tx l ih =>
    simp only [List.flatMap_cons, sumIn_append]
    rw [ih fun t ht => hr t (List.mem_cons_of_mem _ ht)]
    obtain ⟨b, r, h1, h2⟩ := hr tx (List.mem_cons_self ..)
    have : sumIn q (txDebits tx) = sumIn q (plainDebits tx) + sumIn q (execDebits tx) := by
      unfold txDebits plainDebits execDebits
      rw [h1, h2]
      cases hd : r.didFail <;> simp [hd, sumIn, sumIn_append] <;> omega
    omega

/-- What a block takes, of one token: money can move up to three times. -/
theorem BlockOk.debits_total (h : BlockOk depends w g0 txs x) (hg : g0.bal = w.bal) {q n : Nat} (hs : SupplyBelow w.bal q n) (hn : n ≤ 2 ^ 127) :
    sumIn q (txs.flatMap txDebits) < 3 * n := by
  rw [debits_split_sum (checkFunds_result txs _ _ _ h.funds)]
  have h1 := h.exec_total hg hs hn
  have hnd := uniq_nodup ((txs.flatMap plainDebits).map (·.addr))
  have h2 : sumIn q (txs.flatMap plainDebits) < n := by
    rw [← over_spent q hnd fun y hy => mem_uniq.2 (List.mem_map.2 ⟨y, hy, rfl⟩)]
    exact Nat.lt_of_le_of_lt (over_le fun a _ => checkFunds_spent txs _ _ _ h.funds a q) (hs _ hnd)
  omega

/-! ### Applying a block -/

theorem credit_fold {a q : Addr} : ∀ (l : List TxOut) (b : Bals), (b a q).getD 0 + recvBy a q l < 2 ^ 128 →
    ((l.foldl credit b) a q).getD 0 = (b a q).getD 0 + recvBy a q l
  | [], b, _ => rfl
  | o :: l, b, h => by
    rw [recvBy] at h
    have hv : (credit b o a q).getD 0 = (b a q).getD 0 + if a = o.addr ∧ q = o.cur then o.amount else 0 := by
      unfold credit
      split
      · next e =>
        rw [if_pos e] at h
        simp only [Option.getD_some]
        exact Nat.mod_eq_of_lt (by omega)
      · rfl
    rw [List.foldl_cons, credit_fold l _ (by rw [hv]; omega), hv, recvBy]
    omega

theorem debit_fold {a q : Addr} : ∀ (l : List TxIn) (b : Bals), spentBy a q l ≤ (b a q).getD 0 →
    ((l.foldl debit b) a q).getD 0 + spentBy a q l = (b a q).getD 0
  | [], b, _ => rfl
  | y :: l, b, h => by
    rw [spentBy] at h
    have hv : (debit b y a q).getD 0 + (if a = y.addr ∧ q = y.cur then y.amount else 0) = (b a q).getD 0 := by
      unfold debit
      split
      · next e =>
        rw [if_pos e] at h
        cases hb : b a q with
        | none => rw [hb] at h; simp at h ⊢; omega
        | some n =>
          rw [hb] at h
          simp only [Option.map_some, Option.getD_some] at h ⊢
          unfold clampedSub
          split <;> omega
      · rfl
    rw [List.foldl_cons, spentBy]
    have := debit_fold (a := a) (q := q) l (debit b y) (by omega)
    omega

end Verif.Ledger
