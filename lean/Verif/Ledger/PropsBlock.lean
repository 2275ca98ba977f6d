import Verif.Ledger.BlockLemmas
/-
  C27, C28, C54: blocks.
-/
namespace Verif.Ledger
open Verif Verif.Chain

variable {depends : Addr → Option (List Addr)} {w : World} {g0 : Sto} {txs : List Tx} {x : Ctx} {k : Nat} {s : Par}

/-! ### C28 -/

/-- C28: transactions that lock the same contract run in the order of the block: as long as one has not
    ended, no later one reads or writes. -/
theorem C28_in_order {b : Bals} (hf : checkFunds depends b Ctx.empty [] txs = .ok x) (hs : Par.Steps (w.withCtx x) x txs k (Par.init g0 txs) s)
    {i j : Nat} {t u : Tx} {c : Addr} (hij : i < j) (hi : txs[i]? = some t) (hj : txs[j]? = some u) (hti : t.id ∈ x.mutate c) (huj : u.id ∈ x.mutate c)
    (hn : ∀ v, s.status[i]? ≠ some (.done v)) : s.status[j]? = some .queued ∨ s.status[j]? = some .waiting := by
  have hr := checkFunds_ready hf
  have hinv := PInv.steps hr w hs
  have hjl : j < s.status.length := by rw [hinv.len]; exact (List.getElem?_eq_some_iff.1 hj).1
  have hst : s.status[j]? = some s.status[j] := List.getElem?_eq_getElem hjl
  have hno : ¬ Started s j := fun h => by
    obtain ⟨v, hv⟩ := hinv.exclusive hr hij ⟨t, hi, hti⟩ ⟨u, hj, huj⟩ h
    exact hn v hv
  generalize s.status[j] = a at hst
  cases a with
  | queued => exact .inl hst
  | waiting => exact .inr hst
  | run p => exact absurd ⟨_, hst, rfl⟩ hno
  | commit ws v => exact absurd ⟨_, hst, rfl⟩ hno
  | done v => exact absurd ⟨_, hst, rfl⟩ hno

/-- The next access of a transaction to the storage of the block, if it is about to make one. -/
def Status.access : Status → Option Addr
  | .run (.rdVar c _ _) => some c
  | .run (.rdBal c _ _) => some c
  | .commit (a :: _) _ => some a.at'
  | _ => none

/-- C28: a transaction accesses only contracts it has locked. Together with the order: while one
    transaction accesses a contract, no other reads or writes it. -/
theorem C28_access_locked {b : Bals} (hf : checkFunds depends b Ctx.empty [] txs = .ok x) (hs : Par.Steps (w.withCtx x) x txs k (Par.init g0 txs) s)
    {i : Nat} {t : Tx} {a : Status} {c : Addr} (hi : txs[i]? = some t) (ha : s.status[i]? = some a) (hc : a.access = some c) : t.id ∈ x.mutate c := by
  have hr := checkFunds_ready hf
  have hg := (PInv.steps hr w hs).good i t a hi ha
  have hlk : Lk x txs i c → t.id ∈ x.mutate c := by
    rintro ⟨t', h1, h2⟩
    rw [hi] at h1; cases h1; exact h2
  refine hlk ?_
  cases a with
  | queued => cases hc
  | waiting => cases hc
  | done v => cases hc
  | run p =>
    cases p with
    | ret v => cases hc
    | rdVar d l f => cases hc; exact hg.1.1
    | rdBal d l f => cases hc; exact hg.1.1
  | commit ws v =>
    cases ws with
    | nil => cases hc
    | cons y ws => cases hc; exact hg.2.1 y (List.mem_cons_self ..)

theorem C28_no_conflict {b : Bals} (hf : checkFunds depends b Ctx.empty [] txs = .ok x) (hs : Par.Steps (w.withCtx x) x txs k (Par.init g0 txs) s)
    {i j : Nat} {a a' : Status} {c : Addr} (hi : s.status[i]? = some a) (hj : s.status[j]? = some a') (hc : a.access = some c) (hc' : a'.access = some c) : i = j := by
  have hr := checkFunds_ready hf
  have hinv := PInv.steps hr w hs
  have key : ∀ (i j : Nat) (a a' : Status), s.status[i]? = some a → s.status[j]? = some a' → a.access = some c → a'.access = some c → ¬ i < j := by
    intro i j a a' hi hj hc hc' hlt
    obtain ⟨t, ht⟩ := hinv.get hi
    obtain ⟨u, hu⟩ := hinv.get hj
    have h1 := C28_access_locked hf hs ht hi hc
    have h2 := C28_access_locked hf hs hu hj hc'
    have hn : ∀ v, s.status[i]? ≠ some (.done v) := by
      intro v hv; rw [hi] at hv; cases hv; cases hc
    rcases C28_in_order hf hs hlt ht hu h1 h2 hn with h | h
    · rw [hj] at h; cases h; cases hc'
    · rw [hj] at h; cases h; cases hc'
  rcases Nat.lt_trichotomy i j with h | h | h
  · exact absurd h (key i j a a' hi hj hc hc')
  · exact h
  · exact absurd h (key j i a' a hj hi hc' hc)

/-- Whatever the schedule, in the end verdicts and storage are those of running the transactions
    one after the other. -/
theorem same_result (hr : Ready x txs) (hs : Par.Steps (w.withCtx x) x txs k (Par.init g0 txs) s)
    (hd : ∀ a ∈ s.status, ∃ v, a = .done v) :
    s.status = (seqRun (w.withCtx x) g0 txs).2.map Status.done ∧ s.sto = (seqRun (w.withCtx x) g0 txs).1 := by
  have hinv := PInv.steps hr w hs
  have hdone : ∀ i, i < txs.length → Done s i := by
    intro i hi
    have hil : i < s.status.length := by rw [hinv.len]; exact hi
    obtain ⟨v, hv⟩ := hd _ (List.getElem_mem hil)
    exact ⟨v, by rw [List.getElem?_eq_getElem hil, hv]⟩
  constructor
  · refine List.ext_getElem? fun i => ?_
    rw [List.getElem?_map]
    cases ht : txs[i]? with
    | none =>
      have hl : txs.length ≤ i := List.getElem?_eq_none_iff.1 ht
      rw [List.getElem?_eq_none (by rw [hinv.len]; exact hl), List.getElem?_eq_none (by rw [seqRun_length]; exact hl)]
      rfl
    | some tx =>
      obtain ⟨v, hv⟩ := hdone i (List.getElem?_eq_some_iff.1 ht).1
      rw [verdicts_seq _ txs g0 i tx ht, hv]
      have : v = verdictAt (w.withCtx x) g0 txs i tx := hinv.good i tx _ ht hv
      rw [this]; rfl
  · have hat : ∀ c, At c s.sto (seqRun (w.withCtx x) g0 txs).1 := by
      intro c
      have := hinv.stable c txs.length (fun i hi _ => hdone i hi) fun i hi hl => absurd hl.lt (by omega)
      unfold stoAt at this
      rw [List.take_length] at this
      exact this
    have e1 : s.sto.var = (seqRun (w.withCtx x) g0 txs).1.var := funext fun c => funext fun l => (hat c).1 l
    have e2 : s.sto.bal = (seqRun (w.withCtx x) g0 txs).1.bal := funext fun c => funext fun l => (hat c).2 l
    generalize s.sto = g at e1 e2
    cases g
    generalize (seqRun (w.withCtx x) g0 txs).1 = g' at e1 e2
    cases g'
    dsimp only at e1 e2
    rw [e1, e2]

/-- C28: whatever the schedule, in the end verdicts and storage are those of running the transactions
    one after the other. -/
theorem C28_same_result {b : Bals} (hf : checkFunds depends b Ctx.empty [] txs = .ok x) (hs : Par.Steps (w.withCtx x) x txs k (Par.init g0 txs) s)
    (hd : ∀ a ∈ s.status, ∃ v, a = .done v) :
    s.status = (seqRun (w.withCtx x) g0 txs).2.map Status.done ∧ s.sto = (seqRun (w.withCtx x) g0 txs).1 :=
  same_result (checkFunds_ready hf) hs hd

/-- C56: the pool never gets stuck, however few threads it has. -/
theorem C56_never_stuck {b : Bals} (hf : checkFunds depends b Ctx.empty [] txs = .ok x) (hs : Par.Steps (w.withCtx x) x txs k (Par.init g0 txs) s) (hk : 0 < k) :
    (∀ a ∈ s.status, ∃ v, a = .done v) ∨ ∃ t, Par.Step (w.withCtx x) x txs k s t := by
  classical
  have hr := checkFunds_ready hf
  have hinv := PInv.steps hr w hs
  by_cases h : ∃ i, i < txs.length ∧ ¬ Done s i
  · exact .inr (hinv.progress hr hk h)
  · refine .inl fun a ha => ?_
    obtain ⟨i, hi⟩ := List.getElem?_of_mem ha
    have hil := (List.getElem?_eq_some_iff.1 hi).1
    rw [hinv.len] at hil
    obtain ⟨v, hv⟩ := Classical.byContradiction fun hn => h ⟨i, hil, hn⟩
    rw [hi] at hv
    exact ⟨v, Option.some.inj hv⟩

/-- C56: it does not run for ever either. -/
theorem C56_terminates (w : World) (x : Ctx) (txs : List Tx) (k : Nat) : ¬ ∃ f : Nat → Par, ∀ n, Par.Step w x txs k (f n) (f (n + 1)) := by
  rintro ⟨f, hf⟩
  have : ∀ s, Acc (fun t s => Par.Step w x txs k s t) s → ∀ n, f n ≠ s := by
    intro s hs
    induction hs with
    | intro s _ ih => rintro n rfl; exact ih (f (n + 1)) (hf n) (n + 1) rfl
  exact this (f 0) (Par.acc w x txs k (f 0)) 0 rfl

/-- C56: so there is a complete run, and it gives the result of running in order. -/
theorem C56_completes {b : Bals} (hf : checkFunds depends b Ctx.empty [] txs = .ok x) (w : World) (g0 : Sto) (hk : 0 < k) :
    ∃ s, Par.Steps (w.withCtx x) x txs k (Par.init g0 txs) s ∧ s.status = (seqRun (w.withCtx x) g0 txs).2.map Status.done ∧ s.sto = (seqRun (w.withCtx x) g0 txs).1 := by
  have key : ∀ s, Acc (fun t s => Par.Step (w.withCtx x) x txs k s t) s → Par.Steps (w.withCtx x) x txs k (Par.init g0 txs) s →
      ∃ t, Par.Steps (w.withCtx x) x txs k (Par.init g0 txs) t ∧ ∀ a ∈ t.status, ∃ v, a = .done v := by
    intro s hs
    induction hs with
    | intro s _ ih =>
      intro hst
      rcases C56_never_stuck hf hst hk with h | ⟨t, ht⟩
      · exact ⟨s, hst, h⟩
      · exact ih t ht (.step hst ht)
  obtain ⟨s, h1, h2⟩ := key _ (Par.acc (w.withCtx x) x txs k (Par.init g0 txs)) (.refl _)
  exact ⟨s, h1, C28_same_result hf h1 h2⟩

/-! ### C27 -/

/-- C27: an account whose contract, if it is one, is not run by the block, spends no more than it had
    before the block: fees, inputs and inputs of executions together. -/
theorem C27_accounts (h : BlockOk depends w g0 txs x) (n : Nat) (a q : Addr) (ha : ∀ tx ∈ txs, ¬ (w.withCtx x).mayRun tx.id a) :
    spentBy a q ((txs.take n).flatMap txDebits) ≤ (w.bal a q).getD 0 := by
  have hr := checkFunds_result txs _ _ _ h.funds
  rw [debits_split fun tx ht => hr tx (List.mem_of_mem_take ht)]
  have h1 : spentBy a q ((txs.take n).flatMap execDebits) = 0 := by
    have := spentBy_flat_mono (txs := txs) (f := execDebits) a q n
    have h0 : spentBy a q (txs.flatMap execDebits) = 0 := spentBy_none fun y hy e => by
      obtain ⟨tx, htx, hm⟩ := h.exec_runs hy
      exact ha tx htx (e ▸ hm)
    omega
  have h2 := checkFunds_spent txs _ _ _ h.funds a q
  have h3 := spentBy_flat_mono (txs := txs) (f := plainDebits) a q n
  omega

/-- Contracts that run are neither sender nor owner of an input: their address would be the hash of a
    public key, or an input would name them as the contract that owns it (which is rejected). -/
def Apart (w : World) (x : Ctx) (txs : List Tx) : Prop :=
  ∀ tx ∈ txs, ∀ c, (w.withCtx x).mayRun tx.id c → ∀ t ∈ txs, t.sender ≠ some c ∧ ∀ y ∈ t.inputs, y.addr ≠ c

/-- C27: after any number of transactions of an accepted block, no account and no contract has spent
    more than it had before the block and received in it. Supplies below 2^127 keep sums of two
    balances from overflowing. -/
theorem C27_no_overspend_partial (h : BlockOk depends w g0 txs x) (hg : g0.bal = w.bal) {q : Addr} (hs : SupplyBelow w.bal q (2 ^ 127)) (hp : Apart w x txs) (n : Nat) (a : Addr) :
    spentBy a q ((txs.take n).flatMap txDebits) ≤ (w.bal a q).getD 0 + recvBy a q ((txs.take n).flatMap txCredits) := by
  classical
  by_cases ha : ∃ tx ∈ txs, (w.withCtx x).mayRun tx.id a
  · obtain ⟨tx, htx, hm⟩ := ha
    have hr := checkFunds_result txs _ _ _ h.funds
    rw [debits_split fun tx ht => hr tx (List.mem_of_mem_take ht)]
    have h0 : spentBy a q ((txs.take n).flatMap plainDebits) = 0 := spentBy_none fun y hy e => by
      obtain ⟨t, ht, hy⟩ := List.mem_flatMap.1 hy
      obtain ⟨b, r, h1, h2⟩ := hr t (List.mem_of_mem_take ht)
      obtain ⟨p1, p2⟩ := hp tx htx a hm t (List.mem_of_mem_take ht)
      unfold plainDebits at hy
      rw [h1, h2] at hy
      rcases List.mem_cons.1 hy with rfl | hy
      · exact p1 (by rw [h1]; exact congrArg some e)
      · split at hy
        · cases hy
        · exact p2 y hy e
    have := (h.contracts hg hs n).1 a
    omega
  · have := C27_accounts h n a q fun tx htx hm => ha ⟨tx, htx, hm⟩
    omega

/-! ### C54 -/

/-- C54: applying an accepted block adds what an account receives and takes what it spends: nothing is
    clamped, as long as the sum fits. -/
theorem C54_balances (h : BlockOk depends w g0 txs x) (hg : g0.bal = w.bal) {q : Addr} (hs : SupplyBelow w.bal q (2 ^ 127)) (hp : Apart w x txs) (rewards : List TxOut) (a : Addr)
    (ho : (w.bal a q).getD 0 + recvBy a q (rewards ++ txs.flatMap txCredits) < 2 ^ 128) :
    (applyLedger w.bal rewards txs a q).getD 0 + spentBy a q (txs.flatMap txDebits) = (w.bal a q).getD 0 + recvBy a q (rewards ++ txs.flatMap txCredits) := by
  have hsp := C27_no_overspend_partial h hg hs hp txs.length a
  rw [List.take_length] at hsp
  have hc := credit_fold _ _ ho
  unfold applyLedger
  rw [← hc]
  refine debit_fold _ _ ?_
  rw [hc, recvBy_append]
  omega

/-- The sum of balances of a token over a list of accounts. -/
def total (b : Bals) (q : Addr) (L : List Addr) : Nat := over (fun a => (b a q).getD 0) L

theorem C54_total (h : BlockOk depends w g0 txs x) (hg : g0.bal = w.bal) {q : Addr} (hs : SupplyBelow w.bal q (2 ^ 127)) (hp : Apart w x txs) (rewards : List TxOut)
    (ho : ∀ a, (w.bal a q).getD 0 + recvBy a q (rewards ++ txs.flatMap txCredits) < 2 ^ 128) (L : List Addr) (hL : L.Nodup)
    (h1 : ∀ y ∈ txs.flatMap txDebits, y.addr ∈ L) (h2 : ∀ y ∈ rewards ++ txs.flatMap txCredits, y.addr ∈ L) :
    total (applyLedger w.bal rewards txs) q L + sumIn q (txs.flatMap txDebits) = total w.bal q L + sumOut q (rewards ++ txs.flatMap txCredits) := by
  unfold total
  rw [← over_spent q hL h1, ← over_recv q hL h2, ← over_add, ← over_add]
  congr 1
  funext a
  exact C54_balances h hg hs hp rewards a (ho a)

/-- The fees of the block. -/
def fees (txs : List Tx) : Nat := (txs.map fun tx => match tx.result with | some r => r.fee | none => 0).sum

/-- Debits and credits of the transactions that lie in one currency, given that each transaction that
    did not fail keeps it. -/
theorem debits_credits {q : Addr} : ∀ {l : List Tx}, (∀ tx ∈ l, ∃ a r, tx.sender = some a ∧ tx.result = some r ∧
      (r.didFail = false → sumIn q tx.inputs + sumIn q r.inputs = sumOut q tx.outputs + sumOut q r.outputs)) →
    sumIn q (l.flatMap txDebits) = sumOut q (l.flatMap txCredits) + if q = 0 then fees l else 0
  | [], _ => by simp [sumIn, sumOut, fees]
  | tx :: l, h => by
    have ih := debits_credits fun t ht => h t (List.mem_cons_of_mem _ ht)
    obtain ⟨a, r, h1, h2, h3⟩ := h tx (List.mem_cons_self ..)
    rw [List.flatMap_cons, List.flatMap_cons, sumIn_append, sumOut_append, ih]
    have hd : txDebits tx = { addr := a, cur := 0, amount := r.fee } :: (if r.didFail then [] else tx.inputs ++ r.inputs) := by
      unfold txDebits; rw [h1, h2]; rfl
    have hc : txCredits tx = if r.didFail then [] else tx.outputs ++ r.outputs := by unfold txCredits; rw [h2]
    have hfee : fees (tx :: l) = r.fee + fees l := by simp [fees, h2]
    rw [hd, hc, sumIn, hfee]
    dsimp only
    cases e : r.didFail with
    | true =>
      simp only [if_true, sumIn, sumOut]
      by_cases hq : q = 0
      · simp only [hq, if_true]; omega
      · rw [if_neg hq, if_neg hq, if_neg fun e => hq e.symm]; omega
    | false =>
      have := h3 e
      simp only [Bool.false_eq_true, if_false, sumIn_append, sumOut_append]
      by_cases hq : q = 0
      · simp only [hq, if_true] at this ⊢; omega
      · rw [if_neg hq, if_neg hq, if_neg fun e => hq e.symm]; omega

theorem recvBy_le (a q : Addr) (l : List TxOut) : recvBy a q l ≤ sumOut q l := by
  induction l with
  | nil => exact Nat.le_refl _
  | cons o l ih =>
    rw [recvBy, sumOut]
    refine Nat.add_le_add ?_ ih
    split
    · next e => rw [if_pos e.2.symm]; exact Nat.le_refl _
    · exact Nat.zero_le _

theorem BlockOk.flow (h : BlockOk depends w g0 txs x) (hu : ∀ l, (w.umap l).Perm l) (hg : g0.bal = w.bal) {q : Addr} (hs : SupplyBelow w.bal q (2 ^ 127))
    (hq : ∀ tx ∈ txs, ¬ (w.withCtx x).mayRun tx.id q) :
    sumIn q (txs.flatMap txDebits) = sumOut q (txs.flatMap txCredits) + if q = 0 then fees txs else 0 := by
  refine debits_credits fun tx htx => ?_
  obtain ⟨i, hi⟩ := List.getElem?_of_mem htx
  obtain ⟨a, r, wr, e1, e2, hv⟩ := h.accepted hi
  exact ⟨a, r, e1, e2, fun hd => C24_conserved_partial hv hu q (h.fits hg hs hi e2 hd) hd (.inl (hq tx htx))⟩

/-- No balance overflows: money moves at most three times in a block. -/
theorem BlockOk.fits_all (h : BlockOk depends w g0 txs x) (hu : ∀ l, (w.umap l).Perm l) (hg : g0.bal = w.bal) {q : Addr} {n : Nat} (hs : SupplyBelow w.bal q n)
    {rewards : List TxOut} (hn : 4 * n + sumOut q rewards ≤ 2 ^ 128) (hq : ∀ tx ∈ txs, ¬ (w.withCtx x).mayRun tx.id q) (a : Addr) :
    (w.bal a q).getD 0 + recvBy a q (rewards ++ txs.flatMap txCredits) < 2 ^ 128 := by
  have hs' : SupplyBelow w.bal q (2 ^ 127) := fun L hL => Nat.lt_of_lt_of_le (hs L hL) (by omega)
  have h1 := h.flow hu hg hs' hq
  have h2 := h.debits_total hg hs (by omega)
  have h3 := recvBy_le a q (rewards ++ txs.flatMap txCredits)
  have h4 := hs.one a
  rw [sumOut_append] at h3
  omega

/-- C54: a block changes the amount of native coins by its rewards less its fees, and leaves the amount
    of any token whose contract it does not run. `L` are all accounts the block touches. -/
theorem C54_supply (h : BlockOk depends w g0 txs x) (hu : ∀ l, (w.umap l).Perm l) (hg : g0.bal = w.bal) {q : Addr} {n : Nat} (hs : SupplyBelow w.bal q n) (hp : Apart w x txs)
    (rewards : List TxOut) (hn : 4 * n + sumOut q rewards ≤ 2 ^ 128) (hq : ∀ tx ∈ txs, ¬ (w.withCtx x).mayRun tx.id q) (L : List Addr) (hL : L.Nodup)
    (h1 : ∀ y ∈ txs.flatMap txDebits, y.addr ∈ L) (h2 : ∀ y ∈ rewards ++ txs.flatMap txCredits, y.addr ∈ L) :
    total (applyLedger w.bal rewards txs) q L + (if q = 0 then fees txs else 0) = total w.bal q L + sumOut q rewards := by
  have hs' : SupplyBelow w.bal q (2 ^ 127) := fun L hL => Nat.lt_of_lt_of_le (hs L hL) (by omega)
  have ht := C54_total h hg hs' hp rewards (h.fits_all hu hg hs hn hq) L hL h1 h2
  rw [h.flow hu hg hs' hq, sumOut_append] at ht
  omega

theorem over_append (f : Addr → Nat) (L M : List Addr) : over f (L ++ M) = over f L + over f M := by
  induction L with
  | nil => simp [over]
  | cons a L ih => rw [List.cons_append, over_cons, over_cons, ih]; omega

theorem over_uniq_append {f : Addr → Nat} {L : List Addr} (hL : L.Nodup) (M : List Addr) : over f L ≤ over f (uniq (L ++ M)) := by
  have key : ∀ {A B : List Addr}, A.Nodup → (∀ a ∈ A, a ∈ B) → over f A ≤ over f B := by
    intro A
    induction A with
    | nil => intro B _ _; exact Nat.zero_le _
    | cons a A ih =>
      intro B hA hB
      obtain ⟨B1, B2, rfl⟩ := List.append_of_mem (hB a (List.mem_cons_self ..))
      rw [List.nodup_cons] at hA
      have := ih (B := B1 ++ B2) hA.2 fun b hb => by
        have := hB b (List.mem_cons_of_mem _ hb)
        rw [List.mem_append, List.mem_cons] at this
        rcases this with h | rfl | h
        · exact List.mem_append_left _ h
        · exact absurd hb hA.1
        · exact List.mem_append_right _ h
      rw [over_append] at this
      rw [over_cons, over_append, over_cons]
      omega
  exact key hL fun a ha => mem_uniq.2 (List.mem_append_left _ ha)

/-- The supply after a block. -/
theorem BlockOk.supply_after (h : BlockOk depends w g0 txs x) (hu : ∀ l, (w.umap l).Perm l) (hg : g0.bal = w.bal) {q : Addr} {n : Nat} (hs : SupplyBelow w.bal q n) (hp : Apart w x txs)
    (rewards : List TxOut) (hn : 4 * n + sumOut q rewards ≤ 2 ^ 128) (hq : ∀ tx ∈ txs, ¬ (w.withCtx x).mayRun tx.id q) :
    SupplyBelow (applyLedger w.bal rewards txs) q (n + sumOut q rewards) := by
  intro L hL
  have hle := over_uniq_append (f := fun a => (applyLedger w.bal rewards txs a q).getD 0) hL
    ((txs.flatMap txDebits).map (·.addr) ++ (rewards ++ txs.flatMap txCredits).map (·.addr))
  have hnd := uniq_nodup (L ++ ((txs.flatMap txDebits).map (·.addr) ++ (rewards ++ txs.flatMap txCredits).map (·.addr)))
  generalize hM : uniq (L ++ ((txs.flatMap txDebits).map (·.addr) ++ (rewards ++ txs.flatMap txCredits).map (·.addr))) = M at hle hnd
  have := C54_supply h hu hg hs hp rewards hn hq M hnd
    (fun y hy => by rw [← hM]; exact mem_uniq.2 (List.mem_append_right _ (List.mem_append_left _ (List.mem_map.2 ⟨y, hy, rfl⟩))))
    (fun y hy => by rw [← hM]; exact mem_uniq.2 (List.mem_append_right _ (List.mem_append_right _ (List.mem_map.2 ⟨y, hy, rfl⟩))))
  unfold total at this
  have := hs M hnd
  omega

/-- The native currency is never the token of a contract. -/
theorem native_not_run (h0 : w.kind 0 ≠ some true) (hid : ∀ tx ∈ txs, tx.id ≠ 0) : ∀ tx ∈ txs, ¬ (w.withCtx x).mayRun tx.id 0 :=
  fun tx ht h => h.2.elim (fun e => hid tx ht e.symm) h0

/-! ### C26 for the ledger -/

/-- C26: a failed transaction takes the fee from its sender, and nothing else happens to any balance. -/
theorem C26_only_fee {g : Sto} {w : World} {tx : Tx} {r : ExecRes} {wr : Option Writes} (h : (validate w tx).run g = .accept r wr) (hr : tx.result = some r) (hd : r.didFail = true) :
    txCredits tx = [] ∧ ∃ a, tx.sender = some a ∧ txDebits tx = [{ addr := a, cur := 0, amount := r.fee }] ∧ (Verdict.accept r wr).writes = [] := by
  obtain ⟨lim, sf, a, b, avail, s, o, t, fee, ex, ins, outs, hP, _⟩ := validate_accept h
  have hw := ((C26_failed_leaves_nothing h).1 hd).2.2.1
  subst hw
  refine ⟨by unfold txCredits; rw [hr]; simp [hd], a, hP.sender, ?_, rfl⟩
  unfold txDebits
  rw [hr, hP.sender]
  simp [hd]

end Verif.Ledger
