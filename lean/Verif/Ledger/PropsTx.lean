import Verif.Ledger.ValidateLemmas
/-
  C24, C25, C26: coins, fees and failures of one transaction.
-/
namespace Verif.Ledger
open Verif Verif.Chain
open Verif.VM (mfind mput mfind_mput mput_nodup mem_mfind mfind_mem)

variable {g : Sto}

theorem Passed.fresh_state {w : World} {tx : Tx} {lim sf : Nat} {a : Addr} {b avail : Nat} {s : St} (h : Passed w tx lim sf a b avail s) : Fresh s := by
  rw [h.state]; exact ⟨rfl, rfl, rfl, rfl, rfl, rfl⟩

/-- No sum of the balance of a contract and what the transaction brings of the token `q` reaches 2^128. -/
def Fits (g : Sto) (tx : Tx) (q : Addr) : Prop := ∀ c, (g.bal c q).getD 0 + sumIn q tx.inputs < 2 ^ 128

/-! ### C24 -/

theorem accepted_sums {w : World} {tx : Tx} {r : ExecRes} {wr : Option Writes} (h : (validate w tx).run g = .accept r wr)
    (hu : ∀ l, (w.umap l).Perm l) (q : Addr) (hf : Fits g tx q) (hd : r.didFail = false) :
    ∃ m : Nat, sumIn q tx.inputs + sumIn q r.inputs + m = sumOut q tx.outputs + sumOut q r.outputs ∧
      (¬ w.mayRun tx.id q → m = 0) ∧ (tx.neverMints q → m = 0) := by
  obtain ⟨lim, sf, a, b, avail, s, o, t, fee, ex, ins, outs, hP, hb, hc, hm, _⟩ := validate_accept h
  have he : ex = none := by
    have := hm.fail
    rw [hd] at this
    cases ex with
    | none => rfl
    | some _ => cases this
  rcases hc with ⟨e, rfl, hc⟩ | ⟨rfl, hc⟩
  · obtain ⟨_, _, _, _, _, _, _, _, h1 | h1⟩ := charge_some hc
    · cases h1.1
    · rw [he] at h1; cases h1.2
  · obtain ⟨m, k1, k2, k3⟩ := body_money hu hb hP.fresh_state q hf
    refine ⟨m, ?_, k2, k3⟩
    rw [← allSame_sumIn (hm.inputs he), ← allSame_out (hm.outputs he)]
    exact k1

/-- C24: for a transaction that is accepted and did not fail, and a token whose contract is not run by
    it, or whose contract is run but does not mint, inputs and outputs add up to the same amount. -/
theorem C24_conserved_partial {w : World} {tx : Tx} {r : ExecRes} {wr : Option Writes} (h : (validate w tx).run g = .accept r wr)
    (hu : ∀ l, (w.umap l).Perm l) (q : Addr) (hf : Fits g tx q) (hd : r.didFail = false) (hq : ¬ w.mayRun tx.id q ∨ tx.neverMints q) :
    sumIn q tx.inputs + sumIn q r.inputs = sumOut q tx.outputs + sumOut q r.outputs := by
  obtain ⟨m, k1, k2, k3⟩ := accepted_sums h hu q hf hd
  have hz : m = 0 := hq.elim k2 k3
  omega

/-- C24: no accepted transaction destroys coins. -/
theorem C24_never_destroyed_partial {w : World} {tx : Tx} {r : ExecRes} {wr : Option Writes} (h : (validate w tx).run g = .accept r wr)
    (hu : ∀ l, (w.umap l).Perm l) (q : Addr) (hf : Fits g tx q) (hd : r.didFail = false) :
    sumIn q tx.inputs + sumIn q r.inputs ≤ sumOut q tx.outputs + sumOut q r.outputs := by
  obtain ⟨m, k1, _⟩ := accepted_sums h hu q hf hd
  omega

/-- C24: the native currency is neither created nor destroyed, whatever the contracts do; the zero
    address is no contract and no transaction. -/
theorem C24_native_partial {w : World} {tx : Tx} {r : ExecRes} {wr : Option Writes} (h : (validate w tx).run g = .accept r wr)
    (hu : ∀ l, (w.umap l).Perm l) (hf : Fits g tx 0) (hd : r.didFail = false) (h0 : w.kind 0 ≠ some true) (hid : tx.id ≠ 0) :
    sumIn 0 tx.inputs + sumIn 0 r.inputs = sumOut 0 tx.outputs + sumOut 0 r.outputs :=
  C24_conserved_partial h hu 0 hf hd (.inl fun h => h.2.elim (fun e => hid e.symm) h0)

/-- C24: every input was authorised, and not from a contract with code. -/
theorem C24_inputs_authorised {w : World} {tx : Tx} {r : ExecRes} {wr : Option Writes} (h : (validate w tx).run g = .accept r wr)
    (hd : r.didFail = false) : ∀ x ∈ tx.inputs, x.auth = true ∧ (x.isExec = true → w.kind x.addr = some false) := by
  obtain ⟨lim, sf, a, b, avail, s, o, t, fee, ex, ins, outs, hP, hb, hc, hm, _⟩ := validate_accept h
  have he : ex = none := by
    have := hm.fail
    rw [hd] at this
    cases ex with
    | none => rfl
    | some _ => cases this
  rcases hc with ⟨e, rfl, hc⟩ | ⟨rfl, hc⟩
  · obtain ⟨_, _, _, _, _, _, _, _, h1 | h1⟩ := charge_some hc
    · cases h1.1
    · rw [he] at h1; cases h1.2
  · exact fun x hx => ⟨((body_bals hb).2 x hx).2.1, ((body_bals hb).2 x hx).2.2.1⟩

/-! ### C25 -/

/-- The fee of a cost at a ratio. -/
def feeOf (cost ratio : Nat) : Nat := cost * ratio / 1024

theorem costToFee_val {c r n : Nat} (hc : c < 2 ^ 32) (hr : r < 2 ^ 32) (h : costToFee c r = .ok n) : n = feeOf c r := by
  rw [C31_cost_to_fee_exact (by omega) hr] at h
  split at h
  · cases h; rfl
  · cases h

theorem feeOf_mono {c d r : Nat} (h : c ≤ d) : feeOf c r ≤ feeOf d r := Nat.div_le_div_right (Nat.mul_le_mul_right _ h)

theorem sub64_le {a b : Nat} (h : b ≤ a) (ha : a < 2 ^ 64) : sub64 a b = a - b := by
  unfold sub64
  rw [Nat.mod_eq_of_lt (a := b) (by omega)]
  omega

/-- C25: the fee is that of the cost or the declared maximum, whichever is less; it is at least the fee
    of the static cost; the sender owns it beside everything the transaction takes from the sender's
    balance. This holds whether the transaction failed or not. -/
theorem C25_fee {w : World} {tx : Tx} {r : ExecRes} {wr : Option Writes} (h : (validate w tx).run g = .accept r wr)
    (hw : CheapReads w) (ht : tx.Typed) :
    tx.staticCost ≤ r.cost ∧ r.cost < 2 ^ 32 ∧ r.fee = min (feeOf r.cost tx.feeRatio) tx.maxFee ∧ feeOf tx.staticCost tx.feeRatio ≤ r.fee ∧ r.fee ≤ tx.maxFee ∧
      (r.didFail = false → r.fee = feeOf r.cost tx.feeRatio) ∧
      ∃ a b, tx.sender = some a ∧ tx.sig = true ∧ w.bal a 0 = some b ∧ r.fee + (if r.didFail then 0 else spentBy a 0 tx.inputs) ≤ b := by
  obtain ⟨lim, sf, a, b, avail, s, o, t, fee, ex, ins, outs, hP, hb, hc, hm, _⟩ := validate_accept h
  have ha := hP.avail_lt
  have hmax := hP.feeMax
  have hs : s.cost = tx.staticCost := by rw [hP.state]; rfl
  have hns : o ≠ .static := by rcases hc with ⟨e, rfl, _⟩ | ⟨rfl, _⟩ <;> exact (nomatch ·)
  obtain ⟨c1, c2, c3⟩ := body_cost hw (by omega) hP.avail_eq (by rw [hP.lim_eq]; exact Nat.min_le_left _ _) hb (by rw [hs]; exact ht.static) hns
  have hc' : ∃ ex0, charge tx sf t ex0 = some (fee, ex) := by
    rcases hc with ⟨e, _, h⟩ | ⟨_, h⟩
    · exact ⟨_, h⟩
    · exact ⟨_, h⟩
  obtain ⟨ex0, hc'⟩ := hc'
  obtain ⟨total, a', bt, d1, d2, d3, d4, d5, d6⟩ := charge_some hc'
  have : a' = a := by rw [hP.sender] at d3; cases d3; rfl
  subst this
  have hsf := costToFee_val ht.static ht.ratio hP.sf_eq
  have htot := costToFee_val c2 ht.ratio d1
  have hcost : r.cost = t.cost := by
    rcases hm.cost with h | h
    · rw [h, u32_of_lt' c2]
    · exact h
  have hfee : r.fee = fee := by
    rcases hm.fee with h | h
    · rw [h, u32_of_lt' (by omega)]
    · exact h
  have hmono : sf ≤ total := by rw [hsf, htot]; exact feeOf_mono (by omega)
  have hsfee : sf ≤ fee := by rw [d2]; exact Nat.le_min.2 ⟨hmono, hP.sf_le⟩
  rw [sub64_le hsfee (by omega)] at d5
  rw [hcost, hfee]
  refine ⟨by omega, c2, by rw [d2, htot], by rw [← hsf]; exact hsfee, by omega, fun hf => ?_, a', b, hP.sender, hP.sig, hP.bal, ?_⟩
  · rw [← htot, d2]
    rw [hm.fail] at hf
    rcases d6 with ⟨_, _, e⟩ | ⟨e1 | e1, e2⟩
    · rw [e] at hf; cases hf
    · omega
    · rw [e2] at hf; cases ex0 with
      | none => exact absurd rfl e1
      | some _ => cases hf
  · have hsb : s.bals a' 0 = some (b - sf) := by rw [hP.state]; simp
    have hen := hP.enough
    obtain ⟨b', e1, e2⟩ := c3 a' 0 bt d4
    rw [hsb] at e1; cases e1
    cases hfail : r.didFail with
    | true => simp; omega
    | false =>
      have he : ex = none := by
        have := hm.fail
        rw [hfail] at this
        cases ex with
        | none => rfl
        | some _ => cases this
      rcases hc with ⟨e, rfl, hc⟩ | ⟨rfl, hc⟩
      · obtain ⟨_, _, _, _, _, _, _, _, h1 | h1⟩ := charge_some hc
        · cases h1.1
        · rw [he] at h1; cases h1.2
      · obtain ⟨k1, k2⟩ := ((body_bals hb).1 a' 0).2 _ hsb
        rw [d4] at k2
        cases k2
        simp
        omega

/-! ### C26 -/

/-- C26: a transaction that failed has no inputs and outputs of its execution, names its error, and
    leaves the storage of the contracts as it was. One that did not fail leaves its writes. -/
theorem C26_failed_leaves_nothing {w : World} {tx : Tx} {r : ExecRes} {wr : Option Writes} (h : (validate w tx).run g = .accept r wr) :
    (r.didFail = true → r.inputs = [] ∧ r.outputs = [] ∧ wr = none ∧ r.error ≠ none) ∧ (r.didFail = false → wr ≠ none) := by
  obtain ⟨lim, sf, a, b, avail, s, o, t, fee, ex, ins, outs, hP, hb, hc, hm, _⟩ := validate_accept h
  constructor
  · intro hd
    have he : ex ≠ none := by
      intro e; rw [hm.fail, e] at hd; cases hd
    refine ⟨(hm.failed he).1, (hm.failed he).2, by rw [hm.commit, if_neg he], by rw [hm.error he]; exact he⟩
  · intro hd
    have he : ex = none := by
      rw [hm.fail] at hd; cases ex with
      | none => rfl
      | some _ => cases hd
    rw [hm.commit, if_pos he]
    exact (nomatch ·)

/-! ### Cases -/

/-- A chain with three accounts and a contract, 7, that holds 1000 coins and 2^128 - 1 of token 9. -/
def exWorld : World :=
  { params := ⟨100000, 100, 50, 20, 10, 0⟩
    height := 5
    bal := fun a q => if a = 1 ∧ q = 0 then some 5000 else if a = 1 ∧ q = 9 then some 10 else if a = 7 ∧ q = 0 then some 1000
      else if a = 7 ∧ q = 9 then some (2 ^ 128 - 1) else none
    known := fun a => a = 7 ∨ a = 9
    readCost := fun _ => 30
    kind := fun a => if a = 7 then some true else none
    umap := fun x => x
    locked := fun _ c => c = 7 ∨ c = 100 }

def exSto : Sto := { var := fun _ _ => none, bal := exWorld.bal }

/-- Account 1 sends 100 to 2, deposits 300 into contract 7, which pays 500 to account 3 and writes. -/
def exTx : Tx :=
  { id := 100, wf := true, base := 400, staticCost := 400, maxFee := 2000, feeRatio := 2048, sender := some 1, sig := true, expires := 9
    inputs := [{ addr := 1, cur := 0, amount := 400, sol := true, auth := true }]
    outputs := [{ addr := 2, cur := 0, amount := 100 }]
    deploy := none
    ops := [⟨7, true, none, some (0, 300), .gas 50 (.check (.rdBal 0 fun b => if b = some 1300 then .done [(1, 5)] [{ addr := 3, cur := 0, amount := 500 }] [] 0 else .fail 1))⟩]
    result := none }

def exRes : ExecRes :=
  { didFail := false, cost := 690, fee := 1380, inputs := [{ addr := 7, cur := 0, amount := 200 }], outputs := [{ addr := 3, cur := 0, amount := 500 }], error := none }

theorem ex_accept : (validate exWorld exTx).run exSto = .accept exRes (some ⟨[((7, 1), 5)], [((7, 0), 800)]⟩) := by decide +kernel

/-- With less gas paid for, the contract runs out of it. -/
def exFail : Tx := { exTx with maxFee := 940 }

theorem ex_fail : (validate exWorld exFail).run exSto = .accept ⟨true, 470, 940, [], [], some ⟨0, -1, 0⟩⟩ none := by decide +kernel

theorem ex_perm : ∀ l, (exWorld.umap l).Perm l := fun l => .refl l
theorem ex_cheap : CheapReads exWorld := by intro a; show 10 + 30 < 2 ^ 62; decide
theorem ex_typed : exTx.Typed := ⟨by decide, by decide⟩

theorem ex_bal (c q : Addr) : (exSto.bal c q).getD 0 ≤ if q = 9 then 2 ^ 128 - 1 else 5000 := by
  show ((if c = 1 ∧ q = 0 then some 5000 else if c = 1 ∧ q = 9 then some 10 else if c = 7 ∧ q = 0 then some 1000
      else if c = 7 ∧ q = 9 then some (2 ^ 128 - 1) else none : Option Nat)).getD 0 ≤ _
  split
  · next h => rw [h.2]; decide
  · split
    · next h => rw [h.2]; decide
    · split
      · next h => rw [h.2]; decide
      · split
        · next h => rw [h.2]; decide
        · exact Nat.zero_le _

theorem ex_fits (q : Addr) : Fits exSto exTx q := by
  intro c
  have h := ex_bal c q
  have e : sumIn q exTx.inputs = (if 0 = q then 400 else 0) + 0 := rfl
  rw [e]
  split at h
  · next hq => rw [if_neg (by rw [hq]; decide)]; omega
  · split <;> omega

/-- The hypotheses of C24, C25 and C26 are met by a transaction with a deposit and a paying contract. -/
example : sumIn 0 exTx.inputs + sumIn 0 exRes.inputs = 600 ∧ sumOut 0 exTx.outputs + sumOut 0 exRes.outputs = 600 := by decide
example : sumIn 0 exTx.inputs + sumIn 0 exRes.inputs = sumOut 0 exTx.outputs + sumOut 0 exRes.outputs :=
  C24_native_partial ex_accept ex_perm (ex_fits 0) rfl (by decide) (by decide)
example : ∃ a b, exTx.sender = some a ∧ exTx.sig = true ∧ exWorld.bal a 0 = some b ∧ exRes.fee + spentBy a 0 exTx.inputs ≤ b := by
  obtain ⟨_, _, _, _, _, _, h⟩ := C25_fee ex_accept ex_cheap ex_typed
  exact h
example : (470 : Nat) ≥ exFail.staticCost ∧ ([] : List TxIn) = [] := ⟨by decide, ((C26_failed_leaves_nothing ex_fail).1 rfl).1⟩

/-- Account 1 deposits one of token 9, of which contract 7 holds 2^128 - 1 and pays everything out. -/
def exWrap : Tx :=
  { exTx with
    maxFee := 9000
    inputs := [{ addr := 1, cur := 9, amount := 1, sol := true, auth := true }]
    outputs := []
    ops := [⟨7, true, none, none, .done [] [{ addr := 3, cur := 9, amount := 2 ^ 128 - 1 }] [] 0⟩,
            ⟨7, true, none, some (9, 1), .done [] [{ addr := 3, cur := 9, amount := 1 }] [] 0⟩] }

/-- C24 fails for a token of which 2^128 or more exist: payments of a contract are added up modulo
    2^128, so here 2^128 coins appear although nothing was minted. -/
theorem C24_wraps : ∃ r wr, (validate exWorld exWrap).run exSto = .accept r wr ∧ r.didFail = false ∧ exWrap.neverMints 9 ∧
    sumIn 9 exWrap.inputs + sumIn 9 r.inputs + 2 ^ 128 = sumOut 9 exWrap.outputs + sumOut 9 r.outputs := by
  refine ⟨⟨false, 780, 1560, [], [{ addr := 3, cur := 9, amount := 2 ^ 128 - 1 }, { addr := 3, cur := 9, amount := 1 }, { addr := 7, cur := 9, amount := 1 }], none⟩,
    some ⟨[], [((7, 9), 0)]⟩, by decide +kernel, rfl, ⟨fun d h => (by cases h), ?_⟩, by decide⟩
  intro o ho
  rcases List.mem_cons.1 ho with rfl | ho
  · exact fun h => absurd h (by decide)
  · rcases List.mem_cons.1 ho with rfl | ho
    · exact fun h => absurd h (by decide)
    · cases ho

end Verif.Ledger
