import Verif.Ledger.PropsChain
import Verif.Ledger.RerunLemmas
/-
  C55: what a block producer accepts, others accept.
-/
namespace Verif.Ledger
open Verif Verif.Chain
open Verif.VM (mfind mput)

variable {g : Sto}

theorem prelude_intro {w : World} {tx : Tx} {lim sf : Nat} {a : Addr} {b avail : Nat} {s : St} (h : Passed w tx lim sf a b avail s) :
    R g (prelude w tx) (St.init w tx) = (.ok (lim, sf), s) := by
  unfold prelude
  simp only [bindM]
  have h1 := h.costMax
  have h2 := h.feeMax
  have h3 := h.sf_le
  have h4 := h.enough
  rw [R_needS_bind, if_pos h.wf, R_needS_bind, if_pos h.ratio, R_needS_bind, if_pos h.cost, R_needS_bind, if_pos (by omega),
    R_needS_bind, if_pos (by omega), R_needS_bind, if_pos (by rw [h.fresh]; decide), h.avail_eq, h.sf_eq]
  simp only [liftS]
  rw [R_pure_bind, R_pure_bind, R_needS_bind, if_pos (by omega), h.sender]
  dsimp only
  rw [R_assoc, R_needS_bind, if_pos h.sig, h.bal]
  dsimp only
  rw [R_assoc, R_needS_bind, if_pos (by omega), R_modS_bind, R_pure, h.state, h.lim_eq]
  rfl

theorem finish_intro {w : World} {tx : Tx} {s : St} {l : List TxOut} (hr : tx.result ≠ none)
    (hi : implicitDeposit w s.amounts tx.id tx.deploy.isSome = some l) (h1 : s.cost ≤ w.params.maxTxCost) (h2 : s.cost < 2 ^ 32) :
    R g (finish w tx) s = (.ok ((netSpend s.spend s.dep).1, s.outs ++ depositOuts (netSpend s.spend s.dep).2 ++ l), s) := by
  unfold finish
  simp only [bindM]
  rw [R_getS_bind, hi]
  dsimp only
  have e : tx.result.isNone = false := by
    cases h : tx.result with
    | none => exact absurd h hr
    | some r => rfl
  rw [e]
  rw [R_modS_bind, R_getS_bind, R_needS_bind, if_pos (by simp only [Bool.false_eq_true, if_false]; omega), R_needS_bind,
    if_pos (by simp only [Bool.false_eq_true, if_false]; omega), R_pure]
  rfl

theorem finish_fail {w : World} {tx : Tx} {s t : St} {e : Err} : R g (finish w tx) s = (.fail e, t) ↔
    implicitDeposit w s.amounts tx.id tx.deploy.isSome = none ∧ e = ⟨0, -1, -1⟩ ∧ t = s := by
  unfold finish
  simp only [bindM]
  rw [R_getS_bind]
  cases hi : implicitDeposit w s.amounts tx.id tx.deploy.isSome with
  | none =>
    constructor
    · intro h; cases h; exact ⟨rfl, rfl, rfl⟩
    · rintro ⟨_, rfl, rfl⟩; rfl
  | some l =>
    constructor
    · intro h
      dsimp only at h
      generalize (if tx.result.isNone = true then ioCost w.params (netSpend s.spend s.dep).1
        (s.outs ++ depositOuts (netSpend s.spend s.dep).2 ++ l) else 0) = n at h
      rw [R_modS_bind, R_getS_bind, R_needS_bind] at h
      split at h
      · rw [R_needS_bind] at h
        split at h
        · rw [R_pure] at h; cases h
        · cases h
      · cases h
    · rintro ⟨h, _⟩; cases h

/-- What makes a transaction with a result accepted. -/
theorem validate_intro {w : World} {tx : Tx} {r : ExecRes} {lim sf : Nat} {a : Addr} {b avail : Nat} {s t : St} {o : Out (List TxIn × List TxOut)}
    {ex0 ex : Option Err} {ins : List TxIn} {outs : List TxOut} {fee : Nat} (hr : tx.result = some r) (hP : Passed w tx lim sf a b avail s)
    (hb : R g (body w tx lim) s = (o, t)) (ho : (o = .ok (ins, outs) ∧ ex0 = none) ∨ (∃ e, o = .fail e ∧ ex0 = some e ∧ ins = [] ∧ outs = []))
    (hc : charge tx sf t ex0 = some (fee, ex)) (ha : agrees r ex t.cost fee ins outs = true) :
    (validate w tx).run g = .accept r (if ex = none then some ⟨t.vars, t.cbal⟩ else none) := by
  unfold validate
  rw [run_bind, run_M, prelude_intro hP]
  dsimp only
  rw [run_bind, run_M, hb]
  rcases ho with ⟨rfl, rfl⟩ | ⟨e, rfl, rfl, rfl, rfl⟩
  · dsimp only
    rw [hc]
    dsimp only
    rw [hr]
    dsimp only
    rw [if_pos ha]
    rfl
  · dsimp only
    rw [hc]
    dsimp only
    rw [hr]
    dsimp only
    rw [if_pos ha]
    rfl

theorem allSame_memo {l m : List TxIn} (h : allSame sameIn l m = true) : l.map (·.memo) = m.map (·.memo) := by
  induction l generalizing m with
  | nil => cases m with
    | nil => rfl
    | cons b m => cases h
  | cons x l ih =>
    cases m with
    | nil => cases h
    | cons b m =>
      simp only [allSame, Bool.and_eq_true] at h
      have h1 : x.cur = b.cur ∧ x.addr = b.addr ∧ x.amount = b.amount ∧ x.memo = b.memo ∧ x.isExec = b.isExec := by simpa [sameIn] using h.1
      simp only [List.map_cons, ih h.2, h1.2.2.2.1]

theorem ioCost_same {p : Params} {l m : List TxIn} (h : allSame sameIn l m = true) (o : List TxOut) : ioCost p l o = ioCost p m o := by
  have e : ∀ l : List TxIn, (l.map fun x => memoCost p x.memo) = (l.map (·.memo)).map (memoCost p) := fun l => by rw [List.map_map]; rfl
  unfold ioCost
  rw [e, e, allSame_memo h]

theorem runOps_produced (w : World) (tx : Tx) (sc : Nat) (r : Option ExecRes) (lim : Nat) (l : List Op) : ∀ i,
    runOps w { tx with result := r, staticCost := sc } lim i l = runOps w tx lim i l := by
  induction l with
  | nil => intro i; rfl
  | cons x l ih =>
    intro i
    unfold runOps
    rw [ih]
    rfl

theorem core_produced (w : World) (tx : Tx) (sc : Nat) (r : Option ExecRes) (lim : Nat) :
    core w { tx with result := r, staticCost := sc } lim = core w tx lim := by
  unfold core
  rw [runOps_produced]
  rfl

theorem u32_or {n m : Nat} (h : n = u32 m ∨ n = m) (hm : m < 2 ^ 32) : n = m := by
  rcases h with h | h
  · rw [h, u32_of_lt hm]
  · exact h

/-- C55, for transactions whose result the maximum fee pays for. A transaction accepted without a
    result is accepted again with the result it got, and commits the same: when it succeeded and its
    cost, not rounded, is within the maximum fee, and when it failed for another reason than its fee.
    Missing: results with `C55_overrun` and `C55_rounding`, for which it is false. -/
theorem C55_partial {w : World} {tx : Tx} {r : ExecRes} {wr : Option Writes} (h : (validate w tx).run g = .accept r wr)
    (hn : tx.result = none) (hw : CheapReads w) (ht : tx.Typed) (hfee : r.didFail = false → r.cost * tx.feeRatio ≤ tx.maxFee * 1024)
    (herr : r.error ≠ some ⟨5, -1, -1⟩) : (validate w (tx.produced w.params r)).run g = .accept r wr := by
  obtain ⟨lim, sf, a, b, avail, s, o, t, fee, ex, ins, outs, hP, hb, hc, hm, _⟩ := validate_accept h
  have hav : avail < 2 ^ 32 := by have := hP.avail_lt; have := hP.feeMax; omega
  have hlim : lim ≤ avail := by rw [hP.lim_eq]; exact Nat.min_le_left _ _
  have hsc : tx.staticCost = tx.base := by have := hP.cost; unfold Tx.calcCost at this; rw [hn] at this; exact this
  have hs32 : tx.staticCost < 2 ^ 32 := ht.static
  have scost : s.cost = tx.staticCost := by rw [hP.state]; rfl
  have hbc := body_cost hw hav hP.avail_eq hlim hb (by rw [scost]; exact hs32) (by rcases hc with ⟨e, rfl, _⟩ | ⟨rfl, _⟩ <;> exact (nomatch ·))
  have esf : sf = feeOf tx.staticCost tx.feeRatio := costToFee_val hs32 ht.ratio hP.sf_eq
  have hfm := hP.feeMax
  rcases hc with ⟨e, rfl, hc⟩ | ⟨rfl, hc⟩
  · -- it failed
    obtain ⟨total, a', b1, c1, c2, c3, c4, c5, c6⟩ := charge_some hc
    have hex : ex = some e := by
      rcases c6 with ⟨x, _⟩ | ⟨_, x⟩
      · cases x
      · exact x
    subst hex
    obtain ⟨i1, i2⟩ := hm.failed (by simp)
    have e0 : (tx.produced w.params r).staticCost = tx.staticCost := by
      unfold Tx.produced Tx.calcCost
      dsimp only
      rw [i1, i2, hsc]; rfl
    have hP' : Passed w (tx.produced w.params r) lim sf a b avail s := by
      refine ⟨hP.wf, hP.ratio, ?_, by rw [e0]; exact hP.costMax, hP.feeMax, hP.fresh, hP.avail_eq, by rw [e0]; exact hP.sf_eq, hP.sf_le, hP.sender, hP.sig, hP.bal, hP.enough,
        hP.lim_eq, ?_⟩
      · rfl
      · rw [hP.state]; unfold St.init; rw [e0]
    have hb' : R g (body w (tx.produced w.params r) lim) s = (.fail e, t) := by
      unfold body at hb ⊢
      rw [show core w (tx.produced w.params r) lim = core w tx lim from core_produced _ _ _ _ _]
      rw [R_bind] at hb ⊢
      rcases hr : R g (core w tx lim) s with ⟨x | x | _, u⟩
      · rw [hr] at hb
        dsimp only at hb ⊢
        exact finish_fail.2 (finish_fail (tx := tx).1 hb)
      · rw [hr] at hb; exact hb
      · rw [hr] at hb; cases hb
    have hf32 : fee < 2 ^ 32 := by omega
    rw [validate_intro (r := r) rfl hP' hb' (.inr ⟨e, rfl, rfl, rfl, rfl⟩) (fee := fee) (ex := some e) hc ?_]
    · rw [hm.commit]
    · unfold agrees
      rw [hm.fail, u32_or hm.cost hbc.2.1, u32_or hm.fee hf32, hm.error (by simp), i1, i2]
      simp
  · -- it succeeded
    obtain ⟨total, a', bt, c1, c2, c3, c4, c5, c6⟩ := charge_some hc
    have hex : ex = none ∧ total ≤ tx.maxFee := by
      rcases c6 with ⟨_, _, x⟩ | ⟨x, y⟩
      · exact absurd (by rw [hm.error (by rw [x]; simp), x]) herr
      · exact ⟨y, x.resolve_right fun z => z rfl⟩
    obtain ⟨rfl, htot⟩ := hex
    rw [hP.sender] at c3
    cases c3
    have hf : fee = total := by omega
    have ec : r.cost = t.cost := u32_or hm.cost hbc.2.1
    have hfee' := hfee (by rw [hm.fail]; rfl)
    rw [ec] at hfee'
    have etot : total = feeOf t.cost tx.feeRatio := costToFee_val hbc.2.1 ht.ratio c1
    unfold body at hb
    obtain ⟨_, u, hcore, hfin⟩ := bind_okR.1 hb
    rcases finish_run hfin with x | ⟨_, e, x⟩ | ⟨l, f1, f2, f3, f4, f5, f6⟩
    · cases x
    · cases x
    have step := core_pr hw (by omega) hP.avail_eq hlim g s _ u hcore (by rw [scost]; omega)
    cases f2
    rw [hn, if_pos (by rfl)] at f6
    have eo : u.outs ++ depositOuts (netSpend u.spend u.dep).2 ++ l = r.outputs := allSame_out (hm.outputs rfl)
    have eio : ioCost w.params (netSpend u.spend u.dep).1 (u.outs ++ depositOuts (netSpend u.spend u.dep).2 ++ l) = ioCost w.params r.inputs r.outputs := by
      rw [eo]; exact ioCost_same (hm.inputs rfl) _
    rw [eio] at f6
    generalize hio : ioCost w.params r.inputs r.outputs = io at f6
    have e0 : (tx.produced w.params r).staticCost = tx.staticCost + io := by
      show tx.base + ioCost w.params r.inputs r.outputs = _
      rw [hio, hsc]
    have hcav : t.cost ≤ avail := by
      have h1 := hP.avail_eq
      rw [C31_fee_to_cost_exact (by omega) (by have := hP.ratio; omega)] at h1
      split at h1
      · cases h1
        exact (Nat.le_div_iff_mul_le (by have := hP.ratio; omega)).2 hfee'
      · cases h1
    have hst : tx.staticCost + io ≤ t.cost := by have := step.1.1; omega
    have hsf' : feeOf (tx.staticCost + io) tx.feeRatio ≤ total := by rw [etot]; exact feeOf_mono hst
    have hsf'' : sf ≤ feeOf (tx.staticCost + io) tx.feeRatio := by rw [esf]; exact feeOf_mono (by omega)
    generalize hsfe : feeOf (tx.staticCost + io) tx.feeRatio = sf' at hsf' hsf''
    rw [hf, sub64_le (by omega) (by omega)] at c5
    have ub : u.bals a 0 = some bt := by rw [f3] at c4; exact c4
    have sim := core_sim (g := g) (io := io) (δ := sf' - sf) (a := a) (B := lim) hw (tx := tx) (by omega) hP.avail_eq hlim (by rw [hP.lim_eq]; exact Nat.min_le_right _ _) (lim := lim) (by omega) (Nat.le_refl _)
    obtain ⟨_, q⟩ := sim s () u (by rw [scost]; omega) hcore
    have hlim2 : lim = min avail w.params.maxTxCost := hP.lim_eq
    obtain ⟨fs, hcore'⟩ := q ⟨by omega, bt, ub, by omega⟩
    have hP' : Passed w (tx.produced w.params r) lim sf' a b avail (sh io (sf' - sf) a s) := by
      have hen := hP.enough
      have hble : sf' ≤ b := by
        obtain ⟨_, b2, z1, z2⟩ := fs
        rw [hP.state] at z1
        have : b - sf = b2 := by simpa using z1
        omega
      refine ⟨hP.wf, hP.ratio, rfl, by rw [e0]; omega, hP.feeMax, hP.fresh, hP.avail_eq, ?_, by show sf' ≤ tx.maxFee; omega, hP.sender, hP.sig, hP.bal, hble, hP.lim_eq, ?_⟩
      · rw [e0]
        show costToFee _ tx.feeRatio = _
        rw [C31_cost_to_fee_exact (by omega) ht.ratio, show (tx.staticCost + io) * tx.feeRatio / 1024 = sf' from hsfe, if_pos (by omega)]
      · rw [hP.state]
        unfold sh put St.init
        rw [e0]
        dsimp only
        congr 1
        funext x q
        by_cases e : x = a ∧ q = 0
        · rw [if_pos e, if_pos e, if_pos e]
          simp only [Option.map_some]
          congr 1
          omega
        · rw [if_neg e, if_neg e, if_neg e]
    have eT : (sh io (sf' - sf) a u).cost = t.cost := by rw [f6]; rfl
    have hb' : R g (body w (tx.produced w.params r) lim) (sh io (sf' - sf) a s) = (.ok ((netSpend u.spend u.dep).1, u.outs ++ depositOuts (netSpend u.spend u.dep).2 ++ l), sh io (sf' - sf) a u) := by
      unfold body
      rw [show core w (tx.produced w.params r) lim = core w tx lim from core_produced _ _ _ _ _]
      rw [bind_okR]
      refine ⟨(), _, hcore', ?_⟩
      exact finish_intro (tx := tx.produced w.params r) (s := sh io (sf' - sf) a u) (by simp [Tx.produced]) f1 (by rw [eT]; exact f4) (by rw [eT]; exact f5)
    have hch : charge (tx.produced w.params r) sf' (sh io (sf' - sf) a u) none = some (fee, none) := by
      unfold charge
      rw [eT]
      show (match costToFee t.cost tx.feeRatio with | .ok total => _ | _ => _) = _
      rw [c1]
      dsimp only
      show (match tx.sender with | none => _ | some a => _) = _
      rw [hP.sender]
      dsimp only
      have : (sh io (sf' - sf) a u).bals a 0 = some (bt - (sf' - sf)) := by
        unfold sh put
        dsimp only
        rw [if_pos ⟨rfl, rfl⟩, ub]; rfl
      rw [this]
      dsimp only
      have em : min total (tx.produced w.params r).maxFee = total := by show min total tx.maxFee = total; omega
      rw [em, sub64_le (by omega) (by omega), if_neg (by omega), if_neg (fun z => by have : total > tx.maxFee := z.1; omega), hf]
    have hf32 : fee < 2 ^ 32 := by omega
    rw [validate_intro (r := r) rfl hP' hb' (.inl ⟨rfl, rfl⟩) hch ?_]
    · rw [hm.commit, f3]
      rfl
    · unfold agrees
      rw [hm.fail, eT, u32_or hm.cost hbc.2.1, u32_or hm.fee hf32]
      have := hm.inputs rfl
      have h2 := hm.outputs rfl
      rw [this, h2]
      rcases hm.noError rfl with z | z <;> rw [z] <;> simp

/-! ### Cases -/

/-- The case of `ex_accept`. -/
example : (validate exWorld (exTx.produced exWorld.params exRes)).run exSto = .accept exRes (some ⟨[((7, 1), 5)], [((7, 0), 800)]⟩) :=
  C55_partial ex_accept rfl ex_cheap ex_typed (by decide) (by decide)

/-- The case of a transaction that failed. -/
example : (validate exWorld (exFail.produced exWorld.params ⟨true, 470, 940, [], [], some ⟨0, -1, 0⟩⟩)).run exSto = .accept ⟨true, 470, 940, [], [], some ⟨0, -1, 0⟩⟩ none :=
  C55_partial ex_fail rfl ex_cheap ⟨by decide, by decide⟩ (by decide) (by decide)

/-- C55 fails, too: a maximum fee that is exactly the fee of the transaction. The fee is rounded down,
    so it pays for a cost that is one less than that of the transaction. Validated without result, the
    outputs of the execution cost after it ran; with the result they cost before, and the contract runs
    out of gas: the transaction is rejected. -/
theorem C55_rounding : ∃ r wr, r.didFail = false ∧ r.fee = 1379 ∧ (validate exWorld { exTx with feeRatio := 2047, maxFee := 1379 }).run exSto = .accept r wr ∧
    (validate exWorld (({ exTx with feeRatio := 2047, maxFee := 1379 } : Tx).produced exWorld.params r)).run exSto = .reject :=
  ⟨⟨false, 690, 1379, [{ addr := 7, cur := 0, amount := 200 }], [{ addr := 3, cur := 0, amount := 500 }], none⟩, some ⟨[((7, 1), 5)], [((7, 0), 800)]⟩,
    rfl, rfl, by decide +kernel, by decide +kernel⟩

end Verif.Ledger
