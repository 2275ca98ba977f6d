import Verif.Ledger.MoneyLemmas
import Verif.Chain.Props
/-
  What an accepted transaction went through.
-/
namespace Verif.Ledger
open Verif Verif.Chain
open Verif.VM (mfind mput mfind_mput mput_nodup mem_mfind mfind_mem)

variable {g : Sto}

/-- The types of the fields and parameters: `static_cost`, `max_fee_amount` and `fee_ratio` are 32 bit. -/
structure Tx.Typed (tx : Tx) : Prop where
  static : tx.staticCost < 2 ^ 32
  ratio : tx.feeRatio < 2 ^ 32

/-- What the checks before the execution establish. -/
structure Passed (w : World) (tx : Tx) (lim sf : Nat) (a : Addr) (b avail : Nat) (s : St) : Prop where
  wf : tx.wf = true
  ratio : tx.feeRatio ≥ 1024
  cost : tx.staticCost = tx.calcCost w.params
  costMax : tx.staticCost ≤ w.params.maxTxCost
  feeMax : tx.maxFee < 2 ^ 32
  fresh : w.known tx.id = false
  avail_eq : feeToCost tx.maxFee tx.feeRatio = .ok avail
  sf_eq : costToFee tx.staticCost tx.feeRatio = .ok sf
  sf_le : sf ≤ tx.maxFee
  sender : tx.sender = some a
  sig : tx.sig = true
  bal : w.bal a 0 = some b
  enough : sf ≤ b
  lim_eq : lim = min avail w.params.maxTxCost
  state : s = { St.init w tx with bals := fun x q => if x = a ∧ q = 0 then some (b - sf) else w.bal x q }

theorem prelude_ok {w : World} {tx : Tx} {lim sf : Nat} {s : St} (h : R g (prelude w tx) (St.init w tx) = (.ok (lim, sf), s)) :
    ∃ a b avail, Passed w tx lim sf a b avail s := by
  unfold prelude at h
  simp only [bindM] at h
  rw [bind_okR] at h; obtain ⟨_, u, h1, h⟩ := h; obtain ⟨k1, rfl⟩ := needS_okR h1
  rw [bind_okR] at h; obtain ⟨_, u, h2, h⟩ := h; obtain ⟨k2, rfl⟩ := needS_okR h2
  rw [bind_okR] at h; obtain ⟨_, u, h3, h⟩ := h; obtain ⟨k3, rfl⟩ := needS_okR h3
  rw [bind_okR] at h; obtain ⟨_, u, h4, h⟩ := h; obtain ⟨k4, rfl⟩ := needS_okR h4
  rw [bind_okR] at h; obtain ⟨_, u, h5, h⟩ := h; obtain ⟨k5, rfl⟩ := needS_okR h5
  rw [bind_okR] at h; obtain ⟨_, u, h6, h⟩ := h; obtain ⟨k6, rfl⟩ := needS_okR h6
  rw [bind_okR] at h; obtain ⟨avail, u, h7, h⟩ := h; obtain ⟨k7, rfl⟩ := liftS_okR h7
  rw [bind_okR] at h; obtain ⟨sf', u, h8, h⟩ := h; obtain ⟨k8, rfl⟩ := liftS_okR h8
  rw [bind_okR] at h; obtain ⟨_, u, h9, h⟩ := h; obtain ⟨k9, rfl⟩ := needS_okR h9
  rw [bind_okR] at h; obtain ⟨_, v, h10, h⟩ := h
  obtain ⟨e, rfl⟩ := pure_okR h
  cases e
  cases hs : tx.sender with
  | none => rw [hs] at h10; cases h10
  | some a =>
    rw [hs] at h10
    dsimp only at h10
    rw [bind_okR] at h10; obtain ⟨_, u, h11, h10⟩ := h10; obtain ⟨k11, rfl⟩ := needS_okR h11
    cases hb : w.bal a 0 with
    | none => rw [hb] at h10; cases h10
    | some b =>
      rw [hb] at h10
      dsimp only at h10
      rw [bind_okR] at h10; obtain ⟨_, u, h12, h10⟩ := h10; obtain ⟨k12, rfl⟩ := needS_okR h12
      have hm := modS_okR h10
      exact ⟨a, b, avail, k1, k2, k3, Nat.not_lt.1 k4, by omega, by simpa using k6, k7, k8, Nat.not_lt.1 k9, hs, k11, hb, Nat.not_lt.1 k12, rfl, hm⟩

theorem Passed.avail_lt {w : World} {tx : Tx} {lim sf : Nat} {a : Addr} {b avail : Nat} {s : St} (h : Passed w tx lim sf a b avail s) :
    avail ≤ tx.maxFee := by
  have h1 := h.avail_eq
  rw [C31_fee_to_cost_exact (by have := h.feeMax; omega) (by have := h.ratio; omega)] at h1
  split at h1
  · cases h1
    exact Nat.div_le_of_le_mul (by rw [Nat.mul_comm]; exact Nat.mul_le_mul_right _ h.ratio)
  · cases h1

theorem core_pr {w : World} (hw : CheapReads w) {tx : Tx} {lim A : Nat} (hA : A < 2 ^ 63) (ha : feeToCost tx.maxFee tx.feeRatio = .ok A)
    (hl : lim ≤ A) : Pr A (core w tx lim) := by
  unfold core
  simp only [bindM]
  exact .bind hA (.needE _ _ _) fun _ => .bind hA (takeInputs_pr hw hA hl _ _) fun _ => .bind hA (giveOutputs_pr hA _ _) fun _ =>
    .bind hA (runDeploy_pr hA ha) fun _ => runOps_pr hw hA ha hl _ _

/-- What the end of the execution does. -/
theorem finish_run {w : World} {tx : Tx} {s t : St} {o : Out (List TxIn × List TxOut)} (h : R g (finish w tx) s = (o, t)) :
    o = .static ∨ (t = s ∧ ∃ e, o = .fail e) ∨ ∃ l, implicitDeposit w s.amounts tx.id tx.deploy.isSome = some l ∧
      o = .ok ((netSpend s.spend s.dep).1, s.outs ++ depositOuts (netSpend s.spend s.dep).2 ++ l) ∧
      t = { s with cost := t.cost } ∧ t.cost ≤ w.params.maxTxCost ∧ t.cost < 2 ^ 32 ∧
      t.cost = s.cost + (if tx.result.isNone then ioCost w.params (netSpend s.spend s.dep).1 (s.outs ++ depositOuts (netSpend s.spend s.dep).2 ++ l) else 0) := by
  unfold finish at h
  simp only [bindM] at h
  rw [R_getS_bind] at h
  cases hi : implicitDeposit w s.amounts tx.id tx.deploy.isSome with
  | none => rw [hi] at h; cases h; exact .inr (.inl ⟨rfl, _, rfl⟩)
  | some l =>
    rw [hi] at h
    dsimp only at h
    generalize hn : (if tx.result.isNone = true then ioCost w.params (netSpend s.spend s.dep).1
      (s.outs ++ depositOuts (netSpend s.spend s.dep).2 ++ l) else 0) = n at h
    rw [R_modS_bind, R_getS_bind, R_needS_bind] at h
    split at h
    · next h1 =>
      rw [R_needS_bind] at h
      split at h
      · next h2 =>
        rw [R_pure] at h
        cases h
        refine .inr (.inr ⟨l, rfl, rfl, rfl, Nat.not_lt.1 h1, by dsimp only at h2 ⊢; omega, by rw [hn]⟩)
      · cases h; exact .inl rfl
    · cases h; exact .inl rfl

/-- Cost and balances after the execution, unless it was rejected. -/
theorem body_cost {w : World} (hw : CheapReads w) {tx : Tx} {lim A : Nat} (hA : A < 2 ^ 32) (ha : feeToCost tx.maxFee tx.feeRatio = .ok A)
    (hl : lim ≤ A) {s t : St} {o : Out (List TxIn × List TxOut)} (h : R g (body w tx lim) s = (o, t)) (hs : s.cost < 2 ^ 32) (ho : o ≠ .static) :
    s.cost ≤ t.cost ∧ t.cost < 2 ^ 32 ∧ ∀ a q b, t.bals a q = some b → ∃ b', s.bals a q = some b' ∧ b ≤ b' := by
  have pr := core_pr hw (by omega) ha hl (tx := tx)
  unfold body at h
  rw [R_bind] at h
  rcases hr : R g (core w tx lim) s with ⟨a | e | _, u⟩
  · rw [hr] at h
    obtain ⟨⟨h1, h2⟩, h3⟩ := pr g s _ u hr (by omega)
    dsimp only at h
    rcases finish_run h with rfl | ⟨rfl, _⟩ | ⟨l, _, _, h5, _, h7, h8⟩
    · exact absurd rfl ho
    · exact ⟨h1, by omega, h3⟩
    · rw [h5] at h8 ⊢
      dsimp only at h8 ⊢
      exact ⟨by omega, h7, h3⟩
  · rw [hr] at h; cases h
    obtain ⟨⟨h1, h2⟩, h3⟩ := pr g s _ _ hr (by omega)
    exact ⟨h1, by omega, h3⟩
  · rw [hr] at h; cases h; exact absurd rfl ho

/-! ### Balances are left alone after the inputs -/

def PrB {α : Type} (m : M α) : Prop := ∀ (g : Sto) (s : St) (o : Out α) (t : St), R g m s = (o, t) → t.bals = s.bals

theorem PrB.pure {α : Type} (a : α) : PrB (M.pure a) := by intro g s o t h; cases h; rfl
theorem PrB.throwE {α : Type} (e : Err) : PrB (throwE e : M α) := by intro g s o t h; cases h; rfl
theorem PrB.getS : PrB getS := by intro g s o t h; cases h; rfl
theorem PrB.modS (f : St → St) (hb : ∀ s, (f s).bals = s.bals) : PrB (modS f) := by intro g s o t h; cases h; exact hb s
theorem PrB.needE (c : Prop) [Decidable c] (e : Err) : PrB (needE c e) := by
  unfold Ledger.needE; split
  · exact .pure _
  · exact .throwE _
theorem PrB.ite {α : Type} {c : Prop} [Decidable c] {m n : M α} (hm : c → PrB m) (hn : ¬ c → PrB n) : PrB (if c then m else n) := by
  split
  · next h => exact hm h
  · next h => exact hn h
theorem PrB.bindR {α β : Type} {m : M α} {f : α → M β} (hm : PrB m) (hf : ∀ a, (∃ g s t, R g m s = (.ok a, t)) → PrB (f a)) : PrB (M.bind m f) := by
  intro g s o t h
  rw [R_bind] at h
  rcases hr : R g m s with ⟨a | e | _, u⟩
  · rw [hr] at h; exact (hf a ⟨g, s, u, hr⟩ g u o t h).trans (hm g s _ u hr)
  · rw [hr] at h; cases h; exact hm g s _ _ hr
  · rw [hr] at h; cases h; exact hm g s _ _ hr
theorem PrB.bind {α β : Type} {m : M α} {f : α → M β} (hm : PrB m) (hf : ∀ a, PrB (f a)) : PrB (M.bind m f) := .bindR hm fun a _ => hf a

theorem executeOp_prb {w : World} {tx : Tx} {c : Addr} {x : Bool} (hx : x = true → w.isExec tx.id c) (u : Option (Addr × Bool))
    (d : Option (Addr × Nat)) (p : Prog) (e : Err) : PrB (executeOp w tx c x u d p e) := by
  intro g s o t h
  rcases executeOp_run h with ⟨rfl, _⟩ | ⟨hx', avail, gas, h1, h2⟩
  · rfl
  · obtain ⟨_, hb, _⟩ := runEngine_run (hx hx') h2
    rw [credited_same] at hb
    exact hb

theorem runDeploy_prb (w : World) (tx : Tx) : PrB (runDeploy w tx) := by
  unfold runDeploy
  cases tx.deploy with
  | none => exact .pure _
  | some d =>
    dsimp only
    simp only [bindM]
    refine .bind (.needE _ _) fun _ => ?_
    cases d.init with
    | none => exact .pure _
    | some p => exact .bind (.needE _ _) fun _ => executeOp_prb (fun _ => .inl rfl) _ _ _ _

theorem readContract_prb (w : World) (a : Addr) (lim : Nat) (e : Err) : PrB (readContract w a lim e) := by
  unfold readContract
  simp only [bindM]
  exact .bind .getS fun _ => .bind (.needE _ _) fun _ => .bind (.modS _ fun _ => rfl) fun _ => .pure _

theorem takeDeposit_prb (c : Addr) (d : Option (Addr × Nat)) (e : Err) : PrB (takeDeposit c d e) := by
  unfold takeDeposit
  cases d with
  | none => exact .pure _
  | some x => exact .bind .getS fun _ => .bind (.needE _ _) fun _ => .modS _ fun _ => rfl

theorem runOps_prb (w : World) (tx : Tx) (lim : Nat) (l : List Op) : ∀ i, PrB (runOps w tx lim i l) := by
  induction l with
  | nil => intro i; exact .pure _
  | cons x l ih =>
    intro i
    unfold runOps
    simp only [bindM]
    refine .bind (.needE _ _) fun _ => .bindR (.ite (fun _ => .pure _) fun _ => readContract_prb _ _ _ _) fun k hk => .bind ?_ fun _ => ih _
    obtain ⟨g, s, t, hk⟩ := hk
    obtain ⟨hk, _⟩ := kindOf_run hk
    cases k with
    | none => exact .throwE _
    | some b => exact .bind (takeDeposit_prb _ _ _) fun _ => executeOp_prb (fun e => hk (by rw [e])) _ _ _ _

/-- After a successful execution the balances are those before less the inputs, and the inputs were
    authorised. -/
theorem body_bals {w : World} {tx : Tx} {lim : Nat} {s t : St} {r : List TxIn × List TxOut} (h : R g (body w tx lim) s = (.ok r, t)) :
    (∀ a q, (s.bals a q = none → t.bals a q = none) ∧
      ∀ b, s.bals a q = some b → spentBy a q tx.inputs ≤ b ∧ t.bals a q = some (b - spentBy a q tx.inputs)) ∧
    (∀ x ∈ tx.inputs, x.sol = true ∧ x.auth = true ∧ (x.isExec = true → w.kind x.addr = some false) ∧ ∃ b, s.bals x.addr x.cur = some b) := by
  unfold body at h
  rw [bind_okR] at h
  obtain ⟨_, u, h1, h⟩ := h
  have e1 : t.bals = u.bals := by
    rcases finish_run h with h | ⟨rfl, _⟩ | ⟨l, _, _, e, _⟩
    · cases h
    · rfl
    · rw [e]
  unfold core at h1
  simp only [bindM] at h1
  rw [bind_okR] at h1; obtain ⟨_, v, h2, h1⟩ := h1; obtain ⟨_, rfl⟩ := needE_okR h2
  rw [bind_okR] at h1; obtain ⟨_, v1, h3, h1⟩ := h1
  rw [bind_okR] at h1; obtain ⟨_, v2, h4, h1⟩ := h1
  rw [bind_okR] at h1; obtain ⟨_, v3, h5, h1⟩ := h1
  obtain ⟨_, _, _, k1, k2⟩ := takeInputs_ok _ _ _ _ h3
  obtain ⟨_, _, e2, _⟩ := giveOutputs_ok _ _ _ _ h4
  have e3 := runDeploy_prb w tx _ _ _ _ h5
  have e4 := runOps_prb w tx lim _ _ _ _ _ _ h1
  rw [e1, e4, e3, e2]
  exact ⟨k1, k2⟩

/-! ### Money of the whole execution -/

/-- The programs of a transaction do not mint `q`. -/
def Tx.neverMints (tx : Tx) (q : Addr) : Prop :=
  (∀ d, tx.deploy = some d → ∀ p, d.init = some p → p.neverMints q tx.id) ∧
  ∀ o ∈ tx.ops, o.prog.neverMints q (if o.addr = 0 then tx.id else o.addr)

/-- A state before the execution: nothing was collected yet. -/
structure Fresh (s : St) : Prop where
  amounts : s.amounts = []
  dep : s.dep = []
  spend : s.spend = []
  outs : s.outs = []
  vars : s.vars = []
  cbal : s.cbal = []

/-- Money after inputs, outputs, deployment and operations. -/
theorem core_money {w : World} {tx : Tx} {lim : Nat} {s t : St} (h : R g (core w tx lim) s = (.ok (), t)) (hf : Fresh s) (q : Addr)
    (hb : ∀ c, (g.bal c q).getD 0 + sumIn q tx.inputs < 2 ^ 128) :
    ∃ T m : Nat, Inv g q T m t ∧ T + sumOut q tx.outputs = sumIn q tx.inputs ∧ (¬ w.mayRun tx.id q → m = 0) ∧
      (tx.neverMints q → m = 0) := by
  unfold core at h
  simp only [bindM] at h
  rw [bind_okR] at h; obtain ⟨_, u, h1, h⟩ := h; obtain ⟨_, rfl⟩ := needE_okR h1
  rw [bind_okR] at h; obtain ⟨_, u1, h2, h⟩ := h
  obtain ⟨f1, n1, a1, _, _⟩ := takeInputs_ok _ _ _ _ h2
  have hz : amt u q = 0 := by unfold amt; rw [hf.amounts]; rfl
  have a1 := a1 q (by have := hb 0; rw [hz]; omega)
  rw [bind_okR] at h; obtain ⟨_, u2, h3, h⟩ := h
  obtain ⟨f2, _, _, n2, a2, _⟩ := giveOutputs_ok _ _ _ _ h3
  rw [bind_okR] at h; obtain ⟨_, u3, h4, h⟩ := h
  have f := f1.trans f2
  have hT : amt u2 q + sumOut q tx.outputs = sumIn q tx.inputs := by rw [a2, a1, hz]; omega
  have hi : Inv g q (amt u2 q) 0 u2 := by
    refine ⟨?_, ?_, n2 (n1 (by rw [hf.amounts]; exact .nil)), fun c => ?_, ?_, ?_⟩
    · rw [f.spend, hf.spend]; exact .nil
    · rw [f.dep, hf.dep]; exact .nil
    · unfold bn balNow sp
      rw [f.cbal, f.spend, f.dep, hf.cbal, hf.spend, hf.dep]; rfl
    · rw [f.dep, hf.dep]; rfl
    · rw [f.outs, f.spend, hf.outs, hf.spend]; rfl
  have hb' : ∀ c, (g.bal c q).getD 0 + amt u2 q < 2 ^ 128 := fun c => by have := hb c; omega
  obtain ⟨m1, i1, o1, o2⟩ := deploy_money h4 hi hb'
  obtain ⟨m2, i2, p1, p2⟩ := ops_money _ _ _ _ q _ _ h i1 hb'
  refine ⟨_, _, i2, hT, fun hq => ?_, fun hq => ?_⟩
  · rw [o1 hq, p1 hq]
  · rw [o2 hq.1, p2 hq.2]

theorem body_money {w : World} (hu : ∀ l, (w.umap l).Perm l) {tx : Tx} {lim : Nat} {s t : St} {ins : List TxIn} {outs : List TxOut}
    (h : R g (body w tx lim) s = (.ok (ins, outs), t)) (hf : Fresh s) (q : Addr) (hb : ∀ c, (g.bal c q).getD 0 + sumIn q tx.inputs < 2 ^ 128) :
    ∃ m : Nat, sumIn q tx.inputs + sumIn q ins + m = sumOut q tx.outputs + sumOut q outs ∧
      (¬ w.mayRun tx.id q → m = 0) ∧ (tx.neverMints q → m = 0) := by
  unfold body at h
  rw [bind_okR] at h
  obtain ⟨_, u, h1, h⟩ := h
  obtain ⟨T, m, hi, hT, k1, k2⟩ := core_money h1 hf q hb
  refine ⟨m, ?_, k1, k2⟩
  rcases finish_run h with h | ⟨_, e, h⟩ | ⟨l, hl, h, _⟩
  · cases h
  · cases h
  · cases h
    have hn := netSpend_sum u.spend u.dep hi.nd
    rw [sumOut_append, sumOut_append, depositOuts_sum, implicit_sum hu hi.na hl, hi.outs]
    have := hn q
    have := hi.flow
    unfold amt at this
    omega

/-! ### The verdict -/

theorem allSame_sumIn {l m : List TxIn} (h : allSame sameIn l m = true) (q : Addr) : sumIn q l = sumIn q m := by
  induction l generalizing m with
  | nil => cases m with | nil => rfl | cons _ _ => cases h
  | cons a l ih =>
    cases m with
    | nil => cases h
    | cons b m =>
      simp only [allSame, Bool.and_eq_true] at h
      obtain ⟨h1, h2⟩ := h
      have h1 : a.cur = b.cur ∧ a.addr = b.addr ∧ a.amount = b.amount ∧ a.memo = b.memo ∧ a.isExec = b.isExec := by simpa [sameIn] using h1
      simp only [sumIn, ih h2, h1.1, h1.2.2.1]

theorem allSame_spentBy {l m : List TxIn} (h : allSame sameIn l m = true) (a q : Addr) : spentBy a q l = spentBy a q m := by
  induction l generalizing m with
  | nil => cases m with | nil => rfl | cons _ _ => cases h
  | cons x l ih =>
    cases m with
    | nil => cases h
    | cons b m =>
      simp only [allSame, Bool.and_eq_true] at h
      obtain ⟨h1, h2⟩ := h
      have h1 : x.cur = b.cur ∧ x.addr = b.addr ∧ x.amount = b.amount ∧ x.memo = b.memo ∧ x.isExec = b.isExec := by simpa [sameIn] using h1
      simp only [spentBy, ih h2, h1.1, h1.2.1, h1.2.2.1]

theorem allSame_out {l m : List TxOut} (h : allSame sameOut l m = true) : l = m := by
  induction l generalizing m with
  | nil => cases m with | nil => rfl | cons _ _ => cases h
  | cons a l ih =>
    cases m with
    | nil => cases h
    | cons b m =>
      simp only [allSame, Bool.and_eq_true] at h
      obtain ⟨h1, h2⟩ := h
      have h1 : a.cur = b.cur ∧ a.addr = b.addr ∧ a.amount = b.amount ∧ a.memo = b.memo := by simpa [sameOut] using h1
      obtain ⟨e1, e2, e3, e4⟩ := h1
      rw [ih h2]
      cases a; cases b; simp_all

/-- How the result relates to what the validation computed. -/
structure Matches (tx : Tx) (r : ExecRes) (wr : Option Writes) (ex : Option Err) (t : St) (fee : Nat) (ins : List TxIn) (outs : List TxOut) : Prop where
  commit : wr = if ex = none then some ⟨t.vars, t.cbal⟩ else none
  fail : r.didFail = ex.isSome
  cost : r.cost = u32 t.cost ∨ r.cost = t.cost
  fee : r.fee = u32 fee ∨ r.fee = fee
  error : ex ≠ none → r.error = ex
  failed : ex ≠ none → r.inputs = [] ∧ r.outputs = []
  inputs : ex = none → allSame sameIn ins r.inputs = true
  outputs : ex = none → allSame sameOut outs r.outputs = true
  noError : ex = none → r.error = none ∨ r.error = some ⟨0, -1, -1⟩

theorem allSame_refl {α : Type} {f : α → α → Bool} (h : ∀ a, f a a = true) (l : List α) : allSame f l l = true := by
  induction l with
  | nil => rfl
  | cons a l ih => simp [allSame, h, ih]

theorem agrees_matches {tx : Tx} {r : ExecRes} {ex : Option Err} {t : St} {fee : Nat} {ins : List TxIn} {outs : List TxOut}
    (h : agrees r ex t.cost fee ins outs = true) : Matches tx r (if ex = none then some ⟨t.vars, t.cbal⟩ else none) ex t fee ins outs := by
  unfold agrees at h
  simp only [Bool.and_eq_true, beq_iff_eq] at h
  obtain ⟨h1, h2, h3, h4, h5⟩ := h
  refine ⟨rfl, h1, .inr h2, .inr h3, fun he => ?_, fun he => ?_, fun he => ?_, fun he => ?_, fun he => ?_⟩
  · cases ex with
    | none => exact absurd rfl he
    | some e =>
      cases hr : r.error with
      | none => rw [hr, h1] at h5; cases h5
      | some e' => rw [hr] at h5; have : e' = e := by simpa using h5
                   rw [this]
  · cases ex with
    | none => exact absurd rfl he
    | some e => rw [h1] at h4; simpa using h4
  · subst he; rw [h1] at h4; have : allSame sameIn ins r.inputs = true ∧ allSame sameOut outs r.outputs = true := by simpa using h4
    exact this.1
  · subst he; rw [h1] at h4; have : allSame sameIn ins r.inputs = true ∧ allSame sameOut outs r.outputs = true := by simpa using h4
    exact this.2
  · subst he
    cases hr : r.error with
    | none => exact .inl rfl
    | some e => rw [hr] at h5; exact .inr (by simpa using h5)

/-- An accepted transaction passed the checks, ran, was charged, and got the matching result. -/
theorem validate_accept {w : World} {tx : Tx} {r : ExecRes} {wr : Option Writes} (h : (validate w tx).run g = .accept r wr) :
    ∃ lim sf a b avail s o t fee ex ins outs, Passed w tx lim sf a b avail s ∧ R g (body w tx lim) s = (o, t) ∧
      ((∃ e, o = .fail e ∧ charge tx sf t (some e) = some (fee, ex)) ∨ (o = .ok (ins, outs) ∧ charge tx sf t none = some (fee, ex))) ∧
      Matches tx r wr ex t fee ins outs ∧ (tx.result = none ∨ tx.result = some r) := by
  unfold validate at h
  rw [run_bind] at h
  rcases hp : (prelude w tx (St.init w tx)).run g with ⟨o, s⟩
  rw [hp] at h
  cases o with
  | fail e => cases h
  | static => cases h
  | ok x =>
    obtain ⟨lim, sf⟩ := x
    obtain ⟨a, b, avail, hP⟩ := prelude_ok (show R g (prelude w tx) (St.init w tx) = (.ok (lim, sf), s) from hp)
    dsimp only at h
    rw [run_bind] at h
    rcases hb : (body w tx lim s).run g with ⟨o, t⟩
    rw [hb] at h
    have key : ∀ (ex0 : Option Err) ins outs, Proc.run g (match charge tx sf t ex0 with
          | none => .ret .reject
          | some (fee, ex) =>
            match tx.result with
            | some r => if agrees r ex t.cost fee ins outs then .ret (.accept r (if ex = none then some ⟨t.vars, t.cbal⟩ else none)) else .ret .reject
            | none =>
              match ex with
              | some e => .ret (.accept ⟨true, u32 t.cost, u32 fee, [], [], some e⟩ none)
              | none => .ret (.accept ⟨false, u32 t.cost, u32 fee, ins, outs, none⟩ (if ex = none then some ⟨t.vars, t.cbal⟩ else none)))
        = Verdict.accept r wr → ∃ fee ex, charge tx sf t ex0 = some (fee, ex) ∧ Matches tx r wr ex t fee ins outs ∧ (tx.result = none ∨ tx.result = some r) := by
      intro ex0 ins outs hk
      cases hc : charge tx sf t ex0 with
      | none => rw [hc] at hk; cases hk
      | some y =>
        obtain ⟨fee, ex⟩ := y
        rw [hc] at hk
        dsimp only at hk
        refine ⟨fee, ex, rfl, ?_⟩
        cases hr : tx.result with
        | some r' =>
          rw [hr] at hk
          dsimp only at hk
          split at hk
          · next ha => cases hk; exact ⟨agrees_matches ha, .inr rfl⟩
          · cases hk
        | none =>
          rw [hr] at hk
          dsimp only at hk
          refine ⟨?_, .inl rfl⟩
          cases ex with
          | some e => cases hk; exact ⟨rfl, rfl, .inl rfl, .inl rfl, fun _ => rfl, fun _ => ⟨rfl, rfl⟩, (nomatch ·), (nomatch ·), (nomatch ·)⟩
          | none =>
            cases hk
            exact ⟨rfl, rfl, .inl rfl, .inl rfl, fun h => absurd rfl h, fun h => absurd rfl h,
              fun _ => allSame_refl (by simp [sameIn]) _, fun _ => allSame_refl (by simp [sameOut]) _, fun _ => .inl rfl⟩
    cases o with
    | static => cases h
    | ok x =>
      obtain ⟨ins, outs⟩ := x
      obtain ⟨fee, ex, h1, h2, h3⟩ := key none ins outs h
      exact ⟨lim, sf, a, b, avail, s, _, t, fee, ex, ins, outs, hP, hb, .inr ⟨rfl, h1⟩, h2, h3⟩
    | fail e =>
      obtain ⟨fee, ex, h1, h2, h3⟩ := key (some e) [] [] h
      exact ⟨lim, sf, a, b, avail, s, _, t, fee, ex, [], [], hP, hb, .inl ⟨e, rfl, h1⟩, h2, h3⟩

theorem charge_some {tx : Tx} {sf : Nat} {t : St} {ex0 ex : Option Err} {fee : Nat} (h : charge tx sf t ex0 = some (fee, ex)) :
    ∃ total a b, costToFee t.cost tx.feeRatio = .ok total ∧ fee = min total tx.maxFee ∧ tx.sender = some a ∧ t.bals a 0 = some b ∧
      sub64 fee sf ≤ b ∧ ((ex0 = none ∧ total > tx.maxFee ∧ ex = some ⟨5, -1, -1⟩) ∨ ((total ≤ tx.maxFee ∨ ex0 ≠ none) ∧ ex = ex0)) := by
  unfold charge at h
  cases hc : costToFee t.cost tx.feeRatio with
  | throw => rw [hc] at h; cases h
  | ub => rw [hc] at h; cases h
  | ok total =>
    rw [hc] at h
    dsimp only at h
    cases hs : tx.sender with
    | none => rw [hs] at h; cases h
    | some a =>
      rw [hs] at h
      dsimp only at h
      cases hb : t.bals a 0 with
      | none => rw [hb] at h; cases h
      | some b =>
        rw [hb] at h
        dsimp only at h
        split at h
        · cases h
        · next h1 =>
          split at h
          · next h2 => cases h; exact ⟨total, a, b, rfl, rfl, rfl, hb, Nat.not_lt.1 h1, .inl ⟨h2.2, h2.1, rfl⟩⟩
          · next h2 =>
            cases h
            refine ⟨total, a, b, rfl, rfl, rfl, hb, Nat.not_lt.1 h1, .inr ⟨?_, rfl⟩⟩
            by_cases e : ex0 = none
            · exact .inl (Nat.not_lt.1 fun h => h2 ⟨h, e⟩)
            · exact .inr e

end Verif.Ledger
