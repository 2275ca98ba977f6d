import Verif.Ledger.PropsTx
/-
  Running a transaction again with a higher starting cost: it does the same as long as the final cost
  stays within what was paid for.
-/
namespace Verif.Ledger
open Verif Verif.Chain
open Verif.VM (mfind mput)

variable {g : Sto}

/-! ### Contracts do not look at the cost or at the balances of accounts -/

def put (c : Nat) (b : Addr → Addr → Option Nat) (s : St) : St := { s with cost := c, bals := b }

variable {c' : Nat} {b' : Addr → Addr → Option Nat}

theorem getVar_put (c l : Addr) (s : St) : (getVar c l (put c' b' s)).run g = (((getVar c l s).run g).1, put c' b' ((getVar c l s).run g).2) := by
  unfold getVar put
  dsimp only
  cases mfind s.vars (c, l) <;> rfl

theorem getBal_put (c q : Addr) (s : St) : R g (getBal c q) (put c' b' s) = ((R g (getBal c q) s).1, put c' b' (R g (getBal c q) s).2) := by
  unfold R getBal put
  dsimp only
  cases mfind s.cbal (c, q) <;> rfl

theorem setVars_put (c : Addr) (w : List (Nat × Nat)) (s : St) :
    R g (setVars c w) (put c' b' s) = ((R g (setVars c w) s).1, put c' b' (R g (setVars c w) s).2) := by
  induction w generalizing s with
  | nil => rfl
  | cons p w ih =>
    obtain ⟨l, v⟩ := p
    unfold setVars
    rw [R_modS_bind, R_modS_bind]
    exact ih { s with vars := mput ltPair s.vars (c, l) v }

theorem payOuts_put (c : Addr) (e : Err) (l : List TxOut) (s : St) :
    R g (payOuts c e l) (put c' b' s) = ((R g (payOuts c e l) s).1, put c' b' (R g (payOuts c e l) s).2) := by
  induction l generalizing s with
  | nil => rfl
  | cons x l ih =>
    unfold payOuts
    rw [R_bind, R_bind, getBal_put]
    have hb : R g (getBal c x.cur) s = _ := getBal_run c x.cur s
    rw [hb]
    dsimp only
    cases balNow g s c x.cur with
    | none => rfl
    | some n =>
      dsimp only
      by_cases h : x.amount > n
      · rw [if_pos h]; rfl
      · rw [if_neg h]
        unfold setBal
        rw [R_modS_bind, R_modS_bind, R_modS_bind, R_modS_bind]
        exact ih { s with cbal := mput ltPair s.cbal (c, x.cur) (n - x.amount), outs := s.outs ++ [x], spend := madd ltPair s.spend (c, x.cur) x.amount }

theorem exec_put (w : World) (id : Addr) (p : Prog) : ∀ (c gas lim : Nat) (s : St),
    (execProg w id c p gas lim (put c' b' s)).run g = (((execProg w id c p gas lim s).run g).1, put c' b' ((execProg w id c p gas lim s).run g).2) := by
  induction p with
  | rdVar l k ih =>
    intro c gas lim s
    unfold execProg
    rw [run_bind, run_bind, getVar_put]
    obtain ⟨o, ho⟩ := getVar_run (g := g) c l s
    rw [ho]
    exact ih o _ _ _ _
  | rdBal q k ih =>
    intro c gas lim s
    unfold execProg
    rw [run_bind, run_bind]
    have := getBal_put (g := g) (c' := c') (b' := b') c q s
    unfold R at this
    rw [this, getBal_run]
    exact ih _ _ _ _ _
  | gas n k ih => intro c gas lim s; unfold execProg; exact ih _ _ _ _
  | check k ih =>
    intro c gas lim s
    unfold execProg
    split
    · rfl
    · exact ih _ _ _ _
  | read n k ih =>
    intro c gas lim s
    unfold execProg
    split
    · rfl
    · exact ih _ _ _ _
  | call c2 child k ih1 ih2 =>
    intro c gas lim s
    unfold execProg
    split
    · rfl
    · split
      · rfl
      · split
        · rfl
        · rw [run_bind, run_bind, ih1]
          rcases (execProg w id c2 child 0 (lim - min (gas + w.params.minExec) lim) s).run g with ⟨⟨r1, g1⟩, u⟩
          cases r1 with
          | fail e => rfl
          | ok v =>
            dsimp only
            split
            · rfl
            · exact ih2 v _ _ _ _
  | done ws outs mints v =>
    intro c gas lim s
    unfold execProg
    rw [run_bind, run_bind, run_M, run_M]
    simp only [R_bind]
    rw [setVars_put]
    rcases R g (setVars c ws) s with ⟨_ | _ | _, u⟩
    · dsimp only
      rw [payOuts_put]
      rcases R g (payOuts c ⟨0, 0, 0⟩ outs) u with ⟨_ | _ | _, u⟩ <;> rfl
    · rfl
    · rfl
  | fail e => intro c gas lim s; rfl

/-- A contract that succeeds does the same with any limit its gas is within. -/
theorem exec_lim (w : World) (id : Addr) (p : Prog) : ∀ (c gas lim : Nat) (s : St) {v k : Nat} {t : St},
    (execProg w id c p gas lim s).run g = ((.ok v, k), t) → gas ≤ k ∧ ∀ lim', k ≤ lim' → (execProg w id c p gas lim' s).run g = ((.ok v, k), t) := by
  induction p with
  | rdVar l k ih =>
    intro c gas lim s v k t h
    unfold execProg at h ⊢
    rw [run_bind] at h
    obtain ⟨o, ho⟩ := getVar_run (g := g) c l s
    rw [ho] at h
    obtain ⟨h1, h2⟩ := ih o _ _ _ _ h
    exact ⟨h1, fun lim' hl => by rw [run_bind, ho]; exact h2 lim' hl⟩
  | rdBal q k ih =>
    intro c gas lim s v k t h
    unfold execProg at h ⊢
    rw [run_bind, getBal_run] at h
    obtain ⟨h1, h2⟩ := ih _ _ _ _ _ h
    exact ⟨h1, fun lim' hl => by rw [run_bind, getBal_run]; exact h2 lim' hl⟩
  | gas n k ih =>
    intro c gas lim s v k t h
    unfold execProg at h ⊢
    obtain ⟨h1, h2⟩ := ih _ _ _ _ h
    exact ⟨by omega, h2⟩
  | check k ih =>
    intro c gas lim s v k t h
    unfold execProg at h ⊢
    split at h
    · cases h
    · obtain ⟨h1, h2⟩ := ih _ _ _ _ h
      exact ⟨h1, fun lim' hl => by rw [if_neg (by omega)]; exact h2 lim' hl⟩
  | read n k ih =>
    intro c gas lim s v k t h
    unfold execProg at h ⊢
    split at h
    · cases h
    · obtain ⟨h1, h2⟩ := ih _ _ _ _ h
      exact ⟨by omega, fun lim' hl => by rw [if_neg (by omega)]; exact h2 lim' hl⟩
  | call c2 child k ih1 ih2 =>
    intro c gas lim s v k t h
    unfold execProg at h ⊢
    split at h
    · cases h
    · next h1 =>
      split at h
      · cases h
      · split at h
        · cases h
        · next h3 =>
          rw [run_bind] at h
          rcases hc : (execProg w id c2 child 0 (lim - min (gas + w.params.minExec) lim) s).run g with ⟨⟨r1, g1⟩, u⟩
          rw [hc] at h
          cases r1 with
          | fail e => cases h
          | ok v1 =>
            dsimp only at h
            split at h
            · cases h
            · obtain ⟨a1, a2⟩ := ih1 _ _ _ _ hc
              obtain ⟨b1, b2⟩ := ih2 v1 _ _ _ _ h
              refine ⟨by omega, fun lim' hl => ?_⟩
              rw [if_neg h1, if_neg (by omega), if_neg h3, run_bind, a2 _ (by omega)]
              dsimp only
              rw [if_neg (by omega)]
              exact b2 lim' hl
  | done ws outs mints v =>
    intro c gas lim s v k t h
    unfold execProg at h ⊢
    refine ⟨?_, fun _ _ => h⟩
    rw [run_bind] at h
    split at h
    · cases h; exact Nat.le_refl _
    · cases h
  | fail e => intro c gas lim s v k t h; cases h

/-! ### Shifting the cost -/

section Shift
variable (io δ : Nat) (a : Addr) (B : Nat)

/-- The same state with a higher cost and a lower balance of the sender. -/
def sh (s : St) : St := put (s.cost + io) (fun x q => if x = a ∧ q = 0 then (s.bals x q).map (· - δ) else s.bals x q) s

/-- The shifted cost is paid for, and the sender has the difference. -/
def Fine (s : St) : Prop := s.cost + io ≤ B ∧ ∃ b, s.bals a 0 = some b ∧ δ ≤ b

/-- A step that succeeds also does from the shifted state, if the end is fine. -/
def Sim {α : Type} (g : Sto) (m : M α) : Prop := ∀ (s : St) (x : α) (t : St), s.cost < 2 ^ 63 → R g m s = (.ok x, t) →
  t.cost < 2 ^ 63 ∧ (Fine io δ a B t → Fine io δ a B s ∧ R g m (sh io δ a s) = (.ok x, sh io δ a t))

variable {io δ a B}

theorem Sim.pure {α : Type} (x : α) : Sim io δ a B g (M.pure x) := by
  intro s y t hs h
  obtain ⟨rfl, rfl⟩ := pure_okR h
  exact ⟨hs, fun f => ⟨f, rfl⟩⟩
theorem Sim.throwE {α : Type} (e : Err) : Sim io δ a B g (throwE e : M α) := by
  intro s y t hs h; cases h
theorem Sim.throwS {α : Type} : Sim io δ a B g (throwS : M α) := by
  intro s y t hs h; cases h
theorem Sim.needE (c : Prop) [Decidable c] (e : Err) : Sim io δ a B g (needE c e) := by
  unfold Ledger.needE; split
  · exact .pure _
  · exact .throwE _
theorem Sim.needS (c : Prop) [Decidable c] : Sim io δ a B g (needS c) := by
  unfold Ledger.needS; split
  · exact .pure _
  · exact .throwS
theorem Sim.modS (f : St → St) (hc : ∀ s, (f s).cost = s.cost) (hb : ∀ s, (f s).bals = s.bals) (hf : ∀ s, f (sh io δ a s) = sh io δ a (f s)) :
    Sim io δ a B g (modS f) := by
  intro s y t hs h
  cases h
  refine ⟨by rw [hc]; exact hs, fun k => ⟨?_, ?_⟩⟩
  · unfold Fine at k ⊢
    rw [hc, hb] at k
    exact k
  · rw [R_modS, hf]
theorem Sim.bindR {α β : Type} {m : M α} {f : α → M β} (hm : Sim io δ a B g m)
    (hf : ∀ x, (∃ s t, R g m s = (.ok x, t)) → Sim io δ a B g (f x)) : Sim io δ a B g (M.bind m f) := by
  intro s y t hs h
  obtain ⟨x, u, h1, h2⟩ := bind_okR.1 h
  obtain ⟨a1, a2⟩ := hm s x u hs h1
  obtain ⟨b1, b2⟩ := hf x ⟨s, u, h1⟩ u y t a1 h2
  refine ⟨b1, fun k => ?_⟩
  obtain ⟨c1, c2⟩ := b2 k
  obtain ⟨d1, d2⟩ := a2 c1
  exact ⟨d1, bind_okR.2 ⟨x, _, d2, c2⟩⟩
theorem Sim.bind {α β : Type} {m : M α} {f : α → M β} (hm : Sim io δ a B g m) (hf : ∀ x, Sim io δ a B g (f x)) : Sim io δ a B g (M.bind m f) :=
  .bindR hm fun x _ => hf x
theorem Sim.ite {α : Type} {c : Prop} [Decidable c] {m n : M α} (hm : c → Sim io δ a B g m) (hn : ¬ c → Sim io δ a B g n) : Sim io δ a B g (if c then m else n) := by
  split
  · next h => exact hm h
  · next h => exact hn h
/-- The state is read where it does not matter. -/
theorem Sim.read {α : Type} {f : St → M α} (h : ∀ s, Sim io δ a B g (f s)) (hf : ∀ s, f (sh io δ a s) = f s) : Sim io δ a B g (M.bind getS f) := by
  intro s y t hs k
  rw [R_getS_bind] at k
  obtain ⟨a1, a2⟩ := h s s y t hs k
  refine ⟨a1, fun x => ?_⟩
  rw [R_getS_bind, hf]
  exact a2 x

theorem readContract_sim {w : World} (hw : CheapReads w) {lim : Nat} (hl : lim < 2 ^ 62) (hB : B ≤ lim) (c : Addr) (e : Err) :
    Sim io δ a B g (readContract w c lim e) := by
  intro s x t hs h
  unfold readContract at h ⊢
  simp only [bindM] at h ⊢
  rw [R_getS_bind, R_needE_bind] at h
  have hc := hw c
  split at h
  · next hx =>
    rw [R_modS_bind, R_pure] at h
    cases h
    rw [u64_of_lt' (by omega)] at hx
    refine ⟨by dsimp only; rw [u64_of_lt' (by omega)]; omega, fun k => ?_⟩
    unfold Fine at k
    dsimp only at k
    rw [u64_of_lt' (by omega)] at k
    refine ⟨⟨by omega, k.2⟩, ?_⟩
    rw [R_getS_bind, R_needE_bind]
    have e1 : (sh io δ a s).cost = s.cost + io := rfl
    rw [e1, if_pos (by rw [u64_of_lt' (by omega)]; omega), R_modS_bind, R_pure]
    have e2 : u64 ((sh io δ a s).cost + (w.params.minRead + w.readCost c)) = u64 (s.cost + (w.params.minRead + w.readCost c)) + io := by
      rw [e1, u64_of_lt' (by omega), u64_of_lt' (by omega)]; omega
    rw [e2]
    rfl
  · cases h

theorem credited_sh (s : St) (c : Addr) (d : Option (Addr × Nat)) : credited g (sh io δ a s) c d = sh io δ a (credited g s c d) := by
  unfold credited
  cases d <;> rfl

/-- What a successful operation did. -/
theorem executeOp_ok {w : World} {tx : Tx} {c : Addr} {isExec : Bool} {user : Option (Addr × Bool)} {d : Option (Addr × Nat)}
    {p : Prog} {e : Err} {s t : St} : R g (executeOp w tx c isExec user d p e) s = (.ok (), t) ↔
    isExec = true ∧ ∃ avail gas, feeToCost tx.maxFee tx.feeRatio = .ok avail ∧
      (match user with
        | none => gas = 0
        | some (a, ok) => gas = w.params.minRead + w.readCost a ∧ ¬ w.params.minRead + w.readCost a > min (avail - min s.cost avail) w.params.maxTxCost ∧
            w.kind a ≠ some true ∧ ok = true) ∧
      R g (runEngine w tx.id c p gas (min (avail - min s.cost avail) w.params.maxTxCost) e) (credited g s c d) = (.ok (), t) := by
  unfold executeOp
  simp only [bindM]
  rw [R_needE_bind]
  constructor
  · intro h
    split at h
    · next hx =>
      refine ⟨hx, ?_⟩
      rw [bind_okR] at h; obtain ⟨avail, u, h1, h⟩ := h; obtain ⟨k1, rfl⟩ := liftS_okR h1
      rw [R_getS_bind] at h
      rw [bind_okR] at h; obtain ⟨gas, v, h2, h⟩ := h
      rw [R_bind, credit_run] at h
      refine ⟨avail, gas, k1, ?_⟩
      cases user with
      | none => obtain ⟨rfl, rfl⟩ := pure_okR h2; exact ⟨rfl, h⟩
      | some x =>
        obtain ⟨b, ok⟩ := x
        dsimp only at h2
        rw [bind_okR] at h2; obtain ⟨_, v, h3, h2⟩ := h2; obtain ⟨k3, rfl⟩ := needE_okR h3
        rw [bind_okR] at h2; obtain ⟨_, v, h4, h2⟩ := h2; obtain ⟨k4, rfl⟩ := needE_okR h4
        rw [bind_okR] at h2; obtain ⟨_, v, h5, h2⟩ := h2; obtain ⟨k5, rfl⟩ := needS_okR h5
        obtain ⟨rfl, rfl⟩ := pure_okR h2
        exact ⟨⟨rfl, k3, k4, k5⟩, h⟩
    · cases h
  · rintro ⟨hx, avail, gas, h1, h2, h3⟩
    rw [if_pos hx, h1]
    simp only [liftS]
    rw [R_pure_bind, R_getS_bind]
    cases user with
    | none =>
      cases h2
      dsimp only
      rw [R_pure_bind, R_bind, credit_run]
      exact h3
    | some x =>
      obtain ⟨b, ok⟩ := x
      obtain ⟨rfl, k3, k4, k5⟩ := h2
      dsimp only
      rw [R_assoc, R_needE_bind, if_pos k3, R_assoc, R_needE_bind, if_pos k4, R_assoc, R_needS_bind, if_pos k5, R_pure_bind, R_bind, credit_run]
      exact h3

/-- What a successful run of an engine did. -/
theorem runEngine_ok {w : World} {id c : Addr} {p : Prog} {gas lim : Nat} {e : Err} {s t : St} : R g (runEngine w id c p gas lim e) s = (.ok (), t) ↔
    w.locked id c = true ∧ ∃ v k u, (execProg w id c p gas lim s).run g = ((.ok v, k), u) ∧ t = { u with cost := u64 (u.cost + min k lim) } := by
  unfold R runEngine
  rw [run_bind]
  constructor
  · intro h
    by_cases hl : w.locked id c = true
    · refine ⟨hl, ?_⟩
      rw [if_pos hl] at h
      rcases hr : (execProg w id c p gas lim s).run g with ⟨⟨r, k⟩, u⟩
      rw [hr] at h
      cases r with
      | ok v => cases h; exact ⟨v, k, u, rfl, rfl⟩
      | fail v => cases h
    · rw [if_neg hl] at h; cases h
  · rintro ⟨hl, v, k, u, h1, rfl⟩
    rw [if_pos hl, h1]
    rfl

theorem executeOp_sim {w : World} {tx : Tx} {A : Nat} (hA : A < 2 ^ 62) (ha : feeToCost tx.maxFee tx.feeRatio = .ok A) (hB : B ≤ A) (hM : B ≤ w.params.maxTxCost)
    {c : Addr} {x : Bool} (u : Option (Addr × Bool)) (d : Option (Addr × Nat)) (p : Prog) (e : Err) : Sim io δ a B g (executeOp w tx c x u d p e) := by
  intro s _ t hs h
  obtain ⟨hx, avail, gas, h1, h2, h3⟩ := executeOp_ok.1 h
  rw [ha] at h1
  cases h1
  obtain ⟨hl, v, k, u', h4, rfl⟩ := runEngine_ok.1 h3
  have fr := (exec_run w tx.id p _ _ _ _ h4).1
  have ec : u'.cost = s.cost := by rw [fr.cost, credited_same]
  have eb : u'.bals = s.bals := by rw [fr.bals, credited_same]
  have hlt : s.cost + min k (min (A - min s.cost A) w.params.maxTxCost) < 2 ^ 63 := by omega
  refine ⟨by dsimp only; rw [ec, u64_of_lt' (by omega)]; exact hlt, fun f => ?_⟩
  unfold Fine at f
  dsimp only at f
  rw [ec, eb, u64_of_lt' (by omega)] at f
  have hf : Fine io δ a B s := ⟨by omega, f.2⟩
  refine ⟨hf, ?_⟩
  rw [executeOp_ok]
  refine ⟨hx, A, gas, ha, ?_⟩
  have e1 : (sh io δ a s).cost = s.cost + io := rfl
  rw [e1]
  obtain ⟨m1, m2⟩ := exec_lim w tx.id p _ _ _ _ h4
  have alt : k ≤ min (A - min (s.cost + io) A) w.params.maxTxCost ∧ min k (min (A - min (s.cost + io) A) w.params.maxTxCost) = min k (min (A - min s.cost A) w.params.maxTxCost) ∨
      min (A - min (s.cost + io) A) w.params.maxTxCost = min (A - min s.cost A) w.params.maxTxCost := by omega
  generalize hL' : min (A - min (s.cost + io) A) w.params.maxTxCost = L' at alt
  generalize hL : min (A - min s.cost A) w.params.maxTxCost = L at alt h2 h4 f hlt
  have he : (execProg w tx.id c p gas L' (credited g s c d)).run g = ((.ok v, k), u') := by
    rcases alt with ⟨q1, q2⟩ | q
    · exact m2 _ q1
    · rw [q]; exact h4
  have hmin : min k L' = min k L := by
    rcases alt with ⟨q1, q2⟩ | q
    · exact q2
    · rw [q]
  refine ⟨?_, ?_⟩
  · cases u with
    | none => exact h2
    | some y =>
      obtain ⟨b, ok⟩ := y
      obtain ⟨n1, n2, n3, n4⟩ := h2
      refine ⟨n1, ?_, n3, n4⟩
      rcases alt with ⟨q1, q2⟩ | q
      · omega
      · rw [q]; exact n2
  · rw [runEngine_ok]
    refine ⟨hl, v, k, sh io δ a u', ?_, ?_⟩
    · rw [credited_sh]
      unfold sh
      rw [exec_put, he]
      have ec' : (credited g s c d).cost = s.cost := by rw [credited_same]
      have eb' : (credited g s c d).bals = s.bals := by rw [credited_same]
      rw [ec', eb', ec, eb]
    · unfold sh put
      dsimp only
      rw [hmin, ec, u64_of_lt' (by omega), u64_of_lt' (by omega)]
      congr 1
      omega

theorem takeInputs_sim {w : World} (hw : CheapReads w) {lim : Nat} (hl : lim < 2 ^ 62) (hB : B ≤ lim) (l : List TxIn) :
    ∀ i, Sim io δ a B g (takeInputs w lim i l) := by
  induction l with
  | nil => intro i; exact .pure _
  | cons x l ih =>
    intro i s y t hs h
    unfold takeInputs at h ⊢
    simp only [bindM] at h ⊢
    rw [R_getS_bind] at h
    rw [bind_okR] at h
    obtain ⟨_, u1, h1, h⟩ := h
    have e1 : u1 = s ∧ ∃ b, s.bals x.addr x.cur = some b ∧ x.amount ≤ b := by
      cases hb : s.bals x.addr x.cur with
      | none => rw [hb] at h1; cases h1
      | some b =>
        rw [hb] at h1
        obtain ⟨p, q⟩ := needE_okR h1
        exact ⟨q, b, rfl, Nat.not_lt.1 p⟩
    obtain ⟨rfl, b, hb, hle⟩ := e1
    rw [bind_okR] at h
    obtain ⟨_, u2, h2, h⟩ := h
    obtain ⟨hsol, rfl⟩ := needS_okR h2
    rw [bind_okR] at h
    obtain ⟨_, u3, h3, h⟩ := h
    have sim3 : Sim io δ a B g (if x.isExec then
      M.bind (readContract w x.addr lim ⟨0, i, -1⟩) fun k =>
        match k with
        | none => throwE ⟨0, i, -1⟩
        | some b => needE (b = false) ⟨0, i, -1⟩
     else M.pure ()) := by
      refine .ite (fun _ => .bind (readContract_sim hw hl hB _ _) fun k => ?_) fun _ => .pure _
      cases k with
      | none => exact .throwE _
      | some b => exact .needE _ _
    obtain ⟨p3, q3⟩ := sim3 _ _ _ hs h3
    have b3 : u3.bals = u2.bals := by
      split at h3
      · obtain ⟨k, v, h4, h5⟩ := bind_okR.1 h3
        obtain ⟨rfl, h6⟩ := readContract_kind h4
        cases hk : w.kind x.addr with
        | none => rw [hk] at h5; cases h5
        | some c =>
          rw [hk] at h5
          obtain ⟨_, rfl⟩ := needE_okR h5
          rw [h6]
      · obtain ⟨_, rfl⟩ := pure_okR h3; rfl
    rw [bind_okR] at h
    obtain ⟨_, u4, h4, h⟩ := h
    obtain ⟨hauth, rfl⟩ := needS_okR h4
    rw [R_modS_bind] at h
    obtain ⟨p5, q5⟩ := ih (i + 1) _ _ _ (by exact p3) h
    refine ⟨p5, fun f => ?_⟩
    obtain ⟨f5, r5⟩ := q5 f
    have f4 : Fine io δ a B u4 ∧ (x.addr = a ∧ x.cur = 0 → x.amount + δ ≤ b) := by
      obtain ⟨z1, b5, z2, z3⟩ := f5
      dsimp only at z1 z2
      by_cases e : a = x.addr ∧ (0 : Nat) = x.cur
      · rw [if_pos e, b3] at z2
        have : u2.bals a 0 = some b := by rw [e.1, e.2]; exact hb
        rw [this] at z2
        cases z2
        dsimp only at z3
        exact ⟨⟨z1, b, by rw [b3]; exact this, by omega⟩, fun _ => by omega⟩
      · rw [if_neg e] at z2
        exact ⟨⟨z1, b5, z2, z3⟩, fun hh => absurd ⟨hh.1.symm, hh.2.symm⟩ e⟩
    obtain ⟨f2, r3⟩ := q3 f4.1
    refine ⟨f2, ?_⟩
    rw [R_getS_bind, bind_okR]
    refine ⟨(), sh io δ a u2, ?_, ?_⟩
    · have hbal : ∃ b1, (sh io δ a u2).bals x.addr x.cur = some b1 ∧ x.amount ≤ b1 := by
        unfold sh put
        dsimp only
        by_cases e : x.addr = a ∧ x.cur = 0
        · rw [if_pos e, hb]
          have := f4.2 e
          exact ⟨b - δ, rfl, by omega⟩
        · rw [if_neg e, hb]
          exact ⟨b, rfl, hle⟩
      obtain ⟨b1, e1, e2⟩ := hbal
      rw [e1]
      dsimp only
      unfold needE
      rw [if_pos (by omega)]
      rfl
    · rw [R_needS_bind, if_pos hsol, bind_okR]
      refine ⟨(), _, r3, ?_⟩
      rw [R_needS_bind, if_pos hauth, R_modS_bind]
      rw [← r5]
      congr 1
      unfold sh put
      dsimp only
      congr 1
      funext y q
      by_cases e1 : y = x.addr ∧ q = x.cur
      · rw [if_pos e1, if_pos e1]
        by_cases e2 : y = a ∧ q = 0
        · rw [if_pos e2, if_pos e2]
          cases u4.bals y q with
          | none => rfl
          | some n => simp only [Option.map_some]; congr 1; omega
        · rw [if_neg e2, if_neg e2]
      · rw [if_neg e1, if_neg e1]

theorem giveOutputs_sim (l : List TxOut) : ∀ i, Sim io δ a B g (giveOutputs i l) := by
  induction l with
  | nil => intro i; exact .pure _
  | cons x l ih =>
    intro i
    unfold giveOutputs
    simp only [bindM]
    exact .bind (.needE _ _) fun _ => .read (fun s => .bind (.needE _ _) fun _ => .bind (.modS _ (fun _ => rfl) (fun _ => rfl) fun _ => rfl) fun _ => ih _) fun _ => rfl

theorem runDeploy_sim {w : World} {tx : Tx} {A : Nat} (hA : A < 2 ^ 62) (ha : feeToCost tx.maxFee tx.feeRatio = .ok A) (hB : B ≤ A) (hM : B ≤ w.params.maxTxCost) :
    Sim io δ a B g (runDeploy w tx) := by
  unfold runDeploy
  cases tx.deploy with
  | none => exact .pure _
  | some d =>
    dsimp only
    simp only [bindM]
    refine .bind (.needE _ _) fun _ => ?_
    cases d.init with
    | none => exact .pure _
    | some p => exact .bind (.needE _ _) fun _ => executeOp_sim hA ha hB hM _ _ _ _

theorem takeDeposit_sim (c : Addr) (d : Option (Addr × Nat)) (e : Err) : Sim io δ a B g (takeDeposit c d e) := by
  unfold takeDeposit
  cases d with
  | none => exact .pure _
  | some x =>
    obtain ⟨q, n⟩ := x
    exact .read (fun s => .bind (.needE _ _) fun _ => .modS _ (fun _ => rfl) (fun _ => rfl) fun _ => rfl) fun _ => rfl

theorem runOps_sim {w : World} (hw : CheapReads w) {tx : Tx} {A lim : Nat} (hA : A < 2 ^ 62) (ha : feeToCost tx.maxFee tx.feeRatio = .ok A)
    (hB : B ≤ A) (hM : B ≤ w.params.maxTxCost) (hl : lim < 2 ^ 62) (hBl : B ≤ lim) (l : List Op) : ∀ i, Sim io δ a B g (runOps w tx lim i l) := by
  induction l with
  | nil => intro i; exact .pure _
  | cons x l ih =>
    intro i
    unfold runOps
    simp only [bindM]
    refine .bind (.needE _ _) fun _ => .bind (.ite (fun _ => .pure _) fun _ => readContract_sim hw hl hBl _ _) fun k => .bind ?_ fun _ => ih _
    cases k with
    | none => exact .throwE _
    | some b => exact .bind (takeDeposit_sim _ _ _) fun _ => executeOp_sim hA ha hB hM _ _ _ _

theorem core_sim {w : World} (hw : CheapReads w) {tx : Tx} {A lim : Nat} (hA : A < 2 ^ 62) (ha : feeToCost tx.maxFee tx.feeRatio = .ok A)
    (hB : B ≤ A) (hM : B ≤ w.params.maxTxCost) (hl : lim < 2 ^ 62) (hBl : B ≤ lim) : Sim io δ a B g (core w tx lim) := by
  unfold core
  simp only [bindM]
  exact .bind (.needE _ _) fun _ => .bind (takeInputs_sim hw hl hBl _ _) fun _ => .bind (giveOutputs_sim _ _) fun _ =>
    .bind (runDeploy_sim hA ha hB hM) fun _ => runOps_sim hw hA ha hB hM hl hBl _ _

end Shift

end Verif.Ledger
