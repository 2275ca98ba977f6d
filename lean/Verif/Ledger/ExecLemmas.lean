import Verif.Ledger.Lemmas
/-
  What running contracts does to money and to the cost.
-/
namespace Verif.Ledger
open Verif Verif.Chain
open Verif.VM (mfind mput mfind_mput mput_nodup mem_mfind mfind_mem)

variable {g : Sto}

/-- A program running as contract `c` mints no token `q`. -/
def Prog.neverMints (q : Addr) : Prog → Addr → Prop
  | .rdVar _ k, c => ∀ o, (k o).neverMints q c
  | .rdBal _ k, c => ∀ o, (k o).neverMints q c
  | .gas _ k, c => k.neverMints q c
  | .check k, c => k.neverMints q c
  | .read _ k, c => k.neverMints q c
  | .call c' child k, c => child.neverMints q c' ∧ ∀ v, (k v).neverMints q c
  | .done _ _ m _, c => c = q → m = []
  | .fail _, _ => True

theorem sumOut_mints (q c : Addr) (m : List (Addr × Nat)) : sumOut q (m.map (mintOut c)) = if c = q then (m.map (·.2)).sum else 0 := by
  induction m with
  | nil => simp [sumOut]
  | cons x l ih =>
    simp only [List.map_cons, sumOut, ih, mintOut, List.sum_cons]
    split <;> rfl

theorem pay_mint (c : Addr) (m : List (Addr × Nat)) (s : St) :
    Pay g (fun q => sumOut q (m.map (mintOut c))) s { s with outs := s.outs ++ m.map (mintOut c) } := by
  refine ⟨id, fun _ _ _ => rfl, fun _ q _ => ?_⟩
  dsimp only
  rw [sumOut_append]
  omega

/-- Contracts whose code transaction `id` can run. -/
def World.mayRun (w : World) (id c : Addr) : Prop := w.locked id c = true ∧ w.isExec id c

theorem exec_run (w : World) (id : Addr) (p : Prog) : ∀ (c gas lim : Nat) (s : St) {r : ERes × Nat} {t : St},
    (execProg w id c p gas lim s).run g = (r, t) → Frame s t ∧ ∃ mt, Pay g mt s t ∧
      (∀ q, w.mayRun id c → ¬ w.mayRun id q → mt q = 0) ∧ (∀ q, p.neverMints q c → mt q = 0) := by
  induction p with
  | rdVar l k ih =>
    intro c gas lim s r t h
    unfold execProg at h
    rw [run_bind] at h
    obtain ⟨o, ho⟩ := getVar_run (g := g) c l s
    rw [ho] at h
    obtain ⟨h1, mt, h2, h3, h4⟩ := ih o _ _ _ _ h
    exact ⟨h1, mt, h2, h3, fun q hq => h4 q (hq o)⟩
  | rdBal q k ih =>
    intro c gas lim s r t h
    unfold execProg at h
    rw [run_bind, getBal_run] at h
    obtain ⟨h1, mt, h2, h3, h4⟩ := ih _ _ _ _ _ h
    exact ⟨h1, mt, h2, h3, fun q hq => h4 q (hq _)⟩
  | gas n k ih =>
    intro c gas lim s r t h
    unfold execProg at h
    exact ih _ _ _ _ h
  | check k ih =>
    intro c gas lim s r t h
    unfold execProg at h
    split at h
    · cases h; exact ⟨.refl _, _, .refl _, fun _ _ _ => rfl, fun _ _ => rfl⟩
    · exact ih _ _ _ _ h
  | read n k ih =>
    intro c gas lim s r t h
    unfold execProg at h
    split at h
    · cases h; exact ⟨.refl _, _, .refl _, fun _ _ _ => rfl, fun _ _ => rfl⟩
    · exact ih _ _ _ _ h
  | call c' child k ih1 ih2 =>
    intro c gas lim s r t h
    unfold execProg at h
    split at h
    · cases h; exact ⟨.refl _, _, .refl _, fun _ _ _ => rfl, fun _ _ => rfl⟩
    · next he =>
     split at h
     · cases h; exact ⟨.refl _, _, .refl _, fun _ _ _ => rfl, fun _ _ => rfl⟩
     · split at h
       · cases h; exact ⟨.refl _, _, .refl _, fun _ _ _ => rfl, fun _ _ => rfl⟩
       next hl =>
        rw [run_bind] at h
        rcases hc : (execProg w id c' child 0 (lim - min (gas + w.params.minExec) lim) s).run g with ⟨⟨r1, g1⟩, u⟩
        rw [hc] at h
        obtain ⟨f1, m1, p1, a1, b1⟩ := ih1 _ _ _ _ hc
        have a1' := fun q => a1 q ⟨Decidable.not_not.1 hl, Decidable.not_not.1 he⟩
        cases r1 with
        | fail e => cases h; exact ⟨f1, m1, p1, fun q _ hq => a1' q hq, fun q hq => b1 q hq.1⟩
        | ok v =>
          dsimp only at h
          split at h
          · cases h; exact ⟨f1, m1, p1, fun q _ hq => a1' q hq, fun q hq => b1 q hq.1⟩
          · obtain ⟨f2, m2, p2, a2, b2⟩ := ih2 v _ _ _ _ h
            refine ⟨f1.trans f2, _, p1.trans p2, fun q hx hq => ?_, fun q hq => ?_⟩
            · rw [a1' q hq, a2 q hx hq]
            · rw [b1 q hq.1, b2 q (hq.2 v)]
  | done ws outs mints v =>
    intro c gas lim s r t h
    unfold execProg at h
    rw [run_bind] at h
    rw [run_M] at h
    obtain ⟨u, hu, hv⟩ := setVars_run (g := g) c ws s
    have hu' : R g (setVars c ws) s = (.ok (), u) := hu
    have hf : Frame s u := by rw [hv]; exact ⟨rfl, rfl, rfl, rfl⟩
    have hp : Pay g (fun _ => 0) s u := by
      rw [hv]; exact ⟨fun x => x, fun _ _ _ => rfl, fun _ _ _ => rfl⟩
    rw [R_bind, hu'] at h
    dsimp only at h
    rw [R_bind] at h
    rcases hx : R g (payOuts c ⟨0, 0, 0⟩ outs) u with ⟨o, x⟩
    obtain ⟨f1, p1⟩ := payOuts_run _ _ _ _ hx
    rw [hx] at h
    cases o with
    | ok _ =>
      dsimp only at h
      rw [R_modS] at h
      cases h
      have f2 := (hf.trans f1)
      refine ⟨⟨f2.cost, f2.bals, f2.amounts, f2.dep⟩, _, (hp.trans p1).trans (pay_mint c mints x), fun q hc hq => ?_, fun q hq => ?_⟩
      · rw [sumOut_mints, if_neg (fun e : c = q => hq (e ▸ hc))]
      · rw [sumOut_mints]
        split
        · next e => rw [hq e]; rfl
        · rfl
    | fail e => cases h; exact ⟨hf.trans f1, _, hp.trans p1, fun _ _ _ => rfl, fun _ _ => rfl⟩
    | static => cases h; exact ⟨hf.trans f1, _, hp.trans p1, fun _ _ _ => rfl, fun _ _ => rfl⟩
  | fail e =>
    intro c gas lim s r t h
    cases h; exact ⟨.refl _, _, .refl _, fun _ _ _ => rfl, fun _ _ => rfl⟩

theorem runEngine_run {w : World} {id c : Addr} {p : Prog} {gas lim : Nat} {e : Err} {s t : St} {o : Out Unit}
    (hc : w.isExec id c) (h : R g (runEngine w id c p gas lim e) s = (o, t)) :
    (∃ k, k ≤ lim ∧ t.cost = u64 (s.cost + k)) ∧ t.bals = s.bals ∧ t.amounts = s.amounts ∧ t.dep = s.dep ∧ o ≠ .static ∧
    ∃ mt, Pay g mt s t ∧ (∀ q, ¬ w.mayRun id q → mt q = 0) ∧ (∀ q, p.neverMints q c → mt q = 0) := by
  unfold R runEngine at h
  rw [run_bind] at h
  have key : ∀ r u, (if w.locked id c then execProg w id c p gas lim s else .ret ((.fail 0, gas), s)).run g = (r, u) →
      Frame s u ∧ ∃ mt, Pay g mt s u ∧ (∀ q, ¬ w.mayRun id q → mt q = 0) ∧ (∀ q, p.neverMints q c → mt q = 0) := by
    intro r u hr
    split at hr
    · next hl =>
      obtain ⟨f, mt, a, b, d⟩ := exec_run w id p _ _ _ _ hr
      exact ⟨f, mt, a, fun q => b q ⟨hl, hc⟩, d⟩
    · cases hr; exact ⟨.refl _, _, .refl _, fun _ _ => rfl, fun _ _ => rfl⟩
  rcases hr : (if w.locked id c then execProg w id c p gas lim s else .ret ((.fail 0, gas), s)).run g with ⟨⟨r, k⟩, u⟩
  obtain ⟨f, mt, a, b, d⟩ := key _ _ hr
  rw [hr] at h
  cases r with
  | ok v =>
    cases h
    exact ⟨⟨min k lim, Nat.min_le_right _ _, by dsimp only; rw [f.cost]⟩, f.bals, f.amounts, f.dep, (nomatch ·), mt, ⟨a.nodup, a.move, a.outs⟩, b, d⟩
  | fail v =>
    cases h
    exact ⟨⟨min k lim, Nat.min_le_right _ _, by dsimp only; rw [f.cost]⟩, f.bals, f.amounts, f.dep, (nomatch ·), mt, ⟨a.nodup, a.move, a.outs⟩, b, d⟩

theorem bindM {α β : Type} (m : M α) (f : α → M β) : (m >>= f) = M.bind m f := rfl

/-- The state in which the engine of an operation starts. -/
def credited (g : Sto) (s : St) (c : Addr) (d : Option (Addr × Nat)) : St :=
  match d with
  | none => s
  | some (q, n) => { s with cbal := mput ltPair s.cbal (c, q) (u128 (n + bn g s c q)) }

theorem credit_run (s : St) (c : Addr) (d : Option (Addr × Nat)) :
    R g (creditDeposit c d) s = (.ok (), credited g s c d) := by
  unfold creditDeposit
  cases d with
  | none => rfl
  | some x =>
    obtain ⟨q, n⟩ := x
    dsimp only
    have hb : R g (getBal c q) s = _ := getBal_run c q s
    rw [R_bind, hb]
    rfl

theorem executeOp_run {w : World} {tx : Tx} {c : Addr} {isExec : Bool} {user : Option (Addr × Bool)} {d : Option (Addr × Nat)}
    {p : Prog} {e : Err} {s t : St} {o : Out Unit} (h : R g (executeOp w tx c isExec user d p e) s = (o, t)) :
    (t = s ∧ (∀ x, o ≠ .ok x)) ∨ (isExec = true ∧ ∃ avail gas, feeToCost tx.maxFee tx.feeRatio = .ok avail ∧
      R g (runEngine w tx.id c p gas (min (avail - min s.cost avail) w.params.maxTxCost) e) (credited g s c d) = (o, t)) := by
  unfold executeOp at h
  simp only [bindM] at h
  rw [R_needE_bind] at h
  split at h
  · next hx =>
    cases hf : feeToCost tx.maxFee tx.feeRatio with
    | throw => rw [hf] at h; cases h; exact .inl ⟨rfl, fun x => (nomatch ·)⟩
    | ub => rw [hf] at h; cases h; exact .inl ⟨rfl, fun x => (nomatch ·)⟩
    | ok avail =>
      rw [hf] at h
      simp only [liftS] at h
      rw [R_pure_bind, R_getS_bind] at h
      cases user with
      | none =>
        dsimp only at h
        rw [R_pure_bind, R_bind, credit_run] at h
        exact .inr ⟨hx, avail, _, rfl, h⟩
      | some u =>
        obtain ⟨a, ok⟩ := u
        dsimp only at h
        rw [R_assoc, R_needE_bind] at h
        split at h
        · rw [R_assoc, R_needE_bind] at h
          split at h
          · rw [R_assoc, R_needS_bind] at h
            split at h
            · rw [R_pure_bind, R_bind, credit_run] at h
              exact .inr ⟨hx, avail, _, rfl, h⟩
            · cases h; exact .inl ⟨rfl, fun x => (nomatch ·)⟩
          · cases h; exact .inl ⟨rfl, fun x => (nomatch ·)⟩
        · cases h; exact .inl ⟨rfl, fun x => (nomatch ·)⟩
  · cases h; exact .inl ⟨rfl, fun x => (nomatch ·)⟩

end Verif.Ledger
