import Verif.Ledger.ExecLemmas
/-
  The phases of transaction validation: cost, fee balance, and money.
-/
namespace Verif.Ledger
open Verif Verif.Chain
open Verif.VM (mfind mput mfind_mput mput_nodup mem_mfind mfind_mem)

variable {g : Sto}

/-! ### Cost and balances, however a phase ends -/

/-- The cost does not fall and stays within the gas that was paid for; balances do not rise. -/
def Step (A : Nat) (s t : St) : Prop :=
  s.cost < 2 ^ 63 → (s.cost ≤ t.cost ∧ t.cost ≤ max s.cost A) ∧ ∀ a q b, t.bals a q = some b → ∃ b', s.bals a q = some b' ∧ b ≤ b'

theorem Step.refl (A : Nat) (s : St) : Step A s s := fun _ => ⟨⟨Nat.le_refl _, Nat.le_max_left _ _⟩, fun _ _ b h => ⟨b, h, Nat.le_refl _⟩⟩
theorem Step.trans {A : Nat} (hA : A < 2 ^ 63) {s t u : St} (h : Step A s t) (k : Step A t u) : Step A s u := by
  intro hs
  obtain ⟨⟨h1, h2⟩, h3⟩ := h hs
  obtain ⟨⟨k1, k2⟩, k3⟩ := k (by omega)
  refine ⟨⟨by omega, by omega⟩, fun a q b hb => ?_⟩
  obtain ⟨b1, e1, l1⟩ := k3 a q b hb
  obtain ⟨b2, e2, l2⟩ := h3 a q b1 e1
  exact ⟨b2, e2, Nat.le_trans l1 l2⟩
theorem Step.same {A : Nat} {s t : St} (hc : t.cost = s.cost) (hb : t.bals = s.bals) : Step A s t :=
  fun _ => ⟨⟨by omega, by omega⟩, fun a q b h => ⟨b, by rw [← hb]; exact h, Nat.le_refl _⟩⟩

/-- `m` makes a `Step` however it ends. -/
def Pr {α : Type} (A : Nat) (m : M α) : Prop := ∀ (g : Sto) (s : St) (o : Out α) (t : St), R g m s = (o, t) → Step A s t

theorem Pr.pure {α : Type} (A : Nat) (a : α) : Pr A (M.pure a) := by
  intro g s o t h; cases h; exact .refl _ _
theorem Pr.throwE {α : Type} (A : Nat) (e : Err) : Pr A (throwE e : M α) := by
  intro g s o t h; cases h; exact .refl _ _
theorem Pr.throwS {α : Type} (A : Nat) : Pr A (throwS : M α) := by
  intro g s o t h; cases h; exact .refl _ _
theorem Pr.needE (A : Nat) (c : Prop) [Decidable c] (e : Err) : Pr A (needE c e) := by
  unfold Ledger.needE; split
  · exact .pure _ _
  · exact .throwE _ _
theorem Pr.needS (A : Nat) (c : Prop) [Decidable c] : Pr A (needS c) := by
  unfold Ledger.needS; split
  · exact .pure _ _
  · exact .throwS _
theorem Pr.getS (A : Nat) : Pr A getS := by
  intro g s o t h; cases h; exact .refl _ _
theorem Pr.modS (A : Nat) (f : St → St) (hc : ∀ s, (f s).cost = s.cost) (hb : ∀ s, (f s).bals = s.bals) : Pr A (modS f) := by
  intro g s o t h; cases h; exact .same (hc s) (hb s)
theorem Pr.bind {α β : Type} {A : Nat} (hA : A < 2 ^ 63) {m : M α} {f : α → M β} (hm : Pr A m) (hf : ∀ a, Pr A (f a)) : Pr A (M.bind m f) := by
  intro g s o t h
  rw [R_bind] at h
  rcases hr : R g m s with ⟨a | e | _, u⟩
  · rw [hr] at h; exact (hm g s _ u hr).trans hA (hf a g u o t h)
  · rw [hr] at h; cases h; exact hm g s _ _ hr
  · rw [hr] at h; cases h; exact hm g s _ _ hr

/-- Reading a contract costs less than 2^62 gas. -/
def CheapReads (w : World) : Prop := ∀ a, w.params.minRead + w.readCost a < 2 ^ 62

theorem readContract_pr {w : World} (hw : CheapReads w) {A lim : Nat} (hl : lim ≤ A) (a : Addr) (e : Err) :
    Pr A (readContract w a lim e) := by
  intro g s o t h
  unfold readContract at h
  simp only [bindM] at h
  rw [R_getS_bind, R_needE_bind] at h
  split at h
  · next hx =>
    rw [R_modS_bind, R_pure] at h
    cases h
    intro hs
    have := hw a
    rw [u64_of_lt' (by omega)] at hx
    refine ⟨?_, fun a q b h => ⟨b, h, Nat.le_refl _⟩⟩
    dsimp only
    rw [u64_of_lt' (by omega)]
    omega
  · cases h; exact .refl _ _

theorem credited_same (s : St) (c : Addr) (d : Option (Addr × Nat)) :
    credited g s c d = { s with cbal := (credited g s c d).cbal } := by
  unfold credited
  cases d <;> rfl

theorem executeOp_pr {w : World} {tx : Tx} {A : Nat} (hA : A < 2 ^ 63) (ha : feeToCost tx.maxFee tx.feeRatio = .ok A)
    {c : Addr} {x : Bool} (hx : x = true → w.isExec tx.id c) (u : Option (Addr × Bool)) (d : Option (Addr × Nat)) (p : Prog) (e : Err) : Pr A (executeOp w tx c x u d p e) := by
  intro g s o t h
  rcases executeOp_run h with ⟨rfl, _⟩ | ⟨hx', avail, gas, h1, h2⟩
  · exact .refl _ _
  · obtain ⟨⟨k, hk, hc⟩, hb, _⟩ := runEngine_run (hx hx') h2
    rw [ha] at h1
    cases h1
    rw [credited_same] at hc hb
    dsimp only at hc hb
    intro hs
    rw [u64_of_lt' (by omega)] at hc
    exact ⟨by omega, fun a q b h => ⟨b, by rw [← hb]; exact h, Nat.le_refl _⟩⟩

theorem takeInputs_pr {w : World} (hw : CheapReads w) {A lim : Nat} (hA : A < 2 ^ 63) (hl : lim ≤ A) (l : List TxIn) :
    ∀ i, Pr A (takeInputs w lim i l) := by
  induction l with
  | nil => intro i; exact .pure _ _
  | cons x l ih =>
    intro i
    unfold takeInputs
    simp only [bindM]
    refine .bind hA (.getS _) fun s => .bind hA ?_ fun _ => .bind hA (.needS _ _) fun _ => .bind hA ?_ fun _ =>
      .bind hA (.needS _ _) fun _ => .bind hA ?_ fun _ => ih _
    · cases s.bals x.addr x.cur with
      | none => exact .throwE _ _
      | some b => exact .needE _ _ _
    · split
      · refine .bind hA (readContract_pr hw hl _ _) fun k => ?_
        cases k with
        | none => exact .throwE _ _
        | some b => exact .needE _ _ _
      · exact .pure _ _
    · intro g s o t h
      cases h
      intro hs
      refine ⟨⟨Nat.le_refl _, Nat.le_max_left _ _⟩, fun a q b hb => ?_⟩
      dsimp only at hb
      split at hb
      · cases hc : s.bals a q with
        | none => rw [hc] at hb; cases hb
        | some b' => rw [hc] at hb; cases hb; exact ⟨b', rfl, Nat.sub_le _ _⟩
      · exact ⟨b, hb, Nat.le_refl _⟩

theorem giveOutputs_pr {A : Nat} (hA : A < 2 ^ 63) (l : List TxOut) : ∀ i, Pr A (giveOutputs i l) := by
  induction l with
  | nil => intro i; exact .pure _ _
  | cons x l ih =>
    intro i
    unfold giveOutputs
    simp only [bindM]
    exact .bind hA (.needE _ _ _) fun _ => .bind hA (.getS _) fun s => .bind hA (.needE _ _ _) fun _ =>
      .bind hA (.modS _ _ (fun _ => rfl) (fun _ => rfl)) fun _ => ih _

theorem runDeploy_pr {w : World} {tx : Tx} {A : Nat} (hA : A < 2 ^ 63) (ha : feeToCost tx.maxFee tx.feeRatio = .ok A) : Pr A (runDeploy w tx) := by
  unfold runDeploy
  cases tx.deploy with
  | none => exact .pure _ _
  | some d =>
    dsimp only
    simp only [bindM]
    refine .bind hA (.needE _ _ _) fun _ => ?_
    cases d.init with
    | none => exact .pure _ _
    | some p => exact .bind hA (.needE _ _ _) fun _ => executeOp_pr hA ha (fun _ => .inl rfl) _ _ _ _

theorem takeDeposit_pr {A : Nat} (hA : A < 2 ^ 63) (c : Addr) (d : Option (Addr × Nat)) (e : Err) : Pr A (takeDeposit c d e) := by
  unfold takeDeposit
  cases d with
  | none => exact .pure _ _
  | some x =>
    obtain ⟨q, n⟩ := x
    exact .bind hA (.getS _) fun s => .bind hA (.needE _ _ _) fun _ => .modS _ _ (fun _ => rfl) (fun _ => rfl)

theorem Pr.ite {α : Type} {A : Nat} {c : Prop} [Decidable c] {m n : M α} (hm : c → Pr A m) (hn : ¬ c → Pr A n) : Pr A (if c then m else n) := by
  split
  · next h => exact hm h
  · next h => exact hn h

theorem readContract_kind {w : World} {a : Addr} {lim : Nat} {e : Err} {s t : St} {k : Option Bool}
    (h : R g (readContract w a lim e) s = (.ok k, t)) : k = w.kind a ∧ t = { s with cost := t.cost } := by
  unfold readContract at h
  simp only [bindM] at h
  rw [R_getS_bind, R_needE_bind] at h
  split at h
  · rw [R_modS_bind, R_pure] at h; cases h; exact ⟨rfl, rfl⟩
  · cases h

/-- What an operation finds at its address. -/
theorem kindOf_run {w : World} {tx : Tx} {c : Addr} {lim : Nat} {e : Err} {s t : St} {k : Option Bool}
    (h : R g (if c = tx.id then M.pure (tx.deploy.map fun d => d.init.isSome) else readContract w c lim e) s = (.ok k, t)) :
    (k = some true → w.isExec tx.id c) ∧ t = { s with cost := t.cost } := by
  split at h
  · next hc => obtain ⟨rfl, rfl⟩ := pure_okR h; exact ⟨fun _ => .inl hc, rfl⟩
  · obtain ⟨rfl, ht⟩ := readContract_kind h; exact ⟨fun h => .inr h, ht⟩

theorem Pr.bindR {α β : Type} {A : Nat} (hA : A < 2 ^ 63) {m : M α} {f : α → M β} (hm : Pr A m)
    (hf : ∀ a, (∃ g s t, R g m s = (.ok a, t)) → Pr A (f a)) : Pr A (M.bind m f) := by
  intro g s o t h
  rw [R_bind] at h
  rcases hr : R g m s with ⟨a | e | _, u⟩
  · rw [hr] at h; exact (hm g s _ u hr).trans hA (hf a ⟨g, s, u, hr⟩ g u o t h)
  · rw [hr] at h; cases h; exact hm g s _ _ hr
  · rw [hr] at h; cases h; exact hm g s _ _ hr

theorem runOps_pr {w : World} (hw : CheapReads w) {tx : Tx} {A lim : Nat} (hA : A < 2 ^ 63) (ha : feeToCost tx.maxFee tx.feeRatio = .ok A)
    (hl : lim ≤ A) (l : List Op) : ∀ i, Pr A (runOps w tx lim i l) := by
  induction l with
  | nil => intro i; exact .pure _ _
  | cons x l ih =>
    intro i
    unfold runOps
    simp only [bindM]
    refine .bind hA (.needE _ _ _) fun _ => .bindR hA (.ite (fun _ => .pure _ _) fun _ => readContract_pr hw hl _ _) fun k hk => .bind hA ?_ fun _ => ih _
    obtain ⟨g, s, t, hk⟩ := hk
    obtain ⟨hk, _⟩ := kindOf_run hk
    cases k with
    | none => exact .throwE _ _
    | some b => exact .bind hA (takeDeposit_pr hA _ _ _) fun _ => executeOp_pr hA ha (fun e => hk (by rw [e])) _ _ _ _

end Verif.Ledger
