import Verif.Ledger.ExecLemmas
import Verif.Ledger.Block
/-
  A transaction reads and writes only the contracts it locked.
-/
namespace Verif.Ledger
open Verif Verif.Chain
open Verif.VM (mfind mput mfind_mput mput_nodup mem_mfind mfind_mem)

/-- All reads are of contracts in `P`, and every result satisfies `Q`. -/
def Proc.WP {α : Type} (P : Addr → Prop) (Q : α → Prop) : Proc α → Prop
  | .ret a => Q a
  | .rdVar c _ k => P c ∧ ∀ o, (k o).WP P Q
  | .rdBal c _ k => P c ∧ ∀ o, (k o).WP P Q

variable {P : Addr → Prop}

theorem Proc.WP.bind {α β : Type} {Q : α → Prop} {Q' : β → Prop} {p : Proc α} {f : α → Proc β} (h : p.WP P Q) (hf : ∀ a, Q a → (f a).WP P Q') :
    (p.bind f).WP P Q' := by
  induction p with
  | ret a => exact hf a h
  | rdVar c l k ih => exact ⟨h.1, fun o => ih o (h.2 o)⟩
  | rdBal c l k ih => exact ⟨h.1, fun o => ih o (h.2 o)⟩

theorem Proc.WP.mono {α : Type} {Q Q' : α → Prop} {p : Proc α} (h : p.WP P Q) (hf : ∀ a, Q a → Q' a) : p.WP P Q' := by
  induction p with
  | ret a => exact hf a h
  | rdVar c l k ih => exact ⟨h.1, fun o => ih o (h.2 o)⟩
  | rdBal c l k ih => exact ⟨h.1, fun o => ih o (h.2 o)⟩

/-- Storages that agree on `P` give the same result. -/
def SameOn (P : Addr → Prop) (g g' : Sto) : Prop := ∀ c, P c → (∀ l, g.var c l = g'.var c l) ∧ ∀ q, g.bal c q = g'.bal c q

theorem SameOn.refl (g : Sto) : SameOn P g g := fun _ _ => ⟨fun _ => rfl, fun _ => rfl⟩
theorem SameOn.symm {g g' : Sto} (h : SameOn P g g') : SameOn P g' g := fun c hc => ⟨fun l => ((h c hc).1 l).symm, fun q => ((h c hc).2 q).symm⟩
theorem SameOn.trans {g g' g'' : Sto} (h : SameOn P g g') (k : SameOn P g' g'') : SameOn P g g'' :=
  fun c hc => ⟨fun l => ((h c hc).1 l).trans ((k c hc).1 l), fun q => ((h c hc).2 q).trans ((k c hc).2 q)⟩

theorem Proc.WP.run {α : Type} {Q : α → Prop} {p : Proc α} (h : p.WP P Q) {g g' : Sto} (hg : SameOn P g g') : p.run g = p.run g' := by
  induction p with
  | ret a => rfl
  | rdVar c l k ih => simp only [Proc.run]; rw [(hg c h.1).1 l]; exact ih _ (h.2 _)
  | rdBal c l k ih => simp only [Proc.run]; rw [(hg c h.1).2 l]; exact ih _ (h.2 _)

theorem Proc.WP.result {α : Type} {Q : α → Prop} {p : Proc α} (h : p.WP P Q) (g : Sto) : Q (p.run g) := by
  induction p with
  | ret a => exact h
  | rdVar c l k ih => exact ih _ (h.2 _)
  | rdBal c l k ih => exact ih _ (h.2 _)

/-- What was written and paid so far is of contracts in `P`, every location once. -/
structure StIn (P : Addr → Prop) (s : St) : Prop where
  vars : ∀ e ∈ s.vars, P e.1.1
  cbal : ∀ e ∈ s.cbal, P e.1.1
  spend : ∀ e ∈ s.spend, P e.1.1
  nv : (s.vars.map (·.1)).Nodup
  nb : (s.cbal.map (·.1)).Nodup

/-- Reads and writes only in `P`; a value returned satisfies `Q`. -/
def LocV {α : Type} (P : Addr → Prop) (Q : α → Prop) (m : M α) : Prop := ∀ s, StIn P s → (m s).WP P fun r => StIn P r.2 ∧ ∀ a, r.1 = .ok a → Q a

abbrev Loc {α : Type} (P : Addr → Prop) (m : M α) : Prop := LocV P (fun _ => True) m

theorem LocV.pure {α : Type} {Q : α → Prop} {a : α} (ha : Q a) : LocV P Q (M.pure a) := fun _ h => ⟨h, fun _ e => by cases e; exact ha⟩
theorem Loc.pure {α : Type} (a : α) : Loc P (M.pure a) := LocV.pure trivial
theorem LocV.throwE {α : Type} {Q : α → Prop} (e : Err) : LocV P Q (throwE e : M α) := fun _ h => ⟨h, fun _ e => nomatch e⟩
theorem LocV.throwS {α : Type} {Q : α → Prop} : LocV P Q (throwS : M α) := fun _ h => ⟨h, fun _ e => nomatch e⟩
theorem LocV.getS : LocV P (StIn P) getS := fun _ h => ⟨h, fun _ e => by cases e; exact h⟩
theorem LocV.modS (f : St → St) (hf : ∀ s, StIn P s → StIn P (f s)) : Loc P (modS f) := fun s h => ⟨hf s h, fun _ _ => trivial⟩
theorem LocV.needE (c : Prop) [Decidable c] (e : Err) : LocV P (fun _ => c) (needE c e) := by
  unfold Ledger.needE; split
  · next h => exact .pure h
  · exact .throwE _
theorem LocV.needS (c : Prop) [Decidable c] : LocV P (fun _ => c) (needS c) := by
  unfold Ledger.needS; split
  · next h => exact .pure h
  · exact .throwS
theorem Loc.liftS (r : Res Nat) : Loc P (liftS r) := by
  cases r
  · exact .pure _
  · exact LocV.throwS
  · exact LocV.throwS
theorem LocV.ite {α : Type} {Q : α → Prop} {c : Prop} [Decidable c] {m n : M α} (hm : c → LocV P Q m) (hn : ¬ c → LocV P Q n) : LocV P Q (if c then m else n) := by
  split
  · next h => exact hm h
  · next h => exact hn h
theorem LocV.bind {α β : Type} {Q : α → Prop} {Q' : β → Prop} {m : M α} {f : α → M β} (hm : LocV P Q m) (hf : ∀ a, Q a → LocV P Q' (f a)) : LocV P Q' (M.bind m f) := by
  intro s hs
  refine (hm s hs).bind ?_
  rintro ⟨a | e | _, t⟩ ⟨ht, ha⟩
  · exact hf a (ha a rfl) t ht
  · exact ⟨ht, fun _ h => nomatch h⟩
  · exact ⟨ht, fun _ h => nomatch h⟩
theorem LocV.loc {α : Type} {Q : α → Prop} {m : M α} (h : LocV P Q m) : Loc P m := fun s hs => (h s hs).mono fun _ h => ⟨h.1, fun _ _ => trivial⟩

theorem mem_minsert {K V : Type} [DecidableEq K] {lt : K → K → Bool} {k : K} {v : V} {m : List (K × V)} {e : K × V}
    (h : e ∈ VM.minsert lt k v m) : e = (k, v) ∨ e ∈ m := by
  have := (VM.minsert_perm lt k v m).mem_iff.1 h
  exact List.mem_cons.1 this

theorem mem_mput {K V : Type} [DecidableEq K] {lt : K → K → Bool} {k : K} {v : V} {m : List (K × V)} {e : K × V} (h : e ∈ mput lt m k v) :
    e.1 = k ∨ e ∈ m := by
  unfold mput at h
  split at h
  · obtain ⟨p, hp, rfl⟩ := List.mem_map.1 h
    split
    · exact .inl rfl
    · exact .inr hp
  · rcases mem_minsert h with rfl | h
    · exact .inl rfl
    · exact .inr h

theorem getBal_loc {c : Addr} (hc : P c) (q : Addr) : Loc P (getBal c q) := by
  intro s hs
  unfold getBal
  split
  · exact ⟨hs, fun _ _ => trivial⟩
  · exact ⟨hc, fun _ => ⟨hs, fun _ _ => trivial⟩⟩

theorem getVar_loc {c : Addr} (hc : P c) (q : Addr) : Loc P (getVar c q) := by
  intro s hs
  unfold getVar
  split
  · exact ⟨hs, fun _ _ => trivial⟩
  · exact ⟨hc, fun _ => ⟨hs, fun _ _ => trivial⟩⟩

theorem mput_in {c : Addr} (hc : P c) {m : List ((Addr × Addr) × Nat)} (h : ∀ e ∈ m, P e.1.1) (q n : Nat) : ∀ e ∈ mput ltPair m (c, q) n, P e.1.1 := by
  intro e he
  rcases mem_mput he with h' | h'
  · rw [h']; exact hc
  · exact h e h'

theorem setBal_loc {c : Addr} (hc : P c) (q n : Addr) : Loc P (setBal c q n) :=
  .modS _ fun _ hs => ⟨hs.vars, mput_in hc hs.cbal q n, hs.spend, hs.nv, mput_nodup _ _ _ hs.nb⟩

theorem setVars_loc {c : Addr} (hc : P c) (w : List (Nat × Nat)) : Loc P (setVars c w) := by
  induction w with
  | nil => exact .pure _
  | cons x w ih => exact .bind (.modS _ fun s hs => ⟨mput_in hc hs.vars x.1 x.2, hs.cbal, hs.spend, mput_nodup _ _ _ hs.nv, hs.nb⟩) fun _ _ => ih

theorem payOuts_loc {c : Addr} (hc : P c) (e : Err) (l : List TxOut) : Loc P (payOuts c e l) := by
  induction l with
  | nil => exact .pure _
  | cons x l ih =>
    refine .bind (getBal_loc hc _) fun b _ => ?_
    cases b with
    | none => exact LocV.throwE _
    | some n =>
      refine .ite (fun _ => .throwE _) fun _ => .bind (setBal_loc hc _ _) fun _ _ => .bind (.modS _ ?_) fun _ _ => ih
      exact fun s hs => ⟨hs.vars, hs.cbal, mput_in hc hs.spend _ _, hs.nv, hs.nb⟩

theorem execProg_loc {w : World} {id : Addr} (p : Prog) : ∀ (c gas lim : Nat) (s : St), w.mayRun id c → StIn (w.mayRun id) s →
    (execProg w id c p gas lim s).WP (w.mayRun id) fun r => StIn (w.mayRun id) r.2 := by
  induction p with
  | rdVar l k ih =>
    intro c gas lim s hc hs
    unfold execProg
    refine (getVar_loc hc l s hs).bind ?_
    rintro ⟨a | e | _, t⟩ ⟨ht, _⟩
    · exact ih a _ _ _ _ hc ht
    · exact ht
    · exact ht
  | rdBal l k ih =>
    intro c gas lim s hc hs
    unfold execProg
    refine (getBal_loc hc l s hs).bind ?_
    rintro ⟨a | e | _, t⟩ ⟨ht, _⟩
    · exact ih a _ _ _ _ hc ht
    · exact ht
    · exact ht
  | gas n k ih => intro c gas lim s hc hs; unfold execProg; exact ih _ _ _ _ hc hs
  | check k ih =>
    intro c gas lim s hc hs
    unfold execProg
    split
    · exact hs
    · exact ih _ _ _ _ hc hs
  | read n k ih =>
    intro c gas lim s hc hs
    unfold execProg
    split
    · exact hs
    · exact ih _ _ _ _ hc hs
  | call c' child k ih1 ih2 =>
    intro c gas lim s hc hs
    unfold execProg
    split
    · exact hs
    · next hx =>
      split
      · exact hs
      · split
        · exact hs
        · next hl =>
          refine (ih1 _ _ _ _ ⟨Decidable.not_not.1 hl, Decidable.not_not.1 hx⟩ hs).bind ?_
          rintro ⟨⟨v | e, n⟩, t⟩ ht
          · dsimp only
            split
            · exact ht
            · exact ih2 v _ _ _ _ hc ht
          · exact ht
  | done ws outs mints v =>
    intro c gas lim s hc hs
    unfold execProg
    refine Proc.WP.bind (Q := fun r => StIn (w.mayRun id) r.2) ?_ ?_
    · refine ((LocV.bind (setVars_loc hc ws) (fun _ _ => .bind (payOuts_loc hc _ _) fun _ _ => .modS _ ?_) : Loc (w.mayRun id) _) s hs).mono fun _ h => h.1
      exact fun s hs => ⟨hs.vars, hs.cbal, hs.spend, hs.nv, hs.nb⟩
    · rintro ⟨a | e | _, t⟩ ht <;> exact ht
  | fail e => intro c gas lim s hc hs; exact hs

/-- The locks `prepare_context` took. -/
structure Locked (w : World) (tx : Tx) : Prop where
  ops : ∀ o ∈ tx.ops, w.locked tx.id (if o.addr = 0 then tx.id else o.addr) = true
  deploy : tx.deploy.isSome = true → w.locked tx.id tx.id = true

theorem runEngine_loc (w : World) (id c : Addr) (hc : w.isExec id c) (p : Prog) (gas lim : Nat) (e : Err) : Loc (w.mayRun id) (runEngine w id c p gas lim e) := by
  intro s hs
  unfold runEngine
  refine Proc.WP.bind (Q := fun r => StIn (w.mayRun id) r.2) ?_ ?_
  · split
    · next hl => exact execProg_loc p _ _ _ _ ⟨hl, hc⟩ hs
    · exact hs
  · rintro ⟨⟨v | c, n⟩, t⟩ ht <;> exact ⟨⟨ht.vars, ht.cbal, ht.spend, ht.nv, ht.nb⟩, fun _ _ => trivial⟩

theorem executeOp_loc {w : World} {tx : Tx} {c : Addr} (hc : w.locked tx.id c = true) {x : Bool} (hx : x = true → w.isExec tx.id c) (u : Option (Addr × Bool))
    (d : Option (Addr × Nat)) (p : Prog) (e : Err) : Loc (w.mayRun tx.id) (executeOp w tx c x u d p e) := by
  unfold executeOp
  simp only [bindM]
  refine .bind (.needE _ _) fun _ h => .bind (Loc.liftS _) fun _ _ => .bind .getS fun _ _ => .bind (Q := fun _ => True) ?_ fun _ _ =>
    .bind (Q := fun _ => True) ?_ fun _ _ => runEngine_loc _ _ _ (hx h) _ _ _ _
  · cases u with
    | none => exact .pure trivial
    | some y => exact .bind (.needE _ _) fun _ _ => .bind (.needE _ _) fun _ _ => .bind (.needS _) fun _ _ => .pure trivial
  · cases d with
    | none => exact .pure trivial
    | some y => exact .bind (getBal_loc ⟨hc, hx h⟩ _) fun _ _ => setBal_loc ⟨hc, hx h⟩ _ _

theorem readContract_loc (w : World) (a : Addr) (lim : Nat) (e : Err) : LocV P (fun k => k = w.kind a) (readContract w a lim e) := by
  unfold readContract
  simp only [bindM]
  exact .bind .getS fun _ _ => .bind (.needE _ _) fun _ _ => .bind (LocV.modS _ fun _ h => ⟨h.vars, h.cbal, h.spend, h.nv, h.nb⟩) fun _ _ => .pure rfl

theorem takeInputs_loc (w : World) (lim : Nat) (l : List TxIn) : ∀ i, Loc P (takeInputs w lim i l) := by
  induction l with
  | nil => intro i; exact .pure _
  | cons x l ih =>
    intro i
    unfold takeInputs
    simp only [bindM]
    refine .bind .getS fun s _ => .bind (Q := fun _ => True) ?_ fun _ _ => .bind (.needS _) fun _ _ => .bind (Q := fun _ => True) ?_ fun _ _ =>
      .bind (.needS _) fun _ _ => .bind (LocV.modS _ fun _ h => ⟨h.vars, h.cbal, h.spend, h.nv, h.nb⟩) fun _ _ => ih _
    · cases s.bals x.addr x.cur with
      | none => exact .throwE _
      | some b => exact (LocV.needE _ _).loc
    · refine .ite (fun _ => .bind (readContract_loc _ _ _ _) fun k _ => ?_) fun _ => .pure trivial
      cases k with
      | none => exact .throwE _
      | some b => exact (LocV.needE _ _).loc

theorem giveOutputs_loc (l : List TxOut) : ∀ i, Loc P (giveOutputs i l) := by
  induction l with
  | nil => intro i; exact .pure _
  | cons x l ih =>
    intro i
    unfold giveOutputs
    simp only [bindM]
    exact .bind (.needE _ _) fun _ _ => .bind .getS fun s _ => .bind (.needE _ _) fun _ _ =>
      .bind (LocV.modS _ fun _ h => ⟨h.vars, h.cbal, h.spend, h.nv, h.nb⟩) fun _ _ => ih _

theorem runDeploy_loc {w : World} {tx : Tx} (h : Locked w tx) : Loc (w.mayRun tx.id) (runDeploy w tx) := by
  unfold runDeploy
  cases hd : tx.deploy with
  | none => exact .pure _
  | some d =>
    dsimp only
    simp only [bindM]
    refine .bind (.needE _ _) fun _ _ => ?_
    cases d.init with
    | none => exact .pure trivial
    | some p => exact .bind (.needE _ _) fun _ _ => executeOp_loc (h.deploy (by rw [hd]; rfl)) (fun _ => .inl rfl) _ _ _ _

theorem runOps_loc {w : World} {tx : Tx} (lim : Nat) (l : List Op)
    (h : ∀ o ∈ l, w.locked tx.id (if o.addr = 0 then tx.id else o.addr) = true) : ∀ i, Loc (w.mayRun tx.id) (runOps w tx lim i l) := by
  induction l with
  | nil => intro i; exact .pure _
  | cons x l ih =>
    intro i
    unfold runOps
    simp only [bindM]
    refine .bind (.needE _ _) fun _ _ => .bind (Q := fun k => k = some true → w.isExec tx.id (if x.addr = 0 then tx.id else x.addr)) ?_ fun k hk =>
      .bind (Q := fun _ => True) ?_ fun _ _ => ih (fun o ho => h o (List.mem_cons_of_mem _ ho)) _
    · refine .ite (fun hc => .pure fun _ => .inl hc) fun _ => ?_
      intro s hs
      exact (readContract_loc w _ lim _ s hs).mono fun r hr => ⟨hr.1, fun a ha e => .inr (by rw [← hr.2 a ha]; exact e)⟩
    · cases k with
      | none => exact .throwE _
      | some b =>
        refine .bind (Q := fun _ => True) ?_ fun _ _ => executeOp_loc (h x (List.mem_cons_self ..)) (fun e => hk (by rw [e])) _ _ _ _
        unfold takeDeposit
        cases x.deposit with
        | none => exact .pure trivial
        | some y => exact .bind .getS fun _ _ => .bind (.needE _ _) fun _ _ => .modS _ fun _ h => ⟨h.vars, h.cbal, h.spend, h.nv, h.nb⟩

theorem netSpend_in (l : List ((Addr × Addr) × Nat)) : ∀ (dep : List ((Addr × Addr) × Nat)), (∀ e ∈ l, P e.1.1) → ∀ y ∈ (netSpend l dep).1, P y.addr := by
  induction l with
  | nil => intro dep _ y hy; cases hy
  | cons x l ih =>
    intro dep h y hy
    have ih := ih (mput ltPair dep x.1 ((mfind dep x.1).getD 0 - min ((mfind dep x.1).getD 0) x.2)) fun e he => h e (List.mem_cons_of_mem _ he)
    have hx := h x (List.mem_cons_self ..)
    unfold netSpend at hy
    dsimp only at hy
    split at hy
    · rcases List.mem_cons.1 hy with rfl | hy
      · exact hx
      · exact ih y hy
    · exact ih y hy

theorem body_loc {w : World} {tx : Tx} (h : Locked w tx) (lim : Nat) : LocV (w.mayRun tx.id) (fun r => ∀ y ∈ r.1, w.mayRun tx.id y.addr) (body w tx lim) := by
  unfold body core finish
  simp only [bindM]
  refine .bind (Q := fun _ => True) (.bind (.needE _ _) fun _ _ => .bind (takeInputs_loc _ _ _ _) fun _ _ => .bind (giveOutputs_loc _ _) fun _ _ =>
    .bind (runDeploy_loc h) fun _ _ => runOps_loc _ _ h.ops _) fun _ _ => .bind .getS fun s hs => ?_
  cases implicitDeposit w s.amounts tx.id tx.deploy.isSome with
  | none => exact .throwE _
  | some l =>
    exact .bind (LocV.modS _ fun _ h => ⟨h.vars, h.cbal, h.spend, h.nv, h.nb⟩) fun _ _ => .bind .getS fun _ _ => .bind (.needS _) fun _ _ =>
      .bind (.needS _) fun _ _ => .pure (netSpend_in _ _ hs.spend)

theorem prelude_loc (w : World) (tx : Tx) : Loc P (prelude w tx) := by
  unfold prelude
  simp only [bindM]
  refine .bind (.needS _) fun _ _ => .bind (.needS _) fun _ _ => .bind (.needS _) fun _ _ => .bind (.needS _) fun _ _ => .bind (.needS _) fun _ _ =>
    .bind (.needS _) fun _ _ => .bind (Loc.liftS _) fun _ _ => .bind (Loc.liftS _) fun _ _ => .bind (.needS _) fun _ _ => .bind (Q := fun _ => True) ?_ fun _ _ => .pure trivial
  cases tx.sender with
  | none => exact .throwS
  | some a =>
    refine .bind (.needS _) fun _ _ => ?_
    cases w.bal a 0 with
    | none => exact .throwS
    | some b => exact .bind (.needS _) fun _ _ => .modS _ fun _ h => ⟨h.vars, h.cbal, h.spend, h.nv, h.nb⟩

def Wr.at' : Wr → Addr
  | .var c _ _ => c
  | .bal c _ _ => c

/-- Writes and execution inputs of a verdict are of contracts in `P`, every location once. -/
structure Verdict.In (P : Addr → Prop) (v : Verdict) : Prop where
  writes : ∀ a ∈ v.writes, P a.at'
  inputs : ∀ r wr, v = .accept r wr → ∀ y ∈ r.inputs, P y.addr
  nv : ∀ r wr, v = .accept r (some wr) → (wr.vars.map (·.1)).Nodup
  nb : ∀ r wr, v = .accept r (some wr) → (wr.bals.map (·.1)).Nodup

theorem allSame_addr {l m : List TxIn} (h : allSame sameIn l m = true) (hl : ∀ y ∈ l, P y.addr) : ∀ y ∈ m, P y.addr := by
  induction l generalizing m with
  | nil => cases m with | nil => exact hl | cons _ _ => cases h
  | cons a l ih =>
    cases m with
    | nil => cases h
    | cons b m =>
      simp only [allSame, Bool.and_eq_true] at h
      obtain ⟨h1, h2⟩ := h
      have h1 : a.cur = b.cur ∧ a.addr = b.addr ∧ a.amount = b.amount ∧ a.memo = b.memo ∧ a.isExec = b.isExec := by simpa [sameIn] using h1
      intro y hy
      rcases List.mem_cons.1 hy with rfl | hy
      · rw [← h1.2.1]; exact hl a (List.mem_cons_self ..)
      · exact ih h2 (fun y hy => hl y (List.mem_cons_of_mem _ hy)) y hy

theorem agrees_addr {r : ExecRes} {ex : Option Err} {cost fee : Nat} {ins : List TxIn} {outs : List TxOut} (h : agrees r ex cost fee ins outs = true)
    (hl : ∀ y ∈ ins, P y.addr) : ∀ y ∈ r.inputs, P y.addr := by
  unfold agrees at h
  simp only [Bool.and_eq_true] at h
  obtain ⟨_, _, _, h, _⟩ := h
  split at h
  · simp only [Bool.and_eq_true] at h
    rw [List.isEmpty_iff.1 h.1]
    exact fun _ h => nomatch h
  · simp only [Bool.and_eq_true] at h
    exact allSame_addr h.1 hl

theorem reject_in : Verdict.In P .reject := ⟨fun _ h => (nomatch h), fun _ _ h => (nomatch h), fun _ _ h => (nomatch h), fun _ _ h => (nomatch h)⟩

theorem accept_in {r : ExecRes} {t : St} (hr : ∀ y ∈ r.inputs, P y.addr) (ht : StIn P t) : Verdict.In P (.accept r (some ⟨t.vars, t.cbal⟩)) := by
  refine ⟨fun a ha => ?_, fun r' wr h => ?_, fun r' wr h => ?_, fun r' wr h => ?_⟩
  · rcases List.mem_append.1 ha with ha | ha
    · obtain ⟨p, hp, rfl⟩ := List.mem_map.1 ha; exact ht.vars p hp
    · obtain ⟨p, hp, rfl⟩ := List.mem_map.1 ha; exact ht.cbal p hp
  · cases h; exact hr
  · cases h; exact ht.nv
  · cases h; exact ht.nb

theorem acceptNone_in {r : ExecRes} (hr : ∀ y ∈ r.inputs, P y.addr) : Verdict.In P (.accept r none) :=
  ⟨fun _ h => (nomatch h), fun r' wr h => by cases h; exact hr, fun _ _ h => (nomatch h), fun _ _ h => (nomatch h)⟩

/-- Reads, writes and payments of a validation stay within the locks, and are of executables. -/
theorem validate_loc {w : World} {tx : Tx} (h : Locked w tx) : (validate w tx).WP (w.mayRun tx.id) (Verdict.In (w.mayRun tx.id)) := by
  unfold validate
  refine Proc.WP.bind (prelude_loc w tx (St.init w tx) ⟨fun _ h => (nomatch h), fun _ h => (nomatch h), fun _ h => (nomatch h), .nil, .nil⟩) ?_
  rintro ⟨⟨lim, sf⟩ | e | _, s⟩ ⟨hs, _⟩
  · dsimp only
    refine Proc.WP.bind (body_loc h lim s hs) ?_
    have key : ∀ (ex0 : Option Err) ins outs t, StIn (w.mayRun tx.id) t → (∀ y ∈ ins, w.mayRun tx.id y.addr) → Proc.WP (α := Verdict) (w.mayRun tx.id)
        (Verdict.In (w.mayRun tx.id)) (match charge tx sf t ex0 with
          | none => .ret .reject
          | some (fee, ex) =>
            match tx.result with
            | some r => if agrees r ex t.cost fee ins outs then .ret (.accept r (if ex = none then some ⟨t.vars, t.cbal⟩ else none)) else .ret .reject
            | none =>
              match ex with
              | some e => .ret (.accept ⟨true, u32 t.cost, u32 fee, [], [], some e⟩ none)
              | none => .ret (.accept ⟨false, u32 t.cost, u32 fee, ins, outs, none⟩ (if ex = none then some ⟨t.vars, t.cbal⟩ else none))) := by
      intro ex0 ins outs t ht hins
      cases charge tx sf t ex0 with
      | none => exact reject_in
      | some y =>
        obtain ⟨fee, ex⟩ := y
        dsimp only
        cases tx.result with
        | some r' =>
          dsimp only
          split
          · next ha =>
            cases ex with
            | none => exact accept_in (agrees_addr ha hins) ht
            | some e => exact acceptNone_in (agrees_addr ha hins)
          · exact reject_in
        | none =>
          dsimp only
          cases ex with
          | none => exact accept_in hins ht
          | some e => exact acceptNone_in fun _ h => (nomatch h)
    rintro ⟨⟨ins, outs⟩ | e | _, t⟩ ⟨ht, hv⟩
    · exact key none ins outs t ht (hv _ rfl)
    · exact key (some e) [] [] t ht fun _ h => (nomatch h)
    · exact reject_in
  · exact reject_in
  · exact reject_in

end Verif.Ledger
