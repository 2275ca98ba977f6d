import Verif.Ledger.TxLemmas
/-
  The phases of transaction validation: money, when they end normally.
-/
namespace Verif.Ledger
open Verif Verif.Chain
open Verif.VM (mfind mput mfind_mput mput_nodup mem_mfind mfind_mem)

variable {g : Sto}

def amt (s : St) (q : Addr) : Nat := (mfind s.amounts q).getD 0

/-- What inputs take from an account. -/
def spentBy (a q : Addr) : List TxIn → Nat
  | [] => 0
  | x :: l => (if a = x.addr ∧ q = x.cur then x.amount else 0) + spentBy a q l

/-! ### Inputs and outputs of the transaction -/

/-- Everything but cost, balances and amounts is left. -/
structure Frame2 (s t : St) : Prop where
  dep : t.dep = s.dep
  spend : t.spend = s.spend
  outs : t.outs = s.outs
  vars : t.vars = s.vars
  cbal : t.cbal = s.cbal

theorem Frame2.trans {s t u : St} (h : Frame2 s t) (k : Frame2 t u) : Frame2 s u :=
  ⟨k.dep.trans h.dep, k.spend.trans h.spend, k.outs.trans h.outs, k.vars.trans h.vars, k.cbal.trans h.cbal⟩

theorem takeInputs_ok {w : World} {lim : Nat} (l : List TxIn) : ∀ (i : Nat) (s t : St), R g (takeInputs w lim i l) s = (.ok (), t) →
    Frame2 s t ∧ ((s.amounts.map (·.1)).Nodup → (t.amounts.map (·.1)).Nodup) ∧
    (∀ q, amt s q + sumIn q l < 2 ^ 128 → amt t q = amt s q + sumIn q l) ∧
    (∀ a q, (s.bals a q = none → t.bals a q = none) ∧ ∀ b, s.bals a q = some b → spentBy a q l ≤ b ∧ t.bals a q = some (b - spentBy a q l)) ∧
    (∀ x ∈ l, x.sol = true ∧ x.auth = true ∧ (x.isExec = true → w.kind x.addr = some false) ∧ ∃ b, s.bals x.addr x.cur = some b) := by
  induction l with
  | nil =>
    intro i s t h
    obtain ⟨_, rfl⟩ := pure_okR h
    exact ⟨⟨rfl, rfl, rfl, rfl, rfl⟩, fun x => x, fun _ _ => by simp [sumIn], fun a q => ⟨fun x => x, fun b h => ⟨Nat.zero_le _, by simpa [spentBy] using h⟩⟩,
      fun x hx => nomatch hx⟩
  | cons x l ih =>
    intro i s t h
    unfold takeInputs at h
    simp only [bindM] at h
    rw [R_getS_bind] at h
    rw [bind_okR] at h
    obtain ⟨_, u1, h1, h⟩ := h
    have e1 : u1 = s ∧ ∃ b, s.bals x.addr x.cur = some b ∧ x.amount ≤ b := by
      cases hb : s.bals x.addr x.cur with
      | none => rw [hb] at h1; cases h1
      | some b =>
        rw [hb] at h1
        obtain ⟨p, q⟩ := needE_okR h1
        exact ⟨q, b, rfl, Nat.not_lt.1 p⟩
    obtain ⟨rfl, b, hb, hle⟩ := e1
    rw [bind_okR] at h
    obtain ⟨_, u2, h2, h⟩ := h
    obtain ⟨hsol, rfl⟩ := needS_okR h2
    rw [bind_okR] at h
    obtain ⟨_, u3, h3, h⟩ := h
    have e3 : u3 = { u2 with cost := u3.cost } ∧ (x.isExec = true → w.kind x.addr = some false) := by
      split at h3
      · obtain ⟨k, v, h4, h5⟩ := bind_okR.1 h3
        obtain ⟨rfl, h6⟩ := readContract_kind h4
        cases hk : w.kind x.addr with
        | none => rw [hk] at h5; cases h5
        | some c =>
          rw [hk] at h5
          obtain ⟨rfl, rfl⟩ := needE_okR h5
          exact ⟨h6, fun _ => rfl⟩
      · next hx => obtain ⟨_, rfl⟩ := pure_okR h3; exact ⟨rfl, fun e => absurd e hx⟩
    obtain ⟨e3, hkind⟩ := e3
    rw [bind_okR] at h
    obtain ⟨_, u4, h4, h⟩ := h
    obtain ⟨hauth, rfl⟩ := needS_okR h4
    rw [R_modS_bind] at h
    obtain ⟨f, nd, am, ba, ra⟩ := ih _ _ _ h
    rw [e3] at f nd am ba ra
    dsimp only at f nd am ba ra
    refine ⟨⟨f.dep, f.spend, f.outs, f.vars, f.cbal⟩, fun hn => nd (mput_nodup _ _ _ hn), fun q hx => ?_, fun a q => ⟨fun hn => ?_, fun b' hb' => ?_⟩, ?_⟩
    · have key : amt { u2 with
          cost := u4.cost
          bals := fun a q => if a = x.addr ∧ q = x.cur then (u2.bals a q).map (· - x.amount) else u2.bals a q
          amounts := madd ltA u2.amounts x.cur x.amount } q = amt u2 q + if x.cur = q then x.amount else 0 := by
        unfold amt madd
        rw [mfind_mput]
        by_cases e : q = x.cur
        · subst e
          rw [if_pos rfl, if_pos rfl, Option.getD_some]
          have := hx
          simp only [sumIn, if_true, amt] at this
          rw [u128_of_lt' (by omega)]
        · rw [if_neg e, if_neg (fun h => e h.symm)]; rfl
      have := am q (by rw [key]; have := hx; simp only [sumIn] at this; omega)
      rw [this, key]
      simp only [sumIn]; omega
    · refine (ba a q).1 ?_
      simp only [hn, Option.map_none, ite_self]
    · simp only [spentBy]
      by_cases e : a = x.addr ∧ q = x.cur
      · obtain ⟨rfl, rfl⟩ := e
        rw [hb] at hb'; cases hb'
        obtain ⟨p1, p2⟩ := (ba x.addr x.cur).2 (b - x.amount) (by simp [hb])
        rw [if_pos ⟨rfl, rfl⟩]
        exact ⟨by omega, by rw [p2, Nat.sub_sub]⟩
      · obtain ⟨p1, p2⟩ := (ba a q).2 b' (by rw [if_neg e, hb'])
        rw [if_neg e, Nat.zero_add]
        exact ⟨p1, p2⟩
    · intro y hy
      rcases List.mem_cons.1 hy with rfl | hy
      · exact ⟨hsol, hauth, hkind, b, hb⟩
      · obtain ⟨a1, a2, a3, b', a4⟩ := ra y hy
        refine ⟨a1, a2, a3, ?_⟩
        split at a4
        · next e => rw [e.1, e.2]; exact ⟨b, hb⟩
        · exact ⟨b', a4⟩

theorem giveOutputs_ok (l : List TxOut) : ∀ (i : Nat) (s t : St), R g (giveOutputs i l) s = (.ok (), t) →
    Frame2 s t ∧ t.cost = s.cost ∧ t.bals = s.bals ∧ ((s.amounts.map (·.1)).Nodup → (t.amounts.map (·.1)).Nodup) ∧
    (∀ q, amt t q + sumOut q l = amt s q) ∧ (∀ x ∈ l, x.amount ≠ 0) := by
  induction l with
  | nil =>
    intro i s t h
    obtain ⟨_, rfl⟩ := pure_okR h
    exact ⟨⟨rfl, rfl, rfl, rfl, rfl⟩, rfl, rfl, fun x => x, fun q => rfl, fun x hx => nomatch hx⟩
  | cons x l ih =>
    intro i s t h
    unfold giveOutputs at h
    simp only [bindM] at h
    rw [bind_okR] at h
    obtain ⟨_, u1, h1, h⟩ := h
    obtain ⟨hz, rfl⟩ := needE_okR h1
    rw [R_getS_bind] at h
    rw [bind_okR] at h
    obtain ⟨_, u2, h2, h⟩ := h
    obtain ⟨hle, rfl⟩ := needE_okR h2
    rw [R_modS_bind] at h
    obtain ⟨f, co, ba, nd, am, ra⟩ := ih _ _ _ h
    refine ⟨⟨f.dep, f.spend, f.outs, f.vars, f.cbal⟩, co, ba, fun hn => nd (mput_nodup _ _ _ hn), fun q => ?_, fun y hy => ?_⟩
    · have := am q
      simp only [sumOut]
      unfold amt at this ⊢
      dsimp only at this
      rw [mfind_mput] at this
      by_cases e : q = x.cur
      · subst e
        rw [if_pos rfl, Option.getD_some] at this
        rw [if_pos rfl]
        omega
      · rw [if_neg e] at this
        rw [if_neg (fun h => e h.symm)]
        omega
    · rcases List.mem_cons.1 hy with rfl | hy
      · exact hz
      · exact ra y hy

/-! ### Contracts -/

/-- The accounts of a validation in progress, in the currency `q`: `T` is what the inputs brought beyond
    the outputs, `mt` what was minted. -/
structure Inv (g : Sto) (q : Addr) (T mt : Nat) (s : St) : Prop where
  ns : (s.spend.map (·.1)).Nodup
  nd : (s.dep.map (·.1)).Nodup
  na : (s.amounts.map (·.1)).Nodup
  move : ∀ c, bn g s c q + sp s c q = (g.bal c q).getD 0 + (mfind s.dep (c, q)).getD 0
  flow : amt s q + gsum (ofCur q) s.dep = T
  outs : sumOut q s.outs = gsum (ofCur q) s.spend + mt

theorem Inv.bound {q : Addr} {T mt : Nat} {s : St} (h : Inv g q T mt s) (hb : ∀ c, (g.bal c q).getD 0 + T < 2 ^ 128) (c : Addr) :
    bn g s c q + sp s c q < 2 ^ 128 := by
  rw [h.move]
  have h1 : (mfind s.dep (c, q)).getD 0 ≤ gsum (ofCur q) s.dep := le_gsum (by simp [ofCur])
  have h2 := h.flow
  have h3 := hb c
  omega

theorem Inv.congr {q : Addr} {T mt : Nat} {s t : St} (h : Inv g q T mt s) (e : t = { s with cost := t.cost }) : Inv g q T mt t := by
  rw [e]; exact ⟨h.ns, h.nd, h.na, h.move, h.flow, h.outs⟩

/-- No token outside the contracts that may run, and none a program never mints, is minted. -/
def OnlyBy (w : World) (id c : Addr) (p : Prog) (q : Addr) (mt : Nat) : Prop :=
  (¬ w.mayRun id q → mt = 0) ∧ (p.neverMints q c → mt = 0)

theorem inv_pay {q : Addr} {T mt : Nat} {m : Addr → Nat} {s t : St} (h : Inv g q T mt s) (hb : ∀ c, (g.bal c q).getD 0 + T < 2 ^ 128)
    (p : Pay g m s t) (h2 : t.amounts = s.amounts) (h3 : t.dep = s.dep) : Inv g q T (mt + m q) t := by
  have hx := h.bound hb
  refine ⟨p.nodup h.ns, by rw [h3]; exact h.nd, by rw [h2]; exact h.na, fun c => ?_, ?_, ?_⟩
  · rw [p.move q hx, h3]; exact h.move c
  · unfold amt; rw [h2, h3]; exact h.flow
  · have := p.outs h.ns q hx
    have := h.outs
    omega

theorem exec_money {w : World} {tx : Tx} {c : Addr} {x : Bool} (hx : x = true → w.isExec tx.id c) {u : Option (Addr × Bool)}
    {d : Option (Addr × Nat)} {p : Prog} {e : Err} {s t : St} {q : Addr} {T mt : Nat}
    (h : R g (executeOp w tx c x u d p e) s = (.ok (), t)) (hi : Inv g q T mt (credited g s c d))
    (hb : ∀ c, (g.bal c q).getD 0 + T < 2 ^ 128) : ∃ m : Nat, Inv g q T (mt + m) t ∧ OnlyBy w tx.id c p q m := by
  rcases executeOp_run h with ⟨_, h⟩ | ⟨hx', avail, gas, h1, h2⟩
  · exact absurd rfl (h ())
  · obtain ⟨_, _, ha, hd, _, m, hp, h3, h4⟩ := runEngine_run (hx hx') h2
    exact ⟨m q, inv_pay hi hb hp ha hd, h3 q, h4 q⟩

theorem deploy_money {w : World} {tx : Tx} {s t : St} {q : Addr} {T mt : Nat} (h : R g (runDeploy w tx) s = (.ok (), t)) (hi : Inv g q T mt s)
    (hb : ∀ c, (g.bal c q).getD 0 + T < 2 ^ 128) : ∃ m : Nat, Inv g q T (mt + m) t ∧
      (¬ w.mayRun tx.id q → m = 0) ∧ ((∀ d, tx.deploy = some d → ∀ p, d.init = some p → p.neverMints q tx.id) → m = 0) := by
  unfold runDeploy at h
  cases hd : tx.deploy with
  | none =>
    rw [hd] at h
    obtain ⟨_, rfl⟩ := pure_okR h
    exact ⟨0, hi, fun _ => rfl, fun _ => rfl⟩
  | some d =>
    rw [hd] at h
    simp only [bindM] at h
    rw [bind_okR] at h
    obtain ⟨_, u, h1, h⟩ := h
    obtain ⟨_, rfl⟩ := needE_okR h1
    cases hp : d.init with
    | none =>
      rw [hp] at h
      obtain ⟨_, rfl⟩ := pure_okR h
      exact ⟨0, hi, fun _ => rfl, fun _ => rfl⟩
    | some p =>
      rw [hp] at h
      rw [bind_okR] at h
      obtain ⟨_, u, h2, h⟩ := h
      obtain ⟨_, rfl⟩ := needE_okR h2
      obtain ⟨m, i, o1, o2⟩ := exec_money (fun _ => .inl rfl) h hi hb
      exact ⟨m, i, o1, fun hq => o2 (hq d rfl p hp)⟩

/-- Taking a deposit from the inputs and giving it to the contract. -/
theorem deposit_money {c : Addr} {d : Option (Addr × Nat)} {e : Err} {s t : St} {q' : Addr} {T mt : Nat}
    (h : R g (takeDeposit c d e) s = (.ok (), t)) (hi : Inv g q' T mt s) (hb : ∀ c, (g.bal c q').getD 0 + T < 2 ^ 128) :
    Inv g q' T mt (credited g t c d) := by
  unfold takeDeposit at h
  cases d with
  | none => obtain ⟨_, rfl⟩ := pure_okR h; exact hi
  | some x =>
    obtain ⟨q, n⟩ := x
    rw [R_getS_bind] at h
    rw [bind_okR] at h
    obtain ⟨_, u, h1, h⟩ := h
    obtain ⟨hle, rfl⟩ := needE_okR h1
    have ht := modS_okR h
    subst ht
    refine ⟨hi.ns, mput_nodup _ _ _ hi.nd, mput_nodup _ _ _ hi.na, fun c' => ?_, ?_, hi.outs⟩
    · have e3 : bn g (credited g { u with amounts := mput ltA u.amounts q ((mfind u.amounts q).getD 0 - n), dep := madd ltPair u.dep (c, q) n } c (some (q, n))) c' q' = _ :=
        setBal_bn _ c q (u128 (n + bn g u c q)) c' q'
      rw [e3]
      have hm := hi.move c'
      unfold credited sp at hm ⊢
      dsimp only [madd]
      rw [mfind_mput]
      by_cases e : c' = c ∧ q' = q
      · obtain ⟨rfl, rfl⟩ := e
        have hfl := hi.flow
        have hbd := hb c'
        have hd : (mfind u.dep (c', q')).getD 0 ≤ gsum (ofCur q') u.dep := le_gsum (by simp [ofCur])
        unfold amt at hfl
        rw [if_pos ⟨rfl, rfl⟩, if_pos rfl, Option.getD_some, u128_of_lt' (by omega), u128_of_lt' (by omega)]
        omega
      · rw [if_neg e, if_neg (fun h => e (by cases h; exact ⟨rfl, rfl⟩))]
        exact hm
    · have hg := gsum_mput ltPair (ofCur q') hi.nd (c, q) (u128 ((mfind u.dep (c, q)).getD 0 + n))
      have hm := hi.flow
      unfold amt at hm
      unfold credited amt
      dsimp only [madd]
      rw [mfind_mput]
      simp only [ofCur, decide_eq_true_eq] at hg hm ⊢
      by_cases e : q' = q
      · subst e
        have hbd := hb c
        have hd : (mfind u.dep (c, q')).getD 0 ≤ gsum (ofCur q') u.dep := le_gsum (by simp [ofCur])
        rw [u128_of_lt' (by omega)] at hg ⊢
        simp only [if_true] at hg
        rw [if_pos rfl, Option.getD_some]
        omega
      · rw [if_neg (fun h => e h.symm), if_neg (fun h => e h.symm)] at hg
        rw [if_neg e]
        omega

theorem ops_money {w : World} {tx : Tx} {lim : Nat} (l : List Op) : ∀ (i : Nat) (s t : St) (q : Addr) (T mt : Nat),
    R g (runOps w tx lim i l) s = (.ok (), t) → Inv g q T mt s → (∀ c, (g.bal c q).getD 0 + T < 2 ^ 128) →
    ∃ m : Nat, Inv g q T (mt + m) t ∧ (¬ w.mayRun tx.id q → m = 0) ∧
      ((∀ o ∈ l, o.prog.neverMints q (if o.addr = 0 then tx.id else o.addr)) → m = 0) := by
  induction l with
  | nil =>
    intro i s t q T mt h hi hb
    obtain ⟨_, rfl⟩ := pure_okR h
    exact ⟨0, hi, fun _ => rfl, fun _ => rfl⟩
  | cons x l ih =>
    intro i s t q T mt h hi hb
    unfold runOps at h
    simp only [bindM] at h
    rw [bind_okR] at h
    obtain ⟨_, u, h1, h⟩ := h
    obtain ⟨_, rfl⟩ := needE_okR h1
    rw [bind_okR] at h
    obtain ⟨k, v, h2, h⟩ := h
    obtain ⟨hk, hv⟩ := kindOf_run h2
    have hi' := hi.congr hv
    rw [bind_okR] at h
    obtain ⟨_, w', h3, h⟩ := h
    cases k with
    | none => cases h3
    | some b =>
      dsimp only at h3
      obtain ⟨_, z, h4, h5⟩ := bind_okR.1 h3
      have hz := deposit_money h4 hi' hb
      obtain ⟨m, i1, o1, o2⟩ := exec_money (fun e => hk (by rw [e])) h5 hz hb
      obtain ⟨m2, i2, p1, p2⟩ := ih _ _ _ q T _ h i1 hb
      refine ⟨m + m2, by rw [← Nat.add_assoc]; exact i2, fun hq => ?_, fun hq => ?_⟩
      · rw [o1 hq, p1 hq]
      · rw [o2 (hq x (List.mem_cons_self ..)), p2 (fun o ho => hq o (List.mem_cons_of_mem _ ho))]

/-! ### The end -/

/-- Sum of the inputs from the accounts that satisfy `f`. -/
def sumInF (f : Addr × Addr → Bool) : List TxIn → Nat
  | [] => 0
  | x :: l => (if f (x.addr, x.cur) then x.amount else 0) + sumInF f l

theorem sumInF_cur (q : Addr) (l : List TxIn) : sumInF (ofCur q) l = sumIn q l := by
  induction l with
  | nil => rfl
  | cons x l ih => simp only [sumInF, sumIn, ih, ofCur, decide_eq_true_eq]

theorem sumInF_acc (a q : Addr) (l : List TxIn) : sumInF (fun k => decide (k = (a, q))) l = spentBy a q l := by
  induction l with
  | nil => rfl
  | cons x l ih =>
    simp only [sumInF, spentBy, ih, decide_eq_true_eq, Prod.mk.injEq]
    congr 1
    by_cases h : a = x.addr ∧ q = x.cur
    · rw [if_pos h, if_pos ⟨h.1.symm, h.2.symm⟩]
    · rw [if_neg h, if_neg (fun e => h ⟨e.1.symm, e.2.symm⟩)]

theorem netSpend_sumF (f : Addr × Addr → Bool) (l : List ((Addr × Addr) × Nat)) : ∀ (dep : List ((Addr × Addr) × Nat)), (dep.map (·.1)).Nodup →
    ((netSpend l dep).2.map (·.1)).Nodup ∧
    sumInF f (netSpend l dep).1 + gsum f dep = gsum f l + gsum f (netSpend l dep).2 := by
  induction l with
  | nil => intro dep hn; exact ⟨hn, by simp [netSpend, sumInF, gsum]⟩
  | cons x l ih =>
    intro dep hn
    obtain ⟨k, n⟩ := x
    obtain ⟨h1, h2⟩ := ih (mput ltPair dep k ((mfind dep k).getD 0 - min ((mfind dep k).getD 0) n)) (mput_nodup _ _ _ hn)
    have key : sumInF f (netSpend l (mput ltPair dep k ((mfind dep k).getD 0 - min ((mfind dep k).getD 0) n))).1
        + (if f k then n - min ((mfind dep k).getD 0) n else 0) + gsum f dep = gsum f ((k, n) :: l)
        + gsum f (netSpend l (mput ltPair dep k ((mfind dep k).getD 0 - min ((mfind dep k).getD 0) n))).2 := by
      have a2 := gsum_mput ltPair f hn k ((mfind dep k).getD 0 - min ((mfind dep k).getD 0) n)
      simp only [gsum]
      cases e : f k
      · rw [e] at a2
        simp only [Bool.false_eq_true, if_false] at a2 ⊢
        omega
      · rw [e] at a2
        simp only [if_true] at a2 ⊢
        omega
    unfold netSpend
    dsimp only
    split
    · refine ⟨h1, ?_⟩
      simp only [sumInF]
      have hk : (k.1, k.2) = k := rfl
      rw [hk]
      omega
    · next hz =>
      refine ⟨h1, ?_⟩
      rw [Decidable.not_not.1 hz, ite_self] at key
      omega

theorem netSpend_sum (l : List ((Addr × Addr) × Nat)) (dep : List ((Addr × Addr) × Nat)) (hn : (dep.map (·.1)).Nodup) (q : Addr) :
    sumIn q (netSpend l dep).1 + gsum (ofCur q) dep = gsum (ofCur q) l + gsum (ofCur q) (netSpend l dep).2 := by
  rw [← sumInF_cur]; exact (netSpend_sumF _ l dep hn).2

theorem depositOuts_sum (q : Addr) (dep : List ((Addr × Addr) × Nat)) : sumOut q (depositOuts dep) = gsum (ofCur q) dep := by
  unfold depositOuts
  induction dep with
  | nil => rfl
  | cons p l ih =>
    rw [List.filter_cons]
    split
    · simp only [List.map_cons, sumOut, gsum, ih, ofCur, decide_eq_true_eq]
    · next h =>
      have : p.2 = 0 := by simpa using h
      rw [ih, gsum, this]; simp

theorem gsum_zero (q : Addr) (m : List (Addr × Nat)) (h : m.all (fun p => decide (p.2 = 0)) = true) : gsum (fun j => decide (j = q)) m = 0 := by
  induction m with
  | nil => rfl
  | cons p m ih =>
    rw [List.all_cons, Bool.and_eq_true] at h
    have : p.2 = 0 := by simpa using h.1
    rw [gsum, ih h.2, this]; simp

theorem leftover_sum (q id : Addr) (m : List (Addr × Nat)) :
    sumOut q ((m.filter fun p => p.2 ≠ 0).map fun p => { addr := id, cur := p.1, amount := p.2 }) = gsum (fun j => decide (j = q)) m := by
  induction m with
  | nil => rfl
  | cons p m ih =>
    rw [List.filter_cons]
    split
    · simp only [List.map_cons, sumOut, gsum, ih, decide_eq_true_eq]
    · next h =>
      have : p.2 = 0 := by simpa using h
      rw [ih, gsum, this]; simp

theorem implicit_sum {w : World} (hu : ∀ l, (w.umap l).Perm l) {am : List (Addr × Nat)} (hn : (am.map (·.1)).Nodup) {id : Addr} {d : Bool}
    {l : List TxOut} (h : implicitDeposit w am id d = some l) (q : Addr) : sumOut q l = (mfind am q).getD 0 := by
  unfold implicitDeposit at h
  dsimp only at h
  rw [← gsum_single hn]
  have hp : (if w.height ≥ w.params.hardfork2 then am else w.umap am).Perm am := by
    split
    · exact .refl _
    · exact hu am
  rw [← gsum_perm hp]
  generalize (if w.height ≥ w.params.hardfork2 then am else w.umap am) = m at h ⊢
  split at h
  · next hz => cases h; rw [gsum_zero q m hz]; rfl
  · split at h
    · cases h; exact leftover_sum q id m
    · cases h

end Verif.Ledger
