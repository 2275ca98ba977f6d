import Verif.Ledger.ParLemmas
import Verif.Ledger.PropsTx
/-
  Balances over the transactions of a block.
-/
namespace Verif.Ledger
open Verif Verif.Chain
open Verif.VM (mfind mput mfind_mput mput_nodup mem_mfind mfind_mem)

/-- What outputs bring to an account. -/
def recvBy (a q : Addr) : List TxOut → Nat
  | [] => 0
  | x :: l => (if a = x.addr ∧ q = x.cur then x.amount else 0) + recvBy a q l

theorem spentBy_append (a q : Addr) (l m : List TxIn) : spentBy a q (l ++ m) = spentBy a q l + spentBy a q m := by
  induction l with
  | nil => simp [spentBy]
  | cons x l ih => simp only [List.cons_append, spentBy, ih]; omega

theorem recvBy_append (a q : Addr) (l m : List TxOut) : recvBy a q (l ++ m) = recvBy a q l + recvBy a q m := by
  induction l with
  | nil => simp [recvBy]
  | cons x l ih => simp only [List.cons_append, recvBy, ih]; omega

theorem sumIn_append (q : Addr) (l m : List TxIn) : sumIn q (l ++ m) = sumIn q l + sumIn q m := by
  induction l with
  | nil => simp [sumIn]
  | cons x l ih => simp only [List.cons_append, sumIn, ih]; omega

theorem spentBy_none {a q : Addr} {l : List TxIn} (h : ∀ y ∈ l, y.addr ≠ a) : spentBy a q l = 0 := by
  induction l with
  | nil => rfl
  | cons x l ih =>
    rw [spentBy, ih fun y hy => h y (List.mem_cons_of_mem _ hy), if_neg fun e => h x (List.mem_cons_self ..) e.1.symm]

/-! ### Sums over accounts -/

/-- Sum over a list of accounts. -/
def over (f : Addr → Nat) (L : List Addr) : Nat := (L.map f).sum

theorem over_cons (f : Addr → Nat) (a : Addr) (L : List Addr) : over f (a :: L) = f a + over f L := by simp [over]

theorem over_le {f g : Addr → Nat} {L : List Addr} (h : ∀ a ∈ L, f a ≤ g a) : over f L ≤ over g L := by
  induction L with
  | nil => exact Nat.le_refl _
  | cons a L ih =>
    rw [over_cons, over_cons]
    exact Nat.add_le_add (h a (List.mem_cons_self ..)) (ih fun b hb => h b (List.mem_cons_of_mem _ hb))

theorem over_add (f g : Addr → Nat) (L : List Addr) : over (fun a => f a + g a) L = over f L + over g L := by
  induction L with
  | nil => rfl
  | cons a L ih => rw [over_cons, over_cons, over_cons, ih]; omega

theorem over_single {n b : Nat} : ∀ {L : List Addr}, L.Nodup → b ∈ L → over (fun a => if a = b then n else 0) L = n
  | c :: L, hn, hb => by
    rw [over_cons]
    have hz : ∀ {L : List Addr}, b ∉ L → over (fun a => if a = b then n else 0) L = 0 := by
      intro L
      induction L with
      | nil => intro _; rfl
      | cons d L ih =>
        intro h
        rw [over_cons, ih fun e => h (List.mem_cons_of_mem _ e), if_neg fun e : d = b => h (e ▸ List.mem_cons_self ..)]
    rcases List.mem_cons.1 hb with rfl | hb
    · rw [if_pos rfl, hz (List.nodup_cons.1 hn).1]; omega
    · rw [if_neg fun e : c = b => (List.nodup_cons.1 hn).1 (e ▸ hb), over_single (List.nodup_cons.1 hn).2 hb]; omega

theorem over_spent (q : Addr) {L : List Addr} (hn : L.Nodup) : ∀ {l : List TxIn}, (∀ y ∈ l, y.addr ∈ L) → over (fun a => spentBy a q l) L = sumIn q l
  | [], _ => by
    have : ∀ L : List Addr, over (fun _ => 0) L = 0 := by
      intro L
      induction L with
      | nil => rfl
      | cons a L ih => rw [over_cons, ih]
    exact this L
  | x :: l, h => by
    have ih := over_spent q hn (l := l) fun y hy => h y (List.mem_cons_of_mem _ hy)
    have hx := over_single (n := if x.cur = q then x.amount else 0) hn (h x (List.mem_cons_self ..))
    have e : (fun a => spentBy a q (x :: l)) = fun a => (if a = x.addr then if x.cur = q then x.amount else 0 else 0) + spentBy a q l := by
      funext a
      rw [spentBy]
      by_cases h1 : a = x.addr
      · by_cases h2 : x.cur = q
        · simp [h1, h2]
        · simp [h1, h2]; exact fun e => absurd e.symm h2
      · simp [h1]
    rw [e, over_add, ih, hx, sumIn]

theorem over_recv (q : Addr) {L : List Addr} (hn : L.Nodup) : ∀ {l : List TxOut}, (∀ y ∈ l, y.addr ∈ L) → over (fun a => recvBy a q l) L = sumOut q l
  | [], _ => by
    have : ∀ L : List Addr, over (fun _ => 0) L = 0 := by
      intro L
      induction L with
      | nil => rfl
      | cons a L ih => rw [over_cons, ih]
    exact this L
  | x :: l, h => by
    have ih := over_recv q hn (l := l) fun y hy => h y (List.mem_cons_of_mem _ hy)
    have hx := over_single (n := if x.cur = q then x.amount else 0) hn (h x (List.mem_cons_self ..))
    have e : (fun a => recvBy a q (x :: l)) = fun a => (if a = x.addr then if x.cur = q then x.amount else 0 else 0) + recvBy a q l := by
      funext a
      rw [recvBy]
      by_cases h1 : a = x.addr
      · by_cases h2 : x.cur = q
        · simp [h1, h2]
        · simp [h1, h2]; exact fun e => absurd e.symm h2
      · simp [h1]
    rw [e, over_add, ih, hx, sumOut]

/-! ### Funds -/

/-- Fee and inputs of a transaction: what `checkFunds` takes. -/
def plainDebits (tx : Tx) : List TxIn :=
  match tx.sender, tx.result with
  | some a, some r => { addr := a, cur := 0, amount := r.fee } :: (if r.didFail then [] else tx.inputs)
  | _, _ => []

/-- Inputs of the execution. -/
def execDebits (tx : Tx) : List TxIn :=
  match tx.result with
  | some r => if r.didFail then [] else r.inputs
  | none => []

theorem take_val {b b' : Bals} {a q n : Addr} (h : take b a q n = some b') (c p : Addr) :
    (b' c p).getD 0 + (if c = a ∧ p = q then n else 0) = (b c p).getD 0 := by
  unfold take at h
  cases e : b a q with
  | none => rw [e] at h; cases h
  | some m =>
    rw [e] at h
    dsimp only at h
    split at h
    · cases h
    · next hnm =>
      have hnm : n ≤ m := Nat.not_lt.1 hnm
      cases h
      by_cases hc : c = a ∧ p = q
      · simp only [if_pos hc]
        rw [hc.1, hc.2, e]
        simp only [Option.getD_some]
        exact Nat.sub_add_cancel hnm
      · simp only [if_neg hc]; rfl

theorem takeAll_val : ∀ {l : List TxIn} {b b' : Bals}, takeAll b l = some b' → ∀ c p, (b' c p).getD 0 + spentBy c p l = (b c p).getD 0
  | [], b, b', h, c, p => by cases h; rfl
  | x :: l, b, b', h, c, p => by
    unfold takeAll at h
    obtain ⟨b1, h1, h2⟩ := Option.bind_eq_some_iff.1 h
    have := take_val h1 c p
    have := takeAll_val h2 c p
    rw [spentBy]
    omega

theorem checkFunds_spent {depends : Addr → Option (List Addr)} {y : Ctx} : ∀ (txs : List Tx) (b : Bals) (x : Ctx) (seen : List Addr),
    checkFunds depends b x seen txs = .ok y → ∀ a q, spentBy a q (txs.flatMap plainDebits) ≤ (b a q).getD 0
  | [], b, x, seen, _, a, q => Nat.zero_le _
  | tx :: txs, b, x, seen, hc, a, q => by
    unfold checkFunds at hc
    split at hc
    · next a0 r hs hr =>
      split at hc
      · cases hc
      · split at hc
        · cases hc
        · next b1 h1 =>
          split at hc
          · cases hc
          · next b2 h2 =>
            have hp : plainDebits tx = { addr := a0, cur := 0, amount := r.fee } :: (if r.didFail then [] else tx.inputs) := by
              unfold plainDebits; rw [hs, hr]
            have e1 := take_val h1 a q
            have e2 : (b2 a q).getD 0 + spentBy a q (if r.didFail then [] else tx.inputs) = (b1 a q).getD 0 := by
              cases hd : r.didFail with
              | true => rw [hd] at h2; cases h2; rfl
              | false => rw [hd] at h2; exact takeAll_val h2 a q
            cases hx : x.prepare depends tx with
            | throw => rw [hx] at hc; cases hc
            | ub => rw [hx] at hc; cases hc
            | ok x' =>
              rw [hx] at hc
              have ih := checkFunds_spent txs b2 x' _ hc a q
              rw [List.flatMap_cons, spentBy_append, hp, spentBy]
              dsimp only
              omega
    · cases hc

theorem checkFunds_result {depends : Addr → Option (List Addr)} {y : Ctx} : ∀ (txs : List Tx) (b : Bals) (x : Ctx) (seen : List Addr),
    checkFunds depends b x seen txs = .ok y → ∀ tx ∈ txs, ∃ a r, tx.sender = some a ∧ tx.result = some r
  | [], b, x, seen, _, tx, h => by cases h
  | tx :: txs, b, x, seen, hc, t, ht => by
    unfold checkFunds at hc
    split at hc
    · next a0 r hs hr =>
      rcases List.mem_cons.1 ht with rfl | ht
      · exact ⟨a0, r, hs, hr⟩
      · split at hc
        · cases hc
        · split at hc
          · cases hc
          · split at hc
            · cases hc
            · next b2 h2 =>
              cases hx : x.prepare depends tx with
              | throw => rw [hx] at hc; cases hc
              | ub => rw [hx] at hc; cases hc
              | ok x' =>
                rw [hx] at hc
                exact checkFunds_result txs b2 x' _ hc t ht
    · cases hc

/-! ### Contracts -/

theorem puts_vars_bal : ∀ (l : List ((Addr × Nat) × Nat)) (g : Sto) (c q : Addr), (g.puts (l.map fun p => Wr.var p.1.1 p.1.2 p.2)).bal c q = g.bal c q
  | [], _, _, _ => rfl
  | p :: l, g, c, q => by
    rw [List.map_cons, Sto.puts, puts_vars_bal l]; rfl

theorem puts_append : ∀ (a b : List Wr) (g : Sto), g.puts (a ++ b) = (g.puts a).puts b
  | [], _, _ => rfl
  | x :: a, b, g => by rw [List.cons_append, Sto.puts, puts_append a b]; rfl

theorem puts_bals : ∀ (l : List ((Addr × Addr) × Nat)) (g : Sto) (c q : Addr), (l.map (·.1)).Nodup →
    (g.puts (l.map fun p => Wr.bal p.1.1 p.1.2 p.2)).bal c q = (match mfind l (c, q) with | some n => some n | none => g.bal c q)
  | [], _, _, _, _ => rfl
  | p :: l, g, c, q, hn => by
    rw [List.map_cons, Sto.puts, puts_bals l _ c q (List.nodup_cons.1 hn).2]
    have hm : mfind (p :: l) (c, q) = if p.1 = (c, q) then some p.2 else mfind l (c, q) := rfl
    rw [hm]
    by_cases h : p.1 = (c, q)
    · rw [if_pos h]
      have : mfind l (c, q) = none := by
        cases e : mfind l (c, q) with
        | none => rfl
        | some n =>
          exact absurd (List.mem_map.2 ⟨_, mfind_mem e, h.symm⟩) (List.nodup_cons.1 hn).1
      rw [this]
      show (if c = p.1.1 ∧ q = p.1.2 then some p.2 else g.bal c q) = some p.2
      rw [if_pos (by rw [h]; exact ⟨rfl, rfl⟩)]
    · rw [if_neg h]
      cases mfind l (c, q) with
      | some n => rfl
      | none =>
        show (if c = p.1.1 ∧ q = p.1.2 then some p.2 else g.bal c q) = g.bal c q
        rw [if_neg fun e => h (by rw [e.1, e.2])]

theorem depositOuts_recv (a q : Addr) (dep : List ((Addr × Addr) × Nat)) : recvBy a q (depositOuts dep) = gsum (fun k => decide (k = (a, q))) dep := by
  unfold depositOuts
  induction dep with
  | nil => rfl
  | cons p l ih =>
    rw [List.filter_cons]
    split
    · simp only [List.map_cons, recvBy, gsum, ih, decide_eq_true_eq]
      congr 1
      by_cases h : a = p.1.1 ∧ q = p.1.2
      · rw [if_pos h, if_pos (by rw [h.1, h.2])]
      · rw [if_neg h, if_neg fun e => h (by rw [e]; exact ⟨rfl, rfl⟩)]
    · next h =>
      have : p.2 = 0 := by simpa using h
      rw [ih, gsum, this]; simp

theorem netSpend_left (l : List ((Addr × Addr) × Nat)) : ∀ (dep : List ((Addr × Addr) × Nat)) (k : Addr × Addr),
    (mfind (netSpend l dep).2 k).getD 0 ≤ (mfind dep k).getD 0 := by
  induction l with
  | nil => intro dep k; exact Nat.le_refl _
  | cons x l ih =>
    intro dep k
    have h := ih (mput ltPair dep x.1 ((mfind dep x.1).getD 0 - min ((mfind dep x.1).getD 0) x.2)) k
    have h2 : (mfind (mput ltPair dep x.1 ((mfind dep x.1).getD 0 - min ((mfind dep x.1).getD 0) x.2)) k).getD 0 ≤ (mfind dep k).getD 0 := by
      rw [mfind_mput]
      split
      · next e => rw [← e]; simp
      · exact Nat.le_refl _
    unfold netSpend
    dsimp only
    split <;> exact Nat.le_trans h h2

variable {g : Sto}

theorem over_single_le {n b : Nat} {L : List Addr} (hn : L.Nodup) : over (fun a => if a = b then n else 0) L ≤ n := by
  by_cases h : b ∈ L
  · rw [over_single hn h]; exact Nat.le_refl _
  · have hz : ∀ {L : List Addr}, b ∉ L → over (fun a => if a = b then n else 0) L = 0 := by
      intro L
      induction L with
      | nil => intro _; rfl
      | cons d L ih =>
        intro hd
        rw [over_cons, ih fun h => hd (List.mem_cons_of_mem _ h), if_neg fun e : d = b => hd (e ▸ List.mem_cons_self ..)]
    rw [hz h]; exact Nat.zero_le _

theorem over_gsum (q : Addr) {L : List Addr} (hn : L.Nodup) (m : List ((Addr × Addr) × Nat)) : over (fun c => (mfind m (c, q)).getD 0) L ≤ gsum (ofCur q) m := by
  induction m with
  | nil =>
    have : ∀ L : List Addr, over (fun _ => 0) L = 0 := by
      intro L
      induction L with
      | nil => rfl
      | cons a L ih => rw [over_cons, ih]
    exact Nat.le_of_eq (this L)
  | cons p m ih =>
    have hm : ∀ k, mfind (p :: m) k = if p.1 = k then some p.2 else mfind m k := fun _ => rfl
    have h1 : over (fun c => (mfind (p :: m) (c, q)).getD 0) L ≤
        over (fun c => (if c = p.1.1 then (if ofCur q p.1 then p.2 else 0) else 0) + (mfind m (c, q)).getD 0) L := by
      refine over_le fun c _ => ?_
      rw [hm]
      split
      · next e => rw [e, if_pos rfl]; simp [ofCur]
      · exact Nat.le_add_left ..
    rw [over_add] at h1
    have h2 := over_single_le (n := if ofCur q p.1 then p.2 else 0) (b := p.1.1) hn
    rw [gsum]
    omega

/-- What a transaction does to the balance a contract sees; `d` is what was deposited. -/
theorem accepted_contract {w : World} {tx : Tx} {r : ExecRes} {wr : Option Writes} (h : (validate w tx).run g = .accept r wr) (hl : Locked w tx)
    (q : Addr) (hf : Fits g tx q) (hd : r.didFail = false) : ∃ d : Addr → Nat, (∀ L : List Addr, L.Nodup → over d L ≤ sumIn q tx.inputs) ∧ ∀ c,
    ((g.puts (Verdict.accept r wr).writes).bal c q).getD 0 + spentBy c q r.inputs ≤ (g.bal c q).getD 0 + recvBy c q r.outputs ∧
    ((g.puts (Verdict.accept r wr).writes).bal c q).getD 0 + spentBy c q r.inputs ≤ (g.bal c q).getD 0 + d c := by
  have hin := (validate_loc hl).result g
  rw [h] at hin
  obtain ⟨lim, sf, a, b, avail, s, o, t, fee, ex, ins, outs, hP, hb, hc, hm, _⟩ := validate_accept h
  have he : ex = none := by
    have := hm.fail
    rw [hd] at this
    cases ex with
    | none => rfl
    | some _ => cases this
  rcases hc with ⟨e, rfl, hc⟩ | ⟨rfl, hc⟩
  · obtain ⟨_, _, _, _, _, _, _, _, h1 | h1⟩ := charge_some hc
    · cases h1.1
    · rw [he] at h1; cases h1.2
  · have hwr := hm.commit
    rw [if_pos he] at hwr
    subst hwr
    have hnb := hin.nb r ⟨t.vars, t.cbal⟩ rfl
    have hbal : ∀ c, (g.puts (Verdict.accept r (some ⟨t.vars, t.cbal⟩)).writes).bal c q = balNow g t c q := by
      intro c
      show (g.puts ((t.vars.map fun p => Wr.var p.1.1 p.1.2 p.2) ++ t.cbal.map fun p => Wr.bal p.1.1 p.1.2 p.2)).bal c q = _
      rw [puts_append, puts_bals _ _ _ _ hnb, puts_vars_bal]
      rfl
    unfold body at hb
    rw [bind_okR] at hb
    obtain ⟨_, u, h1, hb⟩ := hb
    obtain ⟨T, m, hi, hT, _, _⟩ := core_money h1 hP.fresh_state q hf
    rcases finish_run hb with hb | ⟨_, e, hb⟩ | ⟨l, _, hb, ht, _⟩
    · cases hb
    · cases hb
    · cases hb
      refine ⟨fun c => (mfind u.dep (c, q)).getD 0, fun L hL => ?_, fun c => ?_⟩
      · have := over_gsum q hL u.dep
        have := hi.flow
        omega
      rw [hbal]
      have hns := (netSpend_sumF (fun k => decide (k = (c, q))) u.spend u.dep hi.nd).2
      rw [sumInF_acc] at hns
      have hbn : balNow g t c q = balNow g u c q := by rw [ht]; rfl
      rw [hbn]
      have hmv := hi.move c
      have g1 : gsum (fun k => decide (k = (c, q))) u.spend = sp u c q := gsum_single hi.ns _
      have g2 : gsum (fun k => decide (k = (c, q))) u.dep = (mfind u.dep (c, q)).getD 0 := gsum_single hi.nd _
      rw [g1, g2] at hns
      unfold bn at hmv
      rw [← allSame_spentBy (hm.inputs he), ← allSame_out (hm.outputs he), recvBy_append, recvBy_append, depositOuts_recv]
      have hle : gsum (fun k => decide (k = (c, q))) (netSpend u.spend u.dep).2 ≤ (mfind u.dep (c, q)).getD 0 := by
        rw [gsum_single (netSpend_sumF (fun _ => true) u.spend u.dep hi.nd).1]
        exact netSpend_left u.spend u.dep (c, q)
      have hfl := hi.flow
      have h5 : (mfind u.dep (c, q)).getD 0 ≤ gsum (ofCur q) u.dep := le_gsum (by simp [ofCur])
      show _ ∧ _ ≤ _ + (mfind u.dep (c, q)).getD 0
      constructor <;> omega

end Verif.Ledger
