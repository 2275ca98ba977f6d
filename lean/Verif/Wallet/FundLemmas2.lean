import Verif.Wallet.FundLemmas
/-
  `gather_inputs` and the funding part of `complete` as a whole.
-/
namespace Verif.Wallet
open Verif

theorem Pointwise.trans {α : Type} {R : α → α → Prop} (ht : ∀ a b c, R a b → R b c → R a c) {l m n : List α}
    (h : Pointwise R l m) (h' : Pointwise R m n) : Pointwise R l n := by
  induction h generalizing n with
  | nil => cases h'; exact .nil
  | cons hab _ ih =>
    cases h' with
    | cons hbc h'' => exact .cons (ht _ _ _ hab hbc) (ih h'')

theorem Pointwise.append {α : Type} {R : α → α → Prop} {l m l' m' : List α}
    (h : Pointwise R l m) (h' : Pointwise R l' m') : Pointwise R (l ++ l') (m ++ m') := by
  induction h with
  | nil => exact h'
  | cons hab _ ih => exact .cons hab ih

/-- New inputs: nothing but the four fields the wallet fills in. -/
def Fresh (memo : Option Nat) (i : TxIn) : Prop :=
  i.memo = memo ∧ i.solution = noSolution ∧ i.exec = false ∧ 0 < i.amount

/-- `ins'` is `ins` with grown amounts, followed by new inputs. -/
def Extends (w : W) (memo : Option Nat) (ins ins' : List TxIn) : Prop :=
  ∃ old new, ins' = old ++ new ∧ Pointwise Grown ins old ∧
    ∀ i ∈ new, Fresh memo i ∧ (w.balance.find (i.address, i.contract)).isSome = true

theorem Extends.refl (w : W) (memo : Option Nat) (ins : List TxIn) : Extends w memo ins ins :=
  ⟨ins, [], by simp, forall2_grown_refl ins, by simp⟩

theorem le_inSum {ins : List TxIn} {i : TxIn} (h : i ∈ ins) : i.amount ≤ inSum ins i.contract := by
  induction ins with
  | nil => cases h
  | cons j l ih =>
    rw [inSum_cons]
    rcases List.mem_cons.1 h with rfl | h
    · simp
    · have := ih h; omega

theorem drawn_le_inSum (ins : List TxIn) (a c : Addr) : drawn ins (a, c) ≤ inSum ins c := by
  induction ins with
  | nil => simp
  | cons j l ih =>
    rw [inSum_cons, drawn_cons]
    by_cases h : (j.address, j.contract) = (a, c)
    · rw [if_pos h, if_pos (Prod.mk.inj h).2]; omega
    · rw [if_neg h]; omega

theorem perm_sum {l m : List Nat} (h : l.Perm m) : l.sum = m.sum := by
  induction h with
  | nil => rfl
  | cons _ _ ih => simp [ih]
  | swap a b l => simp; omega
  | trans _ _ h1 h2 => exact h1.trans h2

/-- Everything `gather_inputs` does. -/
theorem gather_spec {E : Env} (hsrt : SortOk E.srt) {w : W} (hb : w.BalOk) {ins : List TxIn} {sp : AMap Key Nat}
    (hs : SpOk w sp) {amount : Nat} {c : Addr} (memo : Option Nat)
    (hfit : inSum ins c + amount < 2 ^ 128) :
    (gather E w ins sp amount c memo = .throw ↔ room w.balance sp c < amount) ∧
    (∀ ins' sp', gather E w ins sp amount c memo = .ok (ins', sp') →
      Extends w memo ins ins' ∧
      SpOk w sp' ∧ (∀ k, drawn ins' k + got sp k = drawn ins k + got sp' k) ∧
      (∀ k : Key, k.2 ≠ c → got sp' k = got sp k) ∧
      inSum ins' c = inSum ins c + amount ∧ (∀ c', c' ≠ c → inSum ins' c' = inSum ins c')) ∧
    gather E w ins sp amount c memo ≠ .ub := by
  obtain ⟨r1, r2, din, ds, r3, r4, r5⟩ := reuse_spec hb c ins amount sp (by omega) hs (by
    intro i hi hc
    have := le_inSum hi
    rw [hc] at this
    omega)
  unfold gather
  generalize reuse w c ins amount sp = r at *
  obtain ⟨a1, a2, a3⟩ := addrList_props hb r3.spok c
  obtain ⟨hperm, -⟩ := hsrt (addrList c r.2.2 w.balance)
  dsimp only
  have hmem : ∀ e ∈ E.srt (addrList c r.2.2 w.balance),
      (∃ b, w.balance.find (e.1, c) = some b ∧ got r.2.2 (e.1, c) + e.2 ≤ b) ∧ 0 < e.2 := by
    intro e he
    obtain ⟨⟨b, q1, q2⟩, q3⟩ := a2 e (hperm.mem_iff.1 he)
    exact ⟨⟨b, q1, by omega⟩, q3⟩
  obtain ⟨t1, t2, ⟨din', ds', t3, t4, t5⟩, t6, t7⟩ := takeNew_spec hb c memo (E.srt (addrList c r.2.2 w.balance))
    r.2.1 r.2.2 (by have := r3.le; omega) r3.spok
    (by unfold AMap.Ok at *; exact (hperm.map _).nodup_iff.2 a1) hmem
  have hsum : ((E.srt (addrList c r.2.2 w.balance)).map (·.2)).sum = room w.balance r.2.2 c := by
    rw [← a3]; exact perm_sum (hperm.map _)
  rw [hsum] at t6
  generalize takeNew c memo (E.srt (addrList c r.2.2 w.balance)) r.2.1 r.2.2 = t at *
  have hle := r3.le
  have hroom := r3.room
  refine ⟨?_, ?_, ?_⟩
  · rw [t6]
    constructor
    · intro h
      split at h
      · omega
      · cases h
    · intro h
      rw [if_pos (by omega)]
  · intro ins' sp' h
    split at h
    · cases h
    · rename_i h0
      simp only [Res.ok.injEq, Prod.mk.injEq] at h
      obtain ⟨rfl, rfl⟩ := h
      have h0 : t.2.1 = 0 := by omega
      refine ⟨⟨r.1, t.1, rfl, r1, ?_⟩, t3.spok, ?_, ?_, ?_, ?_⟩
      · intro i hi
        obtain ⟨q1, q2, q3, q4, q5, b, q6, q7⟩ := t1 i hi
        obtain ⟨⟨b', w1, w2⟩, -⟩ := hmem _ q6
        exact ⟨⟨q2, q3, q4, q5⟩, by rw [q1, w1]; rfl⟩
      · intro k
        rw [drawn_append, r4, t4, t3.gain, r3.gain]; omega
      · intro k hk
        rw [t3.other k hk, r3.other k hk]
      · rw [inSum_append, r5, t5]
        have := t3.sum; have := r3.sum; omega
      · intro c' hc
        rw [inSum_append, r2 c' hc]
        have : inSum t.1 c' = 0 := by
          unfold inSum
          have hz : (t.1.map fun i => if i.contract = c' then i.amount else 0) = t.1.map fun _ => 0 := by
            apply List.map_congr_left
            intro i hi
            rw [if_neg]
            rw [(t1 i hi).1]; exact Ne.symm hc
          rw [hz]
          generalize t.1 = l
          induction l with
          | nil => rfl
          | cons _ _ ih => simp [ih]
        omega
  · split <;> simp

theorem grown_fresh {memo : Option Nat} {i j : TxIn} (h : Grown i j) (hf : Fresh memo i) : Fresh memo j := by
  obtain ⟨x, rfl⟩ := h
  exact ⟨hf.1, hf.2.1, hf.2.2.1, by have := hf.2.2.2; show 0 < i.amount + x; omega⟩

theorem Pointwise.split {α : Type} {R : α → α → Prop} {a b m : List α} (h : Pointwise R (a ++ b) m) :
    ∃ a' b', m = a' ++ b' ∧ Pointwise R a a' ∧ Pointwise R b b' := by
  induction a generalizing m with
  | nil => exact ⟨[], m, rfl, .nil, h⟩
  | cons x a ih =>
    cases h with
    | cons hx h' =>
      obtain ⟨a', b', rfl, h1, h2⟩ := ih h'
      exact ⟨_ :: a', b', rfl, .cons hx h1, h2⟩

theorem Pointwise.mem_right {α : Type} {R : α → α → Prop} {l m : List α} (h : Pointwise R l m) {y : α} (hy : y ∈ m) :
    ∃ x ∈ l, R x y := by
  induction h with
  | nil => cases hy
  | cons hab _ ih =>
    rcases List.mem_cons.1 hy with rfl | hy
    · exact ⟨_, List.mem_cons_self, hab⟩
    · obtain ⟨x, hx, hr⟩ := ih hy
      exact ⟨x, List.mem_cons_of_mem _ hx, hr⟩

theorem Extends.trans {w : W} {memo : Option Nat} {l m n : List TxIn}
    (h : Extends w memo l m) (h' : Extends w memo m n) : Extends w memo l n := by
  obtain ⟨o1, n1, rfl, h1, h2⟩ := h
  obtain ⟨o2, n2, rfl, h3, h4⟩ := h'
  obtain ⟨a, b, rfl, h5, h6⟩ := h3.split
  refine ⟨a, b ++ n2, by simp, Pointwise.trans (fun _ _ _ p q => p.trans q) h1 h5, ?_⟩
  intro i hi
  rcases List.mem_append.1 hi with hi | hi
  · obtain ⟨x, hx, hg⟩ := h6.mem_right hi
    obtain ⟨q1, q2⟩ := h2 x hx
    refine ⟨grown_fresh hg q1, ?_⟩
    obtain ⟨y, rfl⟩ := hg
    exact q2
  · exact h4 i hi

/-- The loop over the currencies. -/
theorem fundAll_spec {E : Env} (hsrt : SortOk E.srt) {w : W} (hb : w.BalOk) (memo : Option Nat) (ms : AMap Addr Nat) :
    ∀ (ins : List TxIn) (sp : AMap Key Nat), AMap.Ok ms → SpOk w sp →
      (∀ e ∈ ms, inSum ins e.1 + e.2 < 2 ^ 128) →
      ((∃ r, fundAll E w memo ms ins sp = .ok r) ↔ ∀ e ∈ ms, e.2 ≤ room w.balance sp e.1) ∧
      fundAll E w memo ms ins sp ≠ .ub ∧
      (∀ ins' sp', fundAll E w memo ms ins sp = .ok (ins', sp') →
        Extends w memo ins ins' ∧ SpOk w sp' ∧ (∀ k, drawn ins' k + got sp k = drawn ins k + got sp' k) ∧
        ∀ c, inSum ins' c = inSum ins c + (ms.find c).getD 0) := by
  induction ms with
  | nil =>
    intro ins sp _ hs _
    refine ⟨by simp [fundAll], by simp [fundAll], ?_⟩
    intro ins' sp' h
    simp only [fundAll, Res.ok.injEq, Prod.mk.injEq] at h
    obtain ⟨rfl, rfl⟩ := h
    exact ⟨.refl _ _ _, hs, fun _ => rfl, fun c => by simp [AMap.find]⟩
  | cons e ms ih =>
    intro ins sp hok hs hfit
    unfold fundAll
    split
    · rename_i h0
      obtain ⟨i1, i2, i3⟩ := ih ins sp (AMap.ok_tail hok) hs (fun x hx => hfit x (List.mem_cons_of_mem _ hx))
      refine ⟨?_, i2, ?_⟩
      · rw [i1]; simp [h0]
      · intro ins' sp' h
        obtain ⟨q1, q2, q3, q4⟩ := i3 ins' sp' h
        refine ⟨q1, q2, q3, fun c => ?_⟩
        rw [q4 c]
        by_cases hc : e.1 = c
        · subst hc
          have : AMap.find ms e.1 = none := AMap.find_none_iff.2 (AMap.ok_head hok)
          simp [AMap.find, this, h0]
        · simp [AMap.find, hc]
    · rename_i h0
      obtain ⟨g1, g2, g3⟩ := gather_spec hsrt hb hs (amount := e.2) (c := e.1) (ins := ins) memo
        (hfit e List.mem_cons_self)
      cases hg : gather E w ins sp e.2 e.1 memo with
      | throw =>
        simp only [Res.bind_throw]
        refine ⟨?_, by simp, by simp⟩
        constructor
        · rintro ⟨r, h⟩; cases h
        · intro h
          have := h e List.mem_cons_self
          have := g1.1 hg
          omega
      | ub => exact absurd hg g3
      | ok r =>
        obtain ⟨ins1, sp1⟩ := r
        simp only [Res.bind_ok]
        obtain ⟨q1, q2, q3, q4, q5, q6⟩ := g2 _ _ hg
        have hroom : ∀ x ∈ ms, room w.balance sp1 x.1 = room w.balance sp x.1 := by
          intro x hx
          apply room_congr
          intro k hk
          exact q4 k (by rw [hk]; exact AMap.ok_head hok x hx)
        obtain ⟨i1, i2, i3⟩ := ih ins1 sp1 (AMap.ok_tail hok) q2 (by
          intro x hx
          rw [q6 _ (AMap.ok_head hok x hx)]
          exact hfit x (List.mem_cons_of_mem _ hx))
        refine ⟨?_, i2, ?_⟩
        · rw [i1]
          constructor
          · intro h x hx
            rcases List.mem_cons.1 hx with rfl | hx
            · rcases Nat.lt_or_ge (room w.balance sp x.1) x.2 with hlt | hge
              · rw [g1.2 hlt] at hg; cases hg
              · exact hge
            · rw [← hroom x hx]; exact h x hx
          · intro h x hx
            rw [hroom x hx]
            exact h x (List.mem_cons_of_mem _ hx)
        · intro ins' sp' h
          obtain ⟨w1, w2, w3, w4⟩ := i3 ins' sp' h
          refine ⟨q1.trans w1, w2, fun k => ?_, fun c => ?_⟩
          · have := w3 k; have := q3 k; omega
          · rw [w4 c]
            by_cases hc : e.1 = c
            · subst hc
              have : AMap.find ms e.1 = none := AMap.find_none_iff.2 (AMap.ok_head hok)
              simp [AMap.find, this, q5]
            · simp [AMap.find, hc, q6 c (Ne.symm hc)]

/-! ### the missing amounts -/

theorem find_addMissing (m : AMap Addr Nat) (c : Addr) (x : Nat) (c' : Addr) :
    ((addMissing m c x).find c').getD 0 = if c' = c then u128 ((m.find c).getD 0 + x) else (m.find c').getD 0 := by
  unfold addMissing
  rw [AMap.find_put]
  split <;> rfl

theorem fold_add {α : Type} (cur : α → Addr) (amt : α → Nat) (l : List α) :
    ∀ (m : AMap Addr Nat), AMap.Ok m →
      AMap.Ok (l.foldl (fun m x => addMissing m (cur x) (amt x)) m) ∧
      ∀ c, (m.find c).getD 0 + (l.map fun x => if cur x = c then amt x else 0).sum < 2 ^ 128 →
        ((l.foldl (fun m x => addMissing m (cur x) (amt x)) m).find c).getD 0
          = (m.find c).getD 0 + (l.map fun x => if cur x = c then amt x else 0).sum := by
  induction l with
  | nil => intro m hm; exact ⟨hm, fun c _ => by simp⟩
  | cons x l ih =>
    intro m hm
    obtain ⟨i1, i2⟩ := ih (addMissing m (cur x) (amt x)) (AMap.ok_put _ hm _ _)
    refine ⟨i1, fun c hc => ?_⟩
    rw [List.map_cons, List.sum_cons] at hc ⊢
    rw [List.foldl_cons]
    have hf := find_addMissing m (cur x) (amt x) c
    by_cases h : c = cur x
    · subst h
      simp only [if_true] at hc hf ⊢
      rw [u128_eq (by omega)] at hf
      rw [i2 _ (by rw [hf]; omega), hf]
      omega
    · simp only [if_neg h, if_neg (Ne.symm h)] at hc hf ⊢
      rw [i2 _ (by rw [hf]; omega), hf]
      omega

def depositOf (o : Op) : Option (Addr × Nat) :=
  match o.kind with
  | .deposit _ _ c a => some (c, a)
  | _ => none

theorem fold_ops (l : List Op) (m : AMap Addr Nat) :
    l.foldl addDeposit m = (l.filterMap depositOf).foldl (fun m x => addMissing m x.1 x.2) m := by
  induction l generalizing m with
  | nil => rfl
  | cons o l ih =>
    rw [List.foldl_cons, ih, List.filterMap_cons]
    unfold addDeposit depositOf
    cases o.kind <;> rfl

theorem sum_ops (l : List Op) (c : Addr) :
    ((l.filterMap depositOf).map fun x => if x.1 = c then x.2 else 0).sum = depSum l c := by
  unfold depSum
  induction l with
  | nil => rfl
  | cons o l ih =>
    rw [List.filterMap_cons, List.map_cons, List.sum_cons, ← ih]
    unfold depositOf
    cases o.kind <;> simp

theorem fold_ins (l : List TxIn) :
    ∀ (m : AMap Addr Nat), AMap.Ok m → (∀ c, (m.find c).getD 0 < 2 ^ 128) →
      let m' := l.foldl (fun m i =>
        let a := (m.find i.contract).getD 0
        m.put addrLt i.contract (if i.amount < a then sub128 a i.amount else 0)) m
      AMap.Ok m' ∧ ∀ c, (m'.find c).getD 0 = (m.find c).getD 0 - inSum l c := by
  induction l with
  | nil => intro m hm _; exact ⟨hm, fun c => by simp⟩
  | cons i l ih =>
    intro m hm hlt
    have hv : (if i.amount < (m.find i.contract).getD 0 then sub128 ((m.find i.contract).getD 0) i.amount else 0)
        = (m.find i.contract).getD 0 - i.amount := by
      split
      · rw [sub128_eq (by omega) (hlt _)]
      · omega
    have hf : ∀ c, ((AMap.put addrLt m i.contract ((m.find i.contract).getD 0 - i.amount)).find c).getD 0
        = if c = i.contract then (m.find i.contract).getD 0 - i.amount else (m.find c).getD 0 := by
      intro c
      rw [AMap.find_put]; split <;> rfl
    dsimp only
    rw [List.foldl_cons, hv]
    obtain ⟨i1, i2⟩ := ih _ (AMap.ok_put addrLt hm i.contract ((m.find i.contract).getD 0 - i.amount)) (by
      intro c
      rw [hf]
      split
      · have := hlt i.contract; omega
      · exact hlt c)
    refine ⟨i1, fun c => ?_⟩
    rw [i2 c, hf, inSum_cons]
    by_cases h : c = i.contract
    · subst h; simp only [if_true]; omega
    · rw [if_neg h, if_neg (Ne.symm h)]; omega

theorem missing_spec {tx : Tx} {dep : List (Addr × Nat)} (hf : Fits tx dep) :
    AMap.Ok (missing tx dep) ∧ ∀ c, ((missing tx dep).find c).getD 0 = need tx dep c := by
  unfold missing
  dsimp only
  rw [fold_ops]
  obtain ⟨a1, a2⟩ := fold_add (fun o : TxOut => o.contract) (fun o => o.amount) tx.outputs [] AMap.ok_nil
  generalize hm1 : tx.outputs.foldl (fun m o => addMissing m o.contract o.amount) [] = m1 at *
  have a2' : ∀ c, (AMap.find m1 c).getD 0 = outSum tx.outputs c := by
    intro c
    have := hf c
    rw [a2 c (by simp only [AMap.find, Option.getD_none, Nat.zero_add]; unfold outSum at this; omega)]
    simp [AMap.find, outSum]
  obtain ⟨b1, b2⟩ := fold_add (fun x : Addr × Nat => x.1) (fun x => x.2) (tx.ops.filterMap depositOf) m1 a1
  generalize hm2 : List.foldl (fun m (x : Addr × Nat) => addMissing m x.1 x.2) m1 (tx.ops.filterMap depositOf) = m2 at *
  have b2' : ∀ c, (AMap.find m2 c).getD 0 = outSum tx.outputs c + depSum tx.ops c := by
    intro c
    have := hf c
    rw [b2 c (by rw [sum_ops, a2']; omega), sum_ops, a2']
  obtain ⟨c1, c2⟩ := fold_ins tx.inputs m2 b1 (fun c => by rw [b2']; have := hf c; omega)
  dsimp only at c1 c2
  generalize hm3 : List.foldl _ m2 tx.inputs = m3 at *
  obtain ⟨d1, d2⟩ := fold_add (fun x : Addr × Nat => x.1) (fun x => x.2) dep m3 c1
  refine ⟨d1, fun c => ?_⟩
  have := hf c
  unfold extraSum at this
  rw [d2 c (by rw [c2, b2']; omega), c2, b2']
  rfl

theorem room_nil (w : W) (c : Addr) : room w.balance [] c = w.total c := by
  unfold room W.total
  congr 1

end Verif.Wallet
