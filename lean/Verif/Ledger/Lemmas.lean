import Verif.Ledger.Model
import Verif.VM.StorageLemmas
/-
  Helper lemmas of the ledger chapter.
-/
namespace Verif.Ledger
open Verif Verif.Chain
open Verif.VM (mfind mput mfind_mput mput_nodup mem_mfind mfind_mem minsert)

/-! ### Running -/

theorem run_bind {α β : Type} (g : Sto) (p : Proc α) (f : α → Proc β) : (p.bind f).run g = (f (p.run g)).run g := by
  induction p with
  | ret a => rfl
  | rdVar c l k ih => exact ih _
  | rdBal c q k ih => exact ih _

/-- The outcome of a step. -/
def R {α : Type} (g : Sto) (m : M α) (s : St) : Out α × St := (m s).run g

variable {g : Sto}

theorem R_bind {α β : Type} (m : M α) (f : α → M β) (s : St) :
    R g (M.bind m f) s = match R g m s with | (.ok a, t) => R g (f a) t | (.fail e, t) => (.fail e, t) | (.static, t) => (.static, t) := by
  unfold R M.bind
  rw [run_bind]
  rcases (m s).run g with ⟨_ | _ | _, t⟩ <;> rfl

theorem R_pure {α : Type} (a : α) (s : St) : R g (M.pure a) s = (.ok a, s) := rfl
theorem R_throwE {α : Type} (e : Err) (s : St) : R g (throwE e : M α) s = (.fail e, s) := rfl
theorem R_throwS {α : Type} (s : St) : R g (throwS : M α) s = (.static, s) := rfl
theorem R_getS (s : St) : R g getS s = (.ok s, s) := rfl
theorem R_modS (f : St → St) (s : St) : R g (modS f) s = (.ok (), f s) := rfl

theorem run_M {α : Type} (m : M α) (s : St) : (m s).run g = R g m s := rfl

theorem R_pure_bind {α β : Type} (a : α) (f : α → M β) (s : St) : R g (M.bind (M.pure a) f) s = R g (f a) s := by rw [R_bind, R_pure]
theorem R_getS_bind {β : Type} (f : St → M β) (s : St) : R g (M.bind getS f) s = R g (f s) s := by rw [R_bind, R_getS]
theorem R_modS_bind {β : Type} (h : St → St) (f : Unit → M β) (s : St) : R g (M.bind (modS h) f) s = R g (f ()) (h s) := by
  rw [R_bind, R_modS]
theorem R_throwE_bind {α β : Type} (e : Err) (f : α → M β) (s : St) : R g (M.bind (throwE e) f) s = (.fail e, s) := by rw [R_bind, R_throwE]
theorem R_throwS_bind {α β : Type} (f : α → M β) (s : St) : R g (M.bind throwS f) s = (.static, s) := by rw [R_bind, R_throwS]
theorem R_needE_bind {β : Type} (c : Prop) [Decidable c] (e : Err) (f : Unit → M β) (s : St) :
    R g (M.bind (needE c e) f) s = if c then R g (f ()) s else (.fail e, s) := by
  unfold needE
  split
  · exact R_pure_bind _ _ _
  · exact R_throwE_bind _ _ _
theorem R_needS_bind {β : Type} (c : Prop) [Decidable c] (f : Unit → M β) (s : St) :
    R g (M.bind (needS c) f) s = if c then R g (f ()) s else (.static, s) := by
  unfold needS
  split
  · exact R_pure_bind _ _ _
  · exact R_throwS_bind _ _
theorem R_assoc {α β γ : Type} (m : M α) (f : α → M β) (k : β → M γ) (s : St) :
    R g (M.bind (M.bind m f) k) s = R g (M.bind m fun a => M.bind (f a) k) s := by
  simp only [R_bind]
  rcases R g m s with ⟨_ | _ | _, t⟩ <;> simp only [R_bind]

theorem bind_okR {α β : Type} {m : M α} {f : α → M β} {s t : St} {b : β} :
    R g (M.bind m f) s = (.ok b, t) ↔ ∃ a u, R g m s = (.ok a, u) ∧ R g (f a) u = (.ok b, t) := by
  rw [R_bind]
  constructor
  · intro h
    rcases hm : R g m s with ⟨a | e | _, u⟩
    · rw [hm] at h; exact ⟨a, u, rfl, h⟩
    · rw [hm] at h; cases h
    · rw [hm] at h; cases h
  · rintro ⟨a, u, h1, h2⟩
    rw [h1]; exact h2

theorem pure_okR {α : Type} {a b : α} {s t : St} (h : R g (M.pure a) s = (.ok b, t)) : b = a ∧ t = s := by
  cases h; exact ⟨rfl, rfl⟩
theorem getS_okR {s t u : St} (h : R g getS s = (.ok u, t)) : u = s ∧ t = s := by
  cases h; exact ⟨rfl, rfl⟩
theorem modS_okR {f : St → St} {s t : St} {x : Unit} (h : R g (modS f) s = (.ok x, t)) : t = f s := by
  cases h; rfl
theorem needE_okR {c : Prop} [Decidable c] {e : Err} {s t : St} {x : Unit} (h : R g (needE c e) s = (.ok x, t)) : c ∧ t = s := by
  unfold needE at h
  split at h
  · next hc => exact ⟨hc, (pure_okR h).2⟩
  · cases h
theorem needS_okR {c : Prop} [Decidable c] {s t : St} {x : Unit} (h : R g (needS c) s = (.ok x, t)) : c ∧ t = s := by
  unfold needS at h
  split at h
  · next hc => exact ⟨hc, (pure_okR h).2⟩
  · cases h
theorem liftS_okR {r : Res Nat} {n : Nat} {s t : St} (h : R g (liftS r) s = (.ok n, t)) : r = .ok n ∧ t = s := by
  unfold liftS at h
  cases r with
  | ok m => obtain ⟨rfl, rfl⟩ := pure_okR h; exact ⟨rfl, rfl⟩
  | throw => cases h
  | ub => cases h

/-! ### Sums over maps -/

section Sums
variable {K : Type} [DecidableEq K]

/-- Sum of the values whose key satisfies `f`. -/
def gsum (f : K → Bool) : List (K × Nat) → Nat
  | [] => 0
  | p :: l => (if f p.1 then p.2 else 0) + gsum f l

theorem gsum_perm {f : K → Bool} {l m : List (K × Nat)} (h : l.Perm m) : gsum f l = gsum f m := by
  induction h with
  | nil => rfl
  | cons x _ ih => simp only [gsum, ih]
  | swap x y l => simp only [gsum]; omega
  | trans _ _ ih1 ih2 => rw [ih1, ih2]

theorem gsum_minsert (lt : K → K → Bool) (f : K → Bool) (k : K) (v : Nat) (m : List (K × Nat)) :
    gsum f (minsert lt k v m) = gsum f m + (if f k then v else 0) := by
  induction m with
  | nil => simp [minsert, gsum]
  | cons p l ih =>
    simp only [minsert]
    split
    · simp only [gsum]; omega
    · simp only [gsum, ih]; omega

theorem gsum_none {f : K → Bool} {m : List (K × Nat)} {k : K} {v : Nat} (h : k ∉ m.map (·.1)) :
    gsum f (m.map fun p => if p.1 = k then (k, v) else p) = gsum f m := by
  induction m with
  | nil => rfl
  | cons p l ih =>
    rw [List.map_cons, List.mem_cons, not_or] at h
    have hk : ¬ p.1 = k := fun e => h.1 e.symm
    simp only [List.map_cons, gsum, ih h.2, hk, if_false]

theorem gsum_mput (lt : K → K → Bool) (f : K → Bool) {m : List (K × Nat)} (hn : (m.map (·.1)).Nodup) (k : K) (v : Nat) :
    gsum f (mput lt m k v) + (if f k then (mfind m k).getD 0 else 0) = gsum f m + (if f k then v else 0) := by
  unfold mput
  cases h : mfind m k with
  | none => simp only [gsum_minsert, Option.getD_none, ite_self]; rfl
  | some w =>
    dsimp only
    induction m with
    | nil => cases h
    | cons p l ih =>
      rw [List.map_cons, List.nodup_cons] at hn
      simp only [List.map_cons]
      simp only [mfind] at h
      split at h
      · next hp =>
        cases h
        rw [gsum, gsum, gsum_none (by rw [← hp]; exact hn.1)]
        simp only [hp, if_true, Option.getD_some]
        omega
      · next hp =>
        have := ih hn.2 h
        rw [gsum, gsum, if_neg hp]
        omega

theorem gsum_single {m : List (K × Nat)} (hn : (m.map (·.1)).Nodup) (k : K) : gsum (fun j => decide (j = k)) m = (mfind m k).getD 0 := by
  induction m with
  | nil => rfl
  | cons p l ih =>
    rw [List.map_cons, List.nodup_cons] at hn
    simp only [gsum, mfind]
    by_cases hp : p.1 = k
    · simp only [hp, decide_true, if_true, Option.getD_some]
      have : gsum (fun j => decide (j = k)) l = 0 := by
        rw [ih hn.2]
        cases hf : mfind l k with
        | none => rfl
        | some v => exact absurd (List.mem_map_of_mem (mfind_mem hf)) (by rw [hp] at hn; exact hn.1)
      omega
    · simp only [hp, decide_false, if_false, ih hn.2]
      simp

theorem le_gsum {f : K → Bool} {m : List (K × Nat)} {k : K} (hk : f k = true) : (mfind m k).getD 0 ≤ gsum f m := by
  induction m with
  | nil => exact Nat.zero_le _
  | cons p l ih =>
    simp only [mfind, gsum]
    split
    · next hp => rw [hp, if_pos hk]; exact Nat.le_add_right _ _
    · exact Nat.le_trans ih (Nat.le_add_left _ _)

end Sums

theorem u128_of_lt' {n : Nat} (h : n < 2 ^ 128) : u128 n = n := Nat.mod_eq_of_lt h
theorem u64_of_lt' {n : Nat} (h : n < 2 ^ 64) : u64 n = n := Nat.mod_eq_of_lt h
theorem u32_of_lt' {n : Nat} (h : n < 2 ^ 32) : u32 n = n := Nat.mod_eq_of_lt h

/-! ### Money while contracts run -/

/-- The balance of a contract as the transaction sees it. -/
def balNow (g : Sto) (s : St) (c q : Addr) : Option Nat :=
  match mfind s.cbal (c, q) with
  | some n => some n
  | none => g.bal c q

def bn (g : Sto) (s : St) (c q : Addr) : Nat := (balNow g s c q).getD 0
def sp (s : St) (c q : Addr) : Nat := (mfind s.spend (c, q)).getD 0
def ofCur (q : Addr) (k : Addr × Addr) : Bool := decide (k.2 = q)

/-- Sum of the outputs of a currency. -/
def sumOut (q : Addr) : List TxOut → Nat
  | [] => 0
  | o :: l => (if o.cur = q then o.amount else 0) + sumOut q l

def sumIn (q : Addr) : List TxIn → Nat
  | [] => 0
  | x :: l => (if x.cur = q then x.amount else 0) + sumIn q l

theorem sumOut_append (q : Addr) (a b : List TxOut) : sumOut q (a ++ b) = sumOut q a + sumOut q b := by
  induction a with
  | nil => simp [sumOut]
  | cons x l ih => simp only [List.cons_append, sumOut, ih]; omega

theorem getBal_run (c q : Addr) (s : St) : (getBal c q s).run g = (.ok (balNow g s c q), s) := by
  unfold getBal balNow
  cases mfind s.cbal (c, q) <;> rfl

theorem getVar_run (c l : Addr) (s : St) : ∃ o, (getVar c l s).run g = (.ok o, s) := by
  unfold getVar
  cases mfind s.vars (c, l) with
  | none => exact ⟨_, rfl⟩
  | some n => exact ⟨_, rfl⟩

/-- Steps of contracts leave everything but storage, payments and outputs. -/
structure Frame (s t : St) : Prop where
  cost : t.cost = s.cost
  bals : t.bals = s.bals
  amounts : t.amounts = s.amounts
  dep : t.dep = s.dep

theorem Frame.refl (s : St) : Frame s s := ⟨rfl, rfl, rfl, rfl⟩
theorem Frame.trans {s t u : St} (h : Frame s t) (k : Frame t u) : Frame s u :=
  ⟨k.cost.trans h.cost, k.bals.trans h.bals, k.amounts.trans h.amounts, k.dep.trans h.dep⟩

/-- Payments come out of balances, and are outputs. -/
structure Pay (g : Sto) (mt : Addr → Nat) (s t : St) : Prop where
  nodup : (s.spend.map (·.1)).Nodup → (t.spend.map (·.1)).Nodup
  move : ∀ q, (∀ c, bn g s c q + sp s c q < 2 ^ 128) → ∀ c, bn g t c q + sp t c q = bn g s c q + sp s c q
  outs : (s.spend.map (·.1)).Nodup → ∀ q, (∀ c, bn g s c q + sp s c q < 2 ^ 128) →
    sumOut q t.outs + gsum (ofCur q) s.spend = sumOut q s.outs + gsum (ofCur q) t.spend + mt q

theorem Pay.refl (s : St) : Pay g (fun _ => 0) s s := ⟨id, fun _ _ _ => rfl, fun _ _ _ => rfl⟩
theorem Pay.trans {s t u : St} {m n : Addr → Nat} (h : Pay g m s t) (k : Pay g n t u) : Pay g (fun q => m q + n q) s u := by
  refine ⟨fun x => k.nodup (h.nodup x), fun q x c => ?_, fun x q y => ?_⟩
  · have h1 := h.move q x
    rw [k.move q (fun c => by rw [h1]; exact x c), h1]
  · have h1 := h.move q y
    have h2 := h.outs x q y
    have h3 := k.outs (h.nodup x) q (fun c => by rw [h1]; exact y c)
    omega

theorem setVars_run (c : Addr) (w : List (Nat × Nat)) (s : St) : ∃ t, (setVars c w s).run g = (.ok (), t) ∧ t = { s with vars := t.vars } := by
  induction w generalizing s with
  | nil => exact ⟨s, rfl, rfl⟩
  | cons p w ih =>
    obtain ⟨l, v⟩ := p
    obtain ⟨t, h1, h2⟩ := ih { s with vars := mput ltPair s.vars (c, l) v }
    refine ⟨t, ?_, h2⟩
    show R g (M.bind _ _) s = _
    rw [R_bind, R_modS]
    exact h1

theorem setBal_bn (s : St) (c q : Addr) (n : Nat) (c' q' : Addr) :
    bn g { s with cbal := mput ltPair s.cbal (c, q) n } c' q' = if c' = c ∧ q' = q then n else bn g s c' q' := by
  unfold bn balNow
  simp only [mfind_mput, Prod.mk.injEq]
  by_cases h : c' = c ∧ q' = q
  · simp [h]
  · simp [h]

theorem pay_one {s : St} {c : Addr} {o : TxOut} {n : Nat} (hb : balNow g s c o.cur = some n) (hle : ¬ o.amount > n) :
    Pay g (fun _ => 0) s { s with cbal := mput ltPair s.cbal (c, o.cur) (n - o.amount)
                                  outs := s.outs ++ [o], spend := madd ltPair s.spend (c, o.cur) o.amount } := by
  have hbn : bn g s c o.cur = n := by unfold bn; rw [hb]; rfl
  refine ⟨fun h => mput_nodup _ _ _ h, fun q' hx c' => ?_, fun hn q hx => ?_⟩
  · have e1 : bn g { s with cbal := mput ltPair s.cbal (c, o.cur) (n - o.amount)
                            outs := s.outs ++ [o], spend := madd ltPair s.spend (c, o.cur) o.amount } c' q' = _ :=
      setBal_bn s c o.cur (n - o.amount) c' q'
    rw [e1]
    unfold sp
    dsimp only [madd]
    rw [mfind_mput]
    by_cases h : c' = c ∧ q' = o.cur
    · obtain ⟨rfl, rfl⟩ := h
      have := hx c'
      unfold sp at this
      rw [hbn] at this
      rw [if_pos ⟨rfl, rfl⟩, if_pos rfl, hbn, Option.getD_some, u128_of_lt' (by omega)]
      omega
    · rw [if_neg h, if_neg (fun e => h (by cases e; exact ⟨rfl, rfl⟩))]
  · have h1 := gsum_mput ltPair (ofCur q) hn (c, o.cur) (u128 ((mfind s.spend (c, o.cur)).getD 0 + o.amount))
    dsimp only [madd]
    rw [sumOut_append]
    simp only [sumOut]
    simp only [ofCur, decide_eq_true_eq] at h1 ⊢
    by_cases hq : o.cur = q
    · subst hq
      have := hx c
      unfold sp at this
      rw [hbn] at this
      rw [u128_of_lt' (by omega)] at h1 ⊢
      simp only [if_true] at h1 ⊢; omega
    · simp only [hq, if_false] at h1 ⊢; omega

theorem payOuts_run (c : Addr) (e : Err) (l : List TxOut) (s : St) {o : Out Unit} {t : St} (h : R g (payOuts c e l) s = (o, t)) :
    Frame s t ∧ Pay g (fun _ => 0) s t := by
  induction l generalizing s with
  | nil => cases h; exact ⟨.refl _, .refl _⟩
  | cons x l ih =>
    unfold payOuts at h
    rw [R_bind] at h
    have hb : R g (getBal c x.cur) s = _ := getBal_run c x.cur s
    rw [hb] at h
    dsimp only at h
    cases hn : balNow g s c x.cur with
    | none => rw [hn] at h; cases h; exact ⟨.refl _, .refl _⟩
    | some n =>
      rw [hn] at h
      dsimp only at h
      split at h
      · cases h; exact ⟨.refl _, .refl _⟩
      · next hle =>
        rw [R_bind] at h
        unfold setBal at h
        rw [R_modS] at h
        dsimp only at h
        rw [R_bind, R_modS] at h
        dsimp only at h
        obtain ⟨f, p⟩ := ih _ h
        exact ⟨⟨f.cost, f.bals, f.amounts, f.dep⟩, by simpa using (pay_one hn hle).trans p⟩

end Verif.Ledger
