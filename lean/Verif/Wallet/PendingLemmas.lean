import Verif.Wallet.PendingSpec
import Verif.Wallet.FundLemmas2
/-
  Balances after reservations and pending transactions.
-/
namespace Verif.Wallet
open Verif

def at0 (m : AMap Key Nat) (k : Key) : Nat := (m.find k).getD 0

def MapOk (m : AMap Key Nat) : Prop := AMap.Ok m ∧ ∀ e ∈ m, e.2 < 2 ^ 128

theorem at0_lt {m : AMap Key Nat} (h : MapOk m) (k : Key) : at0 m k < 2 ^ 128 := by
  unfold at0
  cases hf : m.find k with
  | none => simp
  | some b => exact h.2 _ (AMap.find_mem hf)

theorem mem_ins {α β : Type} {lt : α → α → Bool} {m : AMap α β} {k : α} {v : β} {e : α × β}
    (h : e ∈ AMap.ins lt m k v) : e = (k, v) ∨ e ∈ m := by
  induction m with
  | nil => simpa [AMap.ins] using h
  | cons x m ih =>
    unfold AMap.ins at h
    split at h
    · simpa using h
    · rcases List.mem_cons.1 h with h | h
      · exact .inr (by rw [h]; exact List.mem_cons_self)
      · rcases ih h with h | h
        · exact .inl h
        · exact .inr (List.mem_cons_of_mem _ h)

theorem mapOk_iff {m : AMap Key Nat} (h : AMap.Ok m) : MapOk m ↔ ∀ k, at0 m k < 2 ^ 128 := by
  constructor
  · intro hm k; exact at0_lt hm k
  · intro ha
    refine ⟨h, fun e he => ?_⟩
    have := ha e.1
    unfold at0 at this
    rw [AMap.mem_find h he] at this
    exact this

theorem at0_subBal {m : AMap Key Nat} (_hm : MapOk m) (k : Key) (x : Nat) (k' : Key) :
    at0 (subBal m k x) k' = if k' = k then at0 m k - x else at0 m k' := by
  unfold subBal at0
  rw [AMap.find_put]
  split
  · rw [clampedSub_eq]
    rfl
  · rfl

theorem mapOk_subBal {m : AMap Key Nat} (hm : MapOk m) (k : Key) (x : Nat) : MapOk (subBal m k x) := by
  have hok : AMap.Ok (subBal m k x) := AMap.ok_put _ hm.1 _ _
  rw [mapOk_iff hok]
  intro k'
  rw [at0_subBal hm]
  split
  · have := at0_lt hm k; omega
  · exact at0_lt hm k'

/-- Sum of the entries of a list at one key. -/
def atSum (l : List (Key × Nat)) (k : Key) : Nat := (l.map fun e => if e.1 = k then e.2 else 0).sum

theorem fold_subBal (l : List (Key × Nat)) : ∀ m, MapOk m →
    MapOk (l.foldl (fun m e => subBal m e.1 e.2) m) ∧
    ∀ k, at0 (l.foldl (fun m e => subBal m e.1 e.2) m) k = at0 m k - atSum l k := by
  induction l with
  | nil => intro m hm; exact ⟨hm, fun k => by simp [atSum]⟩
  | cons e l ih =>
    intro m hm
    obtain ⟨h1, h2⟩ := ih _ (mapOk_subBal hm e.1 e.2)
    refine ⟨h1, fun k => ?_⟩
    rw [List.foldl_cons, h2 k, at0_subBal hm]
    unfold atSum
    rw [List.map_cons, List.sum_cons]
    by_cases h : k = e.1
    · subst h; simp only [if_true]; omega
    · rw [if_neg h, if_neg (Ne.symm h)]; omega

theorem atSum_ok {m : AMap Key Nat} (h : AMap.Ok m) (k : Key) : atSum m k = at0 m k := by
  unfold at0 atSum
  induction m with
  | nil => rfl
  | cons e m ih =>
    rw [List.map_cons, List.sum_cons, ih (AMap.ok_tail h)]
    by_cases he : e.1 = k
    · subst he
      have : AMap.find m e.1 = none := AMap.find_none_iff.2 (AMap.ok_head h)
      simp [AMap.find, this]
    · simp [AMap.find, he]

theorem fold_pending (l : List (Nat × AMap Key Nat)) (hl : ∀ e ∈ l, AMap.Ok e.2) : ∀ m, MapOk m →
    MapOk (l.foldl (fun m e => e.2.foldl (fun m p => subBal m p.1 p.2) m) m) ∧
    ∀ k, at0 (l.foldl (fun m e => e.2.foldl (fun m p => subBal m p.1 p.2) m) m) k
      = at0 m k - (l.map fun e => at0 e.2 k).sum := by
  induction l with
  | nil => intro m hm; exact ⟨hm, fun k => by simp⟩
  | cons e l ih =>
    intro m hm
    obtain ⟨f1, f2⟩ := fold_subBal e.2 m hm
    obtain ⟨h1, h2⟩ := ih (fun x hx => hl x (List.mem_cons_of_mem _ hx)) _ f1
    refine ⟨h1, fun k => ?_⟩
    rw [List.foldl_cons, h2 k, f2 k, atSum_ok (hl e List.mem_cons_self), List.map_cons, List.sum_cons]
    omega

theorem sum_indicator {l : List Pend} (hn : (l.map (·.id)).Nodup) {i : Nat} (hi : i ∈ l.map (·.id)) (x : Nat) :
    (l.map fun p => if p.id = i then x else 0).sum = x := by
  induction l with
  | nil => cases hi
  | cons p l ih =>
    rw [List.map_cons, List.nodup_cons] at hn
    rw [List.map_cons, List.sum_cons]
    by_cases h : p.id = i
    · have hz : ∀ l' : List Pend, (∀ q ∈ l', q.id ≠ i) → (l'.map fun q => if q.id = i then x else 0).sum = 0 := by
        intro l' hq
        induction l' with
        | nil => rfl
        | cons q l' ih' =>
          rw [List.map_cons, List.sum_cons, if_neg (hq q List.mem_cons_self),
            ih' (fun y hy => hq y (List.mem_cons_of_mem _ hy))]
      rw [if_pos h, hz l]
      · rfl
      · intro q hq h'
        exact hn.1 (List.mem_map.2 ⟨q, hq, by rw [h', h]⟩)
    · rw [if_neg h, ih hn.2 (by
        rcases List.mem_cons.1 hi with h' | h'
        · exact absurd h'.symm h
        · exact h')]
      omega

theorem sum_add {α : Type} (l : List α) (f g : α → Nat) :
    (l.map fun x => f x + g x).sum = (l.map f).sum + (l.map g).sum := by
  induction l with
  | nil => rfl
  | cons x l ih => simp only [List.map_cons, List.sum_cons, ih]; omega

/-- Summing over the map and over the list of its (possible) keys is the same. -/
theorem sum_live {m : AMap Nat (AMap Key Nat)} (hm : AMap.Ok m) {l : List Pend} (hn : (l.map (·.id)).Nodup)
    (hk : ∀ e ∈ m, e.1 ∈ l.map (·.id)) (k : Key) :
    (m.map fun e => at0 e.2 k).sum = (l.map fun p => at0 ((m.find p.id).getD []) k).sum := by
  induction m with
  | nil =>
    simp only [List.map_nil, List.sum_nil, AMap.find, Option.getD_none]
    clear hk hn
    induction l with
    | nil => rfl
    | cons p l ih => rw [List.map_cons, List.sum_cons, ← ih]; rfl
  | cons e m ih =>
    rw [List.map_cons, List.sum_cons, ih (AMap.ok_tail hm) (fun x hx => hk x (List.mem_cons_of_mem _ hx))]
    have hnone : AMap.find m e.1 = none := AMap.find_none_iff.2 (AMap.ok_head hm)
    have : (l.map fun p => at0 ((AMap.find (e :: m) p.id).getD []) k)
        = l.map fun p => (if p.id = e.1 then at0 e.2 k else 0) + at0 ((AMap.find m p.id).getD []) k := by
      apply List.map_congr_left
      intro p _
      by_cases h : e.1 = p.id
      · rw [← h, hnone]
        simp [AMap.find, at0]
      · simp [AMap.find, h, Ne.symm h]
    rw [this, sum_add, sum_indicator hn (hk e List.mem_cons_self)]

/-! ### one transaction -/

/-- The part of the state `update_from` changes. -/
structure Pay (w w' : W) (id : Nat) (own : Key → Nat) : Prop where
  bal : ∀ k, at0 w'.balance k = at0 w.balance k - own k
  ok : MapOk w'.balance
  pend : ∀ k, at0 ((w'.pendingMap.find id).getD []) k = at0 ((w.pendingMap.find id).getD []) k + own k
  pok : AMap.Ok w'.pendingMap ∧ AMap.Ok ((w'.pendingMap.find id).getD [])
  others : ∀ i, i ≠ id → w'.pendingMap.find i = w.pendingMap.find i
  same : w'.pendingTx = w.pendingTx ∧ w'.reserved = w.reserved ∧ w'.index = w.index

theorem Pay.refl {w : W} (id : Nat) (h1 : MapOk w.balance) (h2 : AMap.Ok w.pendingMap)
    (h3 : AMap.Ok ((w.pendingMap.find id).getD [])) : Pay w w id (fun _ => 0) :=
  ⟨fun _ => rfl, h1, fun _ => rfl, ⟨h2, h3⟩, fun _ _ => rfl, rfl, rfl, rfl⟩

theorem Pay.trans {w w' w'' : W} {id : Nat} {f g : Key → Nat} (h : Pay w w' id f) (h' : Pay w' w'' id g) :
    Pay w w'' id (fun k => f k + g k) := by
  refine ⟨fun k => ?_, h'.ok, fun k => ?_, h'.pok, fun i hi => ?_, ?_, ?_, ?_⟩
  · rw [h'.bal, h.bal]; omega
  · rw [h'.pend, h.pend]; omega
  · rw [h'.others i hi, h.others i hi]
  · rw [h'.same.1, h.same.1]
  · rw [h'.same.2.1, h.same.2.1]
  · rw [h'.same.2.2, h.same.2.2]

theorem spend_pay {w : W} {id : Nat} (h1 : MapOk w.balance) (h2 : AMap.Ok w.pendingMap)
    (h3 : AMap.Ok ((w.pendingMap.find id).getD [])) {k : Key} {x : Nat}
    (hx : at0 ((w.pendingMap.find id).getD []) k + x < 2 ^ 128) :
    Pay w (w.spend id k x) id (fun k' => if k = k' then x else 0) := by
  unfold W.spend addPending
  refine ⟨fun k' => ?_, mapOk_subBal h1 k x, fun k' => ?_, ⟨AMap.ok_put _ h2 _ _, ?_⟩, fun i hi => ?_, rfl, rfl, rfl⟩
  · dsimp only
    rw [at0_subBal h1]
    by_cases h : k' = k
    · subst h; simp
    · rw [if_neg h, if_neg (Ne.symm h)]; rfl
  · dsimp only
    rw [AMap.find_put, if_pos rfl, Option.getD_some]
    unfold at0
    rw [AMap.find_put]
    by_cases h : k' = k
    · subst h
      rw [if_pos rfl, if_pos rfl, Option.getD_some]
      exact u128_eq hx
    · rw [if_neg h, if_neg (Ne.symm h)]; rfl
  · dsimp only
    rw [AMap.find_put, if_pos rfl, Option.getD_some]
    exact AMap.ok_put _ h3 _ _
  · dsimp only
    rw [AMap.find_put, if_neg hi]

theorem fold_spend {mine : Addr → Bool} (ins : List TxIn) (id : Nat) : ∀ w : W, MapOk w.balance →
    AMap.Ok w.pendingMap → AMap.Ok ((w.pendingMap.find id).getD []) → (∀ a, w.owns a = mine a) →
    (∀ k, at0 ((w.pendingMap.find id).getD []) k + drawn (ins.filter fun i => mine i.address) k < 2 ^ 128) →
    Pay w (ins.foldl (fun (u : W) i => if u.owns i.address then u.spend id (i.address, i.contract) i.amount else u) w)
      id (drawn (ins.filter fun i => mine i.address)) := by
  induction ins with
  | nil => intro w h1 h2 h3 _ _; exact Pay.refl id h1 h2 h3
  | cons i ins ih =>
    intro w h1 h2 h3 hm hx
    rw [List.foldl_cons]
    by_cases ho : mine i.address = true
    · rw [if_pos (by rw [hm]; exact ho)]
      rw [List.filter_cons_of_pos (by simpa using ho)] at hx ⊢
      have hxk : at0 ((w.pendingMap.find id).getD []) (i.address, i.contract) + i.amount < 2 ^ 128 := by
        have := hx (i.address, i.contract)
        rw [drawn_cons, if_pos rfl] at this
        omega
      have p := spend_pay h1 h2 h3 hxk
      have q := ih _ p.ok p.pok.1 p.pok.2 (by intro a; rw [← hm a]; unfold W.owns; rw [p.same.2.2]) (by
        intro k
        rw [p.pend]
        have := hx k
        rw [drawn_cons] at this
        omega)
      have := p.trans q
      have hfun : (fun k => (if (i.address, i.contract) = k then i.amount else 0)
          + drawn (ins.filter fun i => mine i.address) k) = drawn (i :: ins.filter fun i => mine i.address) := by
        funext k; rw [drawn_cons]
      rw [hfun] at this
      exact this
    · rw [if_neg (by rw [hm]; exact ho)]
      rw [List.filter_cons_of_neg (by simpa using ho)] at hx ⊢
      exact ih w h1 h2 h3 hm hx

theorem updateFrom_spec {mine : Addr → Bool} {w : W} {tx : Tx} (h1 : MapOk w.balance) (h2 : AMap.Ok w.pendingMap)
    (hm : ∀ a, w.owns a = mine a) (hp : w.pendingTx.find tx.id = none) (h3 : w.pendingMap.find tx.id = none)
    (hok : Ev.Ok mine (.submit tx)) :
    (∀ fee, (tx.sender = none ∨ Chain.costToFee tx.staticCost tx.feeRatio = .ok fee) →
      ∃ w', w.updateFrom tx = .ok { w' with pendingTx := w'.pendingTx.put addrLt tx.id tx.expires } ∧
        Pay w w' tx.id (takes mine (if tx.sender = none then 0 else fee) tx)) ∧
    (tx.sender ≠ none → (∀ fee, Chain.costToFee tx.staticCost tx.feeRatio ≠ .ok fee) → ∀ w', w.updateFrom tx ≠ .ok w') := by
  have hd : (w.pendingMap.find tx.id).getD [] = [] := by rw [h3]; rfl
  have hz : ∀ k, at0 ((w.pendingMap.find tx.id).getD []) k = 0 := by intro k; rw [hd]; rfl
  have ho : AMap.Ok ((w.pendingMap.find tx.id).getD []) := by rw [hd]; exact AMap.ok_nil
  unfold W.updateFrom
  rw [hp]
  simp only [Option.isSome_none, Bool.false_eq_true, if_false]
  constructor
  · intro fee hfee
    have hk := hok fee hfee
    cases hs : tx.sender with
    | none =>
      dsimp only
      simp only [Res.bind_ok]
      have p := fold_spend (mine := mine) tx.inputs tx.id w h1 h2 ho hm (by
        intro k
        rw [hz]
        have := hk k
        unfold takes at this
        omega)
      refine ⟨_, rfl, ?_⟩
      have : takes mine (if True then 0 else fee) tx = drawn (tx.inputs.filter fun i => mine i.address) := by
        funext k; unfold takes; rw [hs]; simp
      rw [this]
      exact p
    | some s =>
      dsimp only
      rcases hfee with h | hfee
      · rw [hs] at h; cases h
      rw [hfee]
      simp only [Res.bind_ok]
      have p := spend_pay (id := tx.id) (k := (s, 0)) (x := fee) h1 h2 ho (by
        rw [hz]
        have := hk (s, 0)
        unfold takes at this
        rw [hs] at this
        simp only [and_self, if_true] at this
        omega)
      have q := fold_spend (mine := mine) tx.inputs tx.id _ p.ok p.pok.1 p.pok.2
        (by intro a; rw [← hm a]; unfold W.owns; rw [p.same.2.2]) (by
        intro k
        rw [p.pend, hz]
        have := hk k
        unfold takes at this
        rw [hs] at this
        by_cases hk' : (s, 0) = k
        · subst hk'
          simp only [and_self, if_true] at this ⊢
          omega
        · rw [if_neg hk']
          omega)
      refine ⟨_, rfl, ?_⟩
      have : takes mine (if some s = none then 0 else fee) tx
          = fun k => (if (s, 0) = k then fee else 0) + drawn (tx.inputs.filter fun i => mine i.address) k := by
        funext k
        unfold takes
        rw [hs]
        have : (some s = some k.1 ∧ k.2 = 0) ↔ (s, 0) = k := by
          obtain ⟨a, b⟩ := k
          simp only [Option.some.injEq, Prod.mk.injEq]
          constructor
          · rintro ⟨rfl, rfl⟩; exact ⟨rfl, rfl⟩
          · rintro ⟨rfl, rfl⟩; exact ⟨rfl, rfl⟩
        simp only [this, reduceCtorEq, if_false]
      rw [this]
      exact p.trans q
  · intro hs hfee w' h
    cases hs' : tx.sender with
    | none => exact hs hs'
    | some s =>
      rw [hs'] at h
      dsimp only at h
      obtain ⟨w1, h, _⟩ := Res.bind_eq_ok.1 h
      obtain ⟨fee, h, _⟩ := Res.bind_eq_ok.1 h
      exact hfee fee h

/-! ### the account -/

/-- The wallet keeps the account. -/
structure Keeps (mine : Addr → Bool) (w : W) (a : Acct) (res : Key → Nat) : Prop where
  bal : ∀ k, at0 w.balance k = a.reported k - (res k + a.pending k)
  ok : MapOk w.balance
  res : AMap.Ok w.reserved ∧ ∀ k, at0 w.reserved k = res k
  mine : ∀ a, w.owns a = mine a
  nodup : (a.live.map (·.id)).Nodup
  pok : AMap.Ok w.pendingMap
  tok : AMap.Ok w.pendingTx
  ptx : ∀ i x, w.pendingTx.find i = some x ↔ ∃ p ∈ a.live, p.id = i ∧ p.expires = x
  keys : ∀ e ∈ w.pendingMap, e.1 ∈ a.live.map (·.id)
  own : ∀ p ∈ a.live, AMap.Ok ((w.pendingMap.find p.id).getD []) ∧ ∀ k, at0 ((w.pendingMap.find p.id).getD []) k = p.own k

theorem foldl_erase {β : Type} (l : List Nat) : ∀ m : AMap Nat β, AMap.Ok m →
    AMap.Ok (l.foldl AMap.erase m) ∧ ∀ i, (l.foldl AMap.erase m).find i = if i ∈ l then none else m.find i := by
  induction l with
  | nil => intro m h; exact ⟨h, by simp⟩
  | cons x l ih =>
    intro m h
    obtain ⟨i1, i2⟩ := ih (m.erase x) (AMap.ok_erase h x)
    refine ⟨i1, fun i => ?_⟩
    rw [List.foldl_cons, i2 i, AMap.find_erase]
    by_cases hx : i = x
    · subst hx; simp
    · simp [hx]

theorem nodup_map_filter {l : List Pend} (f : Pend → Bool) (h : (l.map (·.id)).Nodup) :
    ((l.filter f).map (·.id)).Nodup := h.sublist (List.filter_sublist.map _)

theorem id_inj {l : List Pend} (h : (l.map (·.id)).Nodup) {p q : Pend} (hp : p ∈ l) (hq : q ∈ l) (he : p.id = q.id) :
    p = q := by
  induction l with
  | nil => cases hp
  | cons x l ih =>
    rw [List.map_cons, List.nodup_cons] at h
    rcases List.mem_cons.1 hp with hp | hp <;> rcases List.mem_cons.1 hq with hq | hq
    · rw [hp, hq]
    · exact absurd (List.mem_map.2 ⟨q, hq, by rw [← he, hp]⟩) h.1
    · exact absurd (List.mem_map.2 ⟨p, hp, by rw [he, hq]⟩) h.1
    · exact ih h.2 hp hq

theorem keeps_refresh {mine w a res} (hk : Keeps mine w a res) {b : AMap Key Nat} {hist : List Nat} {n : Nat}
    (hok : Ev.Ok mine (.refresh b hist n)) :
    Keeps mine (w.updateCache b hist n) (a.step mine (.refresh b hist n)) res := by
  have gone_iff : ∀ p ∈ a.live, (p.id ∈ (w.pendingTx.filter fun e => decide (e.2 < n)).map (·.1) ++ hist) ↔
      ¬ (!(decide (p.expires < n)) && !(hist.contains p.id)) = true := by
    intro p hp
    have hpf := (hk.ptx p.id p.expires).2 ⟨p, hp, rfl, rfl⟩
    have h1 : (p.id ∈ (w.pendingTx.filter fun e => decide (e.2 < n)).map (·.1)) ↔ p.expires < n := by
      constructor
      · intro h
        obtain ⟨e, he, hid⟩ := List.mem_map.1 h
        obtain ⟨he, hlt⟩ := List.mem_filter.1 he
        have := AMap.mem_find hk.tok he
        rw [hid, hpf] at this
        simp only [Option.some.injEq] at this
        rw [this]
        simpa using hlt
      · intro h
        exact List.mem_map.2 ⟨(p.id, p.expires), List.mem_filter.2 ⟨AMap.find_mem hpf, by simpa using h⟩, rfl⟩
    rw [List.mem_append, h1]
    simp only [Bool.and_eq_true, Bool.not_eq_true', decide_eq_false_iff_not, List.contains_eq_mem]
    constructor
    · rintro (h | h) ⟨h1, h2⟩
      · exact h1 h
      · exact h2 h
    · intro h
      by_cases h1 : p.expires < n
      · exact .inl h1
      · right
        by_cases h2 : p.id ∈ hist
        · exact h2
        · exact absurd ⟨h1, h2⟩ h
  generalize hg : (w.pendingTx.filter fun e => decide (e.2 < n)).map (·.1) ++ hist = gone at gone_iff
  obtain ⟨t1, t2⟩ := foldl_erase gone w.pendingTx hk.tok
  obtain ⟨m1, m2⟩ := foldl_erase gone w.pendingMap hk.pok
  have hnd := nodup_map_filter (fun p => !(decide (p.expires < n)) && !(hist.contains p.id)) hk.nodup
  have hkeys : ∀ e ∈ gone.foldl AMap.erase w.pendingMap,
      e.1 ∈ (a.live.filter fun p => !(decide (p.expires < n)) && !(hist.contains p.id)).map (·.id) := by
    intro e he
    have hf := AMap.mem_find m1 he
    rw [m2] at hf
    split at hf
    · cases hf
    · rename_i hng
      obtain ⟨p, hp, hid⟩ := List.mem_map.1 (hk.keys _ (AMap.find_mem hf))
      dsimp only at hid
      refine List.mem_map.2 ⟨p, List.mem_filter.2 ⟨hp, ?_⟩, hid⟩
      by_cases hc : (!(decide (p.expires < n)) && !(hist.contains p.id)) = true
      · exact hc
      · exact absurd (by rw [← hid]; exact (gone_iff p hp).2 hc) hng
  have hown : ∀ p ∈ a.live.filter (fun p => !(decide (p.expires < n)) && !(hist.contains p.id)),
      AMap.Ok (((gone.foldl AMap.erase w.pendingMap).find p.id).getD []) ∧
      ∀ k, at0 (((gone.foldl AMap.erase w.pendingMap).find p.id).getD []) k = p.own k := by
    intro p hp
    obtain ⟨hp, hc⟩ := List.mem_filter.1 hp
    have : p.id ∉ gone := fun h => (gone_iff p hp).1 h hc
    rw [m2, if_neg this]
    exact hk.own p hp
  have hall : ∀ e ∈ gone.foldl AMap.erase w.pendingMap, AMap.Ok e.2 := by
    intro e he
    obtain ⟨p, hp, hid⟩ := List.mem_map.1 (hkeys e he)
    have := (hown p hp).1
    rw [hid, AMap.mem_find m1 he] at this
    exact this
  obtain ⟨r1, r2⟩ := fold_subBal w.reserved b hok
  obtain ⟨p1, p2⟩ := fold_pending (gone.foldl AMap.erase w.pendingMap) hall _ r1
  unfold W.updateCache
  dsimp only
  rw [hg]
  refine ⟨?_, p1, hk.res, hk.mine, hnd, m1, t1, ?_, hkeys, hown⟩
  · intro k
    dsimp only
    rw [p2 k, r2 k, atSum_ok hk.res.1, hk.res.2, sum_live m1 hnd hkeys]
    have : ((a.live.filter fun p => !(decide (p.expires < n)) && !(hist.contains p.id)).map fun p =>
        at0 (((gone.foldl AMap.erase w.pendingMap).find p.id).getD []) k)
        = (a.live.filter fun p => !(decide (p.expires < n)) && !(hist.contains p.id)).map fun p => p.own k := by
      apply List.map_congr_left
      intro p hp
      exact (hown p hp).2 k
    rw [this]
    show at0 b k - res k - _ = at0 b k - (res k + _)
    unfold Acct.pending Acct.step
    dsimp only
    omega
  · intro i x
    dsimp only
    rw [t2]
    unfold Acct.step
    dsimp only
    constructor
    · intro h
      split at h
      · cases h
      · rename_i hng
        obtain ⟨p, hp, hid, hx⟩ := (hk.ptx i x).1 h
        refine ⟨p, List.mem_filter.2 ⟨hp, ?_⟩, hid, hx⟩
        by_cases hc : (!(decide (p.expires < n)) && !(hist.contains p.id)) = true
        · exact hc
        · exact absurd (by rw [← hid]; exact (gone_iff p hp).2 hc) hng
    · rintro ⟨p, hp, hid, hx⟩
      obtain ⟨hp, hc⟩ := List.mem_filter.1 hp
      have : i ∉ gone := fun h => (gone_iff p hp).1 (by rw [hid]; exact h) hc
      rw [if_neg this]
      exact (hk.ptx i x).2 ⟨p, hp, hid, hx⟩

theorem step_ok {w w' : W} {tx : Tx} (h : w.updateFrom tx = .ok w') : w.step (.submit tx) = w' := by
  simp only [W.step, h]

theorem step_fail {w : W} {tx : Tx} (h : ∀ w', w.updateFrom tx ≠ .ok w') : w.step (.submit tx) = w := by
  cases hu : w.updateFrom tx with
  | ok w' => exact absurd hu (h w')
  | throw => simp only [W.step, hu]
  | ub => simp only [W.step, hu]

theorem keeps_submit {mine w a res} (hk : Keeps mine w a res) {tx : Tx} (hok : Ev.Ok mine (.submit tx)) :
    Keeps mine (w.step (.submit tx)) (a.step mine (.submit tx)) res := by
  unfold Acct.step
  dsimp only
  by_cases hlive : a.live.any (fun p => decide (p.id = tx.id)) = true
  · rw [if_pos hlive]
    obtain ⟨p, hp, hid⟩ := List.any_eq_true.1 hlive
    have hid : p.id = tx.id := by simpa using hid
    have : w.updateFrom tx = .ok w := by
      unfold W.updateFrom
      rw [(hk.ptx tx.id p.expires).2 ⟨p, hp, hid, rfl⟩]
      rfl
    rw [step_ok this]
    exact hk
  · rw [if_neg hlive]
    have hnot : ∀ p ∈ a.live, p.id ≠ tx.id := by
      intro p hp hid
      exact hlive (List.any_eq_true.2 ⟨p, hp, by simpa using hid⟩)
    have hp : w.pendingTx.find tx.id = none := by
      cases hf : w.pendingTx.find tx.id with
      | none => rfl
      | some x =>
        obtain ⟨p, hp, hid, _⟩ := (hk.ptx _ _).1 hf
        exact absurd hid (hnot p hp)
    have h3 : w.pendingMap.find tx.id = none := by
      rw [AMap.find_none_iff]
      intro e he hid
      obtain ⟨p, hp, hid'⟩ := List.mem_map.1 (hk.keys e he)
      exact hnot p hp (by rw [hid', hid])
    obtain ⟨u1, u2⟩ := updateFrom_spec hk.ok hk.pok hk.mine hp h3 hok
    have main : ∀ fee, (tx.sender = none ∨ Chain.costToFee tx.staticCost tx.feeRatio = .ok fee) →
        Keeps mine (w.step (.submit tx))
          ⟨a.reported, a.live ++ [⟨tx.id, tx.expires, takes mine (if tx.sender = none then 0 else fee) tx⟩]⟩ res := by
      intro fee hfee
      obtain ⟨w', hw', hpay⟩ := u1 fee hfee
      rw [step_ok hw']
      have hz : ∀ k, at0 ((w.pendingMap.find tx.id).getD []) k = 0 := by intro k; rw [h3]; rfl
      refine ⟨?_, hpay.ok, ?_, ?_, ?_, hpay.pok.1, AMap.ok_put _ (by rw [hpay.same.1]; exact hk.tok) _ _, ?_, ?_, ?_⟩
      · intro k
        rw [hpay.bal, hk.bal]
        unfold Acct.pending
        simp only [List.map_append, List.sum_append, List.map_cons, List.map_nil, List.sum_cons, List.sum_nil]
        omega
      · dsimp only
        rw [hpay.same.2.1]; exact hk.res
      · intro x
        rw [← hk.mine x]
        unfold W.owns
        dsimp only
        rw [hpay.same.2.2]
      · dsimp only
        rw [List.map_append]
        rw [List.nodup_append]
        refine ⟨hk.nodup, by simp, ?_⟩
        intro x hx y hy
        obtain ⟨p, hp, rfl⟩ := List.mem_map.1 hx
        simp only [List.map_cons, List.map_nil, List.mem_singleton] at hy
        rw [hy]
        exact hnot p hp
      · intro i x
        dsimp only
        rw [AMap.find_put, hpay.same.1]
        constructor
        · intro h
          split at h
          · rename_i hi
            simp only [Option.some.injEq] at h
            exact ⟨_, List.mem_append_right _ List.mem_cons_self, hi.symm, h⟩
          · obtain ⟨p, hp, h1, h2⟩ := (hk.ptx i x).1 h
            exact ⟨p, by simp [hp], h1, h2⟩
        · rintro ⟨p, hp, h1, h2⟩
          rcases List.mem_append.1 hp with hp | hp
          · rw [if_neg (by rw [← h1]; exact hnot p hp)]
            exact (hk.ptx i x).2 ⟨p, hp, h1, h2⟩
          · simp only [List.mem_singleton] at hp
            subst hp
            rw [if_pos h1.symm, ← h2]
      · intro e he
        dsimp only at he ⊢
        rw [List.map_append, List.mem_append]
        by_cases hid : e.1 = tx.id
        · right; simp [hid]
        · left
          have := AMap.mem_find hpay.pok.1 he
          rw [hpay.others _ hid] at this
          exact hk.keys _ (AMap.find_mem this)
      · intro p hp
        dsimp only at hp ⊢
        rcases List.mem_append.1 hp with hp | hp
        · rw [hpay.others _ (hnot p hp)]
          exact hk.own p hp
        · simp only [List.mem_singleton] at hp
          subst hp
          refine ⟨hpay.pok.2, fun k => ?_⟩
          rw [hpay.pend, hz]
          simp
    cases hs : tx.sender with
    | none =>
      have := main 0 (.inl hs)
      rw [hs] at this
      simpa using this
    | some s =>
      cases hfee : Chain.costToFee tx.staticCost tx.feeRatio with
      | ok fee =>
        have := main fee (.inr hfee)
        rw [hs] at this
        simpa using this
      | throw =>
        have hno := u2 (by rw [hs]; simp) (by rw [hfee]; simp)
        rw [step_fail hno]
        exact hk
      | ub =>
        have hno := u2 (by rw [hs]; simp) (by rw [hfee]; simp)
        rw [step_fail hno]
        exact hk

end Verif.Wallet
