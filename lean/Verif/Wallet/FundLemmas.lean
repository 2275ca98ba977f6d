import Verif.Wallet.Spec
/-
  Lemmas about `gather_inputs` and `complete`: what is drawn from which address.
-/
namespace Verif.Wallet
open Verif

def got (sp : AMap Key Nat) (k : Key) : Nat := (sp.find k).getD 0

/-- `spent_map` never exceeds `balance_map`. -/
def SpOk (w : W) (sp : AMap Key Nat) : Prop := ∀ k, got sp k ≤ w.bal k

theorem BalOk_lt {w : W} (h : w.BalOk) (k : Key) : w.bal k < 2 ^ 128 := by
  unfold W.bal
  cases hf : w.balance.find k with
  | none => simp
  | some b => exact h.bound _ (AMap.find_mem hf)

theorem avail_eq {w : W} (hb : w.BalOk) {sp : AMap Key Nat} (hs : SpOk w sp) {k : Key} {b : Nat}
    (hf : w.balance.find k = some b) : avail sp k b = b - got sp k := by
  have h1 := hs k
  have h2 := BalOk_lt hb k
  unfold W.bal at h1 h2
  rw [hf] at h1 h2
  unfold avail got at *
  cases hg : sp.find k with
  | none => simp
  | some s =>
    rw [hg] at h1
    exact sub128_eq h1 h2

theorem got_addSpent {w : W} (hb : w.BalOk) {sp : AMap Key Nat} {k : Key} {x : Nat}
    (hx : got sp k + x ≤ w.bal k) (k' : Key) :
    got (addSpent sp k x) k' = if k' = k then got sp k + x else got sp k' := by
  have h2 := BalOk_lt hb k
  unfold addSpent
  show ((AMap.put keyLt sp k _).find k').getD 0 = _
  rw [AMap.find_put]
  split
  · exact u128_eq (by show got sp k + x < _; omega)
  · rfl

theorem SpOk_addSpent {w : W} (hb : w.BalOk) {sp : AMap Key Nat} (hs : SpOk w sp) {k : Key} {x : Nat}
    (hx : got sp k + x ≤ w.bal k) : SpOk w (addSpent sp k x) := by
  intro k'
  rw [got_addSpent hb hx]
  split
  · subst_vars; exact hx
  · exact hs k'

/-- Balance still to be drawn in currency `c`. -/
def room (m : AMap Key Nat) (sp : AMap Key Nat) (c : Addr) : Nat :=
  (m.map fun e => if e.1.2 = c then e.2 - got sp e.1 else 0).sum

theorem room_congr {m sp sp'} {c : Addr} (h : ∀ k : Key, k.2 = c → got sp k = got sp' k) :
    room m sp c = room m sp' c := by
  unfold room
  congr 1
  apply List.map_congr_left
  intro e _
  split
  · rw [h _ (by assumption)]
  · rfl

theorem room_add_aux {m sp sp' : AMap Key Nat} (hm : AMap.Ok m) {k : Key} {b x : Nat} {c : Addr}
    (hk : k.2 = c) (hf : m.find k = some b) (hx : got sp k + x ≤ b)
    (hg : ∀ k', got sp' k' = if k' = k then got sp k + x else got sp k') :
    room m sp' c + x = room m sp c := by
  induction m with
  | nil => simp [AMap.find] at hf
  | cons e m ih =>
    have hne := AMap.ok_head hm
    have hm' := AMap.ok_tail hm
    unfold room at *
    simp only [List.map_cons, List.sum_cons]
    by_cases he : e.1 = k
    · subst he
      simp only [AMap.find, if_true, Option.some.injEq] at hf
      subst hf
      have : (m.map fun e => if e.1.2 = c then e.2 - got sp' e.1 else 0)
          = (m.map fun e => if e.1.2 = c then e.2 - got sp e.1 else 0) := by
        apply List.map_congr_left
        intro y hy
        rw [hg, if_neg (hne y hy)]
      rw [this, hg, if_pos rfl]
      simp only [hk, if_true]
      omega
    · simp only [AMap.find, if_neg he] at hf
      have := ih hm' hf
      rw [hg, if_neg he]
      omega

theorem room_addSpent {w : W} (hb : w.BalOk) {sp : AMap Key Nat} {k : Key} {b x : Nat} {c : Addr}
    (hk : k.2 = c) (hf : w.balance.find k = some b) (hx : got sp k + x ≤ b) :
    room w.balance (addSpent sp k x) c + x = room w.balance sp c := by
  apply room_add_aux hb.keys hk hf hx
  apply got_addSpent hb
  unfold W.bal; rw [hf]; exact hx

@[simp] theorem inSum_nil (c : Addr) : inSum [] c = 0 := rfl
@[simp] theorem inSum_cons (i : TxIn) (l : List TxIn) (c : Addr) :
    inSum (i :: l) c = (if i.contract = c then i.amount else 0) + inSum l c := by
  simp [inSum]
@[simp] theorem drawn_nil (k : Key) : drawn [] k = 0 := rfl
@[simp] theorem drawn_cons (i : TxIn) (l : List TxIn) (k : Key) :
    drawn (i :: l) k = (if (i.address, i.contract) = k then i.amount else 0) + drawn l k := by
  simp [drawn]
theorem inSum_append (l m : List TxIn) (c : Addr) : inSum (l ++ m) c = inSum l c + inSum m c := by
  simp [inSum]
theorem drawn_append (l m : List TxIn) (k : Key) : drawn (l ++ m) k = drawn l k + drawn m k := by
  simp [drawn]

/-- An input before and after funding: only the amount may have grown. -/
def Grown (i j : TxIn) : Prop := ∃ x, j = { i with amount := i.amount + x }

theorem Grown.refl (i : TxIn) : Grown i i := ⟨0, rfl⟩
theorem Grown.trans {i j k : TxIn} (h : Grown i j) (h' : Grown j k) : Grown i k := by
  obtain ⟨x, rfl⟩ := h
  obtain ⟨y, rfl⟩ := h'
  exact ⟨x + y, by simp [Nat.add_assoc]⟩

theorem forall2_grown_refl (l : List TxIn) : Pointwise Grown l l := by
  induction l with
  | nil => exact .nil
  | cons i l ih => exact .cons (.refl i) ih

/-- Summary of one step of funding in currency `c`, from `(ins, left, sp)` to `(ins', left', sp')`. -/
structure Step (w : W) (c : Addr) (left left' : Nat) (sp sp' : AMap Key Nat)
    (din : Key → Nat) (dsum : Nat) : Prop where
  le : left' ≤ left
  spok : SpOk w sp'
  gain : ∀ k, got sp' k = got sp k + din k
  other : ∀ k : Key, k.2 ≠ c → got sp' k = got sp k
  sum : dsum + left' = left
  room : room w.balance sp' c + (left - left') = room w.balance sp c

theorem reuse_spec {w : W} (hb : w.BalOk) (c : Addr) (ins : List TxIn) :
    ∀ (left : Nat) (sp : AMap Key Nat), left < 2 ^ 128 → SpOk w sp →
      (∀ i ∈ ins, i.contract = c → i.amount + left < 2 ^ 128) →
      let r := reuse w c ins left sp
      Pointwise Grown ins r.1 ∧
      (∀ c', c' ≠ c → inSum r.1 c' = inSum ins c') ∧
      ∃ (din : Key → Nat) (ds : Nat), Step w c left r.2.1 sp r.2.2 din ds ∧
        (∀ k, drawn r.1 k = drawn ins k + din k) ∧ inSum r.1 c = inSum ins c + ds := by
  induction ins with
  | nil =>
    intro left sp hl hs _
    refine ⟨.nil, fun _ _ => rfl, fun _ => 0, 0, ⟨Nat.le_refl _, hs, ?_, ?_, ?_, ?_⟩, ?_, ?_⟩ <;>
      simp [reuse]
  | cons i ins ih =>
    intro left sp hl hs hfit
    have stay :
        let r := (i :: (reuse w c ins left sp).1, (reuse w c ins left sp).2)
        Pointwise Grown (i :: ins) r.1 ∧
        (∀ c', c' ≠ c → inSum r.1 c' = inSum (i :: ins) c') ∧
        ∃ (din : Key → Nat) (ds : Nat), Step w c left r.2.1 sp r.2.2 din ds ∧
          (∀ k, drawn r.1 k = drawn (i :: ins) k + din k) ∧ inSum r.1 c = inSum (i :: ins) c + ds := by
      obtain ⟨h1, h2, din, ds, h3, h4, h5⟩ := ih left sp hl hs
        (fun j hj hc => hfit j (List.mem_cons_of_mem _ hj) hc)
      refine ⟨.cons (.refl i) h1, fun c' hc => ?_, din, ds, h3, fun k => ?_, ?_⟩
      · simp [h2 c' hc]
      · simp [h4 k, Nat.add_assoc]
      · simp [h5, Nat.add_assoc]
    unfold reuse
    split
    · refine ⟨forall2_grown_refl _, fun _ _ => rfl, fun _ => 0, 0, ⟨Nat.le_refl _, hs, ?_, ?_, ?_, ?_⟩, ?_, ?_⟩ <;>
        simp
    · rename_i hne
      split
      · rename_i hcond
        obtain ⟨hc, hown⟩ := hcond
        split
        · exact stay
        · rename_i b hf
          have hav := avail_eq hb hs hf
          have hbal : w.bal (i.address, i.contract) = b := by unfold W.bal; rw [hf]; rfl
          have hblt := BalOk_lt hb (i.address, i.contract)
          have hsk := hs (i.address, i.contract)
          rw [hbal] at hblt hsk
          dsimp only
          rw [hav]
          generalize hamt : (if b - got sp (i.address, i.contract) ≥ left then left
            else b - got sp (i.address, i.contract)) = amt
          have hamt1 : amt ≤ left := by rw [← hamt]; split <;> omega
          have hamt2 : got sp (i.address, i.contract) + amt ≤ b := by rw [← hamt]; split <;> omega
          split
          · exact stay
          · rename_i hnz
            rw [sub128_eq hamt1 hl]
            have hadd := got_addSpent hb (sp := sp) (k := (i.address, i.contract)) (x := amt) (by rw [hbal]; exact hamt2)
            have hspok := SpOk_addSpent hb hs (k := (i.address, i.contract)) (x := amt) (by rw [hbal]; exact hamt2)
            have hroom := room_addSpent hb (sp := sp) (k := (i.address, i.contract)) (c := c) hc hf hamt2
            have hi := hfit i List.mem_cons_self hc
            obtain ⟨h1, h2, din, ds, h3, h4, h5⟩ := ih (left - amt) _ (by omega) hspok
              (fun j hj hj' => by have := hfit j (List.mem_cons_of_mem _ hj) hj'; omega)
            rw [u128_eq (by omega)]
            refine ⟨.cons ⟨amt, rfl⟩ h1, fun c' hc' => ?_,
              fun k => (if k = (i.address, i.contract) then amt else 0) + din k, amt + ds,
              ⟨?_, h3.spok, fun k => ?_, fun k hk => ?_, ?_, ?_⟩, fun k => ?_, ?_⟩
            · simp only [inSum_cons, h2 c' hc']
              rw [if_neg (by rw [hc]; exact Ne.symm hc'), if_neg (by rw [hc]; exact Ne.symm hc')]
            · have := h3.le; simp only at this ⊢; omega
            · rw [h3.gain, hadd]; split <;> subst_vars <;> omega
            · rw [h3.other k hk, hadd, if_neg]; rintro rfl; exact hk hc
            · have := h3.sum; simp only at this ⊢; omega
            · have := h3.room; have := h3.le; simp only at *; omega
            · simp only [drawn_cons, h4 k]
              by_cases hk : (i.address, i.contract) = k
              · simp only [hk, if_true]; omega
              · simp only [if_neg hk, if_neg (Ne.symm hk)]; omega
            · rw [inSum_cons, inSum_cons, if_pos hc, if_pos hc, h5]; dsimp only; omega
      · exact stay

theorem takeNew_spec {w : W} (hb : w.BalOk) (c : Addr) (memo : Option Nat) (es : List (Addr × Nat)) :
    ∀ (left : Nat) (sp : AMap Key Nat), left < 2 ^ 128 → SpOk w sp → AMap.Ok es →
      (∀ e ∈ es, (∃ b, w.balance.find (e.1, c) = some b ∧ got sp (e.1, c) + e.2 ≤ b) ∧ 0 < e.2) →
      let r := takeNew c memo es left sp
      (∀ i ∈ r.1, i.contract = c ∧ i.memo = memo ∧ i.solution = noSolution ∧ i.exec = false ∧ 0 < i.amount ∧
        ∃ b, (i.address, b) ∈ es ∧ i.amount ≤ b) ∧
      (r.1.map (·.address)).Sublist (es.map (·.1)) ∧
      (∃ (din : Key → Nat) (ds : Nat), Step w c left r.2.1 sp r.2.2 din ds ∧
        (∀ k, drawn r.1 k = din k) ∧ inSum r.1 c = ds) ∧
      r.2.1 = left - (es.map (·.2)).sum ∧
      (∀ n, n < r.1.length → ((es.take n).map (·.2)).sum < left) := by
  induction es with
  | nil =>
    intro left sp hl hs _ _
    refine ⟨by simp [takeNew], by simp [takeNew], ⟨fun _ => 0, 0, ⟨Nat.le_refl _, hs, ?_, ?_, ?_, ?_⟩, ?_, ?_⟩, ?_, ?_⟩ <;>
      simp [takeNew]
  | cons e es ih =>
    intro left sp hl hs hok he
    unfold takeNew
    split
    · rename_i h0
      subst h0
      refine ⟨by simp, by simp, ⟨fun _ => 0, 0, ⟨Nat.le_refl _, hs, ?_, ?_, ?_, ?_⟩, ?_, ?_⟩, ?_, ?_⟩ <;> simp
    · rename_i h0
      dsimp only
      generalize hamt : (if left < e.2 then left else e.2) = amt
      obtain ⟨⟨b, hf, hle⟩, hpos⟩ := he e List.mem_cons_self
      have hamt1 : amt ≤ left := by rw [← hamt]; split <;> omega
      have hamt2 : amt ≤ e.2 := by rw [← hamt]; split <;> omega
      have hamt3 : 0 < amt := by rw [← hamt]; split <;> omega
      have hamt4 : amt = min left e.2 := by rw [← hamt]; split <;> omega
      have hbal : w.bal (e.1, c) = b := by unfold W.bal; rw [hf]; rfl
      rw [sub128_eq hamt1 hl]
      have hadd := got_addSpent hb (sp := sp) (k := (e.1, c)) (x := amt) (by rw [hbal]; omega)
      have hspok := SpOk_addSpent hb hs (k := (e.1, c)) (x := amt) (by rw [hbal]; omega)
      have hroom := room_addSpent hb (sp := sp) (k := (e.1, c)) (b := b) (x := amt) (c := c) rfl hf (by omega)
      obtain ⟨h1, h2, ⟨din, ds, h3, h4, h5⟩, h6, h7⟩ := ih (left - amt) _ (by omega) hspok (AMap.ok_tail hok) (by
        intro x hx
        obtain ⟨⟨b', hf', hle'⟩, hp'⟩ := he x (List.mem_cons_of_mem _ hx)
        refine ⟨⟨b', hf', ?_⟩, hp'⟩
        rw [hadd, if_neg]
        · exact hle'
        · intro heq
          exact AMap.ok_head hok x hx (Prod.mk.inj heq).1)
      refine ⟨?_, ?_, ⟨fun k => (if (e.1, c) = k then amt else 0) + din k, amt + ds,
              ⟨?_, h3.spok, fun k => ?_, fun k hk => ?_, ?_, ?_⟩, fun k => ?_, ?_⟩, ?_, ?_⟩
      · intro i hi
        rcases List.mem_cons.1 hi with rfl | hi
        · exact ⟨rfl, rfl, rfl, rfl, hamt3, e.2, List.mem_cons_self, hamt2⟩
        · obtain ⟨a1, a2, a3, a4, a5, b', hb', a6⟩ := h1 i hi
          exact ⟨a1, a2, a3, a4, a5, b', List.mem_cons_of_mem _ hb', a6⟩
      · exact h2.cons_cons _
      · have := h3.le; omega
      · rw [h3.gain, hadd]
        by_cases hk : k = (e.1, c)
        · subst hk; simp; omega
        · simp [hk, Ne.symm hk]
      · rw [h3.other k hk, hadd, if_neg]; rintro rfl; exact hk rfl
      · have := h3.sum; omega
      · have := h3.room; have := h3.le; omega
      · simp only [drawn_cons, h4 k]
      · simp only [inSum_cons, h5, if_true]
      · rw [h6, List.map_cons, List.sum_cons, hamt4]; omega
      · intro n hn
        cases n with
        | zero => simp; omega
        | succ n =>
          have := h7 n (by simpa using hn)
          rw [List.take_succ_cons, List.map_cons, List.sum_cons]
          omega

theorem addrPick {c : Addr} {sp : AMap Key Nat} {x : Key × Nat} {z : Addr × Nat}
    (h : (if x.1.2 = c then
      let b := avail sp x.1 x.2
      if b = 0 then none else some (x.1.1, b)
    else none) = some z) : x.1.2 = c ∧ z.1 = x.1.1 := by
  split at h
  · dsimp only at h
    split at h
    · cases h
    · simp only [Option.some.injEq] at h
      subst h
      exact ⟨by assumption, rfl⟩
  · cases h

theorem addrList_props {w : W} (hb : w.BalOk) {sp : AMap Key Nat} (hs : SpOk w sp) (c : Addr) :
    AMap.Ok (addrList c sp w.balance) ∧
    (∀ e ∈ addrList c sp w.balance,
      (∃ b, w.balance.find (e.1, c) = some b ∧ got sp (e.1, c) + e.2 = b) ∧ 0 < e.2) ∧
    ((addrList c sp w.balance).map (·.2)).sum = room w.balance sp c := by
  have hall : ∀ e ∈ w.balance, avail sp e.1 e.2 = e.2 - got sp e.1 := fun e he =>
    avail_eq hb hs (AMap.mem_find hb.keys he)
  have hmem : ∀ e ∈ addrList c sp w.balance,
      (∃ b, w.balance.find (e.1, c) = some b ∧ got sp (e.1, c) + e.2 = b) ∧ 0 < e.2 := by
    intro e he
    obtain ⟨x, hx, hxe⟩ := List.mem_filterMap.1 he
    dsimp only at hxe
    split at hxe
    · rename_i hc
      split at hxe
      · cases hxe
      · rename_i hz
        simp only [Option.some.injEq] at hxe
        subst hxe
        have hk : (x.1.1, c) = x.1 := by rw [← hc]
        have hf := AMap.mem_find hb.keys hx
        dsimp only
        rw [hk]
        rw [hall x hx] at hz ⊢
        have h1 := hs x.1
        unfold W.bal at h1
        rw [hf] at h1
        simp only [Option.getD_some] at h1
        exact ⟨⟨x.2, hf, by omega⟩, by omega⟩
    · cases hxe
  refine ⟨?_, hmem, ?_⟩
  · have hk := hb.keys
    revert hk
    unfold AMap.Ok addrList
    generalize w.balance = m
    clear hall hmem hb hs
    induction m with
    | nil => simp
    | cons x m ih =>
      intro hk
      rw [List.map_cons, List.nodup_cons] at hk
      rw [List.filterMap_cons]
      split
      · exact ih hk.2
      · rename_i y hy
        rw [List.map_cons, List.nodup_cons]
        refine ⟨?_, ih hk.2⟩
        intro hm
        obtain ⟨z, hz, hzy⟩ := List.mem_map.1 hm
        obtain ⟨x', hx', hxz⟩ := List.mem_filterMap.1 hz
        have q1 := addrPick hy
        have q2 := addrPick hxz
        refine hk.1 (List.mem_map.2 ⟨x', hx', ?_⟩)
        exact Prod.ext (q2.2.symm.trans (hzy.trans q1.2)) (q2.1.trans q1.1.symm)
  · clear hmem
    unfold addrList room
    revert hall
    generalize w.balance = m
    intro hall
    induction m with
    | nil => rfl
    | cons x m ih =>
      have := ih (fun e he => hall e (List.mem_cons_of_mem _ he))
      have hx := hall x List.mem_cons_self
      rw [List.filterMap_cons, List.map_cons, List.sum_cons, ← this]
      dsimp only
      rw [hx]
      by_cases hc : x.1.2 = c
      · simp only [hc, if_true]
        by_cases hz : x.2 - got sp x.1 = 0
        · simp [hz]
        · simp [hz]
      · simp [hc]

end Verif.Wallet
