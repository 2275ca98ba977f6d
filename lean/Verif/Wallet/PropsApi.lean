import Verif.Wallet.Api
import Verif.Wallet.PropsFund
/-
  C77: what the payment calls of the wallet put into a transaction.
-/
namespace Verif.Wallet
open Verif

theorem fits_of {tx : Tx} {dep : List (Addr × Nat)}
    (h : ∀ c, inSum tx.inputs c + outSum tx.outputs c + depSum tx.ops c + extraSum dep c < 2 ^ 128) : Fits tx dep := h

theorem le_sum_of_mem {x : Nat} : ∀ {l : List Nat}, x ∈ l → x ≤ l.sum
  | y :: l, h => by
    rw [List.sum_cons]
    rcases List.mem_cons.1 h with rfl | h
    · omega
    · have := le_sum_of_mem h; omega

/-- C77.  `send`: one output with exactly the requested amount, currency, destination and memo, nothing
else; the inputs add up to that amount in that currency and to nothing in others, and no address gives more
than its balance.  Zero amounts and the zero address are refused. -/
theorem C77_send {E : Env} (hsrt : SortOk E.srt) {w : W} (hk : KInv E w) (hn : w.num ≠ 0) (hb : w.BalOk)
    (hm : w.num ≤ 65535) {memoOk : Option Nat → Bool} {amount : Nat} (ha : amount < 2 ^ 128) {dst cur : Addr} {o : Opts}
    {tx : Tx} (h : (w.send E memoOk amount dst cur o).2 = .ok tx) :
    0 < amount ∧ dst ≠ 0 ∧ tx.outputs = [⟨dst, cur, amount, o.memo⟩] ∧ tx.ops = [] ∧ tx.deploy = none ∧
    (∀ c, inSum tx.inputs c = if c = cur then amount else 0) ∧
    (∀ k, drawn tx.inputs k ≤ w.bal k) ∧ ∀ i ∈ tx.inputs, 0 < i.amount ∧ i.contract = cur := by
  unfold W.send at h
  split at h
  · cases h
  split at h
  · cases h
  split at h
  · cases h
  rename_i h1 h2 _
  have hf : Fits { note := 1, outputs := [⟨dst, cur, amount, o.memo⟩] } [] := by
    intro c
    simp only [inSum, outSum, depSum, extraSum, List.map_cons, List.map_nil, List.sum_cons, List.sum_nil]
    split <;> omega
  have hs : (([] : List Sol)).length + w.num ≤ 65535 := by simpa using hm
  obtain ⟨a1, a2, a3, a4⟩ := C72_amounts hsrt hk hn hb hf hs h
  obtain ⟨b1, old, new, e, b2, b3⟩ := C72_draws hsrt hk hn hb hf hs h
  have hsum : ∀ c, inSum tx.inputs c = if c = cur then amount else 0 := by
    intro c
    rw [a4]
    simp only [inSum, outSum, depSum, extraSum, List.map_cons, List.map_nil, List.sum_cons, List.sum_nil]
    by_cases hc : c = cur
    · subst hc; simp
    · rw [if_neg (Ne.symm hc), if_neg hc]; simp
  refine ⟨by omega, h2, a1, by simpa using a3, a2, hsum, fun k => by simpa [drawn] using b1 k, ?_⟩
  intro i hi
  cases b2
  rw [List.nil_append] at e
  rw [e] at hi
  obtain ⟨c1, _, c2⟩ := b3 i hi
  refine ⟨c1, ?_⟩
  rcases Decidable.em (i.contract = cur) with hc | hc
  · exact hc
  · exfalso
    have h0 := hsum i.contract
    rw [if_neg hc, e] at h0
    have : i.amount ≤ inSum new i.contract := by
      unfold inSum
      have : (if i.contract = i.contract then i.amount else 0) ∈ new.map fun j => if j.contract = i.contract then j.amount else 0 :=
        List.mem_map.2 ⟨i, hi, rfl⟩
      rw [if_pos rfl] at this
      exact le_sum_of_mem this
    omega

theorem manyOuts_ok {memoOk cur memo} : ∀ {l : List (Addr × Nat)} {outs}, manyOuts memoOk cur memo l = .ok outs →
    outs = l.map (fun e => ⟨e.1, cur, e.2, memo⟩) ∧ ∀ e ∈ l, e.1 ≠ 0 ∧ e.2 ≠ 0 := by
  intro l
  induction l with
  | nil => intro outs h; cases h; exact ⟨rfl, by simp⟩
  | cons e l ih =>
    intro outs h
    unfold manyOuts at h
    split at h
    · cases h
    split at h
    · cases h
    split at h
    · cases h
    obtain ⟨r, hr, h⟩ := Res.bind_eq_ok.1 h
    cases h
    obtain ⟨q1, q2⟩ := ih hr
    subst q1
    refine ⟨rfl, ?_⟩
    intro x hx
    rcases List.mem_cons.1 hx with rfl | hx
    · exact ⟨by assumption, by assumption⟩
    · exact q2 x hx

/-- C77.  `send_many`: one output per entry, in order, and inputs for exactly their sum. -/
theorem C77_send_many {E : Env} (hsrt : SortOk E.srt) {w : W} (hk : KInv E w) (hn : w.num ≠ 0) (hb : w.BalOk)
    (hm : w.num ≤ 65535) {memoOk : Option Nat → Bool} {amounts : List (Addr × Nat)} {cur : Addr} {o : Opts}
    (ha : (amounts.map (·.2)).sum < 2 ^ 128) {tx : Tx} (h : (w.sendMany E memoOk amounts cur o).2 = .ok tx) :
    tx.outputs = amounts.map (fun e => ⟨e.1, cur, e.2, o.memo⟩) ∧ (∀ e ∈ amounts, e.1 ≠ 0 ∧ 0 < e.2) ∧
    tx.ops = [] ∧ tx.deploy = none ∧
    (∀ c, inSum tx.inputs c = if c = cur then (amounts.map (·.2)).sum else 0) ∧ ∀ k, drawn tx.inputs k ≤ w.bal k := by
  unfold W.sendMany at h
  split at h
  · rename_i outs ho
    obtain ⟨rfl, hz⟩ := manyOuts_ok ho
    have hsum : ∀ c, outSum (amounts.map (fun e => (⟨e.1, cur, e.2, o.memo⟩ : TxOut))) c
        = if c = cur then (amounts.map (·.2)).sum else 0 := by
      intro c
      unfold outSum
      rw [List.map_map]
      by_cases hc : c = cur
      · subst hc
        rw [if_pos rfl]
        congr 1
        apply List.map_congr_left
        intro e _
        simp
      · rw [if_neg hc]
        have : (amounts.map ((fun o : TxOut => if o.contract = c then o.amount else 0) ∘ fun e => ⟨e.1, cur, e.2, o.memo⟩))
            = amounts.map fun _ => 0 := by
          apply List.map_congr_left
          intro e _
          simp [Ne.symm hc]
        rw [this, List.map_const']
        exact List.sum_replicate_nat
    have hf : Fits { note := 1, outputs := amounts.map (fun e => ⟨e.1, cur, e.2, o.memo⟩) } [] := by
      intro c
      dsimp only
      rw [hsum]
      simp only [inSum, depSum, extraSum, List.map_nil, List.sum_nil]
      split <;> omega
    have hs : (([] : List Sol)).length + w.num ≤ 65535 := by simpa using hm
    obtain ⟨a1, a2, a3, a4⟩ := C72_amounts hsrt hk hn hb hf hs h
    obtain ⟨b1, _⟩ := C72_draws hsrt hk hn hb hf hs h
    refine ⟨a1, fun e he => ⟨(hz e he).1, Nat.pos_of_ne_zero (hz e he).2⟩, by simpa using a3, a2, ?_, fun k => by simpa [drawn] using b1 k⟩
    intro c
    rw [a4]
    dsimp only
    rw [hsum]
    simp [inSum, depSum, extraSum]
  · cases h
  · cases h

/-- C77.  `send_from`: the inputs are exactly the amount from the given source, nothing is taken from
elsewhere. -/
theorem C77_send_from {E : Env} (hsrt : SortOk E.srt) {w : W} (hk : KInv E w) (hn : w.num ≠ 0) (hb : w.BalOk)
    (hm : w.num ≤ 65535) {memoOk : Option Nat → Bool} {contract : Option (Option Addr)} {amount : Nat}
    (ha : 2 * amount < 2 ^ 128) {dst src cur : Addr} {o : Opts} {tx : Tx}
    (h : (w.sendFrom E memoOk contract amount dst src cur o).2 = .ok tx) :
    0 < amount ∧ dst ≠ 0 ∧ tx.outputs = [⟨dst, cur, amount, o.memo⟩] ∧ tx.ops = [] ∧ tx.deploy = none ∧
    tx.inputs.map (fun i => (i.address, i.contract, i.amount)) = [(src, cur, amount)] ∧ contract ≠ some none := by
  unfold W.sendFrom at h
  split at h
  · cases h
  rename_i hcon
  dsimp only at h
  generalize (match contract with
      | some (some owner) => { o with ownerMap := emplaceOwner o.ownerMap src owner }
      | _ => o : Opts) = o' at h
  split at h
  · cases h
  split at h
  · cases h
  split at h
  · cases h
  rename_i h1 h2 _
  have hf : Fits { note := 2, inputs := [{ address := src, contract := cur, amount := amount }], outputs := [⟨dst, cur, amount, o.memo⟩] } [] := by
    intro c
    simp only [inSum, outSum, depSum, extraSum, List.map_cons, List.map_nil, List.sum_cons, List.sum_nil]
    split <;> omega
  have hs : (([] : List Sol)).length + w.num ≤ 65535 := by simpa using hm
  obtain ⟨a1, a2, a3, a4⟩ := C72_amounts hsrt hk hn hb hf hs h
  obtain ⟨b1, old, new, e, b2, b3⟩ := C72_draws hsrt hk hn hb hf hs h
  refine ⟨by omega, h2, a1, by simpa using a3, a2, ?_, by intro hc; exact hcon hc⟩
  cases b2 with
  | cons hr hrest =>
    cases hrest
    rename_i i
    obtain ⟨r1, r2, _, r4⟩ := hr
    dsimp only at r1 r2 r4
    have hsum : ∀ c, inSum tx.inputs c = if c = cur then amount else 0 := by
      intro c
      rw [a4]
      simp only [inSum, outSum, depSum, extraSum, List.map_cons, List.map_nil, List.sum_cons, List.sum_nil]
      by_cases hc : c = cur
      · subst hc; simp
      · rw [if_neg (Ne.symm hc), if_neg hc]; simp
    have hall : ∀ c, inSum tx.inputs c = (if cur = c then i.amount else 0) + inSum new c := by
      intro c; rw [e]; simp [inSum, r2]
    have hnew : new = [] := by
      cases new with
      | nil => rfl
      | cons j new =>
        exfalso
        have hj := (b3 j List.mem_cons_self).1
        have hle : j.amount ≤ inSum (j :: new) j.contract := by
          simp only [inSum, List.map_cons, List.sum_cons, if_pos]
          omega
        have h3 := hall j.contract
        rw [hsum] at h3
        by_cases hc : j.contract = cur
        · rw [if_pos hc, if_pos hc.symm] at h3
          omega
        · rw [if_neg hc, if_neg (Ne.symm hc)] at h3
          omega
    subst hnew
    have h3 := hall cur
    rw [hsum, if_pos rfl, if_pos rfl] at h3
    have h4 : inSum ([] : List TxIn) cur = 0 := rfl
    rw [e]
    simp only [List.cons_append, List.nil_append, List.map_cons, List.map_nil]
    rw [r1, r2, show i.amount = amount by omega]

/-- C77.  `execute` draws nothing but the fee. -/
theorem C77_execute {E : Env} (hsrt : SortOk E.srt) {w : W} (hk : KInv E w) (hn : w.num ≠ 0) (hb : w.BalOk)
    (hm : w.num ≤ 65535) {addr : Addr} {call : Nat} {user : Option Addr} {o : Opts} {tx : Tx}
    (h : (w.execute E addr call user o).2 = .ok tx) :
    tx.inputs = [] ∧ tx.outputs = [] ∧ tx.deploy = none ∧
    tx.ops.map (fun x => (x.address, x.kind)) = [(addr, .execute user call)] := by
  have hf : Fits { note := 3, ops := [{ address := addr, kind := .execute user call }] } [] := by
    intro c; simp [inSum, outSum, depSum, extraSum]
  have hs : (([] : List Sol)).length + w.num ≤ 65535 := by simpa using hm
  obtain ⟨a1, a2, a3, a4⟩ := C72_amounts hsrt hk hn hb hf hs h
  obtain ⟨b1, old, new, e, b2, b3⟩ := C72_draws hsrt hk hn hb hf hs h
  refine ⟨?_, a1, a2, a3⟩
  cases b2
  rw [e, List.nil_append]
  cases new with
  | nil => rfl
  | cons j new =>
    exfalso
    have hj := (b3 j List.mem_cons_self).1
    have h3 := a4 j.contract
    rw [e] at h3
    simp only [inSum, outSum, depSum, extraSum, List.nil_append, List.map_cons, List.map_nil, List.sum_cons, List.sum_nil, if_pos] at h3
    omega

/-- C77.  `deposit`: one deposit of the requested amount, and inputs for exactly it. -/
theorem C77_deposit {E : Env} (hsrt : SortOk E.srt) {w : W} (hk : KInv E w) (hn : w.num ≠ 0) (hb : w.BalOk)
    (hm : w.num ≤ 65535) {addr : Addr} {call amount : Nat} (ha : amount < 2 ^ 128) {cur : Addr} {user : Option Addr}
    {o : Opts} {tx : Tx} (h : (w.deposit E addr call amount cur user o).2 = .ok tx) :
    tx.outputs = [] ∧ tx.deploy = none ∧
    tx.ops.map (fun x => (x.address, x.kind)) = [(addr, .deposit user call cur amount)] ∧
    (∀ c, inSum tx.inputs c = if c = cur then amount else 0) ∧ ∀ k, drawn tx.inputs k ≤ w.bal k := by
  have hf : Fits { note := 4, ops := [{ address := addr, kind := .deposit user call cur amount }] } [] := by
    intro c
    simp only [inSum, outSum, depSum, extraSum, List.map_cons, List.map_nil, List.sum_cons, List.sum_nil]
    split <;> omega
  have hs : (([] : List Sol)).length + w.num ≤ 65535 := by simpa using hm
  obtain ⟨a1, a2, a3, a4⟩ := C72_amounts hsrt hk hn hb hf hs h
  obtain ⟨b1, _⟩ := C72_draws hsrt hk hn hb hf hs h
  refine ⟨a1, a2, a3, ?_, fun k => by simpa [drawn] using b1 k⟩
  intro c
  rw [a4]
  simp only [inSum, outSum, depSum, extraSum, List.map_cons, List.map_nil, List.sum_cons, List.sum_nil]
  by_cases hc : c = cur
  · subst hc; simp
  · rw [if_neg (Ne.symm hc), if_neg hc]; simp

/-- C77.  `make_offer`: deploys the offer with the inverse price `bid · 2^64 / ask` rounded down, which fits
into 128 bits, and funds it with exactly the bid. -/
theorem C77_make_offer {E : Env} (hsrt : SortOk E.srt) {w : W} (hk : KInv E w) (hn : w.num ≠ 0) (hb : w.BalOk)
    (hm : w.num ≤ 65535) {offer : Nat → Nat} {bid ask : Nat} (ha : bid < 2 ^ 128) {cur : Addr} {o : Opts} {tx : Tx}
    (h : (w.makeOffer E offer bid cur ask o).2 = .ok tx) :
    0 < bid ∧ 0 < ask ∧ bid * 2 ^ 64 / ask < 2 ^ 128 ∧ tx.deploy = some (offer (bid * 2 ^ 64 / ask)) ∧
    tx.outputs = [] ∧ tx.ops = [] ∧
    (∀ c, inSum tx.inputs c = if c = cur then bid else 0) ∧ ∀ k, drawn tx.inputs k ≤ w.bal k := by
  unfold W.makeOffer at h
  split at h
  · cases h
  rename_i h0
  dsimp only at h
  have e0 : (bid <<< 64) % 2 ^ 256 = bid * 2 ^ 64 := by
    rw [Nat.shiftLeft_eq]; exact Nat.mod_eq_of_lt (by omega)
  rw [e0] at h
  split at h
  · cases h
  rename_i h1
  have hp : bid * 2 ^ 64 / ask < 2 ^ 128 := by
    rcases Nat.lt_or_ge (bid * 2 ^ 64 / ask) (2 ^ 128) with hlt | hge
    · exact hlt
    · exfalso
      apply h1
      rw [Nat.shiftRight_eq_div_pow]
      have := Nat.div_pos hge (by decide : 0 < 2 ^ 128)
      omega
  have hf : Fits { note := 5, deploy := some (offer (bid * 2 ^ 64 / ask)) } [(cur, bid)] := by
    intro c
    simp only [inSum, outSum, depSum, extraSum, List.map_cons, List.map_nil, List.sum_cons, List.sum_nil]
    split <;> omega
  have hs : (([] : List Sol)).length + w.num ≤ 65535 := by simpa using hm
  obtain ⟨a1, a2, a3, a4⟩ := C72_amounts hsrt hk hn hb hf hs h
  obtain ⟨b1, _⟩ := C72_draws hsrt hk hn hb hf hs h
  refine ⟨by omega, by omega, hp, a2, a1, by simpa using a3, ?_, fun k => by simpa [drawn] using b1 k⟩
  intro c
  rw [a4]
  simp only [inSum, outSum, depSum, extraSum, List.map_cons, List.map_nil, List.sum_cons, List.sum_nil]
  by_cases hc : c = cur
  · subst hc; simp
  · rw [if_neg (Ne.symm hc), if_neg hc]; simp

/-! ### examples -/

example : ∃ tx, (exLocked.send exE (fun _ => true) 70 3 9 { passphrase := some 1 }).2 = .ok tx ∧
    tx.outputs = [⟨3, 9, 70, none⟩] ∧ tx.inputs.map (fun i => (i.address, i.amount)) = [(1105, 60), (1106, 10)] := by
  refine ⟨_, rfl, ?_, ?_⟩ <;> decide +kernel

example : ∃ tx, (exOpen.sendMany exE (fun _ => true) [(3, 20), (4, 30)] 9 {}).2 = .ok tx ∧ tx.outputs.length = 2 := by
  refine ⟨_, rfl, ?_⟩; decide +kernel

example : ∃ tx, (exOpen.sendFrom exE (fun _ => true) (some (some 1105)) 20 3 88 9 {}).2 = .ok tx ∧
    tx.inputs.map (·.solution) = [1] := by
  refine ⟨_, rfl, ?_⟩; decide +kernel

example : ∃ tx, (exOpen.execute exE 88 4 (some 1105) {}).2 = .ok tx := ⟨_, rfl⟩
example : ∃ tx, (exOpen.deposit exE 88 4 50 9 (some 1105) {}).2 = .ok tx := ⟨_, rfl⟩
example : ∃ tx, (exOpen.makeOffer exE (fun p => p) 50 9 7 {}).2 = .ok tx := ⟨_, rfl⟩

/-- `make_offer` accepts prices that round to nothing: one unit bid for 2^65. -/
theorem C77_offer_price_zero : ∃ tx, (exOpen.makeOffer exE (fun p => p) 1 9 (2 ^ 65) {}).2 = .ok tx ∧ tx.deploy = some 0 := by
  refine ⟨_, rfl, ?_⟩
  decide +kernel

end Verif.Wallet
