import Verif.Wallet.Samples
import Verif.Wallet.FewLemmas
/-
  C72: funding a transaction from the wallet's balances.
-/
namespace Verif.Wallet
open Verif

/-- C72.  A completed transaction keeps the outputs and operations it was given, and in every currency its
inputs add up to exactly the outputs and deposits (or the inputs that were already there, if these are
more), plus the explicit deposit. -/
theorem C72_amounts {E : Env} (hsrt : SortOk E.srt) {w : W} (hk : KInv E w) (hn : w.num ≠ 0) (hb : w.BalOk)
    {o : Opts} {dep : List (Addr × Nat)} {tx tx' : Tx} (hf : Fits tx dep) (hs : tx.solutions.length + w.num ≤ 65535)
    (h : (w.complete E o dep tx).2 = .ok tx') :
    tx'.outputs = tx.outputs ∧ tx'.deploy = tx.deploy ∧
    tx'.ops.map (fun x => (x.address, x.kind)) = tx.ops.map (fun x => (x.address, x.kind)) ∧
    ∀ c, inSum tx'.inputs c = max (outSum tx.outputs c + depSum tx.ops c) (inSum tx.inputs c) + extraSum dep c := by
  obtain ⟨u, p, t, take, st, hr, _, _, hfun, hsig⟩ := complete_ok hsrt hk hn hb hf hs h
  obtain ⟨r1, r2, r3, r4, r5, r6, r7, r8, r9, r10, r11, r12, r13⟩ := hfun.rest
  refine ⟨?_, ?_, ?_, ?_⟩
  · rw [hsig.rest.2.2.2.2.2.2.1, r9]; rfl
  · rw [hsig.rest.2.2.2.2.2.2.2, r12]; rfl
  · rw [hsig.ops.map_eq (f := fun x : Op => (x.address, x.kind)) (by
      intro a b hab; rw [hab.same.1, hab.same.2]), r10]; rfl
  · intro c
    rw [hsig.inSum, hfun.sum]
    show inSum tx.inputs c + ((outSum tx.outputs c + depSum tx.ops c - inSum tx.inputs c) + extraSum dep c) = _
    omega

/-- C72.  From no address does a completed transaction draw more, beyond the inputs it came with, than the
wallet's balance of that address.  The inputs it came with keep address, currency and memo and never
shrink; every added input has a positive amount and the memo of the options. -/
theorem C72_draws {E : Env} (hsrt : SortOk E.srt) {w : W} (hk : KInv E w) (hn : w.num ≠ 0) (hb : w.BalOk)
    {o : Opts} {dep : List (Addr × Nat)} {tx tx' : Tx} (hf : Fits tx dep) (hs : tx.solutions.length + w.num ≤ 65535)
    (h : (w.complete E o dep tx).2 = .ok tx') :
    (∀ k, drawn tx'.inputs k ≤ drawn tx.inputs k + w.bal k) ∧
    ∃ old new, tx'.inputs = old ++ new ∧
      Pointwise (fun i j => j.address = i.address ∧ j.contract = i.contract ∧ j.memo = i.memo ∧ i.amount ≤ j.amount)
        tx.inputs old ∧
      ∀ i ∈ new, 0 < i.amount ∧ i.memo = o.memo ∧ 0 < w.bal (i.address, i.contract) := by
  obtain ⟨u, p, t, take, st, hr, _, _, hfun, hsig⟩ := complete_ok hsrt hk hn hb hf hs h
  refine ⟨?_, ?_⟩
  · intro k
    rw [hsig.drawn, hfun.draw]
    have := hfun.room k
    rw [hr.bal] at this
    show drawn tx.inputs k + take k ≤ _
    omega
  · obtain ⟨old, new, he, hg, hnew⟩ := hfun.ext
    have hins := hsig.ins
    rw [he] at hins
    obtain ⟨old', new', he', h1, h2⟩ := hins.split
    have hg' : Pointwise (fun i j : TxIn => j.address = i.address ∧ j.contract = i.contract ∧ j.memo = i.memo ∧ i.amount ≤ j.amount)
        tx.inputs old := hg.imp (by
      rintro i j ⟨x, rfl⟩
      exact ⟨rfl, rfl, rfl, Nat.le_add_right _ _⟩)
    have h1' : Pointwise (fun i j : TxIn => j.address = i.address ∧ j.contract = i.contract ∧ j.memo = i.memo ∧ i.amount ≤ j.amount)
        old old' := h1.imp (by
      intro i j hij
      obtain ⟨a, b, c, d⟩ := hij.same
      exact ⟨a, b, d, by rw [c]; exact Nat.le_refl _⟩)
    refine ⟨old', new', he', Pointwise.trans ?_ hg' h1', ?_⟩
    · rintro a b c ⟨a1, a2, a3, a4⟩ ⟨b1, b2, b3, b4⟩
      exact ⟨by rw [b1, a1], by rw [b2, a2], by rw [b3, a3], by omega⟩
    · intro j hj
      obtain ⟨i, hi, hij⟩ := h2.mem_right hj
      obtain ⟨s1, s2, s3, s4⟩ := hij.same
      obtain ⟨⟨f1, f2, f3, f4⟩, f5⟩ := hnew i hi
      rw [s1, s2, s3, s4]
      refine ⟨f4, f1, ?_⟩
      -- a new input is drawn from the balance
      have hle : i.amount ≤ drawn new (i.address, i.contract) := le_drawn hi
      have hold : drawn tx.inputs (i.address, i.contract) ≤ drawn old (i.address, i.contract) := drawn_grown hg _
      have hd := hfun.draw (i.address, i.contract)
      rw [he, drawn_append] at hd
      have hro := hfun.room (i.address, i.contract)
      rw [hr.bal] at hro
      have hd : drawn old (i.address, i.contract) + drawn new (i.address, i.contract)
          = drawn tx.inputs (i.address, i.contract) + take (i.address, i.contract) := hd
      omega

/-- C72.  With an unlocked wallet, a given sender and a cost within range, a transaction can be completed
exactly if in every currency the amount that is missing is at most the wallet's balance. -/
theorem C72_completes_iff {E : Env} (hsrt : SortOk E.srt) {w : W} (hk : KInv E w) (hl : w.isLocked = false)
    (hn : w.num ≠ 0) (hb : w.BalOk) {o : Opts} {dep : List (Addr × Nat)} {tx : Tx} (hf : Fits tx dep)
    (hs : tx.solutions.length + w.num ≤ 65535) (hsend : tx.sender.isSome = true ∨ o.sender.isSome = true)
    (hcost : ∀ is ops sols, ∃ c fee mx, E.cost is tx.outputs ops sols tx.deploy = .ok c ∧
      Chain.costToFee c (max tx.feeRatio o.feeRatio) = .ok fee ∧
      Chain.costToFee (u64 (c + o.gasLimit)) (max tx.feeRatio o.feeRatio) = .ok mx) :
    (∃ tx', (w.complete E o dep tx).2 = .ok tx') ↔
      ∀ c, (outSum tx.outputs c + depSum tx.ops c - inSum tx.inputs c) + extraSum dep c ≤ w.total c := by
  rcases complete_cases hk hn o dep tx with ⟨h, _, _⟩ | ⟨u, p, hr, _, hc⟩
  · rw [hl] at h; cases h
  have hu : u = w := by
    rcases hr.how with ⟨_, h⟩ | ⟨h, _⟩
    · exact h
    · rw [hl] at h; cases h
  subst hu
  rw [hc]
  have key := fund_iff hsrt hb (o := o) (dep := dep) (tx := setup E u o tx) hf hsend
    (fun ins => hcost ins tx.ops tx.solutions)
  have key' : (∃ t, fund E u o dep (setup E u o tx) = .ok t) ↔
      ∀ c, (outSum tx.outputs c + depSum tx.ops c - inSum tx.inputs c) + extraSum dep c ≤ u.total c := key
  rw [← key']
  unfold inner
  constructor
  · rintro ⟨tx', h⟩
    obtain ⟨t, ht, _⟩ := Res.bind_eq_ok.1 h
    exact ⟨t, ht⟩
  · rintro ⟨t, ht⟩
    rw [ht]
    simp only [Res.bind_ok]
    obtain ⟨take, hfun⟩ := fund_ok hsrt hb (tx := setup E u o tx) hf ht
    obtain ⟨r1, r2, r3, r4, r5, r6, r7, r8, r9, r10, r11, r12, r13⟩ := hfun.rest
    refine (signBody_spec hr.num hr.keys hr.addrs hr.km (tx := t) (by rw [r11]; exact hs)).2 ?_
    intro is ops sols
    rw [r9, r12]
    obtain ⟨c, _, _, h1, _⟩ := hcost is ops sols
    exact ⟨c, h1⟩

/-- C72.  Without a given sender, the sender is an address whose native balance, after the inputs, is the
largest of the wallet and covers the fee of the transaction before it is signed. -/
theorem C72_sender {E : Env} (hsrt : SortOk E.srt) {w : W} (hk : KInv E w) (hn : w.num ≠ 0) (hb : w.BalOk)
    {o : Opts} {dep : List (Addr × Nat)} {tx tx' : Tx} (hf : Fits tx dep) (hs : tx.solutions.length + w.num ≤ 65535)
    (h : (w.complete E o dep tx).2 = .ok tx') :
    (∀ s, tx.sender = some s → tx'.sender = some s) ∧
    (tx.sender = none → ∀ s, o.sender = some s → tx'.sender = some s) ∧
    (tx.sender = none → o.sender = none → ∃ s ins cost fee, tx'.sender = some s ∧
      ins.map (fun i => (i.address, i.contract, i.amount, i.memo))
        = tx'.inputs.map (fun i => (i.address, i.contract, i.amount, i.memo)) ∧
      E.cost ins tx.outputs tx.ops tx.solutions tx.deploy = .ok cost ∧
      Chain.costToFee cost (max tx.feeRatio o.feeRatio) = .ok fee ∧
      (0 < fee → fee ≤ w.bal (s, 0) - (drawn tx'.inputs (s, 0) - drawn tx.inputs (s, 0)) ∧
        ∀ a, w.bal (a, 0) - (drawn tx'.inputs (a, 0) - drawn tx.inputs (a, 0))
          ≤ w.bal (s, 0) - (drawn tx'.inputs (s, 0) - drawn tx.inputs (s, 0)))) := by
  obtain ⟨u, p, t, take, st, hr, _, _, hfun, hsig⟩ := complete_ok hsrt hk hn hb hf hs h
  obtain ⟨c, fee, mx, f1, f2, f3, f4, f5, f6, f7⟩ := hfun.fee
  have hsd := hsig.rest.2.2.2.2.2.1
  refine ⟨?_, ?_, ?_⟩
  · intro s h; rw [hsd]; exact f5 s h
  · intro h0 s h; rw [hsd]; exact f6 h0 s h
  · intro h0 h1
    obtain ⟨s, v, g1, g2, g3, g4⟩ := f7 h0 h1
    have htake : ∀ k, drawn tx'.inputs k - drawn tx.inputs k = take k := by
      intro k
      rw [hsig.drawn, hfun.draw]
      show drawn tx.inputs k + take k - drawn tx.inputs k = take k
      omega
    refine ⟨s, t.inputs, c, fee, by rw [hsd]; exact g1, (hsig.ins.map_eq (by
      intro a b hab
      obtain ⟨q1, q2, q3, q4⟩ := hab.same
      rw [q1, q2, q3, q4])).symm, f1, f2, ?_⟩
    intro hpos
    have hv : v = w.bal (s, 0) - take (s, 0) := by
      rcases g4 with g4 | g4
      · rw [g4, hr.bal]
      · omega
    rw [htake]
    refine ⟨by omega, ?_⟩
    intro a
    rw [htake]
    have := g3 a
    rw [hr.bal] at this
    omega

/-- C72.  The other fields of a completed transaction: the version of the next block, the note of
the options if there is one, never a later expiry than the transaction had or the options allow (a height, a number of blocks
from now, or the wallet's default), the larger fee ratio, the network, and a nonce that is the one of the
options, the one it had, or a random one.  The maximum fee covers the cost before signatures plus the gas
limit, cut to 32 bits. -/
theorem C72_header {E : Env} (hsrt : SortOk E.srt) {w : W} (hk : KInv E w) (hn : w.num ≠ 0) (hb : w.BalOk)
    {o : Opts} {dep : List (Addr × Nat)} {tx tx' : Tx} (hf : Fits tx dep) (hs : tx.solutions.length + w.num ≤ 65535)
    (h : (w.complete E o dep tx).2 = .ok tx') :
    tx'.version = E.version ((w.height + 1) % 2 ^ 32) ∧ tx'.note = o.note.getD tx.note ∧
    tx'.expires ≤ tx.expires ∧
    (∀ n, o.expireAt = some n → tx'.expires = min tx.expires n) ∧
    (∀ d, o.expireAt = none → o.expireDelta = some d → tx'.expires = min tx.expires ((w.height + d) % 2 ^ 32)) ∧
    (o.expireAt = none → o.expireDelta = none →
      tx'.expires = min tx.expires ((w.height + w.defaultExpire) % 2 ^ 32)) ∧
    tx'.feeRatio = max tx.feeRatio o.feeRatio ∧ tx'.network = E.network ∧
    (∀ n, o.nonce = some n → n ≠ 0 → tx'.nonce = n) ∧
    (o.nonce = none → tx.nonce ≠ 0 → tx'.nonce = tx.nonce) ∧
    (o.nonce.getD tx.nonce = 0 → tx'.nonce = E.rand) ∧
    ∃ ins c mx, ins.map (fun i => (i.address, i.contract, i.amount, i.memo))
        = tx'.inputs.map (fun i => (i.address, i.contract, i.amount, i.memo)) ∧
      E.cost ins tx.outputs tx.ops tx.solutions tx.deploy = .ok c ∧
      Chain.costToFee (u64 (c + o.gasLimit)) (max tx.feeRatio o.feeRatio) = .ok mx ∧ tx'.maxFee = mx % 2 ^ 32 := by
  obtain ⟨u, p, t, take, st, hr, _, _, hfun, hsig⟩ := complete_ok hsrt hk hn hb hf hs h
  obtain ⟨r1, r2, r3, r4, r5, r6, r7, r8, r9, r10, r11, r12, r13⟩ := hfun.rest
  obtain ⟨s1, s2, s3, s4, s5, s6, s7, s8⟩ := hsig.rest
  have hh : u.height = w.height := hr.same.2.2.1
  have hd : u.defaultExpire = w.defaultExpire := by
    rcases hr.how with ⟨_, h⟩ | ⟨_, _, hkm, hu⟩
    · rw [h]
    · rcases (unlock_spec hkm hu).2.2 with ⟨h, _⟩ | ⟨_, _, _, _, _, _, _, _, _, _, h, _⟩
      · exact absurd h hn
      · exact h
  have hexp : tx'.expires = min tx.expires (match o.expireAt, o.expireDelta with
      | some h, _ => h
      | none, some d => u32 (w.height + d)
      | none, none => u32 (w.height + w.defaultExpire)) := by
    rw [s2, r3, ← hh, ← hd]; rfl
  have hnon : tx'.nonce = if o.nonce.getD tx.nonce = 0 then E.rand else o.nonce.getD tx.nonce := by
    rw [hsig.nonce, r7]; rfl
  obtain ⟨c, fee, mx, f1, f2, f3, f4, _⟩ := hfun.fee
  refine ⟨?_, by rw [s5, r6]; rfl, by rw [hexp]; exact Nat.min_le_left _ _, ?_, ?_, ?_, by rw [s3, r4]; rfl,
    hsig.network, ?_, ?_, ?_, t.inputs, c, mx, ?_, f1, f3, by rw [s4, f4]; rfl⟩
  · rw [s1, r2]
    show E.version (u32 (u.height + 1)) = _
    rw [hh]; rfl
  · intro n hn'; rw [hexp, hn']
  · intro d h1 h2; rw [hexp, h1, h2]; rfl
  · intro h1 h2; rw [hexp, h1, h2]; rfl
  · intro n h1 h2; rw [hnon, h1]; simp [h2]
  · intro h1 h2; rw [hnon, h1]; simp [h2]
  · intro h1; rw [hnon, if_pos h1]
  · exact (hsig.ins.map_eq (f := fun i : TxIn => (i.address, i.contract, i.amount, i.memo)) (by
      intro a b hab; rw [hab.same.1, hab.same.2.1, hab.same.2.2.1, hab.same.2.2.2])).symm

/-- C72.  `gather_inputs_for`: it succeeds exactly if the wallet's balance in the currency is enough; the
inputs come from different addresses, each within its balance, add up to the amount, and no choice of
addresses with enough balance is smaller. -/
theorem C72_gather {E : Env} (hsrt : SortOk E.srt) {w : W} (hb : w.BalOk) {amount : Nat} (c : Addr) (memo : Option Nat)
    (ha : amount < 2 ^ 128) :
    ((∃ r, gather E w [] [] amount c memo = .ok r) ↔ amount ≤ w.total c) ∧
    ∀ ins sp, gather E w [] [] amount c memo = .ok (ins, sp) →
      inSum ins c = amount ∧ (ins.map (·.address)).Nodup ∧
      (∀ i ∈ ins, i.contract = c ∧ 0 < i.amount ∧ i.amount ≤ w.bal (i.address, c) ∧ i.memo = memo) ∧
      ∀ S : List Addr, S.Nodup → amount ≤ (S.map fun a => w.bal (a, c)).sum → ins.length ≤ S.length := by
  have hs0 : SpOk w [] := fun k => by simp [got, AMap.find]
  obtain ⟨g1, g2, g3⟩ := gather_spec hsrt hb hs0 (ins := []) (amount := amount) (c := c) memo (by simpa using ha)
  rw [room_nil] at g1
  refine ⟨?_, ?_⟩
  · constructor
    · rintro ⟨r, h⟩
      rcases Nat.lt_or_ge (w.total c) amount with hlt | hge
      · rw [g1.2 hlt] at h; cases h
      · exact hge
    · intro h
      cases hg : gather E w [] [] amount c memo with
      | ok r => exact ⟨r, rfl⟩
      | throw => have := g1.1 hg; omega
      | ub => exact absurd hg g3
  · intro ins sp h
    obtain ⟨_, _, _, _, q5, _⟩ := g2 ins sp h
    obtain ⟨f1, f2, f3⟩ := gather_few hsrt hb memo ha h
    refine ⟨by simpa using q5, f2, ?_, f3⟩
    intro i hi
    obtain ⟨w1, ⟨w2, _, _, w5⟩, w6⟩ := f1 i hi
    exact ⟨w1, w5, w6, w2⟩

/-! ### examples and counterexamples -/

/-- Sending 70 of a token takes all 60 of the larger address and 10 of the other one. -/
example : (((exOpen.complete exE {} [] exTx).2).bind fun t => .ok (t.inputs.map fun i => (i.address, i.amount), t.sender))
    = .ok ([(1105, 60), (1106, 10)], some 1106) := by decide +kernel

/-- The same environment with a constant cost. -/
def exFlat : Env := { exE with cost := fun _ _ _ _ _ => .ok 5000 }

theorem exFlat_k : KInv exFlat exOpen := exOpen_k

example : ∃ tx', (exOpen.complete exFlat { sender := some 1105 } [] exTx).2 = .ok tx' :=
  (C72_completes_iff isort_ok exFlat_k (by decide) (by decide) exOpenBal exFits (by decide) (.inr rfl)
    (fun _ _ _ => ⟨5000, 5000, 5005000, rfl, by decide +kernel, by decide +kernel⟩)).2 (by
      intro c
      by_cases h : c = 9
      · subst h; decide +kernel
      · simp [exTx, inSum, outSum, depSum, extraSum, Ne.symm h])

example : ∃ r, gather exE exLocked [] [] 70 9 none = .ok r :=
  (C72_gather isort_ok exBal 9 none (by decide)).1.2 (by decide)

/-- A wallet with 50 on its only address. -/
def exFifty : W :=
  { withPass := false, finger := 1, num := 1, addresses := [1105], index := [(1105, 0)], keypairs := [(1000, 1100)]
    kmap := [(1105, 0)], balance := [((1105, 0), 5000000), ((1105, 9), 50)] }

/-- C72 fails for transactions that come with inputs: these are not counted against the balance.  An input
of the whole balance of 50 and an output of 80 complete to an input of 80. -/
theorem C72_inputs_not_counted :
    ∃ tx', (exFifty.complete exE {} [] { inputs := [{ address := 1105, contract := 9, amount := 50 }], outputs := [⟨3, 9, 80, none⟩] }).2
        = .ok tx' ∧
      drawn tx'.inputs (1105, 9) = 80 ∧ exFifty.bal (1105, 9) = 50 := by
  refine ⟨_, rfl, ?_, ?_⟩ <;> decide +kernel

/-- The maximum fee is computed before the signatures are added: with a gas limit of zero the static fee of
the finished transaction is above its own maximum fee. -/
theorem C72_fee_above_max :
    ∃ tx' fee, (exOpen.complete exE { gasLimit := 0 } [] exTx).2 = .ok tx' ∧
      Chain.costToFee tx'.staticCost tx'.feeRatio = .ok fee ∧ tx'.maxFee < fee := by
  refine ⟨_, _, rfl, rfl, ?_⟩
  decide +kernel

end Verif.Wallet
