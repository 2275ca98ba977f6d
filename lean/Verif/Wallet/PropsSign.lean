import Verif.Wallet.Samples
/-
  C74: locking, and the signatures of a completed transaction.
-/
namespace Verif.Wallet
open Verif

/-- C74.  Completing or signing with a locked wallet leaves it locked with no key in memory, whatever the
outcome; an unlocked wallet is left as it was. -/
theorem C74_lock_restored {E : Env} {w : W} (hk : KInv E w) (hn : w.num ≠ 0) (o : Opts) (dep : List (Addr × Nat)) (tx : Tx) :
    (w.isLocked = true →
      ((w.complete E o dep tx).1.isLocked = true ∧ (w.complete E o dep tx).1.keypairs = [] ∧
        (w.complete E o dep tx).1.kmap = []) ∧
      ((w.signOff E o tx).1.isLocked = true ∧ (w.signOff E o tx).1.keypairs = [] ∧ (w.signOff E o tx).1.kmap = [])) ∧
    (w.isLocked = false → (w.complete E o dep tx).1 = w ∧ (w.signOff E o tx).1 = w) := by
  refine ⟨fun hl => ⟨?_, ?_⟩, fun hl => ⟨?_, ?_⟩⟩
  · rcases complete_cases hk hn o dep tx with ⟨_, _, hc⟩ | ⟨u, p, hr, _, hc⟩
    · rw [hc]; exact ⟨hl, hk.locked hl⟩
    · rw [hc, hl]; exact ⟨lock_locked u, rfl, rfl⟩
  · rcases signOff_cases hk hn o tx with ⟨_, _, hc⟩ | ⟨u, p, hr, _, hc⟩
    · rw [hc]; exact ⟨hl, hk.locked hl⟩
    · rw [hc, hl]; exact ⟨lock_locked u, rfl, rfl⟩
  · rcases complete_cases hk hn o dep tx with ⟨h, _, _⟩ | ⟨u, p, hr, _, hc⟩
    · rw [hl] at h; cases h
    · rw [hc, hl]; rfl
  · rcases signOff_cases hk hn o tx with ⟨h, _, _⟩ | ⟨u, p, hr, _, hc⟩
    · rw [hl] at h; cases h
    · rw [hc, hl]; rfl

/-- C74.  A locked wallet signs nothing without the passphrase: with none, with one whose fingerprint is
not the stored one, or with one that derives another first address, the call throws and changes nothing. -/
theorem C74_passphrase {E : Env} {w : W} (hk : KInv E w) (hn : w.num ≠ 0) (hl : w.isLocked = true) (o : Opts)
    (h : ∀ p, o.passphrase = some p → (w.withPass = true ∧ E.finger p ≠ w.finger) ∨
      (w.addresses ≠ [] ∧ w.addresses.head? ≠ some (E.addrOf (E.pub (E.skey p 0)))))
    (dep : List (Addr × Nat)) (tx : Tx) :
    w.complete E o dep tx = (w, .throw) ∧ w.signOff E o tx = (w, .throw) := by
  have hno : ∀ p, o.passphrase = some p → w.unlock E p = none := by
    intro p hp
    cases hu : w.unlock E p with
    | none => rfl
    | some u =>
      exfalso
      obtain ⟨h1, h2, _⟩ := unlock_spec (hk.locked hl).2 hu
      rcases h p hp with ⟨a, b⟩ | ⟨a, b⟩
      · exact b (h1 a)
      · apply b
        rw [← h2 a hn]
        obtain ⟨n, hn'⟩ : ∃ n, w.num = n + 1 := ⟨w.num - 1, by omega⟩
        rw [hn']
        simp [Env.addrs, Env.keys, List.range_succ_eq_map]
  constructor
  · rcases complete_cases hk hn o dep tx with ⟨_, _, hc⟩ | ⟨u, p, hr, hp, _⟩
    · exact hc
    · rcases hr.how with ⟨h', _⟩ | ⟨_, _, _, h'⟩
      · rw [hl] at h'; cases h'
      · rw [hno p (hp hl)] at h'; cases h'
  · rcases signOff_cases hk hn o tx with ⟨_, _, hc⟩ | ⟨u, p, hr, hp, _⟩
    · exact hc
    · rcases hr.how with ⟨h', _⟩ | ⟨_, _, _, h'⟩
      · rw [hl] at h'; cases h'
      · rw [hno p (hp hl)] at h'; cases h'

/-- A signature over `msg` by the key of address `a`. -/
def SignedBy (E : Env) (msg : Nat) (a : Addr) (sol : Sol) : Prop :=
  ∃ sk, sol.pubkey = E.pub sk ∧ E.addrOf sol.pubkey = a ∧ sol.sig = E.sign sk msg

theorem solFor_signedBy {E msg a sol} (h : SolFor E msg a sol) : SignedBy E msg a sol := by
  obtain ⟨k, h1, h2⟩ := h
  exact ⟨k, by rw [h1], by rw [h1]; exact h2, by rw [h1]⟩

/-- C74.  Every input of a completed transaction that had no signature and whose owner is an address of the
wallet points to a signature over the transaction id made with the key of that address; every other one
that had none still has none.  The same holds for the operations with a user.  Signatures that were there
are kept, and every new one is by an address of the wallet, for the sender, an input or an operation that
asked for it; if there was none before and the sender is an address of the wallet, the first one is the
sender's. -/
theorem C74_signatures {E : Env} (hsrt : SortOk E.srt) {w : W} (hk : KInv E w) (hn : w.num ≠ 0) (hb : w.BalOk)
    {o : Opts} {dep : List (Addr × Nat)} {tx tx' : Tx} (hf : Fits tx dep) (hs : tx.solutions.length + w.num ≤ 65535)
    (h : (w.complete E o dep tx).2 = .ok tx') :
    let own := (w.complete E o dep tx).1.addresses
    let owner (a : Addr) : Addr := (o.ownerMap.find a).getD a
    (∃ l, tx'.solutions = tx.solutions ++ l) ∧
    (∀ i ∈ tx'.inputs,
      (i.solution = noSolution ∧ owner i.address ∉ own) ∨
      (∃ sol, tx'.solutions[i.solution]? = some sol ∧ owner i.address ∈ own ∧
        SignedBy E tx'.id (owner i.address) sol) ∨
      ∃ j ∈ tx.inputs, j.solution ≠ noSolution ∧ j.solution = i.solution ∧ j.address = i.address) ∧
    (∀ x ∈ tx'.ops, ∀ a, opOwner o x = some a →
      (x.solution = noSolution ∧ a ∉ own) ∨
      (∃ sol, tx'.solutions[x.solution]? = some sol ∧ a ∈ own ∧ SignedBy E tx'.id a sol) ∨
      ∃ y ∈ tx.ops, y.solution ≠ noSolution ∧ x = y) ∧
    (∀ (j : Nat) (sol : Sol), tx.solutions.length ≤ j → tx'.solutions[j]? = some sol → ∃ a ∈ own, SignedBy E tx'.id a sol ∧
      ((tx'.sender = some a ∧ j = 0) ∨ (∃ i ∈ tx'.inputs, i.solution = j ∧ owner i.address = a) ∨
        ∃ x ∈ tx'.ops, x.solution = j ∧ opOwner o x = some a)) ∧
    (tx.solutions = [] → ∀ s, tx'.sender = some s → s ∈ own →
      ∃ sol, tx'.solutions[0]? = some sol ∧ SignedBy E tx'.id s sol) := by
  obtain ⟨u, p, t, take, st, hr, _, hw', hfun, hsig⟩ := complete_ok hsrt hk hn hb hf hs h
  intro own owner
  have hown : own = u.addresses := by
    show (w.complete E o dep tx).1.addresses = _
    rw [hw']
    rcases hr.how with ⟨hl, hu⟩ | ⟨hl, _⟩
    · rw [hl, hu]; rfl
    · rw [hl]; rfl
  obtain ⟨r1, r2, r3, r4, r5, r6, r7, r8, r9, r10, r11, r12, r13⟩ := hfun.rest
  have r11 : t.solutions = tx.solutions := r11
  have r10 : t.ops = tx.ops := r10
  have hsd := hsig.rest.2.2.2.2.2.1
  rw [hown]
  refine ⟨by rw [← r11]; exact hsig.pre, ?_, ?_, ?_, ?_⟩
  · intro i hi
    obtain ⟨j, hj, hij⟩ := hsig.ins.mem_right hi
    have hio : inOwner o j = owner i.address := by
      show (o.ownerMap.find j.address).getD j.address = (o.ownerMap.find i.address).getD i.address
      rw [hij.same.1]
    by_cases hso : j.solution = noSolution
    · by_cases hin : owner i.address ∈ u.addresses
      · right; left
        rw [← hio] at hin ⊢
        obtain ⟨_, sol, h1, h2⟩ := hij.mine hso hin
        exact ⟨sol, h1, hin, solFor_signedBy h2⟩
      · left
        rw [← hio] at hin ⊢
        exact ⟨hij.other hso hin, hin⟩
    · right; right
      obtain ⟨old, new, he, hg, hnew⟩ := hfun.ext
      have hi' := hij.kept hso
      subst hi'
      rw [he] at hj
      rcases List.mem_append.1 hj with hj | hj
      · obtain ⟨x, hx, y, hg⟩ := hg.mem_right hj
        refine ⟨x, hx, ?_, ?_, ?_⟩
        · intro hxs; apply hso; rw [hg]; exact hxs
        · rw [hg]
        · rw [hg]
      · exact absurd (hnew i hj).1.2.1 hso
  · intro x hx a hxa
    obtain ⟨y, hy, hyx⟩ := hsig.ops.mem_right hx
    have hoo : opOwner o y = some a := by
      rw [← hxa]; unfold opOwner; rw [hyx.same.1, hyx.same.2]
    by_cases hso : y.solution = noSolution
    · by_cases hin : a ∈ u.addresses
      · right; left
        obtain ⟨_, sol, h1, h2⟩ := hyx.mine a hso hoo hin
        exact ⟨sol, h1, hin, solFor_signedBy h2⟩
      · left; exact ⟨hyx.other a hso hoo hin, hin⟩
    · right; right
      exact ⟨y, by rw [← r10]; exact hy, hso, hyx.kept (.inl hso)⟩
  · intro j sol hj hsol
    rw [hsig.sols] at hsol
    rw [← r11] at hj
    obtain ⟨a, ha⟩ := hsig.inv.only j sol hj hsol
    obtain ⟨_, hm, sol', hs', hf'⟩ := hsig.inv.made a j ha
    rw [hsol] at hs'
    simp only [Option.some.injEq] at hs'
    subst hs'
    refine ⟨a, hm, solFor_signedBy hf', ?_⟩
    rcases hsig.asked a j ha with ⟨q1, q2, q3⟩ | ⟨i, i', q1, q2, q3, q4, q5⟩ | ⟨i, i', q1, q2, q3, q4, q5, q6⟩
    · exact .inl ⟨by rw [hsd]; exact q2, q3⟩
    · exact .inr (.inl ⟨i', q2, q5, q4.symm⟩)
    · exact .inr (.inr ⟨i', q2, q6, q4⟩)
  · intro h0 s hs' hm
    rw [← r11] at h0
    rw [hsd] at hs'
    have := hsig.first h0 s hs' hm
    obtain ⟨_, _, sol, h1, h2⟩ := hsig.inv.made s 0 this
    exact ⟨sol, by rw [hsig.sols]; exact h1, solFor_signedBy h2⟩

/-- C74.  The wallet's own addresses: after a call, whether locked again or not, they are those of the
passphrase whose keys signed. -/
theorem C74_addresses {E : Env} (hsrt : SortOk E.srt) {w : W} (hk : KInv E w) (hn : w.num ≠ 0) (hb : w.BalOk)
    {o : Opts} {dep : List (Addr × Nat)} {tx tx' : Tx} (hf : Fits tx dep) (hs : tx.solutions.length + w.num ≤ 65535)
    (h : (w.complete E o dep tx).2 = .ok tx') :
    ∃ p, (w.isLocked = true → o.passphrase = some p ∧ (w.withPass = true → E.finger p = w.finger)) ∧
      (w.complete E o dep tx).1.addresses = (List.range w.num).map fun i => E.addrOf (E.pub (E.skey p i)) := by
  obtain ⟨u, p, t, take, st, hr, hp, hw', hfun, hsig⟩ := complete_ok hsrt hk hn hb hf hs h
  refine ⟨p, ?_, ?_⟩
  · intro hl
    refine ⟨hp hl, ?_⟩
    rcases hr.how with ⟨h', _⟩ | ⟨_, _, hkm, hu⟩
    · rw [hl] at h'; cases h'
    · exact (unlock_spec hkm hu).1
  · have : (w.complete E o dep tx).1.addresses = u.addresses := by
      rw [hw']
      rcases hr.how with ⟨hl, hu⟩ | ⟨hl, _⟩
      · rw [hl, hu]; rfl
      · rw [hl]; rfl
    rw [this, hr.addrs, hr.same.1]
    simp [Env.addrs, Env.keys]

/-- C74.  If every owner is an address of the wallet, the completed transaction is signed
(`Transaction::is_signed`). -/
theorem C74_is_signed {E : Env} (hsrt : SortOk E.srt) {w : W} (hk : KInv E w) (hn : w.num ≠ 0) (hb : w.BalOk)
    {o : Opts} {dep : List (Addr × Nat)} {tx tx' : Tx} (hf : Fits tx dep) (hs : tx.solutions.length + w.num ≤ 65535)
    (hun : ∀ i ∈ tx.inputs, i.solution = noSolution) (h : (w.complete E o dep tx).2 = .ok tx') :
    (∀ i ∈ tx'.inputs, i.solution < tx'.solutions.length) ↔
      ∀ i ∈ tx'.inputs, (o.ownerMap.find i.address).getD i.address ∈ (w.complete E o dep tx).1.addresses := by
  obtain ⟨_, h2, _⟩ := C74_signatures hsrt hk hn hb hf hs h
  have hlen : tx'.solutions.length ≤ 65535 := by
    obtain ⟨u, p, t, take, st, hr, hp, hw', hfun, hsig⟩ := complete_ok hsrt hk hn hb hf hs h
    have r11 : t.solutions = tx.solutions := hfun.rest.2.2.2.2.2.2.2.2.2.2.1
    rw [hsig.sols, hsig.inv.len, r11]
    have := hsig.inv.bound
    rw [hr.addrs, addrs_length, hr.same.1] at this
    omega
  constructor
  · intro hi i hm
    rcases h2 i hm with ⟨q1, q2⟩ | ⟨sol, q1, q2, q3⟩ | ⟨j, q1, q2, _⟩
    · have := hi i hm
      rw [q1] at this
      unfold noSolution at this
      omega
    · exact q2
    · exact absurd (hun j q1) q2
  · intro hi i hm
    rcases h2 i hm with ⟨q1, q2⟩ | ⟨sol, q1, q2, q3⟩ | ⟨j, q1, q2, _⟩
    · exact absurd (hi i hm) q2
    · exact (List.getElem?_eq_some_iff.1 q1).1
    · exact absurd (hun j q1) q2

/-- C74.  An unsigned transaction without plain operations whose sender (if the wallet does not choose it)
is an address of the wallet completes to one that passes the checks of `Transaction::is_valid`: signatures
distinct and all used, nonce, fee ratio, network, cost, id and content hash. -/
theorem C74_valid {E : Env} (hsrt : SortOk E.srt) {w : W} (hk : KInv E w) (hn : w.num ≠ 0) (hb : w.BalOk)
    {o : Opts} {dep : List (Addr × Nat)} {tx tx' : Tx} (hf : Fits tx dep) (hnum : w.num ≤ 65535)
    (hsol : tx.solutions = []) (hplain : ∀ x ∈ tx.ops, x.kind ≠ .plain) (hratio : 1024 ≤ tx.feeRatio)
    (hver : E.version (u32 (w.height + 1)) ≤ 1) (hrand : E.rand ≠ 0)
    (hcost : ∀ c, E.costOf tx' = .ok c → c < 2 ^ 32)
    (h : (w.complete E o dep tx).2 = .ok tx') : tx'.isValid E = true := by
  have hs : tx.solutions.length + w.num ≤ 65535 := by rw [hsol]; simpa using hnum
  obtain ⟨u, p, t, take, st, hr, hp, hw', hfun, hsig⟩ := complete_ok hsrt hk hn hb hf hs h
  obtain ⟨r1, r2, r3, r4, r5, r6, r7, r8, r9, r10, r11, r12, r13⟩ := hfun.rest
  have r11 : t.solutions = [] := by rw [r11]; exact hsol
  have r10 : t.ops = tx.ops := r10
  have hlen0 : t.solutions.length = 0 := by rw [r11]; rfl
  have hnodup : tx'.solutions.Nodup := by
    rw [hsig.sols]
    unfold List.Nodup
    rw [List.pairwise_iff_getElem]
    intro i j hi hj hij heq
    have heq : st.1[i]? = st.1[j]? := by rw [List.getElem?_eq_getElem hi, List.getElem?_eq_getElem hj, heq]
    obtain ⟨si, hsi⟩ : ∃ s, st.1[i]? = some s := ⟨st.1[i]'(by omega), List.getElem?_eq_getElem (by omega)⟩
    obtain ⟨a, ha⟩ := hsig.inv.only i si (by omega) hsi
    obtain ⟨b, hb'⟩ := hsig.inv.only j si (by omega) (by rw [← heq]; exact hsi)
    obtain ⟨_, _, s1, e1, k1, f1, g1⟩ := hsig.inv.made a i ha
    obtain ⟨_, _, s2, e2, k2, f2, g2⟩ := hsig.inv.made b j hb'
    rw [hsi] at e1
    rw [← heq, hsi] at e2
    simp only [Option.some.injEq] at e1 e2
    subst e1
    subst e2
    rw [f1] at f2
    have hpk : E.pub k1 = E.pub k2 := congrArg Sol.pubkey f2
    have : a = b := by rw [← g1, ← g2, hpk]
    subst this
    rw [ha] at hb'
    simp only [Option.some.injEq] at hb'
    omega
  have huses : ∀ j, j < tx'.solutions.length → tx'.uses j = true := by
    intro j hj
    rw [hsig.sols] at hj
    obtain ⟨a, ha⟩ := hsig.inv.only j (st.1[j]'hj) (by omega) (List.getElem?_eq_getElem hj)
    unfold Tx.uses
    rcases hsig.asked a j ha with ⟨q1, q2, q3⟩ | ⟨i, i', q1, q2, q3, q4, q5⟩ | ⟨i, i', q1, q2, q3, q4, q5, q6⟩
    · have : tx'.sender = some a := by rw [hsig.rest.2.2.2.2.2.1]; exact q2
      rw [this, q3]; simp
    · have : tx'.inputs.any (fun i => decide (i.solution = j)) = true :=
        List.any_eq_true.2 ⟨i', q2, by simpa using q5⟩
      rw [this]; simp
    · have hnp : i'.kind ≠ .plain := by rw [q5]; exact hplain i (by rw [← r10]; exact q1)
      have : tx'.ops.any (Op.usesSol j) = true := by
        refine List.any_eq_true.2 ⟨i', q2, ?_⟩
        unfold opOwner at q4
        unfold Op.usesSol
        cases hkd : i'.kind with
        | plain => exact absurd hkd hnp
        | execute u x => rw [hkd] at q4; dsimp only at q4; rw [q4]; simpa using q6
        | deposit u x c m => rw [hkd] at q4; dsimp only at q4; rw [q4]; simpa using q6
      rw [this]; simp
  have hlen : tx'.solutions.length ≤ 65535 := by
    rw [hsig.sols, hsig.inv.len, hlen0]
    have := hsig.inv.bound
    rw [hr.addrs, addrs_length, hr.same.1] at this
    omega
  obtain ⟨c, hc1, hc2⟩ := hsig.cost
  have hc3 : u32 c = c := by
    unfold u32
    exact Nat.mod_eq_of_lt (hcost c hc1)
  have hv : tx'.version ≤ 1 := by
    rw [hsig.rest.1, r2]
    show E.version (u32 (u.height + 1)) ≤ 1
    rw [hr.same.2.2.1]; exact hver
  have hfee : 1024 ≤ tx'.feeRatio := by
    rw [hsig.rest.2.2.1, r4]
    show 1024 ≤ max tx.feeRatio o.feeRatio
    omega
  have hnon : tx'.nonce ≠ 0 := by
    rw [hsig.nonce]
    split
    · exact hrand
    · assumption
  unfold Tx.isValid
  simp only [Bool.and_eq_true, Bool.or_eq_true, decide_eq_true_eq, List.all_eq_true, List.mem_range]
  exact ⟨⟨⟨⟨⟨⟨⟨⟨.inr ⟨hnodup, huses⟩, hv⟩, hnon⟩, hfee⟩, hsig.network⟩, hlen⟩, by rw [hc1, hc2, hc3]⟩, hsig.id⟩, hsig.content⟩

/-! ### which states are reachable -/

/-- The calls that touch the keys. -/
inductive Call where
  | lock
  | unlock (p : Nat)
  | complete (o : Opts) (dep : List (Addr × Nat)) (tx : Tx)
  | signOff (o : Opts) (tx : Tx)

def W.call (E : Env) (w : W) : Call → W
  | .lock => w.lock
  | .unlock p => (w.unlock E p).getD w
  | .complete o dep tx => (w.complete E o dep tx).1
  | .signOff o tx => (w.signOff E o tx).1

/-- C74.  From a new wallet on, whatever is called: either no key is in memory, or exactly the keys of one
passphrase are, and then the addresses are theirs.  Passphrases with the same first address are assumed to
have the same keys. -/
theorem C74_keys_in_memory {E : Env}
    (hcol : ∀ p q, E.addrOf (E.pub (E.skey p 0)) = E.addrOf (E.pub (E.skey q 0)) → ∀ i, E.skey p i = E.skey q i)
    {w : W} (hw : w.keypairs = [] ∧ w.kmap = []) (hn : w.num ≠ 0) (calls : List Call) :
    let v := calls.foldl (W.call E) w
    (v.keypairs = [] ∧ v.isLocked = true) ∨
    (v.isLocked = false ∧ ∃ p, v.keypairs = (List.range w.num).map (fun i => (E.skey p i, E.pub (E.skey p i))) ∧
      v.addresses = (List.range w.num).map (fun i => E.addrOf (E.pub (E.skey p i)))) := by
  have inv : ∀ (calls : List Call) (w : W), KInv E w → w.num ≠ 0 →
      KInv E (calls.foldl (W.call E) w) ∧ (calls.foldl (W.call E) w).num = w.num := by
    intro calls
    induction calls with
    | nil => intro w h _; exact ⟨h, rfl⟩
    | cons c cs ih =>
      intro w hk hn
      have step : KInv E (w.call E c) ∧ (w.call E c).num = w.num := by
        cases c with
        | lock => exact ⟨.inl ⟨rfl, rfl⟩, rfl⟩
        | unlock p =>
          show KInv E ((w.unlock E p).getD w) ∧ ((w.unlock E p).getD w).num = w.num
          cases hu : w.unlock E p with
          | none => exact ⟨hk, rfl⟩
          | some u =>
            simp only [Option.getD_some]
            unfold W.unlock at hu
            split at hu
            · cases hu
            · dsimp only at hu
              split at hu
              · cases hu
              · rename_i hhead
                simp only [Option.some.injEq] at hu
                subst hu
                refine ⟨.inr ⟨p, hn, rfl, rfl, ?_⟩, rfl⟩
                dsimp only
                apply KM_putAll
                rcases hk with ⟨_, h⟩ | ⟨q, _, hq1, hq2, hq3⟩
                · exact .inl h
                · right
                  have hne : w.addresses ≠ [] := by
                    intro h
                    rw [hq2] at h
                    have := congrArg List.length h
                    rw [addrs_length] at this
                    exact hn this
                  have heq : (E.addrs p w.num).head? = w.addresses.head? := by
                    rcases Decidable.em ((E.addrs p w.num).head? = w.addresses.head?) with h | h
                    · exact h
                    · exact absurd ⟨hne, h⟩ hhead
                  obtain ⟨n, hn'⟩ : ∃ n, w.num = n + 1 := ⟨w.num - 1, by omega⟩
                  rw [hq2, hn'] at heq
                  simp only [Env.addrs, Env.keys, List.range_succ_eq_map, List.map_cons, List.head?_cons,
                    Option.some.injEq] at heq
                  have hsame := hcol p q heq
                  have : (E.keys p w.num).map (fun k => E.addrOf k.2) = w.addresses := by
                    rw [hq2]
                    unfold Env.addrs Env.keys
                    simp [hsame]
                  rw [this]
                  exact hq3
        | complete o dep tx =>
          show KInv E (w.complete E o dep tx).1 ∧ (w.complete E o dep tx).1.num = w.num
          rcases complete_cases hk hn o dep tx with ⟨_, _, hc⟩ | ⟨u, p, hr, _, hc⟩
          · rw [hc]; exact ⟨hk, rfl⟩
          · rw [hc]
            dsimp only
            split
            · exact ⟨.inl ⟨rfl, rfl⟩, hr.same.1⟩
            · exact ⟨hk, rfl⟩
        | signOff o tx =>
          show KInv E (w.signOff E o tx).1 ∧ (w.signOff E o tx).1.num = w.num
          rcases signOff_cases hk hn o tx with ⟨_, _, hc⟩ | ⟨u, p, hr, _, hc⟩
          · rw [hc]; exact ⟨hk, rfl⟩
          · rw [hc]
            dsimp only
            split
            · exact ⟨.inl ⟨rfl, rfl⟩, hr.same.1⟩
            · exact ⟨hk, rfl⟩
      obtain ⟨i1, i2⟩ := ih (w.call E c) step.1 (by rw [step.2]; exact hn)
      exact ⟨i1, by rw [List.foldl_cons, i2, step.2]⟩
  intro v
  obtain ⟨h1, h2⟩ := inv calls w (.inl hw) hn
  rcases h1 with ⟨h, _⟩ | ⟨p, hq, hk, ha, _⟩
  · exact .inl ⟨h, locked_of_nil h⟩
  · right
    refine ⟨unlocked_of_keys hq hk ha, p, ?_, ?_⟩
    · show v.keypairs = _
      rw [hk, h2]; rfl
    · show v.addresses = _
      rw [ha, h2]
      simp [Env.addrs, Env.keys]

/-! ### examples -/

/-- Completing with the passphrase: two signatures, for the sender and the other input's owner. -/
example : (((exLocked.complete exE { passphrase := some 1 } [] exTx).2).bind fun t =>
      .ok (t.inputs.map (·.solution), t.solutions.map (·.pubkey), t.isValid exE))
    = .ok ([1, 0], [1101, 1100], true) := by decide +kernel

example : (exLocked.complete exE { passphrase := some 2 } [] exTx).2 = .throw ∧
    (exLocked.complete exE { passphrase := some 11 } [] exTx).2 = .throw ∧
    (exLocked.complete exE {} [] exTx).2 = .throw := by
  refine ⟨?_, ?_, ?_⟩ <;> decide +kernel

example : ∃ tx', (exLocked.complete exE { passphrase := some 1 } [] exTx).2 = .ok tx' ∧
    exTx.solutions = [] ∧ (∀ x ∈ exTx.ops, x.kind ≠ .plain) ∧ (∀ c, exE.costOf tx' = .ok c → c < 2 ^ 32) := by
  refine ⟨_, rfl, rfl, by simp [exTx], ?_⟩
  intro c hc
  simp only [exE, Env.costOf, Res.ok.injEq] at hc
  rw [← hc]
  decide +kernel

/-- Passphrases of the example environment with the same first address have the same keys. -/
example : ∀ p q, exE.addrOf (exE.pub (exE.skey p 0)) = exE.addrOf (exE.pub (exE.skey q 0)) →
    ∀ i, exE.skey p i = exE.skey q i := by
  intro p q h i
  have h : 1000 * p + 0 + 100 + 5 = 1000 * q + 0 + 100 + 5 := h
  show 1000 * p + i = 1000 * q + i
  omega

/-- C74 needs the transaction to be unsigned: a second pass starts with an empty table of signatures and
can add one that is already there, which `is_valid` refuses. -/
theorem C74_second_pass :
    ∃ t1 t2, (exOpen.signOff exE {} { version := 1, sender := some 1105, inputs := [{ address := 1105, contract := 9, amount := 5 }] }).2 = .ok t1 ∧
      t1.isValid exE = true ∧
      (exOpen.signOff exE {} { t1 with inputs := t1.inputs ++ [{ address := 1105, contract := 0, amount := 5 }] }).2 = .ok t2 ∧
      t2.isValid exE = false := by
  refine ⟨_, _, rfl, ?_, rfl, ?_⟩ <;> decide +kernel

end Verif.Wallet
