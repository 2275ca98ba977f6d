import Verif.Wallet.SignLemmas
/-
  `sign_off` as a whole.
-/
namespace Verif.Wallet
open Verif

theorem SInv.start (E : Env) (own : List Addr) (msg : Nat) (sols : List Sol) :
    SInv E own msg sols.length (sols, []) := by
  refine ⟨by simp [AMap.Ok], by simp, by intro a j h; simp [AMap.find] at h, ?_⟩
  intro j sol hj h
  rw [List.getElem?_eq_none hj] at h; cases h

/-- An index once given to an address stays its index while the list of signatures grows. -/
theorem SInv.keep {E own msg n0 st st'} (h : SInv E own msg n0 st) (h' : SInv E own msg n0 st')
    (hp : ∃ l, st'.1 = st.1 ++ l) {a : Addr} {j : Nat} (hj : st.2.find a = some j) : st'.2.find a = some j := by
  obtain ⟨l, hl⟩ := hp
  obtain ⟨hn, _, sol, hsol, k1, e1, e2⟩ := h.made a j hj
  have hs : st'.1[j]? = some sol := by rw [hl]; exact getElem?_append_of_some hsol
  obtain ⟨b, hb⟩ := h'.only j sol hn hs
  obtain ⟨_, _, sol', hs', k2, e3, e4⟩ := h'.made b j hb
  rw [hs] at hs'
  simp only [Option.some.injEq] at hs'
  subst hs'
  rw [e1] at e3
  have : E.pub k1 = E.pub k2 := congrArg Sol.pubkey e3
  have : b = a := by rw [← e4, ← e2, this]
  subst this
  exact hb

theorem Pointwise.map_eq {α β : Type} {R : α → α → Prop} {f : α → β} {l m : List α} (h : Pointwise R l m)
    (hf : ∀ a b, R a b → f b = f a) : m.map f = l.map f := by
  induction h with
  | nil => rfl
  | cons hab _ ih => rw [List.map_cons, List.map_cons, ih, hf _ _ hab]

theorem Pointwise.imp {α : Type} {R S : α → α → Prop} {l m : List α} (h : Pointwise R l m)
    (hf : ∀ a b, R a b → S a b) : Pointwise S l m := by
  induction h with
  | nil => exact .nil
  | cons hab _ ih => exact .cons (hf _ _ hab) ih

theorem body_congr (t : Tx) {is : List TxIn} {os : List Op} (sols : List Sol) (sc ch : Nat)
    (h1 : is.map (fun i : TxIn => { i with solution := noSolution, exec := false })
        = t.inputs.map (fun i : TxIn => { i with solution := noSolution, exec := false }))
    (h2 : os.map (fun x : Op => { x with solution := noSolution })
        = t.ops.map (fun x : Op => { x with solution := noSolution })) :
    ({ t with inputs := is, ops := os, solutions := sols, staticCost := sc, contentHash := ch } : Tx).body = t.body := by
  cases t
  simp only [Tx.body, Tx.mk.injEq, true_and, and_true]
  exact ⟨h1, h2⟩

/-- Owners that asked for a signature: sender, inputs, operations. -/
inductive Asked (o : Opts) (tx tx' : Tx) (a : Addr) (j : Nat) : Prop
  | sender : tx.solutions = [] → tx.sender = some a → j = 0 → Asked o tx tx' a j
  | input (i i' : TxIn) : i ∈ tx.inputs → i' ∈ tx'.inputs → i.solution = noSolution → a = inOwner o i' →
      i'.solution = j → Asked o tx tx' a j
  | op (i i' : Op) : i ∈ tx.ops → i' ∈ tx'.ops → i.solution = noSolution → opOwner o i' = some a →
      i'.kind = i.kind → i'.solution = j → Asked o tx tx' a j

/-- Everything `sign_off` does to a transaction. -/
structure Signed (E : Env) (own : List Addr) (o : Opts) (tx tx' : Tx) (st : List Sol × AMap Addr Nat) : Prop where
  inv : SInv E own tx'.id tx.solutions.length st
  sols : tx'.solutions = st.1
  pre : ∃ l, tx'.solutions = tx.solutions ++ l
  ins : Pointwise (InSigned E own o tx'.id tx'.solutions) tx.inputs tx'.inputs
  ops : Pointwise (OpSigned E own o tx'.id tx'.solutions) tx.ops tx'.ops
  first : tx.solutions = [] → ∀ s, tx.sender = some s → s ∈ own → st.2.find s = some 0
  asked : ∀ a j, st.2.find a = some j → Asked o tx tx' a j
  id : tx'.id = E.hash tx'.body
  cost : ∃ c, E.costOf tx' = .ok c ∧ tx'.staticCost = u32 c
  content : tx'.contentHash = E.fullHash tx'.full
  network : tx'.network = E.network
  nonce : tx'.nonce = (if o.nonce.getD tx.nonce = 0 then E.rand else o.nonce.getD tx.nonce)
  rest : tx'.version = tx.version ∧ tx'.expires = tx.expires ∧ tx'.feeRatio = tx.feeRatio ∧ tx'.maxFee = tx.maxFee ∧
    tx'.note = tx.note ∧ tx'.sender = tx.sender ∧ tx'.outputs = tx.outputs ∧ tx'.deploy = tx.deploy

theorem signSender_spec {E : Env} {w : W} {p : Nat} (hn : w.num ≠ 0) (hk : w.keypairs = E.keys p w.num)
    (ha : w.addresses = E.addrs p w.num) (hm : KM w.kmap w.addresses) {tx : Tx}
    (hb : tx.solutions.length + w.num ≤ 65535) :
    ∃ st0, signSender E w tx = .ok st0 ∧
      SInv E w.addresses tx.id tx.solutions.length st0 ∧
      (∃ l, st0.1 = tx.solutions ++ l) ∧
      (tx.solutions = [] → ∀ s, tx.sender = some s → s ∈ w.addresses → st0.2.find s = some 0) ∧
      (∀ a j, st0.2.find a = some j → tx.solutions = [] ∧ tx.sender = some a ∧ j = 0) := by
  have start := SInv.start E w.addresses tx.id tx.solutions
  unfold signSender
  cases hs : tx.sender with
  | none =>
    exact ⟨(tx.solutions, []), rfl, start, ⟨[], by simp⟩, (fun _ _ h => by cases h),
      fun a j h => by simp [AMap.find] at h⟩
  | some s =>
    dsimp only
    by_cases h0 : tx.solutions = []
    · rw [if_pos h0]
      obtain ⟨r, st1, e1, e2, e3, e4, e5, e6, e7⟩ := signEx_spec hn hk ha hm (owner := s) start hb
      have hr : ∀ a j, st1.2.find a = some j → a = s ∧ j = 0 := by
        intro a j hj
        rcases e5 a j hj with h | ⟨h1, h2⟩
        · simp [AMap.find] at h
        · refine ⟨h1, ?_⟩
          obtain ⟨_, hown, sol, hsol, _⟩ := e2.made a j hj
          have hlen := e2.len
          have hb1 : st1.2.length ≤ 1 := by
            have := nodup_length_le e2.ok (m := [s]) (by
              intro x hx
              obtain ⟨e, he, rfl⟩ := List.mem_map.1 hx
              rcases e5 e.1 e.2 (AMap.mem_find e2.ok he) with h | h
              · simp [AMap.find] at h
              · simp [h.1])
            simpa using this
          have := (List.getElem?_eq_some_iff.1 hsol).1
          rw [h0] at hlen
          simp only [List.length_nil, Nat.zero_add] at hlen
          omega
      refine ⟨st1, by rw [e1]; rfl, e2, e3, ?_, ?_⟩
      · intro _ s' hs' ho
        simp only [Option.some.injEq] at hs'
        subst hs'
        have := e6 ho
        rw [(hr _ _ this).2] at this
        exact this
      · intro a j hj
        exact ⟨h0, by rw [(hr a j hj).1], (hr a j hj).2⟩
    · rw [if_neg h0]
      exact ⟨(tx.solutions, []), rfl, start, ⟨[], by simp⟩, fun h => absurd h h0,
        fun a j h => by simp [AMap.find] at h⟩

theorem seal_spec {E : Env} {t t' : Tx} (h : t.seal E = .ok t') :
    (∃ c, E.costOf t' = .ok c ∧ t'.staticCost = u32 c) ∧ t'.contentHash = E.fullHash t'.full ∧
    t'.body = t.body ∧ t'.id = t.id ∧ t'.solutions = t.solutions ∧ t'.inputs = t.inputs ∧ t'.ops = t.ops ∧
    t'.version = t.version ∧ t'.expires = t.expires ∧ t'.feeRatio = t.feeRatio ∧ t'.maxFee = t.maxFee ∧
    t'.note = t.note ∧ t'.sender = t.sender ∧ t'.outputs = t.outputs ∧ t'.deploy = t.deploy ∧
    t'.network = t.network ∧ t'.nonce = t.nonce := by
  unfold Tx.seal at h
  obtain ⟨c, hc, h⟩ := Res.bind_eq_ok.1 h
  dsimp only at h
  cases h
  exact ⟨⟨c, hc, rfl⟩, rfl, rfl, rfl, rfl, rfl, rfl, rfl, rfl, rfl, rfl, rfl, rfl, rfl, rfl, rfl, rfl⟩

theorem signBody_run {E : Env} {w : W} {o : Opts} {tx : Tx} {st : List Sol × AMap Addr Nat}
    {ri : List TxIn × List Sol × AMap Addr Nat} {ro : List Op × List Sol × AMap Addr Nat}
    (h0 : signSender E w (prepare E o tx) = .ok st) (h1 : signIns E w o (prepare E o tx).id tx.inputs st = .ok ri)
    (h2 : signOps E w o (prepare E o tx).id tx.ops ri.2 = .ok ro) :
    signBody E w o tx = Tx.seal E { prepare E o tx with inputs := ri.1, ops := ro.1, solutions := ro.2.1 } := by
  unfold signBody
  dsimp only
  rw [h0]
  simp only [Res.bind_ok]
  rw [show (prepare E o tx).inputs = tx.inputs from rfl, h1]
  simp only [Res.bind_ok]
  rw [show (prepare E o tx).ops = tx.ops from rfl, h2]
  rfl

theorem signBody_spec {E : Env} {w : W} {p : Nat} (hn : w.num ≠ 0) (hk : w.keypairs = E.keys p w.num)
    (ha : w.addresses = E.addrs p w.num) (hm : KM w.kmap w.addresses) {o : Opts} {tx : Tx}
    (hb : tx.solutions.length + w.num ≤ 65535) :
    (∀ tx', signBody E w o tx = .ok tx' → ∃ st, Signed E w.addresses o tx tx' st) ∧
    ((∀ is ops sols, ∃ c, E.cost is tx.outputs ops sols tx.deploy = .ok c) → ∃ tx', signBody E w o tx = .ok tx') := by
  obtain ⟨st0, hst0, hinv0, ⟨l0, hl0⟩, hfirst, hask0⟩ :=
    signSender_spec hn hk ha hm (tx := prepare E o tx) hb
  obtain ⟨ins', st1, i1, i2, ⟨l1, i3⟩, i4, i5⟩ := signIns_spec hn hk ha hm o hb tx.inputs st0 hinv0
  obtain ⟨ops', st2, p1, p2, ⟨l2, p3⟩, p4, p5⟩ := signOps_spec hn hk ha hm o hb tx.ops st1 i2
  have hins : Pointwise (InSigned E w.addresses o (prepare E o tx).id st2.1) tx.inputs ins' := by
    rw [p3]
    exact i4.imp (fun a b h => h.mono l2)
  have hbody : ({ prepare E o tx with inputs := ins', ops := ops', solutions := st2.1 } : Tx).body
      = (prepare E o tx).body := by
    have h1 : ins'.map (fun i : TxIn => { i with solution := noSolution, exec := false })
        = tx.inputs.map (fun i : TxIn => { i with solution := noSolution, exec := false }) :=
      i4.map_eq (by
        intro a b h
        obtain ⟨h1, h2, h3, h4⟩ := h.same
        simp only [h1, h2, h3, h4])
    have h2 : ops'.map (fun x : Op => { x with solution := noSolution })
        = tx.ops.map (fun x : Op => { x with solution := noSolution }) :=
      p4.map_eq (by
        intro a b h
        obtain ⟨h1, h2⟩ := h.same
        simp only [h1, h2])
    exact body_congr (prepare E o tx) st2.1 _ _ h1 h2
  have hrun := signBody_run hst0 i1 p1
  dsimp only at hrun
  constructor
  · intro tx' h
    rw [hrun] at h
    obtain ⟨s1, s2, s3, s4, s5, s6, s7, s8, s9, s10, s11, s12, s13, s14, s15, s16, s17⟩ := seal_spec h
    dsimp only at s4 s5 s6 s7
    refine ⟨st2, ?_, s5, ⟨l0 ++ l1 ++ l2, ?_⟩, ?_, ?_, ?_, ?_, ?_, s1, s2, s16, s17, s8, s9, s10, s11, s12, s13, s14, s15⟩
    · rw [s4]; exact p2
    · rw [s5, p3, i3, hl0]
      show tx.solutions ++ _ ++ _ ++ _ = _
      simp
    · rw [s4, s5, s6]; exact hins
    · rw [s4, s5, s7]; exact p4
    · intro h0 s hs ho
      exact i2.keep p2 ⟨l2, p3⟩ (hinv0.keep i2 ⟨l1, i3⟩ (hfirst h0 s hs ho))
    · intro a j hj
      rcases p5 a j hj with h | ⟨i, hi, i', hi', h1, h2, h3, h4⟩
      · rcases i5 a j h with h | ⟨i, hi, i', hi', h1, h2, h3⟩
        · obtain ⟨q1, q2, q3⟩ := hask0 a j h
          exact .sender q1 q2 q3
        · exact .input i i' hi (by rw [s6]; exact hi') h1 h2 h3
      · exact .op i i' hi (by rw [s7]; exact hi') h1 h2 h3 h4
    · rw [s4, s3, hbody]; rfl
  · intro hc
    obtain ⟨c, hc⟩ := hc ins' ops' st2.1
    rw [hrun]
    unfold Tx.seal Env.costOf
    dsimp only
    rw [show (prepare E o tx).outputs = tx.outputs from rfl, show (prepare E o tx).deploy = tx.deploy from rfl, hc]
    exact ⟨_, rfl⟩

end Verif.Wallet
