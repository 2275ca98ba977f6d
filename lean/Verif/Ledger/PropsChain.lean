import Verif.Ledger.PropsBlock
/-
  C54, C57, C58, C59, C60: blocks and chains of blocks.
-/
namespace Verif.Ledger
open Verif Verif.Chain

variable {depends : Addr → Option (List Addr)} {w : World} {g0 : Sto} {txs : List Tx} {x : Ctx}

/-! ### Chains -/

/-- A block that a node in state `s` accepts: validation reads the balances, the storage and the
    transactions of that state. Iteration over an unordered map visits every entry once. -/
structure Blk.OkAt (s : Node) (b : Blk) : Prop where
  bal : b.w.bal = s.bal
  known : ∀ id, b.w.known id = true ↔ id ∈ s.ids
  umap : ∀ l, (b.w.umap l).Perm l
  block : BlockOk b.depends b.w ⟨s.var, s.bal⟩ b.txs b.ctx

/-- A node accepts these blocks, one after the other. -/
def Accepts : Node → List Blk → Prop
  | _, [] => True
  | s, b :: l => b.OkAt s ∧ Accepts (s.apply b) l

def Node.applyAll (s : Node) (l : List Blk) : Node := l.foldl Node.apply s

/-- Ids of all transactions of a chain. -/
def allIds (l : List Blk) : List Addr := l.flatMap fun b => b.txs.map (·.id)

/-- C59: no transaction is executed twice on a chain, and none of those before. -/
theorem C59_no_replay : ∀ {l : List Blk} {s : Node}, Accepts s l → (allIds l).Nodup ∧ ∀ id ∈ allIds l, id ∉ s.ids
  | [], _, _ => ⟨.nil, fun _ h => nomatch h⟩
  | b :: l, s, h => by
    obtain ⟨h1, h2⟩ := h
    obtain ⟨i1, i2⟩ := C59_no_replay h2
    have hfresh : ∀ id ∈ b.txs.map (·.id), id ∉ s.ids := by
      intro id hid hs
      obtain ⟨tx, htx, rfl⟩ := List.mem_map.1 hid
      obtain ⟨i, hi⟩ := List.getElem?_of_mem htx
      obtain ⟨a, r, wr, _, _, hv⟩ := h1.block.accepted hi
      obtain ⟨_, _, _, _, _, _, _, _, _, _, _, _, hP, _⟩ := validate_accept hv
      have hf : b.w.known tx.id = false := hP.fresh
      rw [(h1.known tx.id).2 hs] at hf
      cases hf
    show (b.txs.map (·.id) ++ allIds l).Nodup ∧ ∀ id ∈ b.txs.map (·.id) ++ allIds l, id ∉ s.ids
    refine ⟨List.nodup_append.2 ⟨(checkFunds_ready h1.block.funds).nodup, i1, fun a ha c hc e => ?_⟩, fun id hid => ?_⟩
    · exact i2 c hc (List.mem_append_left _ (e ▸ ha))
    · rcases List.mem_append.1 hid with hid | hid
      · exact hfresh id hid
      · exact fun hs => i2 id hid (List.mem_append_right _ hs)

/-- Rewards of a chain in a currency, and its fees. -/
def allRewards (q : Addr) (l : List Blk) : Nat := (l.map fun b => sumOut q b.rewards).sum
def allFees (l : List Blk) : Nat := (l.map fun b => fees b.txs).sum

/-- Accounts a block touches. -/
def Blk.touches (b : Blk) (a : Addr) : Prop :=
  (∃ y ∈ b.txs.flatMap txDebits, y.addr = a) ∨ ∃ y ∈ b.rewards ++ b.txs.flatMap txCredits, y.addr = a

/-- C54: over a chain of any length, the amount of native coins changes by rewards less fees only. The
    assumptions: the coins that exist at the start and all rewards stay below 2^126; no account is a
    contract; the zero address is neither a contract nor a transaction. -/
theorem C54_native_chain : ∀ {l : List Blk} {s : Node} {n : Nat}, Accepts s l → SupplyBelow s.bal 0 n → 4 * (n + allRewards 0 l) ≤ 2 ^ 128 →
    (∀ b ∈ l, Apart b.w b.ctx b.txs ∧ b.w.kind 0 ≠ some true ∧ ∀ tx ∈ b.txs, tx.id ≠ 0) →
    ∀ L : List Addr, L.Nodup → (∀ b ∈ l, ∀ a, b.touches a → a ∈ L) → total (s.applyAll l).bal 0 L + allFees l = total s.bal 0 L + allRewards 0 l
  | [], _, _, _, _, _, _, _, _, _ => rfl
  | b :: l, s, n, h, hs, hn, hb, L, hL, ht => by
    obtain ⟨h1, h2⟩ := h
    obtain ⟨p1, p2, p3⟩ := hb b (List.mem_cons_self ..)
    have er : allRewards 0 (b :: l) = sumOut 0 b.rewards + allRewards 0 l := by simp [allRewards]
    have ef : allFees (b :: l) = fees b.txs + allFees l := by simp [allFees]
    rw [er] at hn
    have hbal : SupplyBelow b.w.bal 0 n := by rw [h1.bal]; exact hs
    have hrun := native_not_run (w := b.w) (x := b.ctx) p2 p3
    have hone := C54_supply h1.block h1.umap h1.bal.symm hbal p1 b.rewards (by omega) hrun L hL
      (fun y hy => ht b (List.mem_cons_self ..) _ (.inl ⟨y, hy, rfl⟩)) (fun y hy => ht b (List.mem_cons_self ..) _ (.inr ⟨y, hy, rfl⟩))
    have hnext := h1.block.supply_after h1.umap h1.bal.symm hbal p1 b.rewards (by omega) hrun
    rw [h1.bal] at hone hnext
    have ih := C54_native_chain (l := l) (s := s.apply b) (n := n + sumOut 0 b.rewards) h2 hnext (by omega)
      (fun c hc => hb c (List.mem_cons_of_mem _ hc)) L hL (fun c hc => ht c (List.mem_cons_of_mem _ hc))
    rw [er, ef]
    rw [if_pos rfl] at hone
    have e : (s.apply b).bal = applyLedger s.bal b.rewards b.txs := rfl
    rw [e] at ih
    show total ((s.apply b).applyAll l).bal 0 L + _ = _
    omega

/-! ### C60 -/

/-- Who agreed to a debit: the sender signed the transaction; or the owner of an input did, through a
    key or a contract that checks signatures; or it comes from a contract with code the transaction
    runs. -/
def Agreed (w : World) (tx : Tx) (a : Addr) : Prop :=
  (tx.sender = some a ∧ tx.sig = true) ∨ (∃ z ∈ tx.inputs, z.addr = a ∧ z.auth = true ∧ (z.isExec = true → w.kind a = some false)) ∨ w.mayRun tx.id a

theorem C60_debits (h : BlockOk depends w g0 txs x) {tx : Tx} (ht : tx ∈ txs) {y : TxIn} (hy : y ∈ txDebits tx) : Agreed (w.withCtx x) tx y.addr := by
  obtain ⟨i, hi⟩ := List.getElem?_of_mem ht
  obtain ⟨a, r, wr, hsn, hr, hv⟩ := h.accepted hi
  obtain ⟨_, _, _, _, _, _, _, _, _, _, _, _, hP, _⟩ := validate_accept hv
  unfold txDebits at hy
  rw [hr, hsn] at hy
  rcases List.mem_cons.1 hy with rfl | hy
  · exact .inl ⟨hsn, hP.sig⟩
  · cases hd : r.didFail with
    | true => simp [hd] at hy
    | false =>
      simp only [hd, Bool.false_eq_true, if_false] at hy
      replace hy : y ∈ tx.inputs ++ r.inputs := hy
      rcases List.mem_append.1 hy with hy | hy
      · obtain ⟨h1, h2⟩ := C24_inputs_authorised hv hd y hy
        exact .inr (.inl ⟨y, hy, rfl, h1, h2⟩)
      · have hin := (validate_loc ((checkFunds_ready h.funds).locked w ht)).result (stoAt (w.withCtx x) g0 txs i)
        rw [hv] at hin
        exact .inr (.inr (hin.inputs r wr rfl y hy))

/-- C60: a balance falls only if a transaction of the block took from it, and then with the agreement
    of its owner. -/
theorem C60_balance_falls (h : BlockOk depends w g0 txs x) (rewards : List TxOut) (a q : Addr)
    (ho : (w.bal a q).getD 0 + recvBy a q (rewards ++ txs.flatMap txCredits) < 2 ^ 128)
    (hf : (applyLedger w.bal rewards txs a q).getD 0 < (w.bal a q).getD 0) : ∃ tx ∈ txs, Agreed (w.withCtx x) tx a := by
  classical
  apply Classical.byContradiction
  intro hn
  have hz : spentBy a q (txs.flatMap txDebits) = 0 := spentBy_none fun y hy e => by
    obtain ⟨tx, htx, hy⟩ := List.mem_flatMap.1 hy
    exact hn ⟨tx, htx, e ▸ C60_debits h htx hy⟩
  have hc := credit_fold _ _ ho
  have hd := debit_fold (txs.flatMap txDebits) ((rewards ++ txs.flatMap txCredits).foldl credit w.bal) (a := a) (q := q) (by omega)
  unfold applyLedger at hf
  omega

/-! ### C58 -/

theorem delta_out (q : Addr) : ∀ (l : List TxOut) (n : Nat), n + sumOut q l < 2 ^ 128 →
    l.foldl (fun n o => if o.cur = q then u128 (n + o.amount) else n) n = n + sumOut q l
  | [], _, _ => rfl
  | o :: l, n, h => by
    rw [sumOut] at h
    rw [List.foldl_cons, sumOut]
    by_cases e : o.cur = q
    · rw [if_pos e] at h ⊢
      rw [if_pos e, u128_of_lt' (by omega), delta_out q l _ (by omega)]
      omega
    · rw [if_neg e] at h ⊢
      rw [if_neg e, delta_out q l _ (by omega)]
      omega

theorem delta_in (q : Addr) : ∀ (l : List TxIn) (n : Nat), l.foldl (fun n i => if i.cur = q then clampedSub n i.amount else n) n = n - sumIn q l
  | [], _ => rfl
  | y :: l, n => by
    rw [List.foldl_cons, sumIn, delta_in q l]
    by_cases e : y.cur = q
    · rw [if_pos e, if_pos e]
      unfold clampedSub
      split <;> omega
    · rw [if_neg e, if_neg e, Nat.zero_add]

theorem supplyDelta_eq (rewards : List TxOut) (txs : List Tx) (q : Addr) (h : sumOut q (rewards ++ txs.flatMap txCredits) < 2 ^ 128) :
    supplyDelta rewards txs q = sumOut q (rewards ++ txs.flatMap txCredits) - sumIn q (txs.flatMap txDebits) := by
  unfold supplyDelta
  rw [delta_out q _ 0 (by omega), delta_in, Nat.zero_add]

/-- C58, in part: when a block does not take more of a token than it gives, the reported supply and the
    sum of balances change by the same amount. Missing: blocks that burn. -/
theorem C58_supply_partial {s : Node} {b : Blk} (h : b.OkAt s) {q : Addr} (hs : SupplyBelow s.bal q (2 ^ 127)) (hp : Apart b.w b.ctx b.txs)
    (ho : sumOut q (b.rewards ++ b.txs.flatMap txCredits) < 2 ^ 127) (hr : s.supply q < 2 ^ 127)
    (hle : sumIn q (b.txs.flatMap txDebits) ≤ sumOut q (b.rewards ++ b.txs.flatMap txCredits)) (L : List Addr) (hL : L.Nodup) (ht : ∀ a, b.touches a → a ∈ L) :
    total (s.apply b).bal q L + s.supply q = total s.bal q L + (s.apply b).supply q := by
  have hbal : SupplyBelow b.w.bal q (2 ^ 127) := by rw [h.bal]; exact hs
  have h1 := C54_total h.block h.bal.symm hbal hp b.rewards
    (fun a => by
      have h1 := recvBy_le a q (b.rewards ++ b.txs.flatMap txCredits)
      have h2 := hbal.one a
      omega) L hL
    (fun y hy => ht _ (.inl ⟨y, hy, rfl⟩)) (fun y hy => ht _ (.inr ⟨y, hy, rfl⟩))
  have h2 := supplyDelta_eq b.rewards b.txs q (by omega)
  have e : (s.apply b).supply q = s.supply q + supplyDelta b.rewards b.txs q := u128_of_lt' (by omega)
  rw [h.bal] at h1
  have e' : (s.apply b).bal = applyLedger s.bal b.rewards b.txs := rfl
  rw [e, e']
  omega

/-- C58 for tokens: every token but the native currency satisfies that condition, as no transaction
    destroys tokens. -/
theorem C58_tokens_partial {s : Node} {b : Blk} (h : b.OkAt s) {q : Addr} (h0 : q ≠ 0) (hs : SupplyBelow s.bal q (2 ^ 127)) :
    sumIn q (b.txs.flatMap txDebits) ≤ sumOut q (b.rewards ++ b.txs.flatMap txCredits) := by
  have hbal : SupplyBelow b.w.bal q (2 ^ 127) := by rw [h.bal]; exact hs
  rw [sumOut_append]
  have key : ∀ l : List Tx, (∀ tx ∈ l, tx ∈ b.txs) → sumIn q (l.flatMap txDebits) ≤ sumOut q (l.flatMap txCredits) := by
    intro l
    induction l with
    | nil => intro _; exact Nat.le_refl _
    | cons tx l ih =>
      intro hl
      have := ih fun t ht => hl t (List.mem_cons_of_mem _ ht)
      rw [List.flatMap_cons, List.flatMap_cons, sumIn_append, sumOut_append]
      obtain ⟨i, hi⟩ := List.getElem?_of_mem (hl tx (List.mem_cons_self ..))
      obtain ⟨a, r, wr, e1, e2, hv⟩ := h.block.accepted hi
      have hd : txDebits tx = { addr := a, cur := 0, amount := r.fee } :: (if r.didFail then [] else tx.inputs ++ r.inputs) := by
        unfold txDebits; rw [e1, e2]; rfl
      have hc : txCredits tx = if r.didFail then [] else tx.outputs ++ r.outputs := by unfold txCredits; rw [e2]
      rw [hd, hc, sumIn, if_neg fun e => h0 e.symm]
      cases e : r.didFail with
      | true => simp only [if_true, sumIn, sumOut]; omega
      | false =>
        have := C24_never_destroyed_partial hv h.umap q (h.block.fits h.bal.symm hbal hi e2 e) e
        simp only [Bool.false_eq_true, if_false, sumIn_append, sumOut_append]
        omega
  have := key b.txs fun _ h => h
  omega

/-! ### C57 -/

/-- C57, in part: no undefined behaviour before the transactions are validated, if no transaction holds
    a null operation. Missing: blocks with one, see `C57_null_operation`. -/
theorem C57_defined_partial : ∀ (txs : List Tx) (b : Bals) (x : Ctx) (seen : List Addr), (∀ tx ∈ txs, tx.nullOp = false) → checkFunds depends b x seen txs ≠ .ub
  | [], _, _, _, _ => fun h => nomatch h
  | tx :: l, b, x, seen, h => by
    have ih := fun b x seen => C57_defined_partial l b x seen fun t ht => h t (List.mem_cons_of_mem _ ht)
    have hn := h tx (List.mem_cons_self ..)
    unfold checkFunds
    split
    · split
      · exact fun h => nomatch h
      · split
        · exact fun h => nomatch h
        · split
          · exact fun h => nomatch h
          · have hp : x.prepare depends tx ≠ .ub := by
              unfold Ctx.prepare
              cases hm : mutateSet depends tx with
              | ok set => exact fun h => nomatch h
              | throw => exact fun h => nomatch h
              | ub =>
                have hite : ∀ (c : Prop) [Decidable c] (y : List Addr), (if c then Res.ok y else Res.throw) ≠ .ub := by
                  intro c _ y; by_cases hc : c
                  · rw [if_pos hc]; exact fun h => nomatch h
                  · rw [if_neg hc]; exact fun h => nomatch h
                unfold mutateSet at hm
                rw [hn] at hm
                exact absurd hm (hite _ _)
            split
            · exact ih _ _ _
            · exact fun h => nomatch h
            · next h => exact absurd h hp
    · exact fun h => nomatch h

/-! ### Cases -/

/-- A block: a contract is paid into and pays; another transaction reads what the first wrote, and makes
    the contract pay; a payment. -/
def blkA : Tx := { exTx with result := some exRes, base := 400, staticCost := 600 }

def blkB : Tx :=
  { exTx with
    id := 101
    inputs := [], outputs := [], base := 200, staticCost := 400, maxFee := 1500
    result := some { didFail := false, cost := 445, fee := 890, inputs := [{ addr := 7, cur := 0, amount := 100 }], outputs := [{ addr := 2, cur := 0, amount := 100 }], error := none }
    ops := [⟨7, true, none, none, .gas 5 (.check (.rdVar 1 fun v => if v = some 5 then .done [(1, 6)] [{ addr := 2, cur := 0, amount := 100 }] [] 0 else .fail 3))⟩] }

def blkC : Tx :=
  { exTx with
    id := 102, ops := []
    inputs := [{ addr := 1, cur := 0, amount := 50, sol := true, auth := true }], outputs := [{ addr := 2, cur := 0, amount := 50 }]
    base := 100, staticCost := 100, maxFee := 200, result := some ⟨false, 100, 200, [], [], none⟩ }

def blkW : World := { exWorld with locked := fun _ _ => false }
def blkTxs : List Tx := [blkA, blkB, blkC]
def blkCtx : Ctx := (Ctx.empty.lock 100 7).lock 101 7

theorem blk_funds : checkFunds (fun _ => some []) blkW.bal Ctx.empty [] blkTxs = .ok blkCtx := by rfl

theorem blk_ok : BlockOk (fun _ => some []) blkW exSto blkTxs blkCtx where
  funds := blk_funds
  valid := by decide +kernel

theorem blk_run (id c : Addr) : (blkW.withCtx blkCtx).mayRun id c → c = 7 := by
  rintro ⟨h, _⟩
  apply Classical.byContradiction
  intro hc
  simp [World.withCtx, blkCtx, Ctx.lock, Ctx.empty, hc] at h

theorem blk_apart : Apart blkW blkCtx blkTxs := by
  intro tx _ c hc
  obtain rfl := blk_run _ _ hc
  decide

theorem over_support {f : Addr → Nat} : ∀ {S L : List Addr}, L.Nodup → (∀ a, a ∉ S → f a = 0) → over f L ≤ over f S
  | [], L, _, hf => by
    have : ∀ L : List Addr, over f L = 0 := by
      intro L
      induction L with
      | nil => rfl
      | cons a L ih => rw [over_cons, ih, hf a (fun h => nomatch h)]
    rw [this]; exact Nat.zero_le _
  | b :: S, L, hL, hf => by
    have h1 : over f L ≤ over (fun a => (if a = b then f b else 0) + if a = b then 0 else f a) L := by
      refine over_le fun a _ => ?_
      by_cases e : a = b
      · rw [if_pos e, if_pos e, e]; exact Nat.le_refl _
      · rw [if_neg e, if_neg e, Nat.zero_add]; exact Nat.le_refl _
    rw [over_add] at h1
    have h2 := over_single_le (n := f b) (b := b) hL
    have h3 := over_support (f := fun a => if a = b then 0 else f a) (S := S) hL fun a ha => by
      by_cases e : a = b
      · exact if_pos e
      · show (if a = b then 0 else f a) = 0
        rw [if_neg e]
        exact hf a fun h => (List.mem_cons.1 h).elim e ha
    have h4 : over (fun a => if a = b then 0 else f a) S ≤ over f S := over_le fun a _ => by
      by_cases e : a = b
      · rw [if_pos e]; exact Nat.zero_le _
      · rw [if_neg e]; exact Nat.le_refl _
    rw [over_cons]
    omega

/-- There are 6000 native coins. -/
theorem blk_supply : SupplyBelow blkW.bal 0 6001 := by
  intro L hL
  refine Nat.lt_of_le_of_lt (over_support (S := [1, 7]) hL fun a ha => ?_) (by decide : _ < 6001)
  simp only [List.mem_cons, List.not_mem_nil, or_false, not_or] at ha
  simp [blkW, exWorld, ha.1, ha.2]

/-- The state before the block. -/
def blkN : Node := { bal := blkW.bal, var := fun _ _ => none, ids := [7, 9], supply := fun q => if q = 0 then 6000 else 0 }
def blk : Blk := { depends := fun _ => some [], w := blkW, ctx := blkCtx, rewards := [{ addr := 2, cur := 0, amount := 30 }], txs := blkTxs }

theorem blk_okAt : blk.OkAt blkN where
  bal := rfl
  known := fun id => by simp [blk, blkW, exWorld, blkN]
  umap := fun l => .refl l
  block := blk_ok

/-- The hypotheses of C27, C54, C58, C59 and C60 are met, and what they say of this block. -/
example : spentBy 1 0 (blkTxs.flatMap txDebits) = 2920 ∧ spentBy 7 0 (blkTxs.flatMap txDebits) = 300 ∧ (blkW.bal 1 0).getD 0 = 5000 := by decide
example : spentBy 1 0 ((blkTxs.take 2).flatMap txDebits) ≤ (blkW.bal 1 0).getD 0 :=
  C27_accounts blk_ok 2 1 0 fun _ _ h => absurd (blk_run _ _ h) (by decide)
example : spentBy 7 0 ((blkTxs.take 2).flatMap txDebits) ≤ (blkW.bal 7 0).getD 0 + recvBy 7 0 ((blkTxs.take 2).flatMap txCredits) :=
  C27_no_overspend_partial blk_ok rfl (fun L hL => Nat.lt_trans (blk_supply L hL) (by decide)) blk_apart 2 7

theorem blk_touches (a : Addr) (h : blk.touches a) : a ∈ [1, 2, 3, 7] := by
  rcases h with ⟨y, hy, rfl⟩ | ⟨y, hy, rfl⟩
  · exact (by decide : ∀ y ∈ blk.txs.flatMap txDebits, y.addr ∈ [1, 2, 3, 7]) y hy
  · exact (by decide : ∀ y ∈ blk.rewards ++ blk.txs.flatMap txCredits, y.addr ∈ [1, 2, 3, 7]) y hy

example : total (blkN.applyAll [blk]).bal 0 [1, 2, 3, 7] + 2470 = 6000 + 30 :=
  C54_native_chain (l := [blk]) (s := blkN) ⟨blk_okAt, trivial⟩ blk_supply (by decide)
    (by rintro b hb; obtain rfl := List.mem_singleton.1 hb; exact ⟨blk_apart, by decide, by decide⟩) _ (by decide)
    (by rintro b hb; obtain rfl := List.mem_singleton.1 hb; exact blk_touches)
example : (allIds [blk]).Nodup ∧ ∀ id ∈ allIds [blk], id ∉ [7, 9] := C59_no_replay (s := blkN) ⟨blk_okAt, trivial⟩
example : ∃ tx ∈ blkTxs, Agreed (blkW.withCtx blkCtx) tx 7 :=
  C60_balance_falls blk_ok blk.rewards 7 0 (by decide) (by decide)
example : sumIn 9 (blk.txs.flatMap txDebits) ≤ sumOut 9 (blk.rewards ++ blk.txs.flatMap txCredits) := by decide

/-- C58 fails: the fees of this block are 2470, its rewards 30. The sum of balances falls, the reported
    supply does not. -/
theorem C58_burnt_fees : blk.OkAt blkN ∧ total blkN.bal 0 [1, 2, 3, 7] = blkN.supply 0 ∧ (blkN.apply blk).supply 0 = 6000 ∧
    total (blkN.apply blk).bal 0 [1, 2, 3, 7] = 3560 :=
  ⟨blk_okAt, by decide, by decide, by decide⟩

/-- C57 fails: a block whose second transaction holds a null operation. -/
theorem C57_null_operation : checkFunds (fun _ => some []) blkW.bal Ctx.empty [] [blkC, { blkC with id := 103, nullOp := true, wf := false }] = .ub := by rfl

/-- C28: the hypotheses are met by the block above, and the second transaction has to wait. -/
example : blkCtx.wait 101 = [100] ∧ 100 ∈ blkCtx.mutate 7 ∧ 101 ∈ blkCtx.mutate 7 := by decide
example : ∃ s, Par.Steps (blkW.withCtx blkCtx) blkCtx blkTxs 1 (Par.init exSto blkTxs) s ∧
    s.status = (seqRun (blkW.withCtx blkCtx) exSto blkTxs).2.map Status.done ∧ s.sto = (seqRun (blkW.withCtx blkCtx) exSto blkTxs).1 :=
  C56_completes blk_funds blkW exSto (by decide)
/-- Without order the result would be another: the second transaction fails before the first. -/
example : (validate (blkW.withCtx blkCtx) blkB).run exSto = .reject := by decide +kernel

/-! ### C55 -/

/-- C55 fails: the cost of the outputs of the execution takes the fee over its maximum, so that the
    transaction is accepted as failed. With that result, which has no outputs, it does not fail, and is
    rejected: the block is invalid. -/
theorem C55_overrun : ∃ r wr, (validate exWorld { exTx with maxFee := 1200 }).run exSto = .accept r wr ∧
    (validate exWorld (({ exTx with maxFee := 1200 } : Tx).produced exWorld.params r)).run exSto = .reject :=
  ⟨⟨true, 690, 1200, [], [], some ⟨5, -1, -1⟩⟩, none, by decide +kernel, by decide +kernel⟩

end Verif.Ledger
